import Verif.Model.Outer
import Verif.Props.Delivery
import Verif.Props.Startup
/-!
# C119, C120: using the MySQL bus from outside of the framework
-/
set_option linter.unusedVariables false
set_option linter.unusedSimpArgs false
namespace Ddd.Outer
open Bus Router Spec

/-! ## the calls of `Handle` -/

/-- the ways the transaction of `Handle` can go: never begun, or its calls, one end of it, and then only calls that write nothing -/
inductive Course (e : Event) (a : Ans) : Trace → Prop
  | notBegun (t : Trace) : (∃ st, st ≠ .ok ∧ (t = [.begin st] ∨ ∃ b, t = [.begin st, .busRollback b])) → Course e a t
  | ended (body l : Trace) (x : Call) : (∀ y ∈ body, y.IsBody false) → isEnd x = true → (∀ y ∈ l, (∃ st, y = .rollback st) ∨ (∃ st, y = .busCommit st) ∨ ∃ st, y = .busRollback st) →
      Course e a (.begin .ok :: body ++ x :: l)

theorem front_body (a : Ans) (t : Trace) (ht : ∀ y ∈ t, y.IsBody false) : ∃ body, a.front ++ t = .begin .ok :: body ∧ ∀ y ∈ body, y.IsBody false := by
  refine ⟨_, rfl, ?_⟩
  intro y hy
  simp only [List.append_eq, List.cons_append, List.mem_cons, List.mem_append, List.mem_map, List.not_mem_nil, or_false] at hy
  rcases hy with rfl | (⟨w, _, rfl⟩ | rfl) | hy
  · trivial
  · trivial
  · trivial
  · exact ht y hy

theorem course (e : Event) (a : Ans) : Course e a (handle e a) := by
  have mk : ∀ (mid : Trace) (x : Call) (l : Trace), (∀ y ∈ mid, y.IsBody false) → isEnd x = true →
      (∀ y ∈ l, (∃ st, y = .rollback st) ∨ (∃ st, y = .busCommit st) ∨ ∃ st, y = .busRollback st) → Course e a (a.front ++ (mid ++ x :: l)) := by
    intro mid x l h1 h2 h3
    obtain ⟨body, hb, hB⟩ := front_body a mid h1
    have : a.front ++ (mid ++ x :: l) = .begin .ok :: body ++ x :: l := by rw [← List.append_assoc, hb]
    rw [this]
    exact .ended body l x hB h2 h3
  have m0 : ∀ y ∈ ([] : Trace), y.IsBody false := by simp
  have m1 : ∀ st, ∀ y ∈ ([.dispatchBegin [e] st] : Trace), y.IsBody false := by intro st y hy; simp at hy; subst hy; rfl
  cases h1 : a.begin_ with
  | err => simp only [handle, transaction, h1]; exact .notBegun _ ⟨.err, by simp, .inr ⟨_, rfl⟩⟩
  | panic => simp only [handle, transaction, h1]; exact .notBegun _ ⟨.panic, by simp, .inl rfl⟩
  | ok =>
    cases h2 : a.body with
    | ok =>
      cases h3 : a.begun with
      | ok =>
        cases h4 : a.commit with
        | ok =>
          simp only [handle, transaction, h1, h2, h3, h4, List.append_assoc]
          exact mk [_] _ [_] (m1 .ok) rfl (by simp)
        | panic =>
          simp only [handle, transaction, h1, h2, h3, h4]
          exact mk [_] _ [] (m1 .ok) rfl (by simp)
        | err =>
          by_cases h5 : a.rollback = .panic
          · simp only [handle, transaction, h1, h2, h3, h4, Ans.afterRollback, h5, if_true]
            exact mk [_] _ [_] (m1 .ok) rfl (by simp)
          · simp only [handle, transaction, h1, h2, h3, h4, Ans.afterRollback, if_neg h5, List.append_assoc]
            exact mk [_] _ [_, _] (m1 .ok) rfl (by simp)
      | err =>
        by_cases h5 : a.rollback = .panic
        · simp only [handle, transaction, h1, h2, h3, Ans.afterRollback, h5, if_true]
          exact mk [_] _ [] (m1 .err) rfl (by simp)
        · simp only [handle, transaction, h1, h2, h3, Ans.afterRollback, if_neg h5, List.append_assoc]
          exact mk [_] _ [_] (m1 .err) rfl (by simp)
      | panic =>
        simp only [handle, transaction, h1, h2, h3, Ans.afterRollback, ite_self]
        exact mk [_] _ [] (m1 .panic) rfl (by simp)
    | err =>
      by_cases h5 : a.rollback = .panic
      · simp only [handle, transaction, h1, h2, Ans.afterRollback, h5, if_true]
        exact mk [] _ [] m0 rfl (by simp)
      · simp only [handle, transaction, h1, h2, Ans.afterRollback, if_neg h5, List.append_assoc]
        exact mk [] _ [_] m0 rfl (by simp)
    | panic =>
      simp only [handle, transaction, h1, h2, Ans.afterRollback, ite_self]
      exact mk [] _ [] m0 rfl (by simp)

theorem front_filter (a : Ans) : a.front.filter isTxCall = [] := by
  refine filter_none fun x hx => ?_
  simp only [Ans.front, List.mem_cons, List.mem_append, List.mem_map, List.not_mem_nil, or_false] at hx
  rcases hx with rfl | rfl | ⟨w, _, rfl⟩ | rfl <;> rfl

theorem handle_shape (e : Event) (a : Ans) : GenShape true ((handle e a).filter isTxCall) := by
  have f : ∀ t : Trace, (a.front ++ t).filter isTxCall = t.filter isTxCall := by intro t; rw [List.filter_append, front_filter]; rfl
  cases h1 : a.begin_ with
  | err => simp only [handle, transaction, h1]; exact .early _ rfl
  | panic => simp only [handle, transaction, h1]; exact .none
  | ok =>
    cases h2 : a.body with
    | ok =>
      cases h3 : a.begun with
      | ok =>
        cases h4 : a.commit with
        | ok =>
          simp only [handle, transaction, h1, h2, h3, h4, List.append_assoc, f]
          exact .told [e] _ (by simp)
        | panic =>
          simp only [handle, transaction, h1, h2, h3, h4, f]
          exact .tried [e] _ (by simp)
        | err =>
          by_cases h5 : a.rollback = .panic
          · simp only [handle, transaction, h1, h2, h3, h4, Ans.afterRollback, h5, if_true, f]
            exact .tried [e] _ (by simp)
          · simp only [handle, transaction, h1, h2, h3, h4, Ans.afterRollback, if_neg h5, List.append_assoc, f]
            exact .late [e] .err _ rfl (by simp) (by simp)
      | err =>
        by_cases h5 : a.rollback = .panic
        · simp only [handle, transaction, h1, h2, h3, Ans.afterRollback, h5, if_true, f]
          exact .begun [e] _ (by simp)
        · simp only [handle, transaction, h1, h2, h3, Ans.afterRollback, if_neg h5, List.append_assoc, f]
          exact .undone [e] _ _ (by simp)
      | panic =>
        simp only [handle, transaction, h1, h2, h3, Ans.afterRollback, ite_self, f]
        exact .begun [e] _ (by simp)
    | err =>
      by_cases h5 : a.rollback = .panic
      · simp only [handle, transaction, h1, h2, Ans.afterRollback, h5, if_true, f]
        exact .none
      · simp only [handle, transaction, h1, h2, Ans.afterRollback, if_neg h5, List.append_assoc, f]
        exact .early _ rfl
    | panic =>
      simp only [handle, transaction, h1, h2, Ans.afterRollback, ite_self, f]
      exact .none

theorem handle_head (e : Event) (a : Ans) (st : Stat) : ((handle e a).filter isTxCall).head? ≠ some (.commit st) := by
  have f : ∀ t : Trace, (a.front ++ t).filter isTxCall = t.filter isTxCall := by intro t; rw [List.filter_append, front_filter]; rfl
  cases h1 : a.begin_ with
  | err => simp only [handle, transaction, h1]; simp [isTxCall]
  | panic => simp only [handle, transaction, h1]; simp [isTxCall]
  | ok =>
    cases h2 : a.body with
    | ok =>
      cases h3 : a.begun with
      | ok =>
        cases h4 : a.commit with
        | ok =>
          simp only [handle, transaction, h1, h2, h3, h4, List.append_assoc, f]
          simp [isTxCall]
        | panic =>
          simp only [handle, transaction, h1, h2, h3, h4, f]
          simp [isTxCall]
        | err =>
          by_cases h5 : a.rollback = .panic
          · simp only [handle, transaction, h1, h2, h3, h4, Ans.afterRollback, h5, if_true, f]
            simp [isTxCall]
          · simp only [handle, transaction, h1, h2, h3, h4, Ans.afterRollback, if_neg h5, List.append_assoc, f]
            simp [isTxCall]
      | err =>
        by_cases h5 : a.rollback = .panic
        · simp only [handle, transaction, h1, h2, h3, Ans.afterRollback, h5, if_true, f]
          simp [isTxCall]
        · simp only [handle, transaction, h1, h2, h3, Ans.afterRollback, if_neg h5, List.append_assoc, f]
          simp [isTxCall]
      | panic =>
        simp only [handle, transaction, h1, h2, h3, Ans.afterRollback, ite_self, f]
        simp [isTxCall]
    | err =>
      by_cases h5 : a.rollback = .panic
      · simp only [handle, transaction, h1, h2, Ans.afterRollback, h5, if_true, f]
        simp [isTxCall]
      · simp only [handle, transaction, h1, h2, Ans.afterRollback, if_neg h5, List.append_assoc, f]
        simp [isTxCall]
    | panic =>
      simp only [handle, transaction, h1, h2, Ans.afterRollback, ite_self, f]
      simp [isTxCall]

/-- **C119** At every point of `Handle` at which the process may die the business data are as before, and no commit succeeded, or all business writes are in, and commit was called. -/
theorem C119_fate {D : Type} (apply : Action → D → D) (e : Event) (a : Ans) (S0 : D) {P : Trace} (hP : P <+: handle e a) {d : Db D} (hd : DbRun apply ⟨S0, none⟩ P d) :
    ∃ fate, Decided apply S0 (handle e a) P d.durable fate := by
  have hc := course e a
  generalize handle e a = T at hc hP ⊢
  cases hc with
  | notBegun _ h =>
    refine ⟨false, dbRun_quiet (d := ⟨S0, none⟩) (fun x hx => ?_) hd, fun hm => ?_⟩
    · have := hP.subset hx
      obtain ⟨st, hst, rfl | ⟨b, rfl⟩⟩ := h
      · simp at this; subst this; trivial
      · simp at this; rcases this with rfl | rfl <;> trivial
    · have := hP.subset hm
      obtain ⟨st, hst, rfl | ⟨b, rfl⟩⟩ := h <;> simp at this
  | ended body l x hB hx hl =>
    have hBc : ∀ st, Call.commit st ∉ body := by intro st hm; have := hB _ hm; simp [Call.IsBody] at this
    cases P with
    | nil => cases hd; exact ⟨false, rfl, by simp⟩
    | cons y P1 =>
      rw [List.cons_append] at hP
      obtain ⟨rfl, hP2⟩ := List.cons_prefix_cons.1 hP
      cases hd with
      | cons s1 r3 =>
        simp only [DbStep] at s1
        subst s1
        rcases prefix_append_cases hP2 with hp | ⟨P2, hP3, rfl⟩
        · obtain ⟨w, rfl, _⟩ := dbRun_body (fun x hx => hB x (hp.subset hx)) r3
          exact ⟨false, rfl, by simpa using fun hm => hBc _ (hp.subset hm)⟩
        · obtain ⟨d1, r4, r5⟩ := dbRun_append r3
          obtain ⟨w, rfl, hw⟩ := dbRun_body hB r4
          cases P2 with
          | nil => cases r5; exact ⟨false, rfl, by simpa using hBc _⟩
          | cons z P3 =>
            obtain ⟨rfl, hP4⟩ := List.cons_prefix_cons.1 hP3
            have hl' : ∀ y ∈ P3, (∃ st, y = .commit st) ∨ (∃ st, y = .rollback st) ∨ (∃ st, y = .busCommit st) ∨ (∃ st, y = .busRollback st) ∨ (∃ k st, y = .unlock k st) ∨ ∃ k st, y = .postSave k st := by
              intro y hy
              rcases hl y (hP4.subset hy) with h | h | h
              · exact .inr (.inl h)
              · exact .inr (.inr (.inl h))
              · exact .inr (.inr (.inr (.inl h)))
            have hlc : ∀ st, Call.commit st ∉ P3 := by
              intro st hm
              rcases hl _ (hP4.subset hm) with ⟨_, h⟩ | ⟨_, h⟩ | ⟨_, h⟩ <;> simp at h
            have hlw : ∀ y ∈ (z :: l : Trace), ∀ a st, y ≠ .exec a st := by
              intro y hy a st
              rcases List.mem_cons.1 hy with rfl | hy
              · rintro rfl; simp [isEnd] at hx
              · rcases hl _ hy with ⟨_, rfl⟩ | ⟨_, rfl⟩ | ⟨_, rfl⟩ <;> simp
            have hwr : Writes apply S0 (.begin .ok :: body ++ z :: l) w := .other (by simp) (writes_append hw (writes_silent hlw))
            cases r5 with
            | @cons _ d2 _ _ _ s2 r6 =>
              cases z with
              | rollback st =>
                simp only [DbStep] at s2; subst s2
                have := dbRun_closed (d := ⟨S0, none⟩) rfl hl' r6
                refine ⟨false, this, ?_⟩
                simp [hBc, hlc]
              | commit st =>
                simp only [DbStep] at s2
                rcases s2 with rfl | ⟨hst, rfl⟩
                · have := dbRun_closed (d := ⟨w, none⟩) rfl hl' r6
                  exact ⟨true, by rw [this]; exact hwr, st, by simp⟩
                · have := dbRun_closed (d := ⟨S0, none⟩) rfl hl' r6
                  refine ⟨false, this, ?_⟩
                  simp [hBc, hlc, Ne.symm hst]
              | _ => simp [isEnd] at hx

theorem late_facts {P : Trace} (hsh : GenShape true (P.filter isTxCall)) (hne : Call.commit .err ∉ P) (hp : Call.commit .panic ∈ P → ∀ b, Call.busRollback b ∉ P) {st b : Stat} (h1 : Call.commit st ∈ P)
    (h2 : Call.busRollback b ∈ P) : False := by
  have hp : st = .panic → False := by rintro rfl; exact hp h1 b h2
  have h1' : Call.commit st ∈ P.filter isTxCall := List.mem_filter.2 ⟨h1, rfl⟩
  have h2' : Call.busRollback b ∈ P.filter isTxCall := List.mem_filter.2 ⟨h2, rfl⟩
  have hm : ∀ st, Call.commit st ∈ P.filter isTxCall → Call.commit st ∈ P := fun st h => (List.mem_filter.1 h).1
  generalize P.filter isTxCall = q at hsh h1' h2' hm
  cases hsh <;> simp at h1' h2'
  rename_i st' b' ho he hst
  subst h1'
  cases st with
  | ok => exact hst rfl
  | err => exact hne h1
  | panic => exact hp rfl

/-- after a commit that panicked the bus is not told anything -/
theorem panic_silent (e : Event) (a : Ans) (h : Call.commit .panic ∈ handle e a) (b : Stat) : Call.busRollback b ∉ handle e a := by
  have nf : ∀ st, Call.commit st ∉ a.front := by intro st hm; simp [Ans.front] at hm
  have nb : Call.busRollback b ∉ a.front := by intro hm; simp [Ans.front] at hm
  cases h1 : a.begin_ <;> cases h2 : a.body <;> cases h3 : a.begun <;> cases h4 : a.commit <;> cases h5 : a.rollback <;>
    simp_all [handle, transaction, Ans.afterRollback]

theorem outer_journey {D : Type} {apply : Action → D → D} {e : Event} {a : Ans} {S0 d : D} {conv : Event → DEv} {svc timeout : Nat} {fate : Bool} {H : List (DB × DB)} {w : BusWorld}
    {db0 : DB} (hv : Valid db0) (hs : Story conv svc timeout fate (BusWorld.before db0) H w) (hP : w.done <+: handle e a) (hf : Decided apply S0 (handle e a) w.done d fate)
    (hlost : fate = true → Call.commit .err ∉ w.done) : Journey conv svc fate H w := by
  have hsh : GenShape true (w.done.filter isTxCall) := GenShape.pre (handle_shape e a) (List.IsPrefix.filter _ hP)
  refine journey hv hs hsh ?_ ?_
  · intro hm
    cases fate with
    | true => rfl
    | false => exact absurd hm hf.2
  · rintro rfl b hb
    obtain ⟨-, st, hst⟩ := hf
    exact late_facts hsh (hlost rfl) (fun h b' hb' => panic_silent e a (hP.subset h) b' (hP.subset hb')) hst hb

/-- **C119** (partial) The pattern of `Handle` keeps business data and event together: take the calls `w.done` it made before it ended or died, any interleaving with other clients, instances and services of the bus, with
errors and lost answers, and a checker that tells the truth. If the business data are the old ones the event is never stored. If all business writes are in, the event is stored exactly once, with a delivery record for every
registered service, or the transaction is still open on the bus. Missing: a commit of the business transaction that reports an error although it is durable (`C119_commit_error_loses`), and an interrupted `Commit` of the bus
(`C38_commit_crash_loses`). -/
theorem C119_atomic_partial {D : Type} {apply : Action → D → D} {e : Event} {a : Ans} {S0 d : D} {conv : Event → DEv} {svc timeout : Nat} {fate : Bool} {H : List (DB × DB)} {w : BusWorld}
    {db0 : DB} (hv : Valid db0) (hs : Story conv svc timeout fate (BusWorld.before db0) H w) (hP : w.done <+: handle e a) (hf : Decided apply S0 (handle e a) w.done d fate)
    (hlost : fate = true → Call.commit .err ∉ w.done) :
    (∀ tx, w.row = some tx → tx.service = svc ∧ tx.events = [conv e]) ∧
    (fate = false → d = S0 ∧ ∀ tx, w.row = some tx → NeverStored tx.id H) ∧
    (fate = true → Writes apply S0 (handle e a) d ∧ ∃ tx, w.row = some tx ∧ (StoredOnce tx H ∨ (tx ∈ w.db.txs ∧ NeverStored tx.id H))) := by
  have J := outer_journey hv hs hP hf hlost
  have hsh : GenShape true (w.done.filter isTxCall) := GenShape.pre (handle_shape e a) (List.IsPrefix.filter _ hP)
  have honly : ∀ es st, Call.dispatchBegin es st ∈ w.done → es = [e] := by
    intro es st hm
    have hm := hP.subset hm
    have nf : Call.dispatchBegin es st ∉ a.front := by intro hm; simp [Ans.front] at hm
    cases h1 : a.begin_ <;> cases h2 : a.body <;> cases h3 : a.begun <;> cases h4 : a.commit <;> cases h5 : a.rollback <;>
      simp_all [handle, transaction, Ans.afterRollback]
  refine ⟨?_, ?_, ?_⟩
  · intro tx hr
    obtain ⟨h1, es, st, h2, -, h3, -⟩ := J.events tx hr
    rw [honly es st h2] at h3
    exact ⟨h1, h3⟩
  · rintro rfl
    refine ⟨hf.1, fun tx hr => ?_⟩
    cases J.standing tx hr with
    | opened _ _ h => exact h
    | gone _ _ _ h => exact h
    | delivered h => simp at h
  · rintro rfl
    refine ⟨hf.1, ?_⟩
    obtain ⟨st, hst⟩ := hf.2
    have hbg : Call.dispatchBegin [e] .ok ∈ w.done := by
      have hm : Call.commit st ∈ w.done.filter isTxCall := List.mem_filter.2 ⟨hst, rfl⟩
      have hin : ∀ x, x ∈ w.done.filter isTxCall → x ∈ w.done := fun x h => (List.mem_filter.1 h).1
      have hplain : w.done.filter isTxCall ≠ [.commit st] := by
        intro hq
        obtain ⟨t, ht⟩ := List.IsPrefix.filter isTxCall hP
        rw [hq] at ht
        exact handle_head e a st (by rw [← ht]; rfl)
      generalize hq : w.done.filter isTxCall = q at hsh hm hin hplain
      have key : ∀ es, Call.dispatchBegin es .ok ∈ q → Call.dispatchBegin [e] .ok ∈ w.done := by
        intro es h
        have := hin _ h
        rw [← honly es .ok this]; exact this
      cases hsh with
      | plain st' => simp at hm; subst hm; exact absurd rfl hplain
      | tried es st' _ => exact key es (by simp)
      | told es b _ => exact key es (by simp)
      | late es st' b _ _ _ => exact key es (by simp)
      | none => simp at hm
      | begun => simp at hm
      | undone => simp at hm
      | early => simp at hm
    obtain ⟨tx, hr⟩ := Option.isSome_iff_exists.1 (J.begun [e] hbg)
    refine ⟨tx, hr, ?_⟩
    cases J.standing tx hr with
    | opened h1 _ h => exact .inr ⟨h1, h⟩
    | gone h => simp at h
    | delivered _ _ _ h _ => exact .inl h

/-- **C119** (partial, see `C119_atomic_partial`) When the business writes are in and `Handle` has died before the bus was told, the next check-back with a truthful checker delivers. -/
theorem C119_checkback_delivers_partial {D : Type} {apply : Action → D → D} {e : Event} {a : Ans} {S0 d : D} {conv : Event → DEv} {svc timeout : Nat} {H : List (DB × DB)} {w : BusWorld}
    {db0 : DB} (hv : Valid db0) (hs : Story conv svc timeout true (BusWorld.before db0) H w) (hP : w.done <+: handle e a) (hf : Decided apply S0 (handle e a) w.done d true)
    (hlost : Call.commit .err ∉ w.done) {tx : TxRow} (hr : w.row = some tx) {ask : DEv → TxAns} {now : Nat} {ns : Nat → Nat} (hdue : tx.due < now) (hask : ask (conv e) = .commit)
    (hn : ∀ i, 4 + w.db.services.length ≤ ns i) : StoredOnce tx (H ++ [(w.db, handleTxs ask svc now ns w.db)]) := by
  have J := outer_journey hv hs hP hf (fun _ => hlost)
  obtain ⟨hsvc, hel⟩ := (C119_atomic_partial hv hs hP hf (fun _ => hlost)).1 tx hr
  cases J.standing tx hr with
  | gone h => simp at h
  | delivered _ _ h1 h2 _ =>
    refine once_snoc h2 ?_
    rw [StoresNothing, (check_closed h1).ev]
  | opened h1 h2 h3 =>
    have hcb := C38_checkback (ask := ask) (ns := ns) J.valid h1 hsvc hdue h2 hel hn
    rw [hask] at hcb
    have hvh := valid_apply J.valid (.check ask svc now ns)
    exact once_now h3 (storesAll_of hvh h2 hcb.2.1 hcb.2.2)

/-! ## what the example does -/

/-- calls that are none of the bus do nothing to its tables -/
theorem story_elsewhere {conv : Event → DEv} {svc timeout : Nat} {fate : Bool} {w0 : BusWorld} (t : Trace) (ht : ∀ x ∈ t, (∀ es st, x ≠ .dispatchBegin es st) ∧ ∀ st, x ≠ .busCommit st ∧ x ≠ .busRollback st)
    {H : List (DB × DB)} {w : BusWorld} (hs : Story conv svc timeout fate w0 H w) (ha : w.alive = true) : ∃ H1, Story conv svc timeout fate w0 H1 { w with done := w.done ++ t } := by
  induction t generalizing H w with
  | nil => exact ⟨H, by simpa using hs⟩
  | cons x t ih =>
    have hx := ht x (by simp)
    have h1 := Story.call hs ha (.elsewhere x hx.1 hx.2)
    obtain ⟨H1, h2⟩ := ih (fun y hy => ht y (by simp [hy])) h1 ha
    exact ⟨H1, by simpa using h2⟩

theorem front_elsewhere (a : Ans) : ∀ x ∈ a.front, (∀ es st, x ≠ Call.dispatchBegin es st) ∧ ∀ st, x ≠ .busCommit st ∧ x ≠ .busRollback st := by
  intro x hx
  simp only [Ans.front, List.mem_cons, List.mem_append, List.mem_map, List.not_mem_nil, or_false] at hx
  rcases hx with rfl | rfl | ⟨w, _, rfl⟩ | rfl <;> simp

/-- the story of `Handle` up to the successful `DispatchBegin` -/
theorem story_begun (conv : Event → DEv) (svc timeout now : Nat) (fate : Bool) (db0 : DB) (e : Event) (a : Ans) :
    ∃ H, Story conv svc timeout fate (BusWorld.before db0) H ⟨a.front ++ [.dispatchBegin [e] .ok], (dispatchBegin db0 svc now timeout [conv e] true).1, some ⟨db0.nextTx, svc, [conv e], now + timeout⟩, true, true⟩ := by
  obtain ⟨H, h⟩ := story_elsewhere (conv := conv) (svc := svc) (timeout := timeout) (fate := fate) (w0 := BusWorld.before db0) a.front (front_elsewhere a) .start rfl
  have h1 := Story.call h rfl (.begun [e] now (dispatchBegin db0 svc now timeout [conv e] true).1 ⟨db0.nextTx, svc, [conv e], now + timeout⟩ rfl)
  exact ⟨_, by simpa [BusWorld.before] using h1⟩

/-- not vacuous, and the crash the checker is for: business transaction committed, process dead before the bus was told. The transaction is open, and due at the time the bus was configured with. -/
theorem outer_crash (conv : Event → DEv) (svc timeout now : Nat) (db0 : DB) (e : Event) (a : Ans) (h : a.begin_ = .ok ∧ a.body = .ok ∧ a.begun = .ok ∧ a.commit = .ok) :
    ∃ H w, Story conv svc timeout true (BusWorld.before db0) H w ∧ w.done <+: handle e a ∧ Call.commit .ok ∈ w.done ∧ w.alive = false ∧
      w.db = (dispatchBegin db0 svc now timeout [conv e] true).1 ∧ w.row = some ⟨db0.nextTx, svc, [conv e], now + timeout⟩ := by
  obtain ⟨H, hs⟩ := story_begun conv svc timeout now true db0 e a
  obtain ⟨H1, h1⟩ := story_elsewhere [.commit .ok] (by simp) hs rfl
  refine ⟨H1, _, .dies h1, ?_, by simp, rfl, rfl, rfl⟩
  obtain ⟨h1, h2, h3, h4⟩ := h
  simp only [handle, transaction, h1, h2, h3, h4]
  exact ⟨[.busCommit a.busCommit], by simp⟩

/-- what the framework answers for events of a type without a checker of its own -/
theorem ask_framework {p : Prog} (hp : p.checker = .framework) {view : DEv → Router.Event} {wld : World} {x : DEv} (h : ∀ f ty, .checker (view x).typ f ∈ p.hist → ¬ CheckerFor f ty) :
    p.ask view wld x = some .rollback := by
  unfold Prog.ask
  rw [hp]
  simp only [C35_no_checker h, Startup.toAns]

/-- **C119** is false of the example: its own checker says `TXCommit`, but `RegisterEventBus` (the next statement of `Init`) replaces it by the one of the framework, which answers rollback for types without a checker registered at
the framework. So whenever `Handle` died with the business data in and the bus not told, the first check-back removes the transaction and the event is never stored, whatever happens later. -/
theorem C119_example_loses {D : Type} {apply : Action → D → D} {e : Event} {a : Ans} {S0 d : D} {conv : Event → DEv} {svc timeout : Nat} {H : List (DB × DB)} {w : BusWorld}
    {db0 : DB} (hv : Valid db0) (hs : Story conv svc timeout true (BusWorld.before db0) H w) (hP : w.done <+: handle e a) (hf : Decided apply S0 (handle e a) w.done d true)
    (hlost : Call.commit .err ∉ w.done) {tx : TxRow} (hr : w.row = some tx) (hopen : tx ∈ w.db.txs) {typ : Nat} {f : Fn} {view : DEv → Router.Event} {wld : World} {now : Nat} {ns : Nat → Nat} {db1 : DB}
    (hdue : tx.due < now) (hn : ∀ i, 4 + w.db.services.length ≤ ns i) (hc : BusLife.handleTxsP ((after (init typ f)).ask view wld) svc now ns w.db = some db1) :
    Writes apply S0 (handle e a) d ∧ (∀ t ∈ db1.txs, t.id ≠ tx.id) ∧ ∀ ops : List Bus.Op, (∀ op ∈ ops, op.noCommitOf tx.id) → storedOf (runOps db1 ops) tx.id = [] := by
  have J := outer_journey hv hs hP hf (fun _ => hlost)
  obtain ⟨hsvc, hel⟩ := (C119_atomic_partial hv hs hP hf (fun _ => hlost)).1 tx hr
  have h0 : storedOf w.db tx.id = [] := by
    cases J.standing tx hr with
    | gone h => simp at h
    | delivered _ _ h1 _ _ => exact absurd rfl (h1 tx hopen)
    | opened _ h2 _ => exact h2
  have hask : (after (init typ f)).ask view wld (conv e) = some .rollback :=
    ask_framework rfl (by intro g ty h; simp [after, init, Act.apply] at h)
  have hcb := C38_checkback (ask := fun x => ((after (init typ f)).ask view wld x).getD .unknown) (ns := ns) J.valid hopen hsvc hdue h0 hel hn
  rw [← Startup.txs_eq hc] at hcb
  simp only [hask, Option.getD_some] at hcb
  obtain ⟨h1, h2⟩ := hcb
  have hv1 : Valid db1 := by rw [Startup.txs_eq hc]; exact valid_apply J.valid (.check _ svc now ns)
  have hnext : tx.id < db1.nextTx := by
    rw [Startup.txs_eq hc]
    exact lt_of_lt_of_le (J.pos tx hr).2 (nextTx_mono J.valid (.check _ svc now ns))
  refine ⟨hf.1, h1, fun ops hops => ?_⟩
  have := closed_stays hv1 (Nat.pos_iff_ne_zero.1 (J.pos tx hr).1) hnext h1 ops hops
  have h3 : eventsOf db1 tx.id = [] := h2
  rw [h3] at this
  exact List.eq_nil_of_sublist_nil this

theorem writes_total {D : Type} (apply : Action → D → D) (S : D) (t : Trace) : ∃ w, Writes apply S t w := by
  induction t generalizing S with
  | nil => exact ⟨S, .nil S⟩
  | cons x t ih =>
    by_cases hx : ∃ a st, x = .exec a st
    · obtain ⟨a, st, rfl⟩ := hx
      by_cases hst : st = .ok
      · subst hst
        obtain ⟨w, hw⟩ := ih (apply a S)
        exact ⟨w, .ok hw⟩
      · obtain ⟨w, hw⟩ := ih S
        exact ⟨w, .bad hst hw⟩
    · obtain ⟨w, hw⟩ := ih S
      exact ⟨w, .other (fun a st h => hx ⟨a, st, h⟩) hw⟩

theorem body_run {D : Type} {apply : Action → D → D} {S w w1 : D} {t : Trace} (hB : ∀ y ∈ t, y.IsBody false) (hw : Writes apply w t w1) : DbRun apply ⟨S, some w⟩ t ⟨S, some w1⟩ := by
  induction hw with
  | nil => exact .nil _
  | ok _ ih => exact .cons (by simp [DbStep]) (ih fun y hy => hB y (by simp [hy]))
  | bad h _ ih => exact .cons (by simp [DbStep, h]) (ih fun y hy => hB y (by simp [hy]))
  | @other _ _ x t hx _ ih =>
    refine .cons ?_ (ih fun y hy => hB y (by simp [hy]))
    have := hB x (by simp)
    cases x with
    | exec a st => exact absurd rfl (hx a st)
    | _ => first | rfl | (simp [Call.IsBody] at this)

theorem dbRun_join {D : Type} {apply : Action → D → D} {d d1 d2 : Db D} {t u : Trace} (h1 : DbRun apply d t d1) (h2 : DbRun apply d1 u d2) : DbRun apply d (t ++ u) d2 := by
  induction h1 with
  | nil => exact h2
  | cons s _ ih => exact .cons s (ih h2)

/-- **C119** is false even with a truthful checker: if `COMMIT` reports an error although the database committed (the answer was lost), `Handle` rolls the bus back: all business writes are in and the event is gone for good. -/
theorem C119_commit_error_loses {D : Type} (apply : Action → D → D) (S0 : D) (conv : Event → DEv) (svc timeout now : Nat) {db0 : DB} (hv : Valid db0) (e : Event) (a : Ans)
    (h : a.begin_ = .ok ∧ a.body = .ok ∧ a.begun = .ok ∧ a.commit = .err ∧ a.rollback ≠ .panic ∧ a.busRollback = .ok) :
    ∃ H w d tx, Story conv svc timeout true (BusWorld.before db0) H w ∧ w.done = handle e a ∧ DbRun apply ⟨S0, none⟩ w.done d ∧ Decided apply S0 (handle e a) w.done d.durable true ∧
      w.row = some tx ∧ tx.events = [conv e] ∧ ∀ ops : List Bus.Op, (∀ op ∈ ops, op.noCommitOf tx.id) → storedOf (runOps w.db ops) tx.id = [] := by
  obtain ⟨h1, h2, h3, h4, h5, h6⟩ := h
  have hh : handle e a = a.front ++ [.dispatchBegin [e] .ok] ++ [.commit .err, .rollback a.rollback] ++ [.busRollback .ok] := by
    simp only [handle, transaction, h1, h2, h3, h4, Ans.afterRollback, if_neg h5, h6]
    simp
  obtain ⟨H, hs⟩ := story_begun conv svc timeout now true db0 e a
  obtain ⟨H1, s1⟩ := story_elsewhere [.commit .err, .rollback a.rollback] (by simp) hs rfl
  have s2 := Story.call s1 rfl (.rolledBack ⟨db0.nextTx, svc, [conv e], now + timeout⟩ .ok true rfl rfl (fun _ => rfl))
  obtain ⟨d, hd, hdec⟩ : ∃ d, DbRun apply ⟨S0, none⟩ (handle e a) d ∧ Writes apply S0 (handle e a) d.durable := by
    obtain ⟨body, hb, hB⟩ := front_body a [.dispatchBegin [e] .ok] (by intro y hy; simp at hy; subst hy; rfl)
    obtain ⟨wk, hw⟩ := writes_total apply S0 body
    rw [hh, hb]
    refine ⟨⟨wk, none⟩, ?_, ?_⟩
    · refine .cons (d1 := ⟨S0, some S0⟩) rfl ?_
      exact dbRun_join (dbRun_join (body_run hB hw) (.cons (d1 := ⟨wk, none⟩) (.inl rfl) (.cons (d1 := ⟨wk, none⟩) rfl (.nil _)))) (.cons (d1 := ⟨wk, none⟩) rfl (.nil _))
    · exact .other (by simp) (writes_append (writes_append hw (writes_silent (by simp))) (writes_silent (by simp)))
  refine ⟨_, _, d, _, s2, hh.symm, by rw [← hh]; exact hd, ⟨hdec, .err, by simp⟩, rfl, rfl, fun ops hops => ?_⟩
  have hvb : Valid (dispatchBegin db0 svc now timeout [conv e] true).1 := valid_apply hv (.begin svc now timeout [conv e] true)
  have hpos : db0.nextTx ≠ 0 := Nat.pos_iff_ne_zero.1 hv.txPos
  refine C38_rolled_back_partial hvb (tx := ⟨db0.nextTx, svc, [conv e], now + timeout⟩) (by simp [dispatchBegin]) hpos ?_ ops hops
  simp only [dispatchBegin, eventsOf]
  refine List.filter_eq_nil_iff.2 fun x hx => ?_
  have := hv.evTx x hx
  simp; omega

/-- **C119** is also false with a checker that always answers `TXCommit`, like the one of the example, where such a checker is in force: the process dies before the business transaction was committed, the business data
are the old ones, and the check-back stores the event for every service. -/
theorem C119_always_commit {D : Type} (apply : Action → D → D) (S0 : D) (conv : Event → DEv) (svc timeout now : Nat) {db0 : DB} (hv : Valid db0) (e : Event) (a : Ans)
    (h : a.begin_ = .ok ∧ a.body = .ok ∧ a.begun = .ok) {p : Prog} (hp : p.checker = .own fun _ => some .commit) (view : DEv → Router.Event) (wld : World) {now' : Nat} {ns : Nat → Nat} (hdue : now + timeout < now')
    (hn : ∀ i, 4 + db0.services.length ≤ ns i) :
    ∃ H w d tx, Story conv svc timeout false (BusWorld.before db0) H w ∧ w.done <+: handle e a ∧ DbRun apply ⟨S0, none⟩ w.done d ∧ d.durable = S0 ∧ (∀ st, Call.commit st ∉ w.done) ∧
      w.row = some tx ∧ tx.events = [conv e] ∧ ∀ db1, BusLife.handleTxsP (p.ask view wld) svc now' ns w.db = some db1 → StoresAll tx (w.db, db1) := by
  obtain ⟨h1, h2, h3⟩ := h
  obtain ⟨H, hs⟩ := story_begun conv svc timeout now false db0 e a
  obtain ⟨body, hb, hB⟩ := front_body a [.dispatchBegin [e] .ok] (by intro y hy; simp at hy; subst hy; rfl)
  obtain ⟨wk, hw⟩ := writes_total apply S0 body
  refine ⟨_, _, ⟨S0, some wk⟩, _, .dies hs, ?_, ?_, rfl, ?_, rfl, rfl, ?_⟩
  · cases h4 : a.commit <;> cases h5 : a.rollback <;> simp [handle, transaction, h1, h2, h3, h4, Ans.afterRollback, h5]
  · show DbRun apply _ (a.front ++ [.dispatchBegin [e] .ok]) _
    rw [hb]
    exact .cons (d1 := ⟨S0, some S0⟩) rfl (body_run hB hw)
  · intro st hm
    simp [Ans.front] at hm
  · intro db1 hc
    have hvb : Valid (dispatchBegin db0 svc now timeout [conv e] true).1 := valid_apply hv (.begin svc now timeout [conv e] true)
    have hopen : storedOf (dispatchBegin db0 svc now timeout [conv e] true).1 db0.nextTx = [] := by
      simp only [dispatchBegin, storedOf]
      refine List.filter_eq_nil_iff.2 fun x hx => ?_
      have := hv.evTx x hx
      simp; omega
    have hcb := C38_checkback (ask := fun x => (p.ask view wld x).getD .unknown) (ns := ns) (now := now') (svc := svc) hvb (tx := ⟨db0.nextTx, svc, [conv e], now + timeout⟩) (by simp [dispatchBegin]) rfl
      hdue hopen rfl (by simpa [dispatchBegin] using hn)
    have hask : p.ask view wld (conv e) = some .commit := by simp [Prog.ask, hp]
    rw [hask] at hcb
    have hdb := Startup.txs_eq hc
    rw [← hdb] at hcb
    have hv1 : Valid db1 := by rw [hdb]; exact valid_apply hvb (.check _ svc now' ns)
    exact storesAll_of hv1 hopen hcb.2.1 hcb.2.2

namespace Demo
def e : Event := ⟨3, 5, true, 0⟩
def conv : Event → DEv := fun e => ⟨e.id, 1, .transaction, e.createdAt, e.body⟩
def good : Ans := ⟨.ok, [], .ok, .ok, .ok, .ok, .ok, .ok⟩
def view : DEv → Router.Event := fun x => ⟨10, x.body⟩

/-- The example loses: there are a story, data and a check-back as in `C119_example_loses`. -/
example : ∃ H w tx db1, Story conv 7 60 true (BusWorld.before (emptyDB [7, 8])) H w ∧ Call.commit .ok ∈ w.done ∧ w.row = some tx ∧ tx.events = [conv e] ∧
    BusLife.handleTxsP ((after (init 10 (Router.Demo.goodFn 1 0))).ask view Router.Demo.world) 7 71 (fun _ => 6) w.db = some db1 ∧
    ∀ ops : List Bus.Op, (∀ op ∈ ops, op.noCommitOf tx.id) → storedOf (runOps db1 ops) tx.id = [] := by
  obtain ⟨H, w, hs, hP, hc, -, hdb, hr⟩ := outer_crash conv 7 60 10 (emptyDB [7, 8]) e good ⟨rfl, rfl, rfl, rfl⟩
  obtain ⟨db1, h1⟩ : ∃ db1, BusLife.handleTxsP ((after (init 10 (Router.Demo.goodFn 1 0))).ask view Router.Demo.world) 7 71 (fun _ => 6) w.db = some db1 := by
    rw [hdb]; exact ⟨_, rfl⟩
  have hne : Call.commit .err ∉ w.done := by
    intro hm
    have := hP.subset hm
    revert this
    decide
  obtain ⟨d, hw⟩ := writes_total (fun (_ : Action) (n : Nat) => n + 1) 0 (handle e good)
  exact ⟨H, w, _, _, hs, hc, hr, rfl, h1, (C119_example_loses (apply := fun (_ : Action) (n : Nat) => n + 1) (S0 := 0) (valid_emptyDB (by decide)) hs hP ⟨hw, .ok, hc⟩ hne hr (by rw [hdb]; decide) (by decide)
    (by rw [hdb]; intro i; decide) h1).2.2⟩

end Demo

/-! ## C120: who is asked -/

/-- steps that leave the checker of the bus alone -/
def KeepsChecker : Act → Prop
  | .ownHandler _ | .newEngine false | .run false | .createDelete | .reg _ => True
  | _ => False

/-- steps that leave the handler of the bus alone -/
def KeepsHandler : Act → Prop
  | .ownChecker _ | .newEngine false | .run false | .createDelete | .reg _ => True
  | _ => False

/-- steps by which the framework takes the bus over -/
def TakesOver : Act → Prop
  | .registerBus | .newEngine true | .run true => True
  | _ => False

theorem keeps_checker (post : List Act) (h : ∀ x ∈ post, KeepsChecker x) (p : Prog) : (post.foldl Act.apply p).checker = p.checker := by
  induction post generalizing p with
  | nil => rfl
  | cons x post ih =>
    rw [List.foldl_cons, ih fun y hy => h y (by simp [hy])]
    have := h x (by simp)
    cases x with
    | newEngine m => cases m <;> simp_all [KeepsChecker, Act.apply]
    | run m => cases m <;> simp_all [KeepsChecker, Act.apply]
    | _ => first | rfl | (simp [KeepsChecker] at this)

theorem keeps_handler (post : List Act) (h : ∀ x ∈ post, KeepsHandler x) (p : Prog) : (post.foldl Act.apply p).handler = p.handler := by
  induction post generalizing p with
  | nil => rfl
  | cons x post ih =>
    rw [List.foldl_cons, ih fun y hy => h y (by simp [hy])]
    have := h x (by simp)
    cases x with
    | newEngine m => cases m <;> simp_all [KeepsHandler, Act.apply]
    | run m => cases m <;> simp_all [KeepsHandler, Act.apply]
    | _ => first | rfl | (simp [KeepsHandler] at this)

theorem takes_over {x : Act} (h : TakesOver x) (p : Prog) : (x.apply p).checker = .framework ∧ (x.apply p).handler = .framework := by
  cases x with
  | newEngine m => cases m <;> simp_all [TakesOver, Act.apply]
  | run m => cases m <;> simp_all [TakesOver, Act.apply]
  | registerBus => exact ⟨rfl, rfl⟩
  | _ => simp [TakesOver] at h

/-- the registrations by type of a program -/
def regs (acts : List Act) : List RegCall := acts.filterMap fun x => match x with | .reg c => some c | _ => none

theorem hist_regs (acts : List Act) (p : Prog) : (acts.foldl Act.apply p).hist = p.hist ++ regs acts := by
  induction acts generalizing p with
  | nil => simp [regs]
  | cons x acts ih =>
    rw [List.foldl_cons, ih]
    cases x with
    | newEngine m => cases m <;> simp [regs, Act.apply]
    | run m => cases m <;> simp [regs, Act.apply]
    | _ => simp [regs, Act.apply]

/-- **C120** (partial) The function a program registered at the bus last is asked, in any program in which the framework is not given the bus afterwards: no `RegisterEventBus`, and no engine with this bus made or run. Missing: programs
that do both (`C120_checker_replaced`, `C120_handler_replaced`), which is what a bus is for. -/
theorem C120_in_force_partial (pre post : List Act) (view : DEv → Router.Event) (w : World) (e : DEv) :
    (∀ f, (∀ x ∈ post, KeepsChecker x) → (after (pre ++ .ownChecker f :: post)).ask view w e = f e) ∧
    (∀ f, (∀ x ∈ post, KeepsHandler x) → (after (pre ++ .ownHandler f :: post)).call view w e = some (f e)) := by
  constructor
  · intro f h
    simp only [after, List.foldl_append, List.foldl_cons, Prog.ask, keeps_checker post h]
    rfl
  · intro f h
    simp only [after, List.foldl_append, List.foldl_cons, Prog.call, keeps_handler post h]
    rfl

/-- **C120** is false of the code: once the framework got the bus, by `RegisterEventBus`, `NewEngine` or any `Run` of an engine with it, a checker the program registered at the bus before is never asked again: the answer is the
one of the checkers registered by event type, and rollback for a type without one. -/
theorem C120_checker_replaced {x : Act} (hx : TakesOver x) (pre post : List Act) (hpost : ∀ y ∈ post, KeepsChecker y ∨ TakesOver y) (view : DEv → Router.Event) (w : World) (e : DEv) :
    (after (pre ++ x :: post)).ask view w e = Startup.toAns (onTXChecker w (Reg.after (regs (pre ++ x :: post))) (view e)).1 ∧
    ((∀ f ty, .checker (view e).typ f ∈ regs (pre ++ x :: post) → ¬ CheckerFor f ty) → (after (pre ++ x :: post)).ask view w e = some .rollback) := by
  have key : ∀ (post : List Act), (∀ y ∈ post, KeepsChecker y ∨ TakesOver y) → ∀ p : Prog, p.checker = .framework → (post.foldl Act.apply p).checker = .framework := by
    intro post
    induction post with
    | nil => intro _ p h; exact h
    | cons y post ih =>
      intro h p hp
      refine ih (fun z hz => h z (by simp [hz])) _ ?_
      rcases h y (by simp) with h | h
      · have := keeps_checker [y] (by simpa using h) p
        exact this.trans hp
      · exact (takes_over h p).1
  have hc : (after (pre ++ x :: post)).checker = .framework := by
    simp only [after, List.foldl_append, List.foldl_cons]
    exact key post hpost _ (takes_over hx _).1
  have hh : (after (pre ++ x :: post)).hist = regs (pre ++ x :: post) := by
    have := hist_regs (pre ++ x :: post) ⟨.none, .none, []⟩
    simpa [after] using this
  refine ⟨?_, fun h => ask_framework hc (by rw [hh]; exact h)⟩
  simp only [Prog.ask, hc, hh]

/-- **C120** is false of the code for handlers likewise: the events go to the handlers registered by type; with none the event counts as handled and nobody has seen it. -/
theorem C120_handler_replaced {x : Act} (hx : TakesOver x) (pre post : List Act) (hpost : ∀ y ∈ post, KeepsHandler y ∨ TakesOver y) (view : DEv → Router.Event) (w : World) (e : DEv) :
    (after (pre ++ x :: post)).call view w e = some (Startup.toRet (onEvent w (Reg.after (regs (pre ++ x :: post))) (view e)).1) ∧
    (Registered (view e).typ (regs (pre ++ x :: post)) [] → (after (pre ++ x :: post)).call view w e = some .ok) := by
  have key : ∀ (post : List Act), (∀ y ∈ post, KeepsHandler y ∨ TakesOver y) → ∀ p : Prog, p.handler = .framework → (post.foldl Act.apply p).handler = .framework := by
    intro post
    induction post with
    | nil => intro _ p h; exact h
    | cons y post ih =>
      intro h p hp
      refine ih (fun z hz => h z (by simp [hz])) _ ?_
      rcases h y (by simp) with h | h
      · have := keeps_handler [y] (by simpa using h) p
        exact this.trans hp
      · exact (takes_over h p).2
  have hc : (after (pre ++ x :: post)).handler = .framework := by
    simp only [after, List.foldl_append, List.foldl_cons]
    exact key post hpost _ (takes_over hx _).2
  have hh : (after (pre ++ x :: post)).hist = regs (pre ++ x :: post) := by
    have := hist_regs (pre ++ x :: post) ⟨.none, .none, []⟩
    simpa [after] using this
  have h1 : (after (pre ++ x :: post)).call view w e = some (Startup.toRet (onEvent w (Reg.after (regs (pre ++ x :: post))) (view e)).1) := by
    simp only [Prog.call, hc, hh]
  refine ⟨h1, fun h => ?_⟩
  rw [h1]
  have : (onEvent w (Reg.after (regs (pre ++ x :: post))) (view e)).1 = .nil :=
    (C34_success_iff h (by simp)).2 ⟨[], rfl, by simp⟩
  rw [this]; rfl

/-- a checker of one's own, asked until the first command of an engine with the bus runs, and never after it -/
example (f : DEv → Option TxAns) (view : DEv → Router.Event) (w : World) (e : DEv) :
    (after [.newEngine true, .ownChecker f, .createDelete]).ask view w e = f e ∧ (after [.newEngine true, .ownChecker f, .createDelete, .run true]).ask view w e = some .rollback :=
  ⟨(C120_in_force_partial [.newEngine true] [.createDelete] view w e).1 f (by simp [KeepsChecker]),
   (C120_checker_replaced (x := .run true) trivial [.newEngine true, .ownChecker f, .createDelete] [] (by simp) view w e).2 (by simp [regs])⟩

end Ddd.Outer
