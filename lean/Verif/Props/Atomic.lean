import Verif.Props.Transaction
/-!
# C16: all-or-nothing at every crash point
-/
set_option linter.unusedVariables false
set_option linter.unusedSimpArgs false
namespace Ddd
open Spec

variable {env : Env} {opts : Opts} {c : Cmd} {h : Heap}

theorem prefix_append_cases {α : Type} {p a b : List α} (h : p <+: a ++ b) : p <+: a ∨ ∃ q, q <+: b ∧ p = a ++ q := by
  obtain ⟨r, hr⟩ := h
  rcases List.append_eq_append_iff.1 hr with ⟨t, h1, h2⟩ | ⟨t, h1, h2⟩
  · exact .inl ⟨t, h1.symm⟩
  · exact .inr ⟨t, ⟨r, h2.symm⟩, h1⟩

section
variable {D : Type} {apply : Action → D → D}

/-- a call that neither writes nor commits. -/
def Quiet : Call → Prop
  | .exec .. => False
  | .commit _ => False
  | _ => True

theorem dbStep_quiet {d d' : Db D} {x : Call} (hx : Quiet x) (hs : DbStep apply d x d') : d'.durable = d.durable := by
  cases x with
  | «begin» st => cases st <;> simp [DbStep] at hs <;> rw [hs]
  | _ => simp [Quiet, DbStep] at hx hs <;> rw [hs]

theorem dbRun_quiet {d d' : Db D} {t : Trace} (hx : ∀ x ∈ t, Quiet x) (hs : DbRun apply d t d') : d'.durable = d.durable := by
  induction hs with
  | nil => rfl
  | cons h1 h2 ih =>
    rw [ih fun x hm => hx x (List.mem_cons_of_mem _ hm), dbStep_quiet (hx _ (by simp)) h1]

theorem dbRun_append {d d' : Db D} {a b : Trace} (hs : DbRun apply d (a ++ b) d') :
    ∃ d1, DbRun apply d a d1 ∧ DbRun apply d1 b d' := by
  induction a generalizing d with
  | nil => exact ⟨d, .nil d, hs⟩
  | cons x a ih =>
    cases hs with
    | cons h1 h2 =>
      obtain ⟨d1, h3, h4⟩ := ih h2
      exact ⟨d1, .cons h1 h3, h4⟩

/-- inside the transaction, body calls only change the uncommitted content, by exactly their writes. -/
theorem dbRun_body {S w : D} {d' : Db D} {t : Trace} {dry : Bool} (hx : ∀ x ∈ t, x.IsBody dry)
    (hs : DbRun apply ⟨S, some w⟩ t d') : ∃ w', d' = ⟨S, some w'⟩ ∧ Writes apply w t w' := by
  generalize hd : (⟨S, some w⟩ : Db D) = d at hs
  induction hs generalizing w with
  | nil => subst hd; exact ⟨w, rfl, .nil _⟩
  | @cons d d1 d2 x t h1 h2 ih =>
    subst hd
    have hx' : ∀ x ∈ t, x.IsBody dry := fun y hy => hx y (List.mem_cons_of_mem _ hy)
    have hb := hx x (by simp)
    cases x with
    | exec a st =>
      simp only [DbStep] at h1
      split at h1
      · next hst =>
        subst h1; subst hst
        obtain ⟨w', e, hw⟩ := ih hx' rfl
        exact ⟨w', e, .ok hw⟩
      · next hst =>
        obtain ⟨w1, rfl⟩ := h1
        obtain ⟨w', e, hw⟩ := ih hx' rfl
        exact ⟨w', e, .bad hst hw⟩
    | lock => simp [Call.IsBody] at hb
    | unlock => simp [Call.IsBody] at hb
    | «begin» => simp [Call.IsBody] at hb
    | commit => simp [Call.IsBody] at hb
    | rollback => simp [Call.IsBody] at hb
    | busCommit => simp [Call.IsBody] at hb
    | busRollback => simp [Call.IsBody] at hb
    | postSave => simp [Call.IsBody] at hb
    | _ =>
      simp only [DbStep] at h1
      subst h1
      obtain ⟨w', e, hw⟩ := ih hx' rfl
      exact ⟨w', e, .other (by simp) hw⟩

theorem writes_append {w w1 w2 : D} {a b : Trace} (h1 : Writes apply w a w1) (h2 : Writes apply w1 b w2) : Writes apply w (a ++ b) w2 := by
  induction h1 with
  | nil => exact h2
  | ok _ ih => exact .ok (ih h2)
  | bad hst _ ih => exact .bad hst (ih h2)
  | other hc _ ih => exact .other hc (ih h2)

theorem writes_silent {w : D} {t : Trace} (h : ∀ x ∈ t, ∀ a st, x ≠ .exec a st) : Writes apply w t w := by
  induction t with
  | nil => exact .nil _
  | cons x t ih => exact .other (h x (by simp)) (ih fun y hy => h y (List.mem_cons_of_mem _ hy))

theorem dbRun_locks {d d' : Db D} {t : Trace} (hx : ∀ x ∈ t, ∃ k, x = .lock k .ok) (hs : DbRun apply d t d') : d' = d := by
  induction hs with
  | nil => rfl
  | @cons d d1 d2 x t h1 h2 ih =>
    obtain ⟨k, rfl⟩ := hx x (by simp)
    simp only [DbStep] at h1
    rw [ih fun y hy => hx y (List.mem_cons_of_mem _ hy), h1]

/-- nothing open: only writes change the durable content. -/
theorem dbRun_closed {d d' : Db D} {t : Trace} (ho : d.openTx = none) (hx : ∀ x ∈ t, (∃ st, x = .commit st) ∨ (∃ st, x = .rollback st) ∨
      (∃ st, x = .busCommit st) ∨ (∃ st, x = .busRollback st) ∨ (∃ k st, x = .unlock k st) ∨ ∃ k st, x = .postSave k st)
    (hs : DbRun apply d t d') : d'.durable = d.durable := by
  induction hs with
  | nil => rfl
  | @cons d d1 d2 x t h1 h2 ih =>
    have : d1.durable = d.durable ∧ d1.openTx = none := by
      rcases hx x (by simp) with ⟨_, rfl⟩ | ⟨_, rfl⟩ | ⟨_, rfl⟩ | ⟨_, rfl⟩ | ⟨_, _, rfl⟩ | ⟨_, _, rfl⟩ <;>
        simp [DbStep, ho] at h1 <;> simp [h1, ho]
    rw [ih this.2 fun y hy => hx y (List.mem_cons_of_mem _ hy), this.1]

end

theorem TxTail.calls {pend : Bool} {o rt : Option Result} {t : Trace} (h : TxTail env pend o t rt) :
    ∃ x l, t = x :: l ∧ isEnd x = true ∧ ∀ y ∈ l, (∃ st, y = .commit st) ∨ (∃ st, y = .rollback st) ∨
      (∃ st, y = .busCommit st) ∨ (∃ st, y = .busRollback st) := by
  cases h <;> exact ⟨_, _, rfl, rfl, by simp⟩

theorem TxTail.oneCommit {pend : Bool} {o rt : Option Result} {t : Trace} (h : TxTail env pend o t rt) :
    ∃ x l, t = x :: l ∧ isEnd x = true ∧ ∀ y ∈ l, (∃ st, y = .rollback st) ∨
      (∃ st, y = .busCommit st) ∨ (∃ st, y = .busRollback st) := by
  cases h <;> exact ⟨_, _, rfl, rfl, by simp⟩

/-- With transactions enabled, at whatever point `P` of the command the process dies, the durable content is the content before the
command, and then no `Commit` succeeded, or that content with all writes of the command applied, and then `Commit` was called. -/
theorem crash_fate {D : Type} (apply : Action → D → D) (hw : opts.withTransaction = true) (S0 : D) {P : Trace}
    (hP : P <+: (run env opts c h).2.trace) {d : Db D} (hd : DbRun apply ⟨S0, none⟩ P d) :
    d.durable = S0 ∧ .commit .ok ∉ P ∨ Writes apply S0 (run env opts c h).2.trace d.durable ∧ ∃ st, .commit st ∈ P := by
  have hquiet : (∀ x ∈ (run env opts c h).2.trace, Quiet x) → d.durable = S0 ∧ .commit .ok ∉ P := fun hq =>
    ⟨dbRun_quiet (d := ⟨S0, none⟩) (fun x hx => hq x (hP.subset hx)) hd, fun hm => hq _ (hP.subset hm)⟩
  rcases run_anatomy env opts c h with ⟨keys, hk, an⟩ | ⟨_, h0⟩
  · generalize (run env opts c h).2.trace = T at an hP hquiet ⊢
    generalize (run env opts c h).1 = R at an
    cases an with
    | early _ _ he hr =>
      left
      apply hquiet
      intro x hx
      rcases he.noBody x hx with ⟨_, _, rfl⟩ | ⟨_, _, rfl⟩ | ⟨_, _, rfl⟩ <;> trivial
    | plain _ _ _ _ _ _ hw' => exact absurd hw (by rw [show opts.withTransaction = false from hw']; simp)
    | tx body tail un posts rt _ b hn _ hbody ht hr hpp =>
      obtain ⟨x0, l, rfl, hx0, hl⟩ := ht.oneCommit
      have hB := body_isBody _ _ hbody
      -- the locks and Begin
      rcases prefix_append_cases hP with hp | ⟨P1, hP1, rfl⟩
      · left
        refine ⟨dbRun_quiet (d := ⟨S0, none⟩) (fun x hx => ?_) hd, fun hx => ?_⟩
        · obtain ⟨k, _, rfl⟩ := List.mem_map.1 (hp.subset hx); trivial
        · obtain ⟨k, _, h⟩ := List.mem_map.1 (hp.subset hx); simp at h
      · have hlocks : ∀ x ∈ ((keys.insertionSort (· ≤ ·)).map fun k => Call.lock k .ok), ∃ k, x = .lock k .ok := by
          intro x hx; obtain ⟨k, _, rfl⟩ := List.mem_map.1 hx; exact ⟨k, rfl⟩
        generalize ((keys.insertionSort (· ≤ ·)).map fun k => Call.lock k .ok) = L at *
        have hL : ∀ st, Call.commit st ∉ L := by intro st hm; obtain ⟨k, h⟩ := hlocks _ hm; simp at h
        have hBc : ∀ st, Call.commit st ∉ body := by intro st hm; have := hB _ hm; simp [Call.IsBody] at this
        obtain ⟨d1, r1, r2⟩ := dbRun_append hd
        have e1 : d1 = ⟨S0, none⟩ := dbRun_locks hlocks r1
        subst e1
        cases P1 with
        | nil => cases r2; exact .inl ⟨rfl, by simpa using hL _⟩
        | cons x P1 =>
          obtain ⟨rfl, hP2⟩ := List.cons_prefix_cons.1 hP1
          cases r2 with
          | cons s1 r3 =>
            simp only [DbStep] at s1
            subst s1
            rcases prefix_append_cases hP2 with hp | ⟨P2, hP3, rfl⟩
            · left
              obtain ⟨w, rfl, _⟩ := dbRun_body (fun x hx => hB x (hp.subset hx)) r3
              refine ⟨rfl, ?_⟩
              simp only [List.mem_append, List.mem_cons, not_or]
              exact ⟨hL _, by simp, fun hm => hBc _ (hp.subset hm)⟩
            · obtain ⟨d2, r4, r5⟩ := dbRun_append r3
              obtain ⟨w, rfl, hwr⟩ := dbRun_body hB r4
              cases P2 with
              | nil => cases r5; exact .inl ⟨rfl, by simp [hL, hBc]⟩
              | cons y P2 =>
                obtain ⟨rfl, hP4⟩ := List.cons_prefix_cons.1 hP3
                cases r5 with
                | cons s2 r6 =>
                  rename_i d3
                  have hclosed : d3.openTx = none ∧ (d3.durable = S0 ∧ y ≠ .commit .ok ∨ d3.durable = w ∧ ∃ st, y = .commit st) := by
                    cases y with
                    | commit st =>
                      simp only [DbStep] at s2
                      rcases s2 with rfl | ⟨hst, rfl⟩
                      · simp
                      · exact ⟨rfl, .inl ⟨rfl, by simpa using hst⟩⟩
                    | rollback st => simp only [DbStep] at s2; subst s2; simp
                    | _ => simp [isEnd] at hx0
                  have hrest : ∀ z ∈ P2, (∃ st, z = .rollback st) ∨
                      (∃ st, z = .busCommit st) ∨ (∃ st, z = .busRollback st) ∨ (∃ k st, z = .unlock k st) ∨ ∃ k st, z = .postSave k st := by
                    intro z hz
                    have hz := hP4.subset hz
                    change z ∈ l ++ (un ++ posts) at hz
                    rw [List.mem_append, List.mem_append] at hz
                    rcases hz with hz | hz | hz
                    · rcases hl z hz with h | h | h
                      · exact .inl h
                      · exact .inr (.inl h)
                      · exact .inr (.inr (.inl h))
                    · exact .inr (.inr (.inr (.inl (hr.isUnlock z hz))))
                    · exact .inr (.inr (.inr (.inr (hpp.isPost z hz))))
                  have hdur := dbRun_closed hclosed.1 (fun z hz => .inr (hrest z hz)) r6
                  rcases hclosed.2 with ⟨h2, h3⟩ | ⟨h2, st, h3⟩
                  · left
                    refine ⟨by rw [hdur, h2], ?_⟩
                    have hc2 : Call.commit .ok ∉ P2 := by
                      intro hm
                      rcases hrest _ hm with ⟨_, h⟩ | ⟨_, h⟩ | ⟨_, h⟩ | ⟨_, _, h⟩ | ⟨_, _, h⟩ <;> simp at h
                    simp [hL, hBc, hc2, Ne.symm h3]
                  · right
                    refine ⟨?_, st, by simp [h3]⟩
                    rw [hdur, h2]
                    refine writes_append (writes_silent ?_) (.other (by simp) (writes_append hwr (writes_silent ?_)))
                    · intro x hx a st; obtain ⟨k, rfl⟩ := hlocks x hx; simp
                    · intro x hx a st
                      rw [List.cons_append, List.mem_cons, List.mem_append, List.mem_append] at hx
                      rcases hx with rfl | hx | hx | hx
                      · rintro rfl; simp [isEnd] at hx0
                      · rcases hl x hx with ⟨_, rfl⟩ | ⟨_, rfl⟩ | ⟨_, rfl⟩ <;> simp
                      · obtain ⟨_, _, rfl⟩ := hr.isUnlock x hx; simp
                      · obtain ⟨_, _, rfl⟩ := hpp.isPost x hx; simp
  · left; apply hquiet; rw [h0]; simp

/-- **C16** With transactions enabled, at whatever point `P` of the command the process dies, the durable content is the content before the
command or that content with all writes of the command applied. -/
theorem C16_all_or_nothing {D : Type} (apply : Action → D → D) (hw : opts.withTransaction = true) (S0 : D) {P : Trace}
    (hP : P <+: (run env opts c h).2.trace) {d : Db D} (hd : DbRun apply ⟨S0, none⟩ P d) :
    d.durable = S0 ∨ Writes apply S0 (run env opts c h).2.trace d.durable :=
  (crash_fate apply hw S0 hP hd).imp And.left And.left

/-- **C16** All writes lie strictly between `Begin` and the end of the transaction. -/
theorem C16_writes_inside (hw : opts.withTransaction = true) {a b : Trace} {w : Action} {st : Stat}
    (hT : (run env opts c h).2.trace = a ++ .exec w st :: b) :
    Call.begin .ok ∈ a ∧ ends a = [] ∧ ends b ≠ [] := by
  have hm : Call.exec w st ∈ (run env opts c h).2.trace := by rw [hT]; simp
  rcases run_anatomy env opts c h with ⟨keys, hk, an⟩ | ⟨_, h0⟩
  · generalize (run env opts c h).2.trace = T at an hT hm ⊢
    generalize (run env opts c h).1 = R at an
    cases an with
    | early _ _ he hr => rcases he.noBody _ hm with ⟨_, _, h⟩ | ⟨_, _, h⟩ | ⟨_, _, h⟩ <;> simp at h
    | plain _ _ _ _ _ _ hw' => exact absurd hw (by rw [show opts.withTransaction = false from hw']; simp)
    | tx body tail un posts rt _ b' hn _ hbody ht hr hpp =>
      obtain ⟨e1, e2, e3, e4, e5, e6⟩ := outer_ends hbody hr hpp
      obtain ⟨x0, l, rfl, hx0, hl⟩ := ht.calls
      have hlocks : ∀ x ∈ ((keys.insertionSort (· ≤ ·)).map fun k => Call.lock k .ok), ∃ k, x = .lock k .ok := by
        intro x hx; obtain ⟨k, _, rfl⟩ := List.mem_map.1 hx; exact ⟨k, rfl⟩
      generalize ((keys.insertionSort (· ≤ ·)).map fun k => Call.lock k .ok) = L at *
      -- position of the write: not in the locks, not after the body
      have hafter : Call.exec w st ∉ ((x0 :: l) ++ (un ++ posts) : Trace) := by
        intro hx
        rw [List.cons_append, List.mem_cons, List.mem_append, List.mem_append] at hx
        rcases hx with rfl | hx | hx | hx
        · simp [isEnd] at hx0
        · rcases hl _ hx with ⟨_, h⟩ | ⟨_, h⟩ | ⟨_, h⟩ | ⟨_, h⟩ <;> simp at h
        · obtain ⟨_, _, h⟩ := hr.isUnlock _ hx; simp at h
        · obtain ⟨_, _, h⟩ := hpp.isPost _ hx; simp at h
      have hends : ends ((x0 :: l) ++ (un ++ posts) : Trace) ≠ [] := by
        simp [ends, hx0]
      generalize ((x0 :: l) ++ (un ++ posts) : Trace) = R' at *
      rcases List.append_eq_append_iff.1 hT with ⟨t, h1, h2⟩ | ⟨t, h1, h2⟩
      · cases t with
        | nil => simp at h2
        | cons y t =>
          rw [List.cons_append, List.cons.injEq] at h2
          obtain ⟨rfl, h2⟩ := h2
          rcases List.append_eq_append_iff.1 h2 with ⟨u, h3, h4⟩ | ⟨u, h3, h4⟩
          · exfalso; apply hafter; rw [h4]; simp
          · cases u with
            | nil => exfalso; apply hafter; rw [← List.nil_append R', ← h4]; simp
            | cons z u =>
              rw [List.cons_append, List.cons.injEq] at h4
              obtain ⟨rfl, rfl⟩ := h4
              have ebody : ends t = [] ∧ ends u = [] := by
                rw [h3, ends_append] at e1
                have := List.append_eq_nil_iff.1 e1
                refine ⟨this.1, ?_⟩
                have h5 := this.2
                simpa [ends, isEnd] using h5
              subst h1
              refine ⟨by simp, ?_, ?_⟩
              · rw [ends_append, e4]; simpa [ends, isEnd] using ebody.1
              · rw [ends_append]; intro hz; exact hends (List.append_eq_nil_iff.1 hz).2
      · exfalso
        cases t with
        | nil => simp at h2
        | cons y t =>
          rw [List.cons_append, List.cons.injEq] at h2
          obtain ⟨rfl, _⟩ := h2
          obtain ⟨k, hk⟩ := hlocks (Call.exec w st) (by rw [h1]; simp)
          simp at hk
  · rw [h0] at hm; simp at hm

end Ddd
