import Verif.Spec.TxCommands
import Verif.Props.Serial
import Verif.Props.Tx
/-!
# C73: many commands on the MySQL executor
-/
set_option linter.unusedVariables false
set_option linter.unusedSimpArgs false
namespace Ddd
open Spec

namespace TxCmd

section
variable {env : Env} {opts : Opts} {c : Cmd} {h : Heap}

/-- a command begins at most once. -/
theorem begin_once {a b : Trace} (hT : (run env opts c h).2.trace = a ++ .begin .ok :: b) : Call.begin .ok ∉ a := by
  rcases begun_cases env opts c h with ⟨h1, h2⟩ | ⟨keys, body, tail, un, posts, rt, b', hk, hn, hw, hbody, ht, hr, hpp, hT'⟩
  · exact absurd (by rw [hT]; simp) h1
  · obtain ⟨e1, e2, e3, e4, e5, e6⟩ := outer_ends hbody hr hpp
    obtain ⟨x0, l, rfl, hx0, hl⟩ := ht.calls
    rw [hT'] at hT
    have hnot : Call.begin .ok ∉ body ++ (x0 :: l ++ (un ++ posts)) := by
      intro hm
      simp only [List.mem_append, List.mem_cons] at hm e5
      push Not at e5
      rcases hm with hm | (rfl | hm) | hm | hm
      · exact e5.1 hm
      · simp [isEnd] at hx0
      · rcases hl _ hm with ⟨_, h⟩ | ⟨_, h⟩ | ⟨_, h⟩ | ⟨_, h⟩ <;> simp at h
      · exact e5.2.1 hm
      · exact e5.2.2 hm
    generalize (keys.insertionSort (· ≤ ·)).map (fun k => Call.lock k .ok) = L at *
    generalize body ++ (x0 :: l ++ (un ++ posts)) = R at *
    intro ha
    obtain ⟨a1, a2, rfl⟩ := List.append_of_mem ha
    have hc := congrArg (List.count (Call.begin .ok)) hT
    simp only [List.count_append, List.count_cons_self, List.count_eq_zero_of_not_mem hnot, List.count_eq_zero_of_not_mem e6] at hc
    omega

/-- an end comes after the begin; a commit comes first among the ends. -/
theorem end_facts {a b : Trace} {x : Call} (hx : isEnd x = true) (hT : (run env opts c h).2.trace = a ++ x :: b) :
    Call.begin .ok ∈ a ∧ ((∃ st, x = .commit st) → ends a = []) := by
  have hA := C14_always_ended (env := env) (opts := opts) (c := c) (h := h)
  have hm : x ∈ ends (run env opts c h).2.trace := mem_ends.2 ⟨by rw [hT]; simp, hx⟩
  by_cases hb : Call.begin .ok ∈ (run env opts c h).2.trace
  · obtain ⟨p, q, h1, h2, h3, h4⟩ := hA.1 hb
    rw [hT] at h1
    rcases List.append_eq_append_iff.1 h1 with ⟨u, e1, e2⟩ | ⟨u, e1, e2⟩
    · exfalso
      cases u with
      | nil =>
        rw [List.nil_append, List.cons.injEq] at e2
        rw [e2.1] at hx; simp [isEnd] at hx
      | cons z u =>
        rw [List.cons_append, List.cons.injEq] at e2
        rw [e1] at h2
        have : x ∈ ends (a ++ z :: u) := mem_ends.2 ⟨by rw [e2.1]; simp, hx⟩
        rw [h2] at this; simp at this
    · cases u with
      | nil =>
        rw [List.nil_append, List.cons.injEq] at e2
        rw [← e2.1] at hx; simp [isEnd] at hx
      | cons z u =>
        rw [List.cons_append, List.cons.injEq] at e2
        obtain ⟨rfl, e2⟩ := e2
        refine ⟨by rw [e1]; simp, ?_⟩
        rintro ⟨st, rfl⟩
        rw [e1, ends_append, h2, List.nil_append]
        have hz : ends (Call.begin .ok :: u) = ends u := by simp [ends, isEnd]
        rw [hz]
        by_contra hne
        obtain ⟨y, ys, hy⟩ := List.exists_cons_of_ne_nil hne
        have : Call.commit st ∈ (ends q).tail := by
          rw [e2, ends_append, hy]
          simp [ends, isEnd]
        obtain ⟨_, h5⟩ := h4 _ this
        simp at h5
  · rw [hA.2 hb] at hm; simp at hm

end

variable {W : Type}

theorem wrote_snoc (c : Setting W) (i : Nat) (past t : Trace) (x : Call) :
    wrote c i past (t ++ [x]) = wrote c i past t ++ wroteBy c i (past ++ t) x := by
  induction t generalizing past with
  | nil => simp [wrote]
  | cons y t ih =>
    simp only [List.cons_append, wrote, ih, List.append_assoc, List.nil_append]

theorem published_snoc (c : Setting W) (d : Nat) (past g : World) (i : Nat) (x : Call) :
    published c d past (g ++ [(i, x)]) = published c d past g ++ publishedBy c d (past ++ g) i x := by
  induction g generalizing past with
  | nil => simp [published]
  | cons y g ih =>
    obtain ⟨j, y⟩ := y
    simp only [List.cons_append, published, ih, List.append_assoc, List.nil_append]

theorem play_snoc (c : Setting W) (past g : World) (i : Nat) (x : Call) (s : Tx.Sys W × (Nat → Tx.Ctx)) :
    play c past (g ++ [(i, x)]) s = act c i ((past ++ g).of i) (play c past g s) x := by
  induction g generalizing past s with
  | nil => simp [play]
  | cons y g ih =>
    obtain ⟨j, y⟩ := y
    simp only [List.cons_append, play, ih, List.append_assoc, List.nil_append]

/-- the state of the databases after `g`, command by command. -/
structure Inv (c : Setting W) (g : World) (s : Tx.Sys W × (Nat → Tx.Ctx)) (tx : Nat → Nat) : Prop where
  inj : ∀ i j, Call.begin .ok ∈ g.of i → Call.begin .ok ∈ g.of j → tx i = tx j → i = j
  here : ∀ i, Call.begin .ok ∈ g.of i → Tx.Ctx.value (s.2 i) (c.exe i).key = some (tx i) ∧ tx i < s.1.txs.length
  live : ∀ i, Call.begin .ok ∈ g.of i → ends (g.of i) = [] →
    ∃ d, (c.exe i).db = some d ∧ s.1.txs[tx i]? = some ⟨d, wrote c i [] (g.of i), .opened⟩
  dead : ∀ i, Call.begin .ok ∈ g.of i → ends (g.of i) ≠ [] → Tx.Over (tx i) s.1
  log : ∀ d, s.1.log d = published c d [] g

theorem of_snoc (g : World) (i j : Nat) (x : Call) : World.of (g ++ [(i, x)]) j = if i = j then World.of g j ++ [x] else World.of g j := by
  by_cases h : i = j <;> simp [World.of, h, List.filter_append]

/-- a call that does not concern the executor. -/
theorem Inv.other {c : Setting W} {g : World} {s : Tx.Sys W × (Nat → Tx.Ctx)} {tx : Nat → Nat} (h : Inv c g s tx) {i : Nat} {x : Call}
    (h1 : x ≠ .begin .ok) (h2 : isEnd x = false) (h3 : ∀ a st, x ≠ .exec a st) : Inv c (g ++ [(i, x)]) s tx := by
  have hb : ∀ j, Call.begin .ok ∈ World.of (g ++ [(i, x)]) j ↔ Call.begin .ok ∈ World.of g j := by
    intro j
    rw [of_snoc]
    split
    · simp [Ne.symm h1]
    · rfl
  have he : ∀ j, ends (World.of (g ++ [(i, x)]) j) = ends (World.of g j) := by
    intro j
    rw [of_snoc]
    split
    · simp [ends, h2]
    · rfl
  have hw : ∀ j, wrote c j [] (World.of (g ++ [(i, x)]) j) = wrote c j [] (World.of g j) := by
    intro j
    rw [of_snoc]
    split
    · rw [wrote_snoc]
      cases x <;> simp [wroteBy] at h3 ⊢
    · rfl
  refine ⟨fun j k hj hk => h.inj j k ((hb j).1 hj) ((hb k).1 hk), fun j hj => h.here j ((hb j).1 hj), fun j hj hl => ?_, fun j hj hl => ?_, fun d => ?_⟩
  · rw [hw]; rw [he] at hl; exact h.live j ((hb j).1 hj) hl
  · rw [he] at hl; exact h.dead j ((hb j).1 hj) hl
  · rw [published_snoc, h.log]
    cases x <;> simp [isEnd, publishedBy] at h2 ⊢

theorem act_begin_bad (c : Setting W) (i : Nat) (past : Trace) (s : Tx.Sys W × (Nat → Tx.Ctx)) {st : Stat} (hst : st ≠ .ok) : act c i past s (.begin st) = s := by
  simp only [act, Tx.step, hst, ne_eq, not_false_eq_true, decide_true, if_true]
  rcases (c.exe i).db with _ | d <;> rfl

section
variable {c : Setting W} (hdb : ∀ i, (c.exe i).db.isSome)
  {cmd : Nat → Cmd} {env : Nat → Env} {opts : Nat → Opts} {h : Nat → Heap} (hw : ∀ i, (opts i).withTransaction = true)
include hdb hw

theorem inv_play {g : World} (hrun : ∀ i, World.of g i <+: (run (env i) (opts i) (cmd i) (h i)).2.trace) :
    ∃ tx, Inv c g (play c [] g (Tx.init, c.base)) tx := by
  induction g using List.reverseRecOn with
  | nil => exact ⟨fun _ => 0, by simp [World.of], by simp [World.of], by simp [World.of], by simp [World.of], by intro d; rfl⟩
  | append_singleton g e ih =>
    obtain ⟨i, x⟩ := e
    have hpre : ∀ j, World.of g j <+: (run (env j) (opts j) (cmd j) (h j)).2.trace := by
      intro j
      refine List.IsPrefix.trans ?_ (hrun j)
      rw [of_snoc]
      split
      · exact List.prefix_append _ _
      · exact List.prefix_rfl
    obtain ⟨tx, hI⟩ := ih hpre
    obtain ⟨rest, hrest⟩ := hrun i
    rw [of_snoc, if_pos rfl, List.append_assoc, List.singleton_append] at hrest
    rw [play_snoc, List.nil_append]
    generalize play c [] g (Tx.init, c.base) = s at hI ⊢
    obtain ⟨d, hd⟩ := Option.isSome_iff_exists.1 (hdb i)
    -- the projections after the call
    have hoi : World.of (g ++ [(i, x)]) i = World.of g i ++ [x] := by rw [of_snoc, if_pos rfl]
    have hoj : ∀ j, j ≠ i → World.of (g ++ [(i, x)]) j = World.of g j := fun j hj => by rw [of_snoc, if_neg (Ne.symm hj)]
    -- the end of transaction `tx i`
    have hending : ∀ (b : Bool) (st : Tx.Status) (out : Tx.Out W), st ≠ .opened → isEnd x = true → Call.begin .ok ∈ World.of g i →
        act c i (World.of g i) s x = ((Tx.endTx s.1 (tx i) b st out).1, s.2) →
        (∀ d', (if d' = d ∧ b = true ∧ ends (World.of g i) = [] then wrote c i [] (World.of g i) else []) = publishedBy c d' g i x) →
        Inv c (g ++ [(i, x)]) (act c i (World.of g i) s x) tx := by
      intro b st out hst hx hbi ha hp
      have hne : x ≠ .begin .ok := by rintro rfl; simp [isEnd] at hx
      have hb : ∀ j, Call.begin .ok ∈ World.of (g ++ [(i, x)]) j ↔ Call.begin .ok ∈ World.of g j := by
        intro j
        rw [of_snoc]
        split
        · simp [Ne.symm hne]
        · rfl
      rw [ha]
      refine ⟨fun j k hj hk => hI.inj j k ((hb j).1 hj) ((hb k).1 hk), fun j hj => ?_, fun j hj hl => ?_, fun j hj hl => ?_, fun d' => ?_⟩
      · have := hI.here j ((hb j).1 hj)
        exact ⟨this.1, by simpa [Tx.endTx_len] using this.2⟩
      · have hji : j ≠ i := by
          rintro rfl
          rw [hoi, ends_append] at hl
          simp [ends, hx] at hl
        rw [hoj j hji] at hl hj ⊢
        obtain ⟨dj, h1, h2⟩ := hI.live j hj hl
        refine ⟨dj, h1, ?_⟩
        rw [Tx.endTx_get, if_neg (fun he => hji (hI.inj j i hj hbi he.symm))]
        exact h2
      · by_cases hji : j = i
        · subst hji
          intro r hr
          simp only at hr
          rw [Tx.endTx_get, if_pos rfl] at hr
          rcases hy : s.1.txs[tx j]? with _ | r'
          · simp [hy] at hr
          · simp [hy] at hr
            by_cases h' : r'.status = .opened
            · simp [h'] at hr; rw [← hr]; exact hst
            · simp [h'] at hr; rw [← hr]; exact h'
        · rw [hoj j hji] at hl hj
          have := hI.dead j hj hl
          intro r hr
          simp only at hr
          rw [Tx.endTx_get, if_neg (fun he => hji (hI.inj j i hj hbi he.symm))] at hr
          exact this r hr
      · rw [published_snoc, List.nil_append, ← hp d', ← hI.log]
        by_cases hl : ends (World.of g i) = []
        · obtain ⟨di, h1, h2⟩ := hI.live i hbi hl
          rw [hd] at h1
          obtain rfl : d = di := by simpa using h1
          simp only [Tx.endTx, h2, if_true, hl, and_true]
          cases b
          · simp [Tx.Sys.setTx]
          · simp only [Tx.Sys.setTx, Tx.Sys.append, if_true, and_true]
            split
            · next he => subst he; rfl
            · simp
        · have hov := hI.dead i hbi hl
          simp only [hl, and_false, if_false, List.append_nil]
          unfold Tx.endTx
          rcases hy : s.1.txs[tx i]? with _ | r
          · rfl
          · simp [hov r hy]
    cases x with
    | begin st =>
      by_cases hst : st = .ok
      · subst hst
        have hno : Call.begin .ok ∉ World.of g i := begin_once hrest.symm
        have hact : act c i (World.of g i) s (.begin .ok) =
            ({ s.1 with txs := s.1.txs ++ [⟨d, [], .opened⟩] }, fun j => if j = i then (((c.exe i).key, s.1.txs.length) :: c.base i) else s.2 j) := by
          simp [act, Tx.step, hd]
        rw [hact]
        have hwn : ∀ t : Trace, (∀ a st, Call.exec a st ∉ t) → wrote c i [] t = [] := by
          intro t
          induction t using List.reverseRecOn with
          | nil => intro _; rfl
          | append_singleton t y ih =>
            intro hno
            rw [wrote_snoc, ih (fun a st hm => hno a st (by simp [hm]))]
            cases y with
            | exec a st => exact absurd (by simp) (hno a st)
            | _ => rfl
        have hnoexec : ∀ a st, Call.exec a st ∉ World.of g i := by
          intro a st hm
          obtain ⟨p, q, hpq⟩ := List.append_of_mem hm
          have := (C16_writes_inside (hw i) (a := p) (b := q ++ .begin .ok :: rest) (by rw [← hrest, hpq, List.append_assoc, List.cons_append])).1
          exact hno (by rw [hpq]; simp [this])
        refine ⟨fun j => if j = i then s.1.txs.length else tx j, ?_, ?_, ?_, ?_, ?_⟩
        · intro j k hj hk hjk
          by_cases hji : j = i <;> by_cases hki : k = i
          · rw [hji, hki]
          · simp only [hji, hki, if_true, if_false] at hjk
            rw [hoj k hki] at hk
            have := (hI.here k hk).2
            omega
          · simp only [hji, hki, if_true, if_false] at hjk
            rw [hoj j hji] at hj
            have := (hI.here j hj).2
            omega
          · simp only [hji, hki, if_false] at hjk
            rw [hoj j hji] at hj
            rw [hoj k hki] at hk
            exact hI.inj j k hj hk hjk
        · intro j hj
          by_cases hji : j = i
          · subst hji; simp [Tx.Ctx.value, List.lookup_cons]
          · rw [hoj j hji] at hj
            have := hI.here j hj
            simp only [hji, if_false, List.length_append]
            exact ⟨this.1, by omega⟩
        · intro j hj hl
          by_cases hji : j = i
          · subst hji
            refine ⟨d, hd, ?_⟩
            rw [hoi, wrote_snoc, hwn _ hnoexec]
            simp [wroteBy]
          · rw [hoj j hji] at hj hl ⊢
            obtain ⟨dj, h1, h2⟩ := hI.live j hj hl
            refine ⟨dj, h1, ?_⟩
            simp only [hji, if_false]
            rw [List.getElem?_append_left (hI.here j hj).2]
            exact h2
        · intro j hj hl
          by_cases hji : j = i
          · subst hji
            exfalso
            apply hl
            rw [hoi, ends_append]
            have : ends (World.of g j) = [] := by
              by_contra hne
              obtain ⟨y, ys, hy⟩ := List.exists_cons_of_ne_nil hne
              have hm : y ∈ ends (World.of g j) := by rw [hy]; simp
              obtain ⟨hm, hye⟩ := mem_ends.1 hm
              obtain ⟨p, q, hpq⟩ := List.append_of_mem hm
              have := (end_facts hye (a := p) (b := q ++ .begin .ok :: rest) (by rw [← hrest, hpq, List.append_assoc, List.cons_append])).1
              exact hno (by rw [hpq]; simp [this])
            rw [this]; simp [ends, isEnd]
          · rw [hoj j hji] at hj hl
            have := hI.dead j hj hl
            intro r hr
            simp only [hji, if_false] at hr
            rw [List.getElem?_append_left (hI.here j hj).2] at hr
            exact this r hr
        · intro d'
          rw [published_snoc]
          simpa [publishedBy] using hI.log d'
      · rw [act_begin_bad c i _ s hst]
        exact ⟨tx, hI.other (by simpa using hst) rfl (by simp)⟩
    | exec a st =>
      obtain ⟨hbi, hl, _⟩ := C16_writes_inside (hw i) hrest.symm
      obtain ⟨di, h1, h2⟩ := hI.live i hbi hl
      rw [hd] at h1
      obtain rfl : d = di := by simpa using h1
      obtain ⟨hv, hlt⟩ := hI.here i hbi
      have hact : act c i (World.of g i) s (.exec a st) = (s.1.setTx (tx i) ⟨d, wrote c i [] (World.of g i ++ [.exec a st]), .opened⟩, s.2) := by
        simp only [act, Tx.step, hv, h2, wrote_snoc, wroteBy, List.nil_append, if_true]
      rw [hact]
      have hb : ∀ j, Call.begin .ok ∈ World.of (g ++ [(i, .exec a st)]) j ↔ Call.begin .ok ∈ World.of g j := by
        intro j
        rw [of_snoc]
        split <;> simp
      have he : ∀ j, ends (World.of (g ++ [(i, .exec a st)]) j) = ends (World.of g j) := by
        intro j
        rw [of_snoc]
        split <;> simp [ends, isEnd]
      refine ⟨tx, fun j k hj hk => hI.inj j k ((hb j).1 hj) ((hb k).1 hk), fun j hj => ?_, fun j hj hl' => ?_, fun j hj hl' => ?_, fun d' => ?_⟩
      · have := hI.here j ((hb j).1 hj)
        exact ⟨this.1, by simpa [Tx.Sys.setTx] using this.2⟩
      · by_cases hji : j = i
        · subst hji
          exact ⟨d, hd, by rw [hoi]; simp [Tx.Sys.setTx, List.getElem?_set, hlt]⟩
        · rw [hoj j hji] at hj hl' ⊢
          obtain ⟨dj, h3, h4⟩ := hI.live j hj hl'
          have : tx i ≠ tx j := fun he => hji (hI.inj j i hj hbi he.symm)
          exact ⟨dj, h3, by simp [Tx.Sys.setTx, List.getElem?_set, this, h4]⟩
      · rw [he] at hl'
        have hj' := (hb j).1 hj
        have hji : j ≠ i := by rintro rfl; exact hl' hl
        have hne : tx i ≠ tx j := fun he => hji (hI.inj j i hj' hbi he.symm)
        have := hI.dead j hj' hl'
        intro r hr
        simp [Tx.Sys.setTx, List.getElem?_set, hne] at hr
        exact this r hr
      · rw [published_snoc, ← hI.log]
        simp [Tx.Sys.setTx, publishedBy]
    | commit st =>
      obtain ⟨hbi, hl0⟩ := end_facts (x := .commit st) rfl hrest.symm
      have hl := hl0 ⟨st, rfl⟩
      clear hl0
      obtain ⟨hv, hlt⟩ := hI.here i hbi
      by_cases hst : st = .ok
      · subst hst
        refine ⟨tx, hending true .committed .ok (by decide) rfl hbi (by simp [act, Tx.step, hd, hv]) ?_⟩
        intro d'
        have hsym : (some d = some d') = (d' = d) := by simp [eq_comm]
        rw [hl]
        simp only [publishedBy, hd, hsym, true_or, and_true, true_and]
      · refine ⟨tx, hending (c.lands i (World.of g i)) .committed .dbErr (by decide) rfl hbi (by simp [act, Tx.step, hd, hv, hst]) ?_⟩
        intro d'
        have hsym : (some d = some d') = (d' = d) := by simp [eq_comm]
        simp only [publishedBy, hl, hd, hst, hsym, false_or, and_true]
    | rollback st =>
      obtain ⟨hbi, _⟩ := end_facts (x := .rollback st) rfl hrest.symm
      obtain ⟨hv, hlt⟩ := hI.here i hbi
      refine ⟨tx, hending false .rolledBack (if st ≠ .ok then .dbErr else .ok) (by decide) rfl hbi (by simp [act, Tx.step, hd, hv]) ?_⟩
      intro d'
      simp [publishedBy]
    | _ => exact ⟨tx, hI.other (by simp) rfl (by simp)⟩

end

end TxCmd

/-- **C73** Any number of commands, on any number of MySQL executors and databases, started with any contexts (also from within each other, also with executors created in the same second), in every
interleaving, at every moment, whatever fails: each database contains exactly, for each command that committed on it, in the order of the commits, all that the command has written in one block — and nothing of
any other command. (All writes of a command are made with the context given to `Main`.) -/
theorem C73_committed_commands_only {W : Type} {c : Setting W} (hdb : ∀ i, (c.exe i).db.isSome)
    {cmd : Nat → Cmd} {env : Nat → Env} {opts : Nat → Opts} {h : Nat → Heap} (hw : ∀ i, (opts i).withTransaction = true)
    {g : World} (hrun : ∀ i, World.of g i <+: (run (env i) (opts i) (cmd i) (h i)).2.trace) (d : Nat) :
    (play c [] g (Tx.init, c.base)).1.log d = published c d [] g := by
  obtain ⟨tx, hI⟩ := TxCmd.inv_play hdb hw hrun
  exact hI.log d

/-- **C73** what has to be in a database on which nobody commits: nothing (so at a moment when no command has committed yet, nothing is visible). -/
theorem C73_published_nothing_else {W : Type} (c : Setting W) (d : Nat) (g : World) (h : ∀ i st, (i, Call.commit st) ∈ g → (c.exe i).db ≠ some d) : published c d [] g = [] := by
  have : ∀ past, published c d past g = [] := by
    induction g with
    | nil => intro _; rfl
    | cons y g ih =>
      intro past
      obtain ⟨j, y⟩ := y
      rw [published, ih (fun i st hm => h i st (by simp [hm]))]
      cases y with
      | commit st =>
        have := h j st (by simp)
        simp [publishedBy, this]
      | _ => rfl
  exact this []

open Serial Demo in
/-- not vacuous: the three commands of `busy` (one refused, one committed, one rolled back) on one executor. -/
example : let c : Setting (Op × Nat) :=
      { exe := fun _ => Tx.newExecutor (some 0) 100, base := fun _ => [], stmts := fun a => a.models.map (fun m => (a.op, m.id)),
        part := fun _ _ => 1, lands := fun _ _ => false }
    (∀ i ∈ [0, 1, 2], World.of busy i <+: (run (envs i) txOpts addCmd evHeap).2.trace) ∧
    published c 0 [] busy ≠ [] ∧ (play c [] busy (Tx.init, c.base)).1.log 0 = published c 0 [] busy := by
  refine ⟨by decide +kernel, by decide +kernel, by decide +kernel⟩

end Ddd
