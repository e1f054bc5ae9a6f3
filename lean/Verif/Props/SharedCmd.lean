import Verif.Spec.SharedCmd
import Mathlib.Data.List.Induction
import Mathlib.Tactic.ByContra
/-!
# C110: one command object in several runs
-/
set_option linter.unusedSimpArgs false
namespace Ddd.SharedCmd

/-- the run that was started last -/
def lastSet (l : List Access) : Option Nat := (l.filterMap fun x => match x with | .set i => some i | _ => none).getLast?

theorem run_snoc (l : List Access) (x : Access) : run (l ++ [x]) = step (run l) x := by simp [run]

theorem lastSet_set (l : List Access) (i : Nat) : lastSet (l ++ [.set i]) = some i := by simp [lastSet]
theorem lastSet_ask (l : List Access) (i : Nat) (a : Ask) : lastSet (l ++ [.ask i a]) = lastSet l := by simp [lastSet]

theorem agent_eq (l : List Access) : (run l).agent = lastSet l := by
  induction l using List.reverseRecOn with
  | nil => rfl
  | append_singleton l x ih =>
    rw [run_snoc]
    cases x with
    | set i => rw [lastSet_set]; rfl
    | ask i a =>
      rw [lastSet_ask, ← ih]
      simp only [step]
      split <;> simp_all

theorem lastSet_mem {l : List Access} {i : Nat} (h : .set i ∈ l) : ∃ j, lastSet l = some j := by
  unfold lastSet
  have : i ∈ l.filterMap fun x => match x with | .set i => some i | _ => none := List.mem_filterMap.2 ⟨_, h, rfl⟩
  cases hl : (l.filterMap fun x => match x with | .set i => some i | _ => none).getLast? with
  | some j => exact ⟨j, rfl⟩
  | none => rw [List.getLast?_eq_none_iff.1 hl] at this; simp at this

/-- the run started last, and the history after it -/
theorem lastSet_split {l : List Access} {j : Nat} (h : lastSet l = some j) : ∃ a b, l = a ++ .set j :: b ∧ ∀ k, .set k ∉ b := by
  induction l using List.reverseRecOn with
  | nil => simp [lastSet] at h
  | append_singleton l x ih =>
    cases x with
    | set i =>
      rw [lastSet_set] at h
      simp only [Option.some.injEq] at h
      subst h
      exact ⟨l, [], rfl, by simp⟩
    | ask i a =>
      rw [lastSet_ask] at h
      obtain ⟨u, v, h1, h2⟩ := ih h
      refine ⟨u, v ++ [.ask i a], by rw [h1]; simp, ?_⟩
      intro k hk
      rcases List.mem_append.1 hk with hk | hk
      · exact h2 k hk
      · simp at hk

theorem lastSet_after (a b : List Access) (j : Nat) (hb : ∀ k, .set k ∉ b) : lastSet (a ++ .set j :: b) = some j := by
  have : b.filterMap (fun x => match x with | .set i => some i | _ => none) = ([] : List Nat) := by
    rw [List.filterMap_eq_nil_iff]
    intro x hx
    cases x with
    | set k => exact absurd hx (hb k)
    | ask _ _ => rfl
  simp [lastSet, this]

/-- what has been reached, exactly -/
theorem reached_iff (l : List Access) (r : Reached) : r ∈ (run l).reached ↔ ∃ a b, l = a ++ .ask r.caller r.what :: b ∧ lastSet a = some r.stage := by
  induction l using List.reverseRecOn with
  | nil => simp [run, new]
  | append_singleton l x ih =>
    rw [run_snoc]
    have key : (∃ a b, l ++ [x] = a ++ .ask r.caller r.what :: b ∧ lastSet a = some r.stage) ↔
        (∃ a b, l = a ++ .ask r.caller r.what :: b ∧ lastSet a = some r.stage) ∨ x = .ask r.caller r.what ∧ lastSet l = some r.stage := by
      constructor
      · rintro ⟨a, b, h1, h2⟩
        induction b using List.reverseRecOn with
        | nil =>
          have := List.append_inj' h1 rfl
          obtain ⟨e1, e2⟩ := this
          simp only [List.cons.injEq, and_true] at e2
          subst e1
          exact .inr ⟨e2, h2⟩
        | append_singleton b y _ =>
          have h3 : l ++ [x] = (a ++ .ask r.caller r.what :: b) ++ [y] := by rw [h1]; simp
          obtain ⟨e1, e2⟩ := List.append_inj' h3 rfl
          exact .inl ⟨a, b, e1, h2⟩
      · rintro (⟨a, b, h1, h2⟩ | ⟨h1, h2⟩)
        · exact ⟨a, b ++ [x], by rw [h1]; simp, h2⟩
        · exact ⟨l, [], by rw [h1], h2⟩
    rw [key, ← ih]
    have hag := agent_eq l
    cases x with
    | set i => simp [step]
    | ask i a =>
      simp only [step]
      rw [← hag]
      cases hx : (run l).agent with
      | none => simp
      | some j =>
        simp only [List.mem_append, List.mem_singleton, Access.ask.injEq, Option.some.injEq]
        constructor
        · rintro (h | rfl)
          · exact .inl h
          · exact .inr ⟨⟨rfl, rfl⟩, rfl⟩
        · rintro (h | ⟨⟨rfl, rfl⟩, rfl⟩)
          · exact .inl h
          · exact .inr rfl

/-- **C110** Exactly: a call of `Commit` or `Output` acts on the stage of the run that was started last before the call, whoever makes it. -/
theorem C110_last_started (l : List Access) (r : Reached) :
    r ∈ (run l).reached ↔ ∃ a b d, l = a ++ .set r.stage :: (b ++ .ask r.caller r.what :: d) ∧ ∀ k, .set k ∉ b := by
  rw [reached_iff]
  constructor
  · rintro ⟨a, d, h1, h2⟩
    obtain ⟨u, v, h3, h4⟩ := lastSet_split h2
    exact ⟨u, v, d, by rw [h1, h3]; simp, h4⟩
  · rintro ⟨a, b, d, h1, h2⟩
    exact ⟨a ++ .set r.stage :: b, d, by rw [h1]; simp, lastSet_after a b _ h2⟩

/-- **C110** The calls of every run act on its own stage exactly if no other run of the object is started while a run still has calls to make. -/
theorem C110_own_iff_partial {l : List Access} (h : Runs l) : (∀ r ∈ (run l).reached, r.stage = r.caller) ↔ ¬ Overlap l := by
  constructor
  · rintro hr ⟨a, b, d, i, j, x, hj, hl, hi⟩
    obtain ⟨k, hk⟩ := lastSet_mem (l := a ++ .set j :: b) (i := j) (by simp)
    have hm := hr ⟨i, k, x⟩ ((reached_iff l _).2 ⟨a ++ .set j :: b, d, by rw [hl]; simp, hk⟩)
    simp only at hm
    subst hm
    obtain ⟨u, v, h1, h2⟩ := lastSet_split hk
    -- `set k` would be there twice
    obtain ⟨a1, a2, ha⟩ := List.append_of_mem hi
    have h3 := (h.2 a1 (a2 ++ .set j :: (b ++ .ask k x :: d)) k (by rw [hl, ha]; simp)).2
    apply h3
    have h4 : a2 ++ .set j :: b ≠ [] := by simp
    have h5 : lastSet (a2 ++ .set j :: b) = some k := by
      have hne : ∃ q, lastSet (a2 ++ .set j :: b) = some q := lastSet_mem (i := j) (by simp)
      obtain ⟨q, hq⟩ := hne
      obtain ⟨u', v', g1, g2⟩ := lastSet_split hq
      have : lastSet (a ++ .set j :: b) = some q := by
        have e : a ++ .set j :: b = (a1 ++ .set k :: u') ++ .set q :: v' := by rw [ha]; simp [← g1]
        rw [e]; exact lastSet_after _ _ _ g2
      rw [hk] at this
      rw [hq, ← this]
    obtain ⟨u', v', g1, g2⟩ := lastSet_split h5
    have : .set k ∈ a2 ++ .set j :: b := by rw [g1]; simp
    rcases List.mem_append.1 this with hm | hm
    · simp [hm]
    · rcases List.mem_cons.1 hm with hm | hm
      · simp only [Access.set.injEq] at hm; exact absurd hm.symm hj
      · simp [hm]
  · intro hno r hr
    obtain ⟨a, b, d, hl, hb⟩ := (C110_last_started l r).1 hr
    by_contra hne
    have hs := h.1 (a ++ .set r.stage :: b) d r.caller r.what (by rw [hl]; simp)
    rcases List.mem_append.1 hs with hm | hm
    · exact hno ⟨a, b, d, r.caller, r.stage, r.what, hne, hl, hm⟩
    · rcases List.mem_cons.1 hm with hm | hm
      · simp only [Access.set.injEq] at hm; exact hne hm.symm
      · exact hb _ hm

/-- the calls of `Output` that acted on stage `i`, if every call acts on the stage of its caller -/
theorem reached_own {l : List Access} (hrun : ∀ a b i x, l = a ++ .ask i x :: b → .set i ∈ a) (h : ∀ r ∈ (run l).reached, r.stage = r.caller) :
    (run l).reached = l.filterMap fun x => match x with | .ask i a => some ⟨i, i, a⟩ | _ => none := by
  induction l using List.reverseRecOn with
  | nil => rfl
  | append_singleton l x ih =>
    have hmono : ∀ r ∈ (run l).reached, r ∈ (run (l ++ [x])).reached := by
      intro r hr
      rw [run_snoc]
      cases x with
      | set i => exact hr
      | ask i a => simp only [step]; split <;> simp [hr]
    have ih' := ih (fun a b i y hl => hrun a (b ++ [x]) i y (by rw [hl]; simp)) fun r hr => h r (hmono r hr)
    rw [List.filterMap_append, ← ih']
    cases x with
    | set i => rw [run_snoc]; simp [step]
    | ask i a =>
      obtain ⟨j, hj⟩ := lastSet_mem (hrun l [] i a (by simp))
      have hag := agent_eq l
      rw [hj] at hag
      have hx : (run (l ++ [.ask i a])).reached = (run l).reached ++ [⟨i, j, a⟩] := by rw [run_snoc]; simp [step, hag]
      have hji := h ⟨i, j, a⟩ (by rw [hx]; simp)
      simp only at hji
      subst hji
      rw [hx]
      simp

/-- **C110** Without overlap the output of each result is what the code of its run said last. -/
theorem C110_output {l : List Access} (h : Runs l) (hno : ¬ Overlap l) (i : Nat) : (run l).outputOf i = (saidBy i l).getLast? := by
  have ho := reached_own h.1 ((C110_own_iff_partial h).2 hno)
  unfold State.outputOf saidBy
  rw [ho, List.filterMap_filterMap]
  congr 1
  apply congrArg (fun f => List.filterMap f l)
  funext x
  cases x with
  | set j => rfl
  | ask j a => cases a <;> rfl

/-- **C110** (sharing the object does not work in general) Run 2 starts before the code of run 1 calls `Output 7`: the output goes to the result of run 2, run 1 has none; and a `Commit` of run 1 saves the stage of run 2. -/
theorem C110_crossed : let l : List Access := [.set 1, .set 2, .ask 1 (.output 7), .ask 1 .commit]
    Overlap l ∧ (run l).outputOf 1 = none ∧ (run l).outputOf 2 = some 7 ∧ ⟨1, 2, .commit⟩ ∈ (run l).reached := by
  refine ⟨⟨[.set 1], [], [.ask 1 .commit], 1, 2, .output 7, by decide, rfl, by simp⟩, by decide, by decide, by decide⟩

/-- hypotheses of `C110_own_iff_partial` and `C110_output`: three runs one after the other, the second within the first after its last call. -/
def tidy : List Access := [.set 1, .ask 1 (.output 7), .ask 1 (.output 8), .set 2, .ask 2 .commit, .set 3, .ask 3 (.output 9)]
example : (run tidy).outputOf 1 = some 8 ∧ (run tidy).outputOf 2 = none ∧ (run tidy).outputOf 3 = some 9 ∧ ∀ r ∈ (run tidy).reached, r.stage = r.caller := by decide

theorem tidy_runs : Runs tidy := by
  have split : ∀ (a b : List Access) (y : Access), tidy = a ++ y :: b → ∃ n, n < 7 ∧ a = tidy.take n ∧ tidy[n]? = some y ∧ b = tidy.drop (n + 1) := by
    intro a b y h
    refine ⟨a.length, ?_, ?_, ?_, ?_⟩
    · have := congrArg List.length h
      simp [tidy] at this
      omega
    · rw [h]; simp
    · rw [h]; simp
    · rw [h]; simp [List.drop_append]
  constructor
  · intro a b i x h
    obtain ⟨n, hn, ha, hy, _⟩ := split a b _ h
    subst ha
    have : n = 0 ∨ n = 1 ∨ n = 2 ∨ n = 3 ∨ n = 4 ∨ n = 5 ∨ n = 6 := by omega
    rcases this with rfl | rfl | rfl | rfl | rfl | rfl | rfl <;> simp [tidy] at hy ⊢ <;> simp [← hy.1]
  · intro a b i h
    obtain ⟨n, hn, ha, hy, hb⟩ := split a b _ h
    subst ha hb
    have : n = 0 ∨ n = 1 ∨ n = 2 ∨ n = 3 ∨ n = 4 ∨ n = 5 ∨ n = 6 := by omega
    rcases this with rfl | rfl | rfl | rfl | rfl | rfl | rfl <;> simp [tidy] at hy ⊢ <;> simp [← hy]

/-- the hypotheses of `C110_own_iff_partial` and `C110_output` hold for `tidy` -/
example : Runs tidy ∧ ¬ Overlap tidy := ⟨tidy_runs, (C110_own_iff_partial tidy_runs).1 (by decide)⟩

end Ddd.SharedCmd
