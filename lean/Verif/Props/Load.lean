import Verif.Spec.Load
import Mathlib.Data.List.Forall2
/-!
# C67: loading
-/
set_option linter.unusedVariables false
set_option linter.unusedSimpArgs false
namespace Ddd.Load
open Ddd Spec

variable {env : LEnv} {st : Store}

/-- what one argument may change -/
structure Step (a : Arg) (s s1 : LSt) : Prop where
  next : s.next ≤ s1.next
  obj : ∀ q < s.next, target s a ≠ some q → s1.obj q = s.obj q
  slices : ∀ v, sliceVar a ≠ some v → s1.slices v = s.slices v
  ptrs : ∀ v, ptrVar a ≠ some v → s1.ptrs v = s.ptrs v
  inS : ∀ v, sliceVar a = some v → ∃ new, s1.slices v = s.slices v ++ new ∧ ∀ p ∈ new, p < s1.next
  inP : ∀ v p, ptrVar a = some v → s1.ptrs v = some p → s.ptrs v = some p ∨ (s.next ≤ p ∧ p < s1.next)

/-- `buildEntity` when it does not fail: the first matching row -/
theorem buildOne_ok (hr : Reads env.find st) {p : Nat} {par : Option Nat} {s s1 : LSt} (h : buildOne env p par s = (.ok (), s1)) :
    ∃ c q m o, env.reg (s.obj p).typ = some c ∧ c.e2m (s.obj p) (par.map s.obj) = .ok q ∧ RowsFor st q m ∧ c.m2e m (s.obj p) = .ok o ∧
      s1 = { s with obj := fun x => if x = p then o else s.obj x, log := s.log ++ [q] } := by
  unfold buildOne entity2Model at h
  cases hc : env.reg (s.obj p).typ with
  | none => rw [hc] at h; simp at h
  | some c =>
    rw [hc] at h; dsimp only at h
    cases hq : c.e2m (s.obj p) (par.map s.obj) with
    | panic => rw [hq] at h; simp at h
    | err e => rw [hq] at h; simp at h
    | ok q =>
      rw [hq] at h; dsimp only [query] at h
      cases hf : env.find s.log q with
      | panic => rw [hf] at h; simp at h
      | err e => rw [hf] at h; simp at h
      | ok l =>
        rw [hf] at h
        cases l with
        | nil => simp at h
        | cons m l =>
          dsimp only [model2Entity] at h
          rw [hc] at h; dsimp only at h
          cases hm : c.m2e m (s.obj p) with
          | panic => rw [hm] at h; simp at h
          | err e => rw [hm] at h; simp at h
          | ok o =>
            rw [hm] at h; simp only [setObj, Prod.mk.injEq, true_and] at h
            refine ⟨c, q, m, o, rfl, hq, ((hr _ _ _ hf).2 m).mp (by simp), hm, h.symm⟩

/-- `buildEntity` when it answers "not found": there is no matching row, and nothing changed -/
theorem buildOne_notFound (hr : Reads env.find st) (hh : Honest env) {p : Nat} {par : Option Nat} {s s1 : LSt} {e : Err} (h : buildOne env p par s = (.err e, s1))
    (he : e.is .notFound = true) :
    ∃ c q, env.reg (s.obj p).typ = some c ∧ c.e2m (s.obj p) (par.map s.obj) = .ok q ∧ (∀ m, ¬ RowsFor st q m) ∧ s1 = { s with log := s.log ++ [q] } := by
  unfold buildOne entity2Model at h
  cases hc : env.reg (s.obj p).typ with
  | none => rw [hc] at h; simp at h; rw [← h.1] at he; cases he
  | some c =>
    rw [hc] at h; dsimp only at h
    cases hq : c.e2m (s.obj p) (par.map s.obj) with
    | panic => rw [hq] at h; simp at h
    | err e' =>
      rw [hq] at h; simp at h
      rw [← h.1] at he
      rw [(hh.2 _ c hc).1 _ _ _ hq] at he; cases he
    | ok q =>
      rw [hq] at h; dsimp only [query] at h
      cases hf : env.find s.log q with
      | panic => rw [hf] at h; simp at h
      | err e' =>
        rw [hf] at h; simp at h
        rw [← h.1] at he
        rw [hh.1 _ _ _ hf] at he; cases he
      | ok l =>
        rw [hf] at h
        cases l with
        | nil =>
          simp only [Prod.mk.injEq] at h
          refine ⟨c, q, rfl, hq, ?_, h.2.symm⟩
          intro m hm
          have := ((hr _ _ _ hf).2 m).mpr hm
          simp at this
        | cons m l =>
          dsimp only [model2Entity] at h
          rw [hc] at h; dsimp only at h
          cases hm : c.m2e m (s.obj p) with
          | panic => rw [hm] at h; simp at h
          | err e' =>
            rw [hm] at h; simp at h
            rw [← h.1] at he
            rw [(hh.2 _ c hc).2 _ _ _ hm] at he; cases he
          | ok o => rw [hm] at h; simp at h

theorem appendRows_ok {e : Elem} {t : Nat} {c : Converter} (hc : env.reg t = some c) (ms : List Model) : ∀ (acc ps : List Nat) (s s1 : LSt),
    appendRows env e t ms acc s = (.ok ps, s1) →
    ∃ new, ps = acc ++ new ∧ new.Nodup ∧ (∀ p ∈ new, s.next ≤ p ∧ p < s1.next) ∧ s.next ≤ s1.next ∧ (∀ q < s.next, s1.obj q = s.obj q) ∧
      s1.slices = s.slices ∧ s1.ptrs = s.ptrs ∧ List.Forall₂ (fun m p => c.m2e m (zero t) = .ok (s1.obj p)) ms new := by
  induction ms with
  | nil =>
    intro acc ps s s1 h
    simp only [appendRows, Prod.mk.injEq, Res.ok.injEq] at h
    obtain ⟨rfl, rfl⟩ := h
    exact ⟨[], by simp, by simp, by simp, Nat.le_refl _, fun _ _ => rfl, rfl, rfl, .nil⟩
  | cons m ms ih =>
    intro acc ps s s1 h
    have ht : env.reg (zero t).typ = some c := hc
    simp only [appendRows, model2Entity, ht] at h
    cases hm : c.m2e m (zero t) with
    | panic => rw [hm] at h; simp at h
    | err e' => rw [hm] at h; simp at h
    | ok o =>
      rw [hm] at h; dsimp only at h
      by_cases hv : e = .value
      · rw [if_pos hv] at h; simp at h
      · rw [if_neg hv] at h
        obtain ⟨new, h1, h2, h3, h4, h5, h6, h7, h8⟩ := ih _ _ _ _ h
        dsimp only at h3 h4 h5 h6 h7
        refine ⟨s.next :: new, by rw [h1]; simp, ?_, ?_, by omega, ?_, h6, h7, ?_⟩
        · rw [List.nodup_cons]
          refine ⟨fun hx => ?_, h2⟩
          have := (h3 _ hx).1; omega
        · intro p hp
          rcases List.mem_cons.1 hp with rfl | hp
          · omega
          · have := h3 p hp; omega
        · intro q hq
          rw [h5 q (by omega)]
          rw [if_neg (by omega)]
        · refine .cons ?_ h8
          rw [h5 s.next (by omega), if_pos rfl]; exact hm

theorem buildSlice_ok (hr : Reads env.find st) {par : Nat} {v : Var} {e : Elem} {t : Nat} {s s1 : LSt} (h : buildSlice env par v e t s = (.ok (), s1)) :
    Step (.slice v e t) s s1 ∧ ArgLoaded env st (s.obj par) s s1 (.slice v e t) := by
  have main : ∀ x, x = buildSlice env par v e t s → e ≠ .other ∧ e ≠ .iface := by
    intro x hx
    constructor <;> rintro rfl <;> simp [buildSlice] at h
  obtain ⟨n1, n2⟩ := main _ rfl
  unfold buildSlice entity2Model at h
  cases hc : env.reg t with
  | none => cases e <;> simp [zero, hc] at h
  | some c =>
    have ht : env.reg (zero t).typ = some c := hc
    cases hq : c.e2m (zero t) (some (s.obj par)) with
    | panic => cases e <;> simp [ht, hq] at h
    | err e' => cases e <;> simp [ht, hq] at h
    | ok q =>
      cases hf : env.find s.log q with
      | panic => cases e <;> simp [ht, hq, query, hf] at h
      | err e' => cases e <;> simp [ht, hq, query, hf] at h
      | ok l =>
        obtain ⟨hn, hl⟩ := hr _ _ _ hf
        cases l with
        | nil =>
          have h' : s1 = { s with log := s.log ++ [q] } := by
            cases e <;> simp [ht, hq, query, hf] at h n1 n2 <;> exact h.symm
          subst h'
          refine ⟨⟨Nat.le_refl _, fun _ _ _ => rfl, fun _ _ => rfl, fun _ _ => rfl, fun _ _ => ⟨[], by simp, by simp⟩, fun _ _ _ h => .inl h⟩, ?_⟩
          exact ⟨c, q, [], [], hc, hq, by simp, hl, by simp, by simp, by simp, .nil⟩
        | cons m l =>
          have h' : (match appendRows env e t (m :: l) (s.slices v) { s with log := s.log ++ [q] } with
              | (.panic, s) => ((.panic, s) : Res Unit × LSt)
              | (.err e, s) => (.err e, s)
              | (.ok ps, s) => (.ok (), { s with slices := fun w => if w = v then ps else s.slices w })) = (.ok (), s1) := by
            cases e <;> simp [ht, hq, query, hf] at h n1 n2 <;> exact h
          cases ha : appendRows env e t (m :: l) (s.slices v) { s with log := s.log ++ [q] } with
          | mk r s2 =>
            rw [ha] at h'
            cases r with
            | panic => simp at h'
            | err e => simp at h'
            | ok ps =>
              simp only [Prod.mk.injEq, true_and] at h'
              obtain ⟨new, a1, a2, a3, a4, a5, a6, a7, a8⟩ := appendRows_ok hc _ _ _ _ _ ha
              dsimp only at a3 a4 a5 a6 a7
              subst h'
              refine ⟨⟨a4, fun q hq _ => a5 q hq, ?_, ?_, ?_, ?_⟩, ?_⟩
              · intro w hw
                have : w ≠ v := fun hx => hw (by rw [hx]; rfl)
                simp only [this, if_false, a6]
              · intro w _; simp only [a7]
              · intro w hw
                simp only [sliceVar, Option.some.injEq] at hw
                subst hw
                exact ⟨new, by simp [a1], fun p hp => (a3 p hp).2⟩
              · intro w p hw; simp [ptrVar] at hw
              · exact ⟨c, q, m :: l, new, hc, hq, hn, hl, by simp [a1], a2, fun p hp => (a3 p hp).1, a8⟩

theorem buildPtr_ok (hr : Reads env.find st) (hh : Honest env) {par : Nat} {v : Var} {t : Nat} {s s1 : LSt} (hpar : par < s.next) (hex : ∀ p, s.ptrs v = some p → p < s.next)
    (h : buildPtr env par v t s = (.ok (), s1)) :
    Step (.ptr v t) s s1 ∧ ArgLoaded env st (s.obj par) s s1 (.ptr v t) := by
  unfold buildPtr at h
  cases hv : s.ptrs v with
  | some p =>
    rw [hv] at h; dsimp only at h
    cases hb : buildOne env p (some par) s with
    | mk r s2 =>
      rw [hb] at h
      cases r with
      | panic => simp at h
      | ok _ =>
        simp only [Prod.mk.injEq, true_and] at h; subst h
        obtain ⟨c, q, m, o, h1, h2, h3, h4, h5⟩ := buildOne_ok hr hb
        subst h5
        refine ⟨⟨Nat.le_refl _, ?_, fun _ _ => rfl, fun _ _ => rfl, fun _ h => by simp [sliceVar] at h, fun _ _ _ h => .inl h⟩, ?_⟩
        · intro x hx hne
          have : x ≠ p := fun hx => hne (by simp [target, hv, hx])
          simp [this]
        · simp only [ArgLoaded, hv]
          exact ⟨c, q, h1, h2, .inl ⟨m, h3, trivial, by simpa using h4⟩⟩
      | err e =>
        dsimp only at h
        by_cases he : e.is .notFound = true
        · rw [if_pos he] at h
          simp only [Prod.mk.injEq, true_and] at h
          obtain ⟨c, q, h1, h2, h3, h4⟩ := buildOne_notFound hr hh hb he
          subst h4; subst h
          refine ⟨⟨Nat.le_refl _, fun _ _ _ => rfl, fun _ _ => rfl, ?_, fun _ h => by simp [sliceVar] at h, ?_⟩, ?_⟩
          · intro w hw
            have : w ≠ v := fun hx => hw (by rw [hx]; rfl)
            simp [this]
          · intro w p' hw hp
            simp only [ptrVar, Option.some.injEq] at hw; subst hw
            simp at hp
          · simp only [ArgLoaded, hv]
            exact ⟨c, q, h1, h2, .inr ⟨h3, by simp⟩⟩
        · rw [if_neg he] at h; simp at h
  | none =>
    rw [hv] at h; dsimp only at h
    generalize hs0 : ({ s with obj := fun q => if q = s.next then zero t else s.obj q, next := s.next + 1, ptrs := fun w => if w = v then some s.next else s.ptrs w } : LSt) = s0 at h
    have e1 : s0.obj s.next = zero t := by rw [← hs0]; simp
    have e2 : s0.obj par = s.obj par := by rw [← hs0]; simp only; rw [if_neg (by omega)]
    cases hb : buildOne env s.next (some par) s0 with
    | mk r s2 =>
      rw [hb] at h
      cases r with
      | panic => simp at h
      | ok _ =>
        simp only [Prod.mk.injEq, true_and] at h; subst h
        obtain ⟨c, q, m, o, h1, h2, h3, h4, h5⟩ := buildOne_ok hr hb
        rw [e1] at h1 h2 h4
        simp only [Option.map_some, e2] at h2
        subst h5; subst hs0
        refine ⟨⟨Nat.le_succ _, ?_, fun _ _ => rfl, ?_, fun _ h => by simp [sliceVar] at h, ?_⟩, ?_⟩
        · intro x hx hne
          have : x ≠ s.next := by omega
          simp [this]
        · intro w hw
          have : w ≠ v := fun hx => hw (by rw [hx]; rfl)
          simp [this]
        · intro w p' hw hp
          simp only [ptrVar, Option.some.injEq] at hw; subst hw
          simp at hp
          subst hp
          exact .inr ⟨Nat.le_refl _, Nat.lt_succ_self _⟩
        · simp only [ArgLoaded, hv]
          exact ⟨c, q, h1, h2, .inl ⟨m, s.next, h3, by simp, Nat.le_refl _, by simpa using h4⟩⟩
      | err e =>
        dsimp only at h
        by_cases he : e.is .notFound = true
        · rw [if_pos he] at h
          simp only [Prod.mk.injEq, true_and] at h
          obtain ⟨c, q, h1, h2, h3, h4⟩ := buildOne_notFound hr hh hb he
          rw [e1] at h1 h2
          simp only [Option.map_some, e2] at h2
          subst h4; subst h; subst hs0
          refine ⟨⟨Nat.le_succ _, ?_, fun _ _ => rfl, ?_, fun _ h => by simp [sliceVar] at h, ?_⟩, ?_⟩
          · intro x hx hne
            have : x ≠ s.next := by omega
            simp [this]
          · intro w hw
            have : w ≠ v := fun hx => hw (by rw [hx]; rfl)
            simp [this]
          · intro w p' hw hp
            simp only [ptrVar, Option.some.injEq] at hw; subst hw
            simp at hp
          · simp only [ArgLoaded, hv]
            exact ⟨c, q, h1, h2, .inr ⟨h3, by simp⟩⟩
        · rw [if_neg he] at h; simp at h

theorem buildEnt_ok (hr : Reads env.find st) (hh : Honest env) {par p : Nat} {s s1 : LSt} (h : buildArg env par (.entity p) s = (.ok (), s1)) :
    Step (.entity p) s s1 ∧ ArgLoaded env st (s.obj par) s s1 (.entity p) := by
  unfold buildArg at h
  dsimp only at h
  cases hb : buildOne env p (some par) s with
  | mk r s2 =>
    rw [hb] at h
    cases r with
    | panic => simp at h
    | ok _ =>
      simp only [Prod.mk.injEq, true_and] at h; subst h
      obtain ⟨c, q, m, o, h1, h2, h3, h4, h5⟩ := buildOne_ok hr hb
      subst h5
      refine ⟨⟨Nat.le_refl _, ?_, fun _ _ => rfl, fun _ _ => rfl, fun _ h => by simp [sliceVar] at h, fun _ _ _ h => .inl h⟩, ?_⟩
      · intro x hx hne
        have : x ≠ p := fun hx => hne (by simp [target, hx])
        simp [this]
      · exact ⟨c, q, h1, h2, .inl ⟨m, h3, by simpa using h4⟩⟩
    | err e =>
      dsimp only at h
      by_cases he : e.is .notFound = true
      · rw [if_pos he] at h
        simp only [Prod.mk.injEq, true_and] at h
        obtain ⟨c, q, h1, h2, h3, h4⟩ := buildOne_notFound hr hh hb he
        subst h4; subst h
        refine ⟨⟨Nat.le_refl _, fun _ _ _ => rfl, fun _ _ => rfl, fun _ _ => rfl, fun _ h => by simp [sliceVar] at h, fun _ _ _ h => .inl h⟩, ?_⟩
        exact ⟨c, q, h1, h2, .inr ⟨h3, rfl⟩⟩
      · rw [if_neg he] at h; simp at h

theorem buildArg_ok (hr : Reads env.find st) (hh : Honest env) {par : Nat} {a : Arg} {s s1 : LSt} (hpar : par < s.next) (hex : ∀ p, target s a = some p → p < s.next)
    (h : buildArg env par a s = (.ok (), s1)) : Step a s s1 ∧ ArgLoaded env st (s.obj par) s s1 a := by
  cases a with
  | notPtr => simp [buildArg] at h
  | other => simp [buildArg] at h
  | slice v e t => exact buildSlice_ok hr h
  | ptr v t => exact buildPtr_ok hr hh hpar hex h
  | entity p => exact buildEnt_ok hr hh h

/-- later arguments do not disturb what was loaded -/
theorem loaded_after {par : Obj} {a : Arg} {s s1 s' : LSt} (hl : ArgLoaded env st par s s1 a) (hs : Step a s s1)
    (hobj : ∀ q, target s a = some q ∨ (s.next ≤ q ∧ q < s1.next) → s'.obj q = s1.obj q)
    (hsl : ∀ v, sliceVar a = some v → s'.slices v = s1.slices v) (hpt : ∀ v, ptrVar a = some v → s'.ptrs v = s1.ptrs v) : ArgLoaded env st par s s' a := by
  cases a with
  | notPtr => exact hl
  | other => exact hl
  | slice v e t =>
    obtain ⟨c, q, l, ps, h1, h2, h3, h4, h5, h6, h7, h8⟩ := hl
    refine ⟨c, q, l, ps, h1, h2, h3, h4, by rw [hsl v rfl, h5], h6, h7, ?_⟩
    obtain ⟨new, i1, i2⟩ := hs.inS v rfl
    have : ps = new := List.append_cancel_left (h5.symm.trans i1)
    subst this
    rw [List.forall₂_iff_get] at h8 ⊢
    refine ⟨h8.1, fun i hi hi' => ?_⟩
    rw [hobj _ (.inr ⟨h7 _ (List.get_mem ..), i2 _ (List.get_mem ..)⟩)]
    exact h8.2 i hi hi'
  | ptr v t =>
    simp only [ArgLoaded] at hl ⊢
    cases hv : s.ptrs v with
    | some p =>
      rw [hv] at hl
      obtain ⟨c, q, h1, h2, h3⟩ := hl
      refine ⟨c, q, h1, h2, ?_⟩
      rcases h3 with ⟨m, h3, h4, h5⟩ | ⟨h3, h4⟩
      · exact .inl ⟨m, h3, by rw [hpt v rfl, h4], by rw [hobj p (.inl hv)]; exact h5⟩
      · exact .inr ⟨h3, by rw [hpt v rfl, h4]⟩
    | none =>
      rw [hv] at hl
      obtain ⟨c, q, h1, h2, h3⟩ := hl
      refine ⟨c, q, h1, h2, ?_⟩
      rcases h3 with ⟨m, p, h3, h4, h5, h6⟩ | ⟨h3, h4⟩
      · refine .inl ⟨m, p, h3, by rw [hpt v rfl, h4], h5, ?_⟩
        rw [hobj p (.inr ?_)]
        · exact h6
        · rcases hs.inP v p rfl h4 with h | h
          · rw [hv] at h; cases h
          · exact h
      · exact .inr ⟨h3, by rw [hpt v rfl, h4]⟩
  | entity p =>
    obtain ⟨c, q, h1, h2, h3⟩ := hl
    refine ⟨c, q, h1, h2, ?_⟩
    rcases h3 with ⟨m, h3, h4⟩ | ⟨h3, h4⟩
    · exact .inl ⟨m, h3, by rw [hobj p (.inl rfl)]; exact h4⟩
    · exact .inr ⟨h3, by rw [hobj p (.inl rfl)]; exact h4⟩

/-- earlier arguments do not disturb what is to be loaded -/
theorem loaded_before {par : Obj} {a : Arg} {s s1 s' : LSt} (hl : ArgLoaded env st par s1 s' a) (hn : s.next ≤ s1.next)
    (hobj : ∀ q, target s a = some q → s1.obj q = s.obj q)
    (hsl : ∀ v, sliceVar a = some v → s1.slices v = s.slices v) (hpt : ∀ v, ptrVar a = some v → s1.ptrs v = s.ptrs v) : ArgLoaded env st par s s' a := by
  cases a with
  | notPtr => exact hl
  | other => exact hl
  | slice v e t =>
    obtain ⟨c, q, l, ps, h1, h2, h3, h4, h5, h6, h7, h8⟩ := hl
    exact ⟨c, q, l, ps, h1, h2, h3, h4, by rw [h5, hsl v rfl], h6, fun p hp => Nat.le_trans hn (h7 p hp), h8⟩
  | ptr v t =>
    simp only [ArgLoaded] at hl ⊢
    rw [hpt v rfl] at hl
    cases hv : s.ptrs v with
    | some p =>
      rw [hv] at hl
      dsimp only at hl
      rw [hobj p hv] at hl
      exact hl
    | none =>
      rw [hv] at hl
      obtain ⟨c, q, h1, h2, h3⟩ := hl
      refine ⟨c, q, h1, h2, ?_⟩
      rcases h3 with ⟨m, p, h3, h4, h5, h6⟩ | h
      · exact .inl ⟨m, p, h3, h4, Nat.le_trans hn h5, h6⟩
      · exact .inr h
  | entity p =>
    simp only [ArgLoaded] at hl ⊢
    rw [hobj p rfl] at hl
    exact hl

/-- the arguments change nothing else -/
structure Frame (args : List Arg) (s s' : LSt) : Prop where
  next : s.next ≤ s'.next
  obj : ∀ q < s.next, (∀ a ∈ args, target s a ≠ some q) → s'.obj q = s.obj q
  slices : ∀ v, (∀ a ∈ args, sliceVar a ≠ some v) → s'.slices v = s.slices v
  ptrs : ∀ v, (∀ a ∈ args, ptrVar a ≠ some v) → s'.ptrs v = s.ptrs v

theorem target_eq {a : Arg} {s s1 : LSt} (h : ∀ v, ptrVar a = some v → s1.ptrs v = s.ptrs v) : target s1 a = target s a := by
  cases a <;> simp_all [target, ptrVar]

theorem filterMap_congr' {α β : Type} {f g : α → Option β} {l : List α} (h : ∀ a ∈ l, f a = g a) : l.filterMap f = l.filterMap g := by
  induction l with
  | nil => rfl
  | cons a l ih =>
    rw [List.filterMap_cons, List.filterMap_cons, h a (by simp), ih fun b hb => h b (by simp [hb])]

theorem nodup_head {α β : Type} {f : α → Option β} {a : α} {l : List α} (h : ((a :: l).filterMap f).Nodup) :
    (l.filterMap f).Nodup ∧ ∀ b ∈ l, ∀ x, f a = some x → f b ≠ some x := by
  rw [List.filterMap_cons] at h
  cases hf : f a with
  | none => rw [hf] at h; exact ⟨h, fun b _ x hx => by cases hx⟩
  | some y =>
    rw [hf] at h
    rw [List.nodup_cons] at h
    refine ⟨h.2, fun b hb x hx hbx => h.1 ?_⟩
    cases hx
    exact List.mem_filterMap.2 ⟨b, hb, hbx⟩

theorem buildArgs_ok (hr : Reads env.find st) (hh : Honest env) {par : Nat} (args : List Arg) : ∀ {s s' : LSt}, Apart par args s → buildArgs env par args s = (.ok (), s') →
    Frame args s s' ∧ ∀ a ∈ args, ArgLoaded env st (s.obj par) s s' a := by
  induction args with
  | nil =>
    intro s s' _ h
    simp only [buildArgs, Prod.mk.injEq, true_and] at h
    subst h
    exact ⟨⟨Nat.le_refl _, fun _ _ _ => rfl, fun _ _ => rfl, fun _ _ => rfl⟩, by simp⟩
  | cons a as ih =>
    intro s s' hap h
    unfold buildArgs at h
    cases hb : buildArg env par a s with
    | mk r s1 =>
      rw [hb] at h
      cases r with
      | panic => simp at h
      | err e => simp at h
      | ok _ =>
        dsimp only at h
        obtain ⟨hs, hl⟩ := buildArg_ok hr hh hap.known (fun p => hap.exist a (by simp) p) hb
        obtain ⟨t1, t2⟩ := nodup_head hap.targets
        obtain ⟨v1, v2⟩ := nodup_head hap.slices
        obtain ⟨p1, p2⟩ := nodup_head hap.ptrs
        have hpt : ∀ b ∈ as, ∀ v, ptrVar b = some v → s1.ptrs v = s.ptrs v := by
          intro b hb v hv
          apply hs.ptrs
          intro ha
          exact p2 b hb v ha hv
        have htg : ∀ b ∈ as, target s1 b = target s b := fun b hb => target_eq (hpt b hb)
        have hpar : s1.obj par = s.obj par := hs.obj par hap.known (hap.notParent a (by simp))
        have hap1 : Apart par as s1 := by
          refine ⟨Nat.lt_of_lt_of_le hap.known hs.next, ?_, ?_, ?_, v1, p1⟩
          · intro b hb p hp
            rw [htg b hb] at hp
            exact Nat.lt_of_lt_of_le (hap.exist b (by simp [hb]) p hp) hs.next
          · intro b hb; rw [htg b hb]; exact hap.notParent b (by simp [hb])
          · rw [filterMap_congr' htg]; exact t1
        obtain ⟨hf, hls⟩ := ih hap1 h
        rw [hpar] at hls
        refine ⟨⟨Nat.le_trans hs.next hf.next, ?_, ?_, ?_⟩, ?_⟩
        · intro q hq hn
          rw [hf.obj q (Nat.lt_of_lt_of_le hq hs.next) (fun b hb => by rw [htg b hb]; exact hn b (by simp [hb])), hs.obj q hq (hn a (by simp))]
        · intro v hv
          rw [hf.slices v (fun b hb => hv b (by simp [hb])), hs.slices v (hv a (by simp))]
        · intro v hv
          rw [hf.ptrs v (fun b hb => hv b (by simp [hb])), hs.ptrs v (hv a (by simp))]
        · intro b hb
          rcases List.mem_cons.1 hb with rfl | hb
          · refine loaded_after hl hs ?_ ?_ ?_
            · intro q hq
              apply hf.obj
              · rcases hq with hq | hq
                · exact Nat.lt_of_lt_of_le (hap.exist b (by simp) q hq) hs.next
                · exact hq.2
              · intro b' hb' ht
                rw [htg b' hb'] at ht
                rcases hq with hq | hq
                · exact t2 b' hb' q hq ht
                · have := hap.exist b' (by simp [hb']) q ht
                  omega
            · intro v hv
              exact hf.slices v fun b' hb' => v2 b' hb' v hv
            · intro v hv
              exact hf.ptrs v fun b' hb' => p2 b' hb' v hv
          · refine loaded_before (hls b hb) hs.next ?_ ?_ (hpt b hb)
            · intro q hq
              refine hs.obj q (hap.exist b (by simp [hb]) q hq) fun ha => ?_
              exact t2 b hb q ha hq
            · intro v hv
              exact hs.slices v fun ha => v2 b hb v ha hv

/-- **C67** When `BuildEntity` (hence `Repository.Get`) succeeds, the parent holds the row its query selects, and for every children argument:
a slice has been extended by exactly one new entity for every row its query selects, in its own object, and by nothing else;
a pointer points to the entity of such a row, or is nil and there is none; an entity holds such a row, or is as it was and there is none.
Nothing else has changed. For every store, every converters, every number of rows and arguments. -/
theorem C67_build (hr : Reads env.find st) (hh : Honest env) {par : Nat} {args : List Arg} {s s' : LSt} (hap : Apart par args s) (h : build env par args s = (.ok (), s')) :
    (s.obj par).id ≠ 0 ∧
    (∃ c q m, env.reg (s.obj par).typ = some c ∧ c.e2m (s.obj par) none = .ok q ∧ RowsFor st q m ∧ c.m2e m (s.obj par) = .ok (s'.obj par)) ∧
    (∀ a ∈ args, ArgLoaded env st (s'.obj par) s s' a) ∧
    (∀ q < s.next, q ≠ par → (∀ a ∈ args, target s a ≠ some q) → s'.obj q = s.obj q) ∧
    (∀ v, (∀ a ∈ args, sliceVar a ≠ some v) → s'.slices v = s.slices v) ∧ (∀ v, (∀ a ∈ args, ptrVar a ≠ some v) → s'.ptrs v = s.ptrs v) := by
  unfold build at h
  by_cases hid : (s.obj par).id = 0
  · rw [if_pos hid] at h; simp at h
  · rw [if_neg hid] at h
    refine ⟨hid, ?_⟩
    cases hb : buildOne env par none s with
    | mk r s0 =>
      rw [hb] at h
      cases r with
      | panic => simp at h
      | err e => simp at h
      | ok _ =>
        dsimp only at h
        obtain ⟨c, q, m, o, h1, h2, h3, h4, h5⟩ := buildOne_ok hr hb
        have e0 : s0.obj par = o := by rw [h5]; simp
        have eo : ∀ x, x ≠ par → s0.obj x = s.obj x := by intro x hx; rw [h5]; simp [hx]
        have en : s0.next = s.next := by rw [h5]
        have es : s0.slices = s.slices := by rw [h5]
        have ep : s0.ptrs = s.ptrs := by rw [h5]
        have et : ∀ a, target s0 a = target s a := fun a => target_eq fun v _ => by rw [ep]
        have hap0 : Apart par args s0 := by
          refine ⟨by rw [en]; exact hap.known, ?_, ?_, ?_, hap.slices, hap.ptrs⟩
          · intro a ha p hp; rw [et] at hp; rw [en]; exact hap.exist a ha p hp
          · intro a ha; rw [et]; exact hap.notParent a ha
          · rw [filterMap_congr' fun a _ => et a]; exact hap.targets
        obtain ⟨hf, hl⟩ := buildArgs_ok hr hh args hap0 h
        have hp' : s'.obj par = s0.obj par := hf.obj par hap0.known fun a ha => hap0.notParent a ha
        rw [← hp'] at hl
        refine ⟨⟨c, q, m, h1, by simpa using h2, h3, by rw [hp', e0]; exact h4⟩, ?_, ?_, ?_, ?_⟩
        · intro a ha
          refine loaded_before (hl a ha) (by rw [en]) ?_ (fun v _ => by rw [es]) (fun v _ => by rw [ep])
          intro x hx
          exact eo x fun hxp => hap.notParent a ha (by rw [hx, hxp])
        · intro x hx hne hn
          rw [hf.obj x (by rw [en]; exact hx) (fun a ha => by rw [et]; exact hn a ha), eo x hne]
        · intro v hv; rw [hf.slices v hv, es]
        · intro v hv; rw [hf.ptrs v hv, ep]

/-- **C67** With a query by ID, the parent's row is the row with its ID. -/
theorem C67_parent_by_id (hr : Reads env.find st) (hh : Honest env) {par : Nat} {args : List Arg} {s s' : LSt} (hap : Apart par args s) (h : build env par args s = (.ok (), s'))
    (hq : ∀ c q, env.reg (s.obj par).typ = some c → c.e2m (s.obj par) none = .ok q → q.id = (s.obj par).id) :
    ∃ c t m, env.reg (s.obj par).typ = some c ∧ st (t, (s.obj par).id) = some m ∧ c.m2e m (s.obj par) = .ok (s'.obj par) := by
  obtain ⟨hid, ⟨c, q, m, h1, h2, h3, h4⟩, _⟩ := C67_build hr hh hap h
  refine ⟨c, q.typ, m, h1, ?_, h4⟩
  have hi := hq c q h1 h2
  have : m.key = (q.typ, (s.obj par).id) := by
    have h5 := h3.2.1
    have h6 := h3.2.2.1 (by rw [hi]; exact hid)
    simp [Model.key, h5, h6, hi]
  rw [← this]; exact h3.1

theorem buildSlice_found (hh : Honest env) {par : Nat} {v : Var} {e : Elem} {t : Nat} {s s1 : LSt} {er : Err} (h : buildSlice env par v e t s = (.err er, s1)) : er.is .notFound = false := by
  by_cases n1 : e = .other
  · subst n1; simp [buildSlice] at h; rw [← h.1]; rfl
  by_cases n2 : e = .iface
  · subst n2; simp [buildSlice] at h
  unfold buildSlice entity2Model at h
  cases hc : env.reg t with
  | none => cases e <;> simp [zero, hc] at h n1 n2 <;> (rw [← h.1]; rfl)
  | some c =>
    have ht : env.reg (zero t).typ = some c := hc
    cases hq : c.e2m (zero t) (some (s.obj par)) with
    | panic => cases e <;> simp [ht, hq] at h n1 n2
    | err e' => cases e <;> simp [ht, hq] at h n1 n2 <;> (rw [← h.1]; exact (hh.2 _ c hc).1 _ _ _ hq)
    | ok q =>
      cases hf : env.find s.log q with
      | panic => cases e <;> simp [ht, hq, query, hf] at h n1 n2
      | err e' => cases e <;> simp [ht, hq, query, hf] at h n1 n2 <;> (rw [← h.1]; exact hh.1 _ _ _ hf)
      | ok l =>
        cases l with
        | nil => cases e <;> simp [ht, hq, query, hf] at h n1 n2
        | cons m l =>
          have hal : ∀ ms acc (s s1 : LSt) er, appendRows env e t ms acc s = (.err er, s1) → er.is .notFound = false := by
            intro ms
            induction ms with
            | nil => intro acc s s1 er h; simp [appendRows] at h
            | cons m ms ih =>
              intro acc s s1 er h
              simp only [appendRows, model2Entity, ht] at h
              cases hm : c.m2e m (zero t) with
              | panic => rw [hm] at h; simp at h
              | err e' => rw [hm] at h; simp at h; rw [← h.1]; exact (hh.2 _ c hc).2 _ _ _ hm
              | ok o =>
                rw [hm] at h; dsimp only at h
                by_cases hv : e = .value
                · rw [if_pos hv] at h; simp at h
                · rw [if_neg hv] at h; exact ih _ _ _ _ h
          have h' : (match appendRows env e t (m :: l) (s.slices v) { s with log := s.log ++ [q] } with
              | (.panic, s) => ((.panic, s) : Res Unit × LSt)
              | (.err e, s) => (.err e, s)
              | (.ok ps, s) => (.ok (), { s with slices := fun w => if w = v then ps else s.slices w })) = (.err er, s1) := by
            cases e <;> simp [ht, hq, query, hf] at h n1 n2 <;> exact h
          cases ha : appendRows env e t (m :: l) (s.slices v) { s with log := s.log ++ [q] } with
          | mk r s2 =>
            rw [ha] at h'
            cases r with
            | panic => simp at h'
            | ok ps => simp at h'
            | err e2 => simp at h'; rw [← h'.1]; exact hal _ _ _ _ _ ha

theorem buildArgs_found (hh : Honest env) {par : Nat} (args : List Arg) : ∀ {s s1 : LSt} {er : Err}, buildArgs env par args s = (.err er, s1) → er.is .notFound = false := by
  induction args with
  | nil => intro s s1 er h; simp [buildArgs] at h
  | cons a as ih =>
    intro s s1 er h
    unfold buildArgs at h
    cases hb : buildArg env par a s with
    | mk r s2 =>
      rw [hb] at h
      cases r with
      | panic => simp at h
      | ok _ => exact ih h
      | err e =>
        simp at h
        rw [← h.1]
        cases a with
        | notPtr => simp [buildArg] at hb; rw [← hb.1]; rfl
        | other => simp [buildArg] at hb; rw [← hb.1]; rfl
        | slice v e t => exact buildSlice_found hh hb
        | ptr v t =>
          simp only [buildArg, buildPtr] at hb
          split at hb
          · next e' s3 hx =>
            by_cases he : e'.is .notFound = true
            · rw [if_pos he] at hb; simp at hb
            · rw [if_neg he] at hb; simp at hb; rw [← hb.1]; simpa using he
          · next hno hx => exact absurd hb (by rintro hb; simp only [Prod.mk.injEq] at hb; exact hno _ hb.1)
        | entity p =>
          simp only [buildArg] at hb
          cases hx : buildOne env p (some par) s with
          | mk r s3 =>
            rw [hx] at hb
            cases r with
            | panic => simp at hb
            | ok _ => simp at hb
            | err e' =>
              dsimp only at hb
              by_cases he : e'.is .notFound = true
              · rw [if_pos he] at hb; simp at hb
              · rw [if_neg he] at hb; simp at hb; rw [← hb.1]; simpa using he

/-- **C67** "Entity not found" means: no row is selected by the parent's query; then nothing has changed (a missing child is no error). -/
theorem C67_not_found (hr : Reads env.find st) (hh : Honest env) {par : Nat} {args : List Arg} {s s' : LSt} {e : Err} (h : build env par args s = (.err e, s'))
    (he : e.is .notFound = true) :
    (∃ c q, env.reg (s.obj par).typ = some c ∧ c.e2m (s.obj par) none = .ok q ∧ ∀ m, ¬ RowsFor st q m) ∧ s'.obj = s.obj ∧ s'.slices = s.slices ∧ s'.ptrs = s.ptrs := by
  unfold build at h
  by_cases hid : (s.obj par).id = 0
  · rw [if_pos hid] at h; simp at h; rw [← h.1] at he; cases he
  · rw [if_neg hid] at h
    cases hb : buildOne env par none s with
    | mk r s0 =>
      rw [hb] at h
      cases r with
      | panic => simp at h
      | ok _ => rw [buildArgs_found hh args h] at he; cases he
      | err e' =>
        simp at h
        obtain ⟨rfl, rfl⟩ := h
        obtain ⟨c, q, h1, h2, h3, h4⟩ := buildOne_notFound hr hh hb he
        rw [h4]
        exact ⟨⟨c, q, h1, by simpa using h2, h3⟩, rfl, rfl, rfl⟩

/-! ### Loading succeeds exactly when the root exists -/

theorem buildOne_works (hr : Reads env.find st) (hw : AllWork env) (p : Nat) (par : Option Nat) (s : LSt) :
    ∃ s1, buildOne env p par s = (.ok (), s1) ∨ (buildOne env p par s = (.err (.sent .notFound), s1) ∧ ∀ c q, env.reg (s.obj p).typ = some c → c.e2m (s.obj p) (par.map s.obj) = .ok q → ∀ m, ¬ RowsFor st q m) := by
  obtain ⟨c, hc⟩ := hw.reg (s.obj p).typ
  obtain ⟨q, hq⟩ := hw.e2m _ c hc (s.obj p) (par.map s.obj)
  obtain ⟨l, hf⟩ := hw.find s.log q
  unfold buildOne entity2Model
  rw [hc]; dsimp only; rw [hq]; dsimp only [query]; rw [hf]
  cases l with
  | nil =>
    refine ⟨_, .inr ⟨rfl, ?_⟩⟩
    intro c' q' h1 h2 m hm
    simp only [Option.some.injEq] at h1; subst h1
    rw [hq] at h2; simp only [Res.ok.injEq] at h2; subst h2
    have := ((hr _ _ _ hf).2 m).mpr hm
    simp at this
  | cons m l =>
    obtain ⟨o, hm⟩ := hw.m2e _ c hc m (s.obj p)
    dsimp only [model2Entity]; rw [hc]; dsimp only; rw [hm]
    exact ⟨_, .inl rfl⟩

theorem appendRows_works (hw : AllWork env) (t : Nat) (ms : List Model) : ∀ acc s, ∃ ps s1, appendRows env .pointer t ms acc s = (.ok ps, s1) := by
  induction ms with
  | nil => exact fun acc s => ⟨acc, s, rfl⟩
  | cons m ms ih =>
    intro acc s
    obtain ⟨c, hc⟩ := hw.reg t
    obtain ⟨o, hm⟩ := hw.m2e _ c hc m (zero t)
    have ht : env.reg (zero t).typ = some c := hc
    unfold appendRows model2Entity
    rw [ht]; dsimp only; rw [hm]; dsimp only
    rw [if_neg (by simp)]
    exact ih _ _

theorem buildArg_works (hr : Reads env.find st) (hw : AllWork env) {a : Arg} (hg : Fine a) (par : Nat) (s : LSt) : ∃ s1, buildArg env par a s = (.ok (), s1) := by
  cases a with
  | notPtr => exact hg.elim
  | other => exact hg.elim
  | slice v e t =>
    have he : e = .pointer := hg
    subst he
    obtain ⟨c, hc⟩ := hw.reg t
    obtain ⟨q, hq⟩ := hw.e2m _ c hc (zero t) (some (s.obj par))
    obtain ⟨l, hf⟩ := hw.find s.log q
    have ht : env.reg (zero t).typ = some c := hc
    simp only [buildArg, buildSlice, entity2Model, ht, hq, query, hf]
    cases l with
    | nil => exact ⟨_, rfl⟩
    | cons m l =>
      obtain ⟨ps, s1, ha⟩ := appendRows_works hw t (m :: l) (s.slices v) { s with log := s.log ++ [q] }
      dsimp only; rw [ha]
      exact ⟨_, rfl⟩
  | ptr v t =>
    simp only [buildArg, buildPtr]
    split
    · next e s1 hx =>
      obtain ⟨s2, h | ⟨h, _⟩⟩ := buildOne_works hr hw _ _ _
      · rw [h] at hx; simp at hx
      · rw [h] at hx; simp only [Prod.mk.injEq, Res.err.injEq] at hx
        rw [← hx.1]; exact ⟨_, rfl⟩
    · next r s1 hno hx =>
      obtain ⟨s2, h | ⟨h, _⟩⟩ := buildOne_works hr hw _ _ _
      · rw [h] at hx; simp only [Prod.mk.injEq] at hx; exact ⟨s1, by rw [← hx.1]⟩
      · rw [h] at hx; simp only [Prod.mk.injEq] at hx; exact absurd hx.1.symm (hno _)
  | entity p =>
    simp only [buildArg]
    obtain ⟨s2, h | ⟨h, _⟩⟩ := buildOne_works hr hw p (some par) s
    · rw [h]; exact ⟨_, rfl⟩
    · rw [h]; exact ⟨_, rfl⟩

theorem buildArgs_works (hr : Reads env.find st) (hw : AllWork env) (par : Nat) (args : List Arg) (hg : ∀ a ∈ args, Fine a) : ∀ s, ∃ s1, buildArgs env par args s = (.ok (), s1) := by
  induction args with
  | nil => exact fun s => ⟨s, rfl⟩
  | cons a as ih =>
    intro s
    obtain ⟨s1, h⟩ := buildArg_works hr hw (hg a (by simp)) par s
    obtain ⟨s2, h2⟩ := ih (fun b hb => hg b (by simp [hb])) s1
    refine ⟨s2, ?_⟩
    unfold buildArgs; rw [h]; exact h2

/-- **C67** With a database and converters that do not fail and arguments of the documented kinds, loading an entity that has an ID succeeds exactly when its row exists, and answers "not found" otherwise. -/
theorem C67_found_iff (hr : Reads env.find st) (hw : AllWork env) {par : Nat} {args : List Arg} (hg : ∀ a ∈ args, Fine a) {s : LSt} (hid : (s.obj par).id ≠ 0)
    {c : Converter} {q : Model} (hc : env.reg (s.obj par).typ = some c) (hq : c.e2m (s.obj par) none = .ok q) :
    ((∃ s', build env par args s = (.ok (), s')) ↔ ∃ m, RowsFor st q m) ∧
    ((∃ s', build env par args s = (.err (.sent .notFound), s')) ↔ ¬ ∃ m, RowsFor st q m) := by
  unfold build
  rw [if_neg hid]
  obtain ⟨s1, h | ⟨h, hno⟩⟩ := buildOne_works hr hw par none s
  · obtain ⟨s2, h2⟩ := buildArgs_works hr hw par args hg s1
    obtain ⟨c', q', m, o, a1, a2, a3, _⟩ := buildOne_ok hr h
    rw [hc] at a1; cases a1
    simp only [Option.map_none] at a2
    rw [hq] at a2; cases a2
    rw [h]; dsimp only; rw [h2]
    exact ⟨⟨fun _ => ⟨m, a3⟩, fun _ => ⟨s2, rfl⟩⟩, ⟨by rintro ⟨s', hx⟩; simp at hx, fun hx => absurd ⟨m, a3⟩ hx⟩⟩
  · rw [h]; dsimp only
    have := hno c q hc hq
    exact ⟨⟨by rintro ⟨s', hx⟩; simp at hx, fun ⟨m, hm⟩ => absurd hm (this m)⟩, ⟨fun _ ⟨m, hm⟩ => this m hm, fun _ => ⟨s1, rfl⟩⟩⟩

/-! ## Concrete cases -/
namespace Demo

/-- the usual converter of a root type: columns from the fields -/
def std (t : Nat) : Converter where
  e2m o p := .ok { typ := t, id := o.id, parent := (p.map (·.id)).getD 0, data := o.data }
  m2e m o := .ok { o with id := m.id, data := m.data }
  keeps := by intro m o o' h; simp only [Res.ok.injEq] at h; rw [← h]

/-- a store with finitely many rows -/
def rowsStore (l : List Model) : Store := fun k => l.find? fun m => m.key = k

/-- a database that answers from a list of rows -/
def listFind (l : List Model) (_ : List Model) (q : Model) : Res (List Model) :=
  .ok (l.filter fun m => m.typ = q.typ ∧ (q.id ≠ 0 → m.id = q.id) ∧ (q.parent ≠ 0 → m.parent = q.parent) ∧ (q.data ≠ 0 → m.data = q.data))

theorem find_key {l : List Model} (hk : (l.map Model.key).Nodup) {m : Model} : rowsStore l m.key = some m ↔ m ∈ l := by
  unfold rowsStore
  induction l with
  | nil => simp
  | cons a l ih =>
    simp only [List.map_cons, List.nodup_cons] at hk
    rw [List.find?_cons]
    by_cases h : a.key = m.key
    · simp only [h, decide_true, Option.some.injEq, List.mem_cons]
      refine ⟨fun hx => .inl hx.symm, ?_⟩
      rintro (rfl | hm)
      · rfl
      · exact absurd (List.mem_map_of_mem (f := Model.key) hm) (h ▸ hk.1)
    · simp only [h, decide_false, List.mem_cons, ih hk.2]
      refine ⟨.inr, ?_⟩
      rintro (rfl | hm)
      · exact absurd rfl h
      · exact hm

theorem reads_list {l : List Model} (hk : (l.map Model.key).Nodup) : Reads (listFind l) (rowsStore l) := by
  intro t q r h
  unfold listFind at h
  rw [Res.ok.injEq] at h; subst h
  refine ⟨(List.Nodup.of_map _ hk).filter _, fun m => ?_⟩
  rw [List.mem_filter, RowsFor, find_key hk, decide_eq_true_eq]
  rfl

/-- order 1 (table 1) with items 5, 6 (table 2) and address 7 (table 3); order 2 with item 8 -/
def shop : List Model :=
  [⟨1, 1, 0, 50⟩, ⟨2, 5, 1, 51⟩, ⟨2, 8, 2, 52⟩, ⟨2, 6, 1, 53⟩, ⟨3, 7, 1, 54⟩, ⟨1, 2, 0, 55⟩]

def shopEnv : LEnv where
  reg t := some (std t)
  find := listFind shop

/-- object 0: an order with ID 1; objects 1..: free -/
def start : LSt where
  obj p := { zero 1 with id := if p = 0 then 1 else 0 }
  next := 1
  slices _ := []
  ptrs _ := none
  log := []

def args : List Arg := [.slice 0 .pointer 2, .ptr 0 3, .ptr 1 4]

theorem start_apart : Apart 0 args start :=
  ⟨by decide, by simp [args, target, start], by simp [args, target, start], by decide, by decide, by decide⟩

theorem shop_honest : Honest shopEnv := by
  refine ⟨fun t q e h => ?_, fun t c hc => ?_⟩
  · simp [shopEnv, listFind] at h
  · simp only [shopEnv, Option.some.injEq] at hc; subst hc
    exact ⟨fun o p e h => by simp [std] at h, fun m o e h => by simp [std] at h⟩

theorem shop_works : AllWork shopEnv :=
  ⟨fun t => ⟨_, rfl⟩, fun t q => ⟨_, rfl⟩, fun t c hc o p => by simp only [shopEnv, Option.some.injEq] at hc; subst hc; exact ⟨_, rfl⟩,
    fun t c hc m o => by simp only [shopEnv, Option.some.injEq] at hc; subst hc; exact ⟨_, rfl⟩⟩

/-- what one sees after loading: the parent, the items, the two pointers -/
def seen (x : Res Unit × LSt) : Bool × (Nat × Nat) × List (Nat × Nat) × Option (Nat × Nat) × Option (Nat × Nat) :=
  let v := fun p => ((x.2.obj p).id, (x.2.obj p).data)
  (match x.1 with | .ok _ => true | _ => false, v 0, (x.2.slices 0).map v, (x.2.ptrs 0).map v, (x.2.ptrs 1).map v)

/-- C67: the order with its two items and its address; table 4 is empty, that pointer stays nil -/
example : Reads shopEnv.find (rowsStore shop) ∧ Honest shopEnv ∧ AllWork shopEnv ∧ Apart 0 args start ∧ (∀ a ∈ args, Fine a) ∧
    seen (build shopEnv 0 args start) = (true, (1, 50), [(5, 51), (6, 53)], some (7, 54), none) :=
  ⟨reads_list (by decide), shop_honest, shop_works, start_apart, by simp [args, Fine], by decide +kernel⟩

end Demo

open Demo in
/-- **Loading is not idempotent**: loading the same order again appends the items again. -/
theorem C67_again_duplicates :
    seen (build shopEnv 0 args (build shopEnv 0 args start).2) = (true, (1, 50), [(5, 51), (6, 53), (5, 51), (6, 53)], some (7, 54), none) := by decide +kernel

open Demo in
/-- Every field of the entity that is set is a condition: an order with ID 1 and another value in a field is not found, although its row exists. -/
theorem C67_set_fields_restrict :
    build shopEnv 0 args { start with obj := fun p => { zero 1 with id := if p = 0 then 1 else 0, data := 99 } } =
      (.err (.sent .notFound), { start with obj := fun p => { zero 1 with id := if p = 0 then 1 else 0, data := 99 }, log := [⟨1, 1, 0, 99⟩] }) := by
  simp [build, buildOne, entity2Model, shopEnv, query, std, listFind, start, shop, zero]

open Demo in
/-- A child pointer that still points to an old object loads by the old ID: the address has been replaced by another row, and the pointer becomes nil although the order has an address. -/
theorem C67_stale_pointer_cleared :
    seen (build shopEnv 0 args { start with obj := fun p => if p = 0 then { zero 1 with id := 1 } else { zero 3 with id := 70 }, next := 2, ptrs := fun v => if v = 0 then some 1 else none }) =
      (true, (1, 50), [(5, 51), (6, 53)], none, none) := by decide +kernel

/-- Slices of struct values panic as soon as there is a row, slices of interfaces always. -/
theorem C67_other_slices_panic (hr : Reads env.find st) (hw : AllWork env) (par : Nat) (v : Var) (t : Nat) (s : LSt) :
    (∃ s1, buildArg env par (.slice v .iface t) s = (.panic, s1)) ∧
    ((∃ c q m, env.reg t = some c ∧ c.e2m (zero t) (some (s.obj par)) = .ok q ∧ RowsFor st q m) → ∃ s1, buildArg env par (.slice v .value t) s = (.panic, s1)) := by
  refine ⟨⟨s, rfl⟩, ?_⟩
  rintro ⟨c, q, m, hc, hq, hm⟩
  obtain ⟨l, hf⟩ := hw.find s.log q
  have ht : env.reg (zero t).typ = some c := hc
  have hml := ((hr _ _ _ hf).2 m).mpr hm
  simp only [buildArg, buildSlice, entity2Model, ht, hq, query, hf]
  cases l with
  | nil => simp at hml
  | cons m0 l =>
    obtain ⟨o, hm0⟩ := hw.m2e _ c hc m0 (zero t)
    simp only [appendRows, model2Entity, ht, hm0, if_true]
    exact ⟨_, rfl⟩

end Ddd.Load
