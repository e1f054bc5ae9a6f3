import Verif.Spec.Router
/-! # C34, C35: event routing -/
set_option linter.unusedVariables false
set_option linter.unusedSimpArgs false
namespace Ddd.Router

theorem Registered.total (t : Nat) (cs : List RegCall) : ∃ fs, Registered t cs fs := by
  rw [← List.reverse_reverse cs]
  induction cs.reverse with
  | nil => exact ⟨[], .none⟩
  | cons c cs ih =>
    obtain ⟨fs, ih⟩ := ih
    rw [List.reverse_cons]
    cases c with
    | checker t' f => exact ⟨fs, .checker ih⟩
    | handler t' f =>
      by_cases ht : t' = t
      · subst ht
        by_cases hf : ∃ ty, HandlerFor f ty
        · obtain ⟨ty, hf⟩ := hf; exact ⟨_, .here ih hf⟩
        · exact ⟨_, .bad ih fun ty h => hf ⟨ty, h⟩⟩
      · exact ⟨_, .other ih ht⟩

theorem registerHandler_iff {r : Reg} {t : Nat} {f : Fn} :
    (∀ ty, HandlerFor f ty → registerHandler r t f = some { r with handlers := fun x => if x = t then r.handlers t ++ [⟨f, ty⟩] else r.handlers x }) ∧
    ((∀ ty, ¬ HandlerFor f ty) → registerHandler r t f = none) := by
  constructor
  · rintro ty ⟨h1, c, a, o, h2, h3, h4, h5, rfl, h6⟩
    simp [registerHandler, h1, h2, h3, h4, h5, h6]
  · intro h
    unfold registerHandler
    cases h1 : f.isFunc
    · simp
    · simp only [Bool.not_true, Bool.false_eq_true, if_false]
      split
      · rename_i c a o hi ho
        cases h4 : c.implCtx
        · simp
        · cases h5 : o.implErr
          · simp
          · cases h6 : a.isPtr
            · simp
            · exact absurd ⟨h1, c, a, o, hi, ho, h4, h6, rfl, h5⟩ (h a.elem)
      · rfl

theorem registerHandler_checker {r r' : Reg} {t : Nat} {f : Fn} (h : registerHandler r t f = some r') : r'.checker = r.checker := by
  unfold registerHandler at h
  repeat' split at h
  all_goals simp_all
  all_goals (rw [← h])

theorem registerChecker_handlers {r r' : Reg} {t : Nat} {f : Fn} (h : registerChecker r t f = some r') : r'.handlers = r.handlers := by
  unfold registerChecker at h
  repeat' split at h
  all_goals simp_all
  all_goals (rw [← h])

theorem Reg.after_snoc (cs : List RegCall) (c : RegCall) : Reg.after (cs ++ [c]) = (Reg.after cs).step c := by
  simp [Reg.after, List.foldl_append]

theorem registered_handlers {t : Nat} {cs : List RegCall} {fs : List (Fn × Nat)} (h : Registered t cs fs) :
    (Reg.after cs).handlers t = fs.map fun p => ⟨p.1, p.2⟩ := by
  induction h with
  | none => rfl
  | here h hf ih => rw [Reg.after_snoc, Reg.step, registerHandler_iff.1 _ hf]; simp [ih]
  | bad h hf ih => rw [Reg.after_snoc, Reg.step, registerHandler_iff.2 hf]; simpa using ih
  | other h ht ih =>
    rename_i cs fs t' f
    rw [Reg.after_snoc, Reg.step]
    by_cases hf : ∃ ty, HandlerFor f ty
    · obtain ⟨ty, hf⟩ := hf
      rw [registerHandler_iff.1 _ hf]; simp [Ne.symm ht, ih]
    · rw [registerHandler_iff.2 fun ty h => hf ⟨ty, h⟩]; simpa using ih
  | checker h ih =>
    rename_i cs fs t' f
    rw [Reg.after_snoc, Reg.step]
    cases hc : registerChecker (Reg.after cs) t' f with
    | none => simpa using ih
    | some r => simpa [registerChecker_handlers hc] using ih

theorem arg_inr {w : World} {ty : Nat} {e : Event} {a : Arg} (h : arg w ty e = .inr a) : Given w e ty a := by
  unfold arg at h
  split at h
  · left; cases h; exact ⟨by assumption, rfl⟩
  · split at h
    · cases h
    · right; cases h; exact ⟨by assumption, by assumption, rfl⟩

theorem arg_inl {w : World} {ty : Nat} {e : Event} {x : Nat} (h : arg w ty e = .inl x) : ty ≠ w.domainEvent ∧ w.decodeErr ty e.payload = some x := by
  unfold arg at h
  split at h
  · cases h
  · split at h
    · cases h; exact ⟨by assumption, by assumption⟩
    · cases h

theorem takesCtx_iff {f : Fn} : TakesContext f ↔ f.takesCtx = true := by
  unfold TakesContext Fn.takesCtx
  cases f.ins <;> simp

theorem nilable_iff {f : Fn} : ReturnsNilable f ↔ f.nilable = true := by
  unfold ReturnsNilable Fn.nilable
  cases f.outs <;> simp

theorem returnsTx_iff {f : Fn} : ReturnsStatus f ↔ f.returnsTx = true := by
  unfold ReturnsStatus Fn.returnsTx
  cases f.outs <;> simp

theorem wellTyped_iff {f : Fn} : WellTyped f ↔ f.takesCtx = true ∧ f.nilable = true := and_congr takesCtx_iff nilable_iff

theorem onEventLoop_spec (w : World) (e : Event) : ∀ (fs : List (Fn × Nat)) (cs0 : List Call), (∀ p ∈ fs, WellTyped p.1) →
    ∃ cs : List Call, (onEventLoop w e (fs.map fun p => ⟨p.1, p.2⟩) cs0).2 = cs0 ++ cs ∧ cs.length ≤ fs.length ∧
      (∀ (i : Nat) (c : Call), cs[i]? = some c → ∃ (f : Fn) (ty : Nat), fs[i]? = some (f, ty) ∧ c.fn = f.ident ∧ Given w e ty c.arg) ∧
      (∀ i c, cs[i]? = some c → i + 1 < cs.length → w.answer (cs0 ++ cs.take i) c = .nil) ∧
      (((onEventLoop w e (fs.map fun p => ⟨p.1, p.2⟩) cs0).1 = .nil ∧ cs.length = fs.length ∧
          ∀ i c, cs[i]? = some c → w.answer (cs0 ++ cs.take i) c = .nil) ∨
       (∃ f ty x, (onEventLoop w e (fs.map fun p => ⟨p.1, p.2⟩) cs0).1 = .err x ∧ fs[cs.length]? = some (f, ty) ∧ ty ≠ w.domainEvent ∧
          w.decodeErr ty e.payload = some x ∧ ∀ i c, cs[i]? = some c → w.answer (cs0 ++ cs.take i) c = .nil) ∨
       (∃ n c, cs.length = n + 1 ∧ cs[n]? = some c ∧ w.answer (cs0 ++ cs.take n) c = (onEventLoop w e (fs.map fun p => ⟨p.1, p.2⟩) cs0).1 ∧
          (onEventLoop w e (fs.map fun p => ⟨p.1, p.2⟩) cs0).1 ≠ .nil)) := by
  intro fs
  induction fs with
  | nil => intro cs0 _; exact ⟨[], by simp [onEventLoop]⟩
  | cons p fs ih =>
    intro cs0 hw
    obtain ⟨f, ty⟩ := p
    have hf := wellTyped_iff.1 (hw (f, ty) (by simp))
    simp only [List.map_cons, onEventLoop]
    cases ha : arg w ty e with
    | inl x =>
      obtain ⟨h1, h2⟩ := arg_inl ha
      exact ⟨[], by simp, by simp, by simp, by simp, .inr (.inl ⟨f, ty, x, by simp, by simp, h1, h2, by simp⟩)⟩
    | inr a =>
      have hg := arg_inr ha
      simp only [hf.1, hf.2, Bool.not_true, Bool.false_eq_true, if_false]
      cases hr : w.answer cs0 ⟨f.ident, a⟩ with
      | panic =>
        refine ⟨[⟨f.ident, a⟩], by simp, by simp, ?_, by simp, .inr (.inr ⟨0, ⟨f.ident, a⟩, by simp, by simp, by simp [hr], by simp⟩)⟩
        intro i c hc
        cases i <;> simp at hc
        subst hc; exact ⟨f, ty, by simp, rfl, hg⟩
      | err x =>
        refine ⟨[⟨f.ident, a⟩], by simp, by simp, ?_, by simp, .inr (.inr ⟨0, ⟨f.ident, a⟩, by simp, by simp, by simp [hr], by simp⟩)⟩
        intro i c hc
        cases i <;> simp at hc
        subst hc; exact ⟨f, ty, by simp, rfl, hg⟩
      | nil =>
        obtain ⟨cs, h1, h2, h3, h4, h5⟩ := ih (cs0 ++ [⟨f.ident, a⟩]) (fun p hp => hw p (by simp [hp]))
        simp only [] at h1 h5 ⊢
        have hall : (∀ i c, cs[i]? = some c → w.answer (cs0 ++ [⟨f.ident, a⟩] ++ cs.take i) c = .nil) →
            ∀ i c, (⟨f.ident, a⟩ :: cs)[i]? = some c → w.answer (cs0 ++ (⟨f.ident, a⟩ :: cs).take i) c = .nil := by
          intro h i c hc
          cases i with
          | zero => simp at hc; subst hc; simpa using hr
          | succ i => simpa using h i c (by simpa using hc)
        refine ⟨⟨f.ident, a⟩ :: cs, by simp [h1], by simp [h2], ?_, ?_, ?_⟩
        · intro i c hc
          cases i with
          | zero => simp at hc; subst hc; exact ⟨f, ty, by simp, rfl, hg⟩
          | succ i => simpa using h3 i c (by simpa using hc)
        · intro i c hc hi
          cases i with
          | zero => simp at hc; subst hc; simpa using hr
          | succ i => simpa using h4 i c (by simpa using hc) (by simpa using hi)
        · rcases h5 with ⟨h5, h6, h7⟩ | ⟨f', ty', x, h5, h6, h7, h8, h9⟩ | ⟨n, c, h5, h6, h7, h8⟩
          · exact .inl ⟨h5, by simp [h6], hall h7⟩
          · exact .inr (.inl ⟨f', ty', x, h5, by simpa using h6, h7, h8, hall h9⟩)
          · exact .inr (.inr ⟨n + 1, c, by simp [h5], by simpa using h6, by simpa using h7, h8⟩)

/-- **C34** Let `fs` be the handlers registered for the type of `e`, in registration order. The callback calls a prefix of `fs` in this order, each with the event
(decoded for it) once; every call but the last succeeded; and either all were called and succeeded and the callback succeeds, or the next handler's payload is
undecodable and this error is returned, or the last called handler did not succeed and its error (or panic) is the outcome. -/
theorem C34_routing {w : World} {hist : List RegCall} {e : Event} {fs : List (Fn × Nat)} (h : Registered e.typ hist fs) (hw : ∀ p ∈ fs, WellTyped p.1) :
    let out := (onEvent w (Reg.after hist) e).1
    let cs := (onEvent w (Reg.after hist) e).2
    cs.length ≤ fs.length ∧
    (∀ (i : Nat) (c : Call), cs[i]? = some c → ∃ (f : Fn) (ty : Nat), fs[i]? = some (f, ty) ∧ c.fn = f.ident ∧ Given w e ty c.arg) ∧
    (∀ i c, cs[i]? = some c → i + 1 < cs.length → w.answer (cs.take i) c = .nil) ∧
    ((out = .nil ∧ cs.length = fs.length ∧ ∀ i c, cs[i]? = some c → w.answer (cs.take i) c = .nil) ∨
     (∃ f ty x, out = .err x ∧ fs[cs.length]? = some (f, ty) ∧ ty ≠ w.domainEvent ∧ w.decodeErr ty e.payload = some x ∧
        ∀ i c, cs[i]? = some c → w.answer (cs.take i) c = .nil) ∨
     (∃ n c, cs.length = n + 1 ∧ cs[n]? = some c ∧ w.answer (cs.take n) c = out ∧ out ≠ .nil)) := by
  obtain ⟨cs, h1, h2, h3, h4, h5⟩ := onEventLoop_spec w e fs [] hw
  simp only [onEvent, registered_handlers h, h1, List.nil_append] at *
  exact ⟨h2, h3, h4, h5⟩

/-- **C34** The callback succeeds iff every handler registered for the type can decode the event and succeeds when called in order. -/
theorem C34_success_iff {w : World} {hist : List RegCall} {e : Event} {fs : List (Fn × Nat)} (h : Registered e.typ hist fs) (hw : ∀ p ∈ fs, WellTyped p.1) :
    (onEvent w (Reg.after hist) e).1 = .nil ↔
      ∃ cs : List Call, cs.length = fs.length ∧ ∀ i f ty, fs[i]? = some (f, ty) → ∃ a, cs[i]? = some ⟨f.ident, a⟩ ∧ Given w e ty a ∧
        w.answer (cs.take i) ⟨f.ident, a⟩ = .nil := by
  obtain ⟨h1, h2, h3, h4⟩ := C34_routing (w := w) h hw
  constructor
  · intro ho
    refine ⟨(onEvent w (Reg.after hist) e).2, ?_⟩
    rcases h4 with ⟨_, h5, h6⟩ | ⟨f, ty, x, h5, _⟩ | ⟨n, c, _, _, _, h5⟩
    · refine ⟨h5, fun i f ty hi => ?_⟩
      have hlt : i < fs.length := (List.getElem?_eq_some_iff.1 hi).1
      obtain ⟨c, hc⟩ : ∃ c, (onEvent w (Reg.after hist) e).2[i]? = some c := ⟨_, List.getElem?_eq_getElem (h5 ▸ hlt)⟩
      obtain ⟨f', ty', hf, hn, hg⟩ := h2 i c hc
      rw [hi] at hf; cases hf
      obtain ⟨fn, a⟩ := c
      simp only at hn; subst hn
      exact ⟨a, hc, hg, h6 i _ hc⟩
    · rw [ho] at h5; cases h5
    · exact absurd ho h5
  · rintro ⟨cs, hl, hcs⟩
    -- the calls made are a prefix of `cs`
    have given : ∀ {ty a a'}, Given w e ty a → Given w e ty a' → a = a' := by
      rintro ty a a' (⟨h1, rfl⟩ | ⟨h1, h2, rfl⟩) (⟨h3, rfl⟩ | ⟨h3, h4, rfl⟩)
      · rfl
      · exact absurd h1 h3
      · exact absurd h3 h1
      · rfl
    have same : ∀ (i : Nat) (c : Call), (onEvent w (Reg.after hist) e).2[i]? = some c → cs[i]? = some c := by
      intro i c hc
      obtain ⟨f, ty, hf, hn, hg⟩ := h2 i c hc
      obtain ⟨a, ha, hg', _⟩ := hcs i f ty hf
      obtain ⟨fn, a'⟩ := c
      simp only at hn; subst hn
      have hag : a' = a := given hg hg'
      rw [hag]; exact ha
    have pre : ∀ n, n ≤ (onEvent w (Reg.after hist) e).2.length → (onEvent w (Reg.after hist) e).2.take n = cs.take n := by
      intro n hn
      apply List.ext_getElem?
      intro i
      by_cases hi : i < n
      · rw [List.getElem?_take_of_lt hi, List.getElem?_take_of_lt hi]
        have := List.getElem?_eq_getElem (l := (onEvent w (Reg.after hist) e).2) (i := i) (by omega)
        rw [this, same i _ this]
      · rw [List.getElem?_eq_none (by simp; omega), List.getElem?_eq_none (by simp; omega)]
    rcases h4 with ⟨h5, _⟩ | ⟨f, ty, x, h5, h6, h7, h8, _⟩ | ⟨n, c, h5, h6, h7, h8⟩
    · exact h5
    · obtain ⟨a, ha, hg, _⟩ := hcs _ f ty h6
      rcases hg with ⟨hg, _⟩ | ⟨_, hg, _⟩
      · exact absurd hg h7
      · rw [h8] at hg; cases hg
    · obtain ⟨f, ty, hf, hn, hg⟩ := h2 n c h6
      obtain ⟨a, ha, hg', hr⟩ := hcs n f ty hf
      have hc := same n c h6
      rw [ha] at hc; cases hc
      rw [pre n (by omega)] at h7
      rw [← h7, hr]

namespace Demo
def goodFn (n ty : Nat) : Fn := { ident := n, isFunc := true, ins := [⟨true, true, false, 0⟩, ⟨false, false, true, ty⟩], outs := [⟨true, true, false, false⟩] }
def world : World := { domainEvent := 0, decodeErr := fun ty p => if ty = 7 then some 99 else none, answer := fun cs c => if c.fn = 3 then .err 5 else .nil, check := fun c => .status 1 }
/-- handlers 1, 2 for type 10 (raw and decoded), 3 (fails), 4; one for type 11; one refused. -/
def hist : List RegCall := [.handler 10 (goodFn 1 0), .handler 11 (goodFn 9 1), .handler 10 { goodFn 8 1 with outs := [] }, .handler 10 (goodFn 2 5), .handler 10 (goodFn 3 5), .handler 10 (goodFn 4 5)]

example : onEvent world (Reg.after hist) ⟨10, 42⟩ = (.err 5, [⟨1, .raw ⟨10, 42⟩⟩, ⟨2, .decoded 5 42⟩, ⟨3, .decoded 5 42⟩]) := by decide
example : onEvent world (Reg.after hist) ⟨11, 42⟩ = (.nil, [⟨9, .decoded 1 42⟩]) := by decide
example : ∃ fs, Registered 10 hist fs ∧ ∀ p ∈ fs, WellTyped p.1 := by
  obtain ⟨fs, h⟩ := Registered.total 10 hist
  refine ⟨fs, h, fun p hp => ?_⟩
  have h1 := registered_handlers h
  have h2 : (Reg.after hist).handlers 10 = [⟨goodFn 1 0, 0⟩, ⟨goodFn 2 5, 5⟩, ⟨goodFn 3 5, 5⟩, ⟨goodFn 4 5, 5⟩] := by decide
  have h3 : (⟨p.1, p.2⟩ : Handler) ∈ (Reg.after hist).handlers 10 := by rw [h1]; exact List.mem_map.2 ⟨p, hp, rfl⟩
  rw [h2] at h3
  simp at h3
  rcases h3 with h | h | h | h <;> rw [h.1] <;> exact wellTyped_iff.2 ⟨rfl, rfl⟩
end Demo

/-- **C34** The registration check accepts more than the documented form: a handler returning a struct implementing `error` is registered, and then every event of
this type that reaches it panics. -/
theorem C34_struct_error_panics : ∃ hist : List RegCall, ∃ fs, Registered 10 hist fs ∧ fs ≠ [] ∧
    ∀ w e, e.typ = 10 → (∀ ty, w.decodeErr ty e.payload = none) → (onEvent w (Reg.after hist) e).1 = .panic := by
  let f : Fn := { Demo.goodFn 1 5 with outs := [⟨true, false, false, false⟩] }
  have hf : HandlerFor f 5 := ⟨rfl, _, _, _, rfl, rfl, rfl, rfl, rfl, rfl⟩
  have hr : Registered 10 ([] ++ [.handler 10 f]) ([] ++ [(f, 5)]) := .here .none hf
  refine ⟨_, _, hr, by simp, ?_⟩
  intro w e he hd
  unfold onEvent
  rw [he, registered_handlers hr]
  have hn : f.nilable = false := rfl
  have ht : f.takesCtx = true := rfl
  simp only [List.nil_append, List.map_cons, List.map_nil, onEventLoop]
  cases ha : arg w 5 e with
  | inl x => have := (arg_inl ha).2; rw [hd] at this; cases this
  | inr a => simp only [hn, ht, Bool.not_true, Bool.false_eq_true, if_false, Bool.not_false, if_true]; cases w.answer [] ⟨f.ident, a⟩ <;> rfl

/-- **C34** What becomes of handlers the registration check accepts although they are not of the documented form, when an event reaches them: one that can not be given the context of the bus is not called and the callback panics; one whose result has no nil is
called, and the callback panics whatever it returns. -/
theorem C34_ill_typed {w : World} {hist : List RegCall} {e : Event} {f : Fn} {ty : Nat} {fs : List (Fn × Nat)} (h : Registered e.typ hist ((f, ty) :: fs)) {a : Arg} (ha : Given w e ty a) :
    (¬ TakesContext f → onEvent w (Reg.after hist) e = (.panic, [])) ∧ (TakesContext f → ¬ ReturnsNilable f → onEvent w (Reg.after hist) e = (.panic, [⟨f.ident, a⟩])) := by
  have harg : arg w ty e = .inr a := by
    rcases ha with ⟨h1, rfl⟩ | ⟨h1, h2, rfl⟩ <;> simp [arg, h1, *]
  rw [takesCtx_iff, nilable_iff]
  unfold onEvent
  rw [registered_handlers h]
  simp only [List.map_cons, onEventLoop, harg]
  refine ⟨?_, ?_⟩
  · intro ht; simp [ht]
  · intro ht hn
    simp only [ht, Bool.not_true, Bool.false_eq_true, if_false]
    cases w.answer [] ⟨f.ident, a⟩ <;> simp [hn]

namespace Demo
/-- `func(ctx MyContext, evt *T5) error`, where `MyContext` is a struct implementing `context.Context`, and `func(ctx context.Context, evt *T5) MyErr` -/
def ownCtx : Fn := { goodFn 1 5 with ins := [⟨true, false, false, 0⟩, ⟨false, false, true, 5⟩] }
def structErr : Fn := { goodFn 1 5 with outs := [⟨true, false, false, false⟩] }
example : Registered 10 ([] ++ [.handler 10 ownCtx]) ([] ++ [(ownCtx, 5)]) ∧ ¬ TakesContext ownCtx ∧ Given world ⟨10, 42⟩ 5 (.decoded 5 42) :=
  ⟨.here .none ⟨rfl, _, _, _, rfl, rfl, rfl, rfl, rfl, rfl⟩, by rw [takesCtx_iff]; decide, .inr ⟨by decide, by decide, rfl⟩⟩
example : Registered 10 ([] ++ [.handler 10 structErr]) ([] ++ [(structErr, 5)]) ∧ TakesContext structErr ∧ ¬ ReturnsNilable structErr :=
  ⟨.here .none ⟨rfl, _, _, _, rfl, rfl, rfl, rfl, rfl, rfl⟩, by rw [takesCtx_iff]; decide, by rw [nilable_iff]; decide⟩
end Demo

/-! ## C35 -/

/-- the first acceptable checker a history registers for `t`. -/
def FirstChecker (t : Nat) (hist : List RegCall) (f : Fn) (ty : Nat) : Prop :=
  ∃ pre post, hist = pre ++ .checker t f :: post ∧ CheckerFor f ty ∧ ∀ f' ty', .checker t f' ∈ pre → ¬ CheckerFor f' ty'

theorem registerChecker_iff {r : Reg} {t : Nat} {f : Fn} :
    (∀ ty, CheckerFor f ty → r.checker t = none → registerChecker r t f = some { r with checker := fun x => if x = t then some ⟨f, ty⟩ else r.checker x }) ∧
    ((∀ ty, ¬ CheckerFor f ty) → registerChecker r t f = none) ∧ (r.checker t ≠ none → registerChecker r t f = none) := by
  refine ⟨?_, ?_, ?_⟩
  · rintro ty ⟨h1, a, o, h2, h3, h4, rfl, h5⟩ hr
    simp [registerChecker, h1, h2, h3, h4, h5, hr]
  · intro h
    unfold registerChecker
    split
    · rfl
    · cases h1 : f.isFunc
      · simp
      · simp only [Bool.not_true, Bool.false_eq_true, if_false]
        split
        · rename_i a o hi ho
          cases h5 : o.convTx
          · simp
          · cases h6 : a.isPtr
            · simp
            · exact absurd ⟨h1, a, o, hi, ho, h6, rfl, h5⟩ (h a.elem)
        · rfl
  · intro h
    unfold registerChecker
    cases hc : r.checker t with
    | none => exact absurd hc h
    | some _ => rfl

theorem checker_after (t : Nat) (hist : List RegCall) :
    (∀ f ty, FirstChecker t hist f ty → (Reg.after hist).checker t = some ⟨f, ty⟩) ∧
    ((∀ f ty, .checker t f ∈ hist → ¬ CheckerFor f ty) → (Reg.after hist).checker t = none) := by
  rw [← List.reverse_reverse hist]
  induction hist.reverse with
  | nil =>
    refine ⟨?_, fun _ => rfl⟩
    rintro f ty ⟨pre, post, h, _⟩
    simp at h
  | cons c cs ih =>
    rw [List.reverse_cons, Reg.after_snoc]
    obtain ⟨ih1, ih2⟩ := ih
    have keep : ∀ f ty, FirstChecker t (cs.reverse ++ [c]) f ty → (c = .checker t f ∧ CheckerFor f ty ∧ ∀ f' ty', .checker t f' ∈ cs.reverse → ¬ CheckerFor f' ty') ∨ FirstChecker t cs.reverse f ty := by
      rintro f ty ⟨pre, post, h, hf, hp⟩
      rcases List.eq_nil_or_concat post with rfl | ⟨post', x, rfl⟩
      · have := List.append_inj' h (by simp)
        obtain ⟨h1, h2⟩ := this
        simp at h2
        exact .inl ⟨h2, hf, by rw [h1]; exact hp⟩
      · right
        rw [List.concat_eq_append] at h
        have h' : cs.reverse ++ [c] = (pre ++ RegCall.checker t f :: post') ++ [x] := by simpa using h
        obtain ⟨h1, h2⟩ := List.append_inj' h' (by simp)
        exact ⟨pre, post', h1, hf, hp⟩
    cases c with
    | handler t' f' =>
      have hs : ((Reg.after cs.reverse).step (.handler t' f')).checker = (Reg.after cs.reverse).checker := by
        unfold Reg.step
        cases hh : registerHandler (Reg.after cs.reverse) t' f' with
        | none => simp [hh]
        | some r => simpa [hh] using registerHandler_checker hh
      rw [hs]
      refine ⟨?_, ?_⟩
      · intro f ty hf
        rcases keep f ty hf with ⟨h, _⟩ | h
        · cases h
        · exact ih1 f ty h
      · intro h; exact ih2 fun f ty hf => h f ty (by simp [hf])
    | checker t' f' =>
      have hcases : ((Reg.after cs.reverse).step (.checker t' f')).checker t = (Reg.after cs.reverse).checker t ∨
          t' = t ∧ (Reg.after cs.reverse).checker t = none ∧ ∃ ty, CheckerFor f' ty ∧ ((Reg.after cs.reverse).step (.checker t' f')).checker t = some ⟨f', ty⟩ := by
        unfold Reg.step
        by_cases hn : (Reg.after cs.reverse).checker t' = none
        · by_cases hf : ∃ ty, CheckerFor f' ty
          · obtain ⟨ty, hf⟩ := hf
            simp only [registerChecker_iff.1 ty hf hn, Option.getD_some]
            by_cases ht : t' = t
            · subst ht; right; exact ⟨rfl, hn, ty, hf, by simp⟩
            · left; simp [Ne.symm ht]
          · left; simp only [registerChecker_iff.2.1 fun ty h => hf ⟨ty, h⟩, Option.getD_none]
        · left; simp only [registerChecker_iff.2.2 hn, Option.getD_none]
      refine ⟨?_, ?_⟩
      · intro f ty hf
        rcases keep f ty hf with ⟨h, h1, h2⟩ | h
        · cases h
          have hn := ih2 h2
          rw [Reg.step, registerChecker_iff.1 ty h1 hn]; simp
        · have := ih1 f ty h
          rcases hcases with hc | ⟨_, hc, _⟩
          · rw [hc]; exact this
          · rw [hc] at this; cases this
      · intro h
        have := ih2 fun f ty hf => h f ty (by simp [hf])
        rcases hcases with hc | ⟨rfl, _, ty, hty, _⟩
        · rw [hc]; exact this
        · exact absurd hty (h f' ty (by simp))

/-- **C35** The answer is the one of the first acceptable checker registered for the type, called once with the (decoded) event; with an undecodable payload it is
rollback and the checker is not called. Exception, inside the code's own acceptance check: a checker whose result is merely convertible to `TXStatus` makes the callback
panic. -/
theorem C35_answer {w : World} {hist : List RegCall} {e : Event} {f : Fn} {ty : Nat} (h : FirstChecker e.typ hist f ty) :
    (∀ a, Given w e ty a → ∀ n, w.check ⟨f.ident, a⟩ = .status n → ReturnsStatus f → onTXChecker w (Reg.after hist) e = (.status n, [⟨f.ident, a⟩])) ∧
    (∀ x, ty ≠ w.domainEvent → w.decodeErr ty e.payload = some x → onTXChecker w (Reg.after hist) e = (.status 2, [])) ∧
    (∀ a, Given w e ty a → w.check ⟨f.ident, a⟩ = .panic ∨ ¬ ReturnsStatus f → onTXChecker w (Reg.after hist) e = (.panic, [⟨f.ident, a⟩])) := by
  have hc := (checker_after e.typ hist).1 f ty h
  have harg : ∀ a, Given w e ty a → arg w ty e = .inr a := by
    rintro a (⟨h1, rfl⟩ | ⟨h1, h2, rfl⟩) <;> simp [arg, h1, *]
  rw [returnsTx_iff]
  unfold onTXChecker
  simp only [hc]
  refine ⟨?_, ?_, ?_⟩
  · intro a ha n hn hf; simp [harg a ha, hn, hf]
  · intro x h1 h2; simp [arg, h1, h2, txRollBack]
  · rintro a ha (h | h)
    · simp [harg a ha, h]
    · simp only [harg a ha]; cases w.check ⟨f.ident, a⟩ <;> simp [h]

/-- **C35** Without an acceptable registration for the type the answer is rollback. -/
theorem C35_no_checker {w : World} {hist : List RegCall} {e : Event} (h : ∀ f ty, .checker e.typ f ∈ hist → ¬ CheckerFor f ty) :
    onTXChecker w (Reg.after hist) e = (.status 2, []) := by
  simp [onTXChecker, (checker_after e.typ hist).2 h, txRollBack]

/-- **C35** A further registration for a type that has a checker is refused (panics), whatever it is, and changes nothing. -/
theorem C35_second_refused {hist : List RegCall} {t : Nat} {f g : Fn} {ty : Nat} (h : FirstChecker t hist f ty) :
    registerChecker (Reg.after hist) t g = none ∧ Reg.after (hist ++ [.checker t g]) = Reg.after hist := by
  have hn : registerChecker (Reg.after hist) t g = none := registerChecker_iff.2.2 (by rw [(checker_after t hist).1 f ty h]; simp)
  exact ⟨hn, by rw [Reg.after_snoc, Reg.step, hn]; rfl⟩

namespace Demo
def ck (n ty : Nat) : Fn := { ident := n, isFunc := true, ins := [⟨false, false, true, ty⟩], outs := [⟨false, false, true, true⟩] }
def chist : List RegCall := [.checker 10 (goodFn 4 1), .checker 10 (ck 1 5), .checker 10 (ck 2 5), .checker 12 (ck 3 7)]
example : FirstChecker 10 chist (ck 1 5) 5 := by
  refine ⟨[.checker 10 (goodFn 4 1)], _, rfl, ⟨rfl, _, _, rfl, rfl, rfl, rfl, rfl⟩, ?_⟩
  intro f' ty' hf h
  simp at hf; subst hf
  obtain ⟨_, a, o, h, _⟩ := h
  simp [goodFn] at h
example : onTXChecker world (Reg.after chist) ⟨10, 42⟩ = (.status 1, [⟨1, .decoded 5 42⟩]) := by decide
example : onTXChecker world (Reg.after chist) ⟨12, 42⟩ = (.status 2, []) := by decide
example : onTXChecker world (Reg.after chist) ⟨13, 42⟩ = (.status 2, []) := by decide
end Demo

end Ddd.Router
