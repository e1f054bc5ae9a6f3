import Verif.Spec.RouterShared
import Verif.Props.Router
/-! # C106: the event object is shared by the handlers that take it, and by no others -/
namespace Ddd.Router
set_option linter.unusedSimpArgs false

theorem loopS_same (w : World) (edit : Edits) (hq : ∀ cs c e, edit cs c e = e) : ∀ (hs : List Handler) (cs : List Call) (e : Event),
    onEventLoopS w edit e hs cs = ((onEventLoop w e hs cs).1, (onEventLoop w e hs cs).2, e) := by
  have hd : ∀ cs c e, edit.done cs c e = e := by
    intro cs c e; unfold Edits.done; split
    · exact hq _ _ _
    · rfl
  intro hs
  induction hs with
  | nil => intro cs e; rfl
  | cons h hs ih =>
    intro cs e
    simp only [onEventLoopS, onEventLoop]
    cases arg w h.eventType e with
    | inl x => rfl
    | inr a =>
      simp only [hd, ih]
      split
      · rfl
      · cases w.answer cs ⟨h.fn.ident, a⟩ <;> simp only [] <;> (try split) <;> rfl

/-- **C106** Handlers that do not write to the event they are given: the delivery is as described by C34, and the event object is as before. -/
theorem C106_no_edits {w : World} {edit : Edits} (hq : ∀ cs c e, edit cs c e = e) (r : Reg) (e : Event) :
    onEventS w edit r e = ((onEvent w r e).1, (onEvent w r e).2, e) := loopS_same w edit hq _ _ _

theorem loopS_spec (w : World) (edit : Edits) : ∀ (fs : List (Fn × Nat)) (cs0 : List Call) (e : Event), (∀ p ∈ fs, WellTyped p.1) →
    ∃ (cs : List Call) (evs : Nat → Event), (onEventLoopS w edit e (fs.map fun p => ⟨p.1, p.2⟩) cs0).2.1 = cs0 ++ cs ∧ cs.length ≤ fs.length ∧
      Evolves (fun l => edit (cs0 ++ l)) e cs evs ∧ (onEventLoopS w edit e (fs.map fun p => ⟨p.1, p.2⟩) cs0).2.2 = evs cs.length ∧
      (∀ (i : Nat) (c : Call), cs[i]? = some c → ∃ (f : Fn) (ty : Nat), fs[i]? = some (f, ty) ∧ c.fn = f.ident ∧ Given w (evs i) ty c.arg) ∧
      (∀ i c, cs[i]? = some c → i + 1 < cs.length → w.answer (cs0 ++ cs.take i) c = .nil) ∧
      (((onEventLoopS w edit e (fs.map fun p => ⟨p.1, p.2⟩) cs0).1 = .nil ∧ cs.length = fs.length ∧
          ∀ i c, cs[i]? = some c → w.answer (cs0 ++ cs.take i) c = .nil) ∨
       (∃ f ty x, (onEventLoopS w edit e (fs.map fun p => ⟨p.1, p.2⟩) cs0).1 = .err x ∧ fs[cs.length]? = some (f, ty) ∧ ty ≠ w.domainEvent ∧
          w.decodeErr ty (evs cs.length).payload = some x ∧ ∀ i c, cs[i]? = some c → w.answer (cs0 ++ cs.take i) c = .nil) ∨
       (∃ n c, cs.length = n + 1 ∧ cs[n]? = some c ∧ w.answer (cs0 ++ cs.take n) c = (onEventLoopS w edit e (fs.map fun p => ⟨p.1, p.2⟩) cs0).1 ∧
          (onEventLoopS w edit e (fs.map fun p => ⟨p.1, p.2⟩) cs0).1 ≠ .nil)) := by
  intro fs
  induction fs with
  | nil => intro cs0 e _; exact ⟨[], fun _ => e, by simp [onEventLoopS, Evolves]⟩
  | cons p fs ih =>
    intro cs0 e hw
    obtain ⟨f, ty⟩ := p
    have hf := wellTyped_iff.1 (hw (f, ty) (by simp))
    simp only [List.map_cons, onEventLoopS]
    cases ha : arg w ty e with
    | inl x =>
      obtain ⟨h1, h2⟩ := arg_inl ha
      exact ⟨[], fun _ => e, by simp, by simp, by simp [Evolves], rfl, by simp, by simp, .inr (.inl ⟨f, ty, x, by simp, by simp, h1, h2, by simp⟩)⟩
    | inr a =>
      have hg := arg_inr ha
      simp only [hf.1, hf.2, Bool.not_true, Bool.false_eq_true, if_false]
      have ev1 : Evolves (fun l => edit (cs0 ++ l)) e [⟨f.ident, a⟩] (fun i => if i = 0 then e else edit.done cs0 ⟨f.ident, a⟩ e) := by
        refine ⟨rfl, ?_⟩
        intro i c hc
        cases i with
        | succ i => simp at hc
        | zero =>
          simp at hc; subst hc
          cases a with
          | raw x => simp [Edits.done]
          | decoded t x => simp [Edits.done]
      cases hr : w.answer cs0 ⟨f.ident, a⟩ with
      | panic =>
        refine ⟨[⟨f.ident, a⟩], _, by simp, by simp, ev1, by simp, ?_, by simp, .inr (.inr ⟨0, ⟨f.ident, a⟩, by simp, by simp, by simp [hr], by simp⟩)⟩
        intro i c hc
        cases i <;> simp at hc
        subst hc; exact ⟨f, ty, by simp, rfl, hg⟩
      | err x =>
        refine ⟨[⟨f.ident, a⟩], _, by simp, by simp, ev1, by simp, ?_, by simp, .inr (.inr ⟨0, ⟨f.ident, a⟩, by simp, by simp, by simp [hr], by simp⟩)⟩
        intro i c hc
        cases i <;> simp at hc
        subst hc; exact ⟨f, ty, by simp, rfl, hg⟩
      | nil =>
        obtain ⟨cs, evs, h1, h2, hev, hend, h3, h4, h5⟩ := ih (cs0 ++ [⟨f.ident, a⟩]) (edit.done cs0 ⟨f.ident, a⟩ e) (fun p hp => hw p (by simp [hp]))
        simp only [] at h1 h5 hend ⊢
        have hall : (∀ i c, cs[i]? = some c → w.answer (cs0 ++ [⟨f.ident, a⟩] ++ cs.take i) c = .nil) →
            ∀ i c, (⟨f.ident, a⟩ :: cs)[i]? = some c → w.answer (cs0 ++ (⟨f.ident, a⟩ :: cs).take i) c = .nil := by
          intro h i c hc
          cases i with
          | zero => simp at hc; subst hc; simpa using hr
          | succ i => simpa using h i c (by simpa using hc)
        refine ⟨⟨f.ident, a⟩ :: cs, fun i => if i = 0 then e else evs (i - 1), by simp [h1], by simp [h2], ⟨rfl, ?_⟩, by simpa using hend, ?_, ?_, ?_⟩
        · intro i c hc
          cases i with
          | zero =>
            have := ev1.2 0 c (by simpa using hc)
            simp only [hev.1, Nat.add_sub_cancel, Nat.zero_add, Nat.one_ne_zero, if_false, if_true, Nat.sub_self, List.take_zero] at this ⊢
            exact this
          | succ i =>
            have := hev.2 i c (by simpa using hc)
            simpa using this
        · intro i c hc
          cases i with
          | zero => simp at hc; subst hc; exact ⟨f, ty, by simp, rfl, hg⟩
          | succ i => simpa using h3 i c (by simpa using hc)
        · intro i c hc hi
          cases i with
          | zero => simp at hc; subst hc; simpa using hr
          | succ i => simpa using h4 i c (by simpa using hc) (by simpa using hi)
        · rcases h5 with ⟨h5, h6, h7⟩ | ⟨f', ty', x, h5, h6, h7, h8, h9⟩ | ⟨n, c, h5, h6, h7, h8⟩
          · exact .inl ⟨h5, by simp [h6], hall h7⟩
          · exact .inr (.inl ⟨f', ty', x, h5, by simpa using h6, h7, by simpa using h8, hall h9⟩)
          · exact .inr (.inr ⟨n + 1, c, by simp [h5], by simpa using h6, by simpa using h7, h8⟩)

/-- **C106** Whatever handlers do to the event: a prefix of the handlers registered for the type the event had at the beginning is called, in order. Each is given the event object as it is at that moment, or what its
payload decodes to at that moment, and the object is changed by no call but those of handlers that take it (`Evolves`). All but the last call succeeded, and the outcome is as in C34. -/
theorem C106_seen {w : World} {edit : Edits} {hist : List RegCall} {e : Event} {fs : List (Fn × Nat)} (h : Registered e.typ hist fs) (hw : ∀ p ∈ fs, WellTyped p.1) :
    let out := (onEventS w edit (Reg.after hist) e).1
    let cs := (onEventS w edit (Reg.after hist) e).2.1
    ∃ evs, Evolves edit e cs evs ∧ (onEventS w edit (Reg.after hist) e).2.2 = evs cs.length ∧ cs.length ≤ fs.length ∧
    (∀ (i : Nat) (c : Call), cs[i]? = some c → ∃ (f : Fn) (ty : Nat), fs[i]? = some (f, ty) ∧ c.fn = f.ident ∧ Given w (evs i) ty c.arg) ∧
    (∀ i c, cs[i]? = some c → i + 1 < cs.length → w.answer (cs.take i) c = .nil) ∧
    ((out = .nil ∧ cs.length = fs.length ∧ ∀ i c, cs[i]? = some c → w.answer (cs.take i) c = .nil) ∨
     (∃ f ty x, out = .err x ∧ fs[cs.length]? = some (f, ty) ∧ ty ≠ w.domainEvent ∧ w.decodeErr ty (evs cs.length).payload = some x ∧
        ∀ i c, cs[i]? = some c → w.answer (cs.take i) c = .nil) ∨
     (∃ n c, cs.length = n + 1 ∧ cs[n]? = some c ∧ w.answer (cs.take n) c = out ∧ out ≠ .nil)) := by
  obtain ⟨cs, evs, h1, h2, h3, h4, h5, h6, h7⟩ := loopS_spec w edit fs [] e hw
  simp only [onEventS, registered_handlers h, h1, List.nil_append] at *
  exact ⟨evs, h3, h4, h2, h5, h6, h7⟩

/-- **C106** Where no handler registered for the type takes the `*DomainEvent` itself, nothing a handler does reaches another handler: the delivery is as described by C34, and the event object is as before. -/
theorem C106_own_types_partial {w : World} {edit : Edits} {hist : List RegCall} {e : Event} {fs : List (Fn × Nat)} (h : Registered e.typ hist fs) (hn : ∀ p ∈ fs, p.2 ≠ w.domainEvent) :
    onEventS w edit (Reg.after hist) e = ((onEvent w (Reg.after hist) e).1, (onEvent w (Reg.after hist) e).2, e) := by
  unfold onEventS onEvent
  rw [registered_handlers h]
  clear h
  suffices ∀ cs, onEventLoopS w edit e (fs.map fun p => ⟨p.1, p.2⟩) cs = ((onEventLoop w e (fs.map fun p => ⟨p.1, p.2⟩) cs).1, (onEventLoop w e (fs.map fun p => ⟨p.1, p.2⟩) cs).2, e) from this []
  induction fs with
  | nil => intro cs; rfl
  | cons p fs ih =>
    intro cs
    have hp := hn p (by simp)
    have ih' := ih (fun q hq => hn q (by simp [hq]))
    simp only [List.map_cons, onEventLoopS, onEventLoop]
    cases ha : arg w p.2 e with
    | inl x => rfl
    | inr a =>
      have hd : edit.done cs ⟨p.1.ident, a⟩ e = e := by
        rcases arg_inr ha with ⟨h1, _⟩ | ⟨_, _, rfl⟩
        · exact absurd h1 hp
        · rfl
      simp only [hd, ih']
      split
      · rfl
      · cases w.answer cs ⟨p.1.ident, a⟩ <;> simp only [] <;> (try split) <;> rfl

namespace SharedDemo
open Demo
/-- handler 1 takes the event itself and overwrites the payload; handler 2 has its own type -/
def edits : Edits := fun _ c e => if c.fn = 1 then { e with payload := 77 } else e
def hist2 : List RegCall := [.handler 10 (goodFn 1 0), .handler 10 (goodFn 2 5), .handler 11 (goodFn 2 5), .handler 11 (goodFn 4 6)]

example : onEventS world edits (Reg.after hist2) ⟨10, 42⟩ = (.nil, [⟨1, .raw ⟨10, 42⟩⟩, ⟨2, .decoded 5 77⟩], ⟨10, 77⟩) := by decide
example : onEventS world edits (Reg.after hist2) ⟨11, 42⟩ = (.nil, [⟨2, .decoded 5 42⟩, ⟨4, .decoded 6 42⟩], ⟨11, 42⟩) := by decide
/-- the hypotheses of `C106_seen` and `C106_own_types_partial` -/
example : Registered 11 hist2 [(goodFn 2 5, 5), (goodFn 4 6, 6)] ∧ Registered 10 hist2 [(goodFn 1 0, 0), (goodFn 2 5, 5)] := by
  have g : ∀ n ty, HandlerFor (goodFn n ty) ty := fun n ty => ⟨rfl, _, _, _, rfl, rfl, rfl, rfl, rfl, rfl⟩
  have a0 : ∀ t, Registered t [] [] := fun t => .none
  have a1 : Registered 10 [.handler 10 (goodFn 1 0)] [(goodFn 1 0, 0)] := .here (a0 10) (g 1 0)
  have b1 : Registered 11 [.handler 10 (goodFn 1 0)] [] := .other (a0 11) (by decide)
  have a2 : Registered 10 [.handler 10 (goodFn 1 0), .handler 10 (goodFn 2 5)] [(goodFn 1 0, 0), (goodFn 2 5, 5)] := .here a1 (g 2 5)
  have b2 : Registered 11 [.handler 10 (goodFn 1 0), .handler 10 (goodFn 2 5)] [] := .other b1 (by decide)
  exact ⟨.here (.here b2 (g 2 5)) (g 4 6), .other (.other a2 (by decide)) (by decide)⟩
end SharedDemo

/-- **C106** So "every handler gets the event that was sent" is false: two handlers of the documented forms, both successful, and the second is given a payload nobody sent. -/
theorem C106_not_isolated : ∃ (w : World) (edit : Edits) (hist : List RegCall) (e : Event) (f : Fn) (ty : Nat) (a : Arg),
    (∀ f ty, HandlerFor f ty → .handler e.typ f ∈ hist → WellTyped f) ∧ HandlerFor f ty ∧ .handler e.typ f ∈ hist ∧
    (onEventS w edit (Reg.after hist) e).1 = .nil ∧ ⟨f.ident, a⟩ ∈ (onEventS w edit (Reg.after hist) e).2.1 ∧ ¬ Given w e ty a := by
  refine ⟨Demo.world, SharedDemo.edits, SharedDemo.hist2, ⟨10, 42⟩, Demo.goodFn 2 5, 5, .decoded 5 77, ?_, ⟨rfl, _, _, _, rfl, rfl, rfl, rfl, rfl, rfl⟩, by decide, by decide, by decide, ?_⟩
  · intro f ty _ hm
    simp [SharedDemo.hist2] at hm
    rcases hm with h | h <;> rw [h] <;> exact wellTyped_iff.2 ⟨rfl, rfl⟩
  · rintro (⟨h, _⟩ | ⟨_, _, h⟩)
    · exact absurd h (by decide)
    · simp at h

end Ddd.Router
