import Verif.Spec.Config
import Verif.Props.Hooks
import Mathlib.Data.List.Forall2
import Mathlib.Tactic.ByContra
/-!
# C83: options of engines and runs
-/
set_option linter.unusedVariables false
set_option linter.unusedSimpArgs false
namespace Ddd.Config
open Hooks (Mem Slice)

theorem read_has {m : Mem} {s : Slice} {l : List Nat} (h : m.has s l) : m.read s = l := by
  apply List.ext_getElem?
  intro i
  unfold Mem.read
  by_cases hi : i < l.length
  · have h1 : l[i]? = some l[i] := by simp [hi]
    have := h.2 i _ h1
    simp [List.getElem?_map, h.1, hi, this]
  · have h1 : l[i]? = none := by simp at hi ⊢; omega
    simp [List.getElem?_map, h.1, h1] at *
    omega

theorem last_cons {α : Type} (d : α) (pick : Opt → Option α) (x : Opt) (opts : List Opt) :
    last d pick (x :: opts) = last ((pick x).getD d) pick opts := by
  unfold last
  cases hx : pick x with
  | none => simp [hx]
  | some y =>
    simp only [List.filterMap_cons, hx, Option.getD_some]
    cases h : opts.filterMap pick with
    | nil => simp
    | cons a l => simp [List.getLast?_cons]

/-- the meaning of more options on top of settings -/
def over (c : Conf) (opts : List Opt) : Conf where
  withTransaction := last c.withTransaction Opt.withTransaction? opts
  recursiveDelete := last c.recursiveDelete Opt.recursiveDelete? opts
  dryRun := last c.dryRun Opt.dryRun? opts
  locker := last c.locker Opt.locker? opts
  executor := last c.executor Opt.executor? opts
  eventPersist := last c.eventPersist Opt.eventPersist? opts
  logger := last c.logger Opt.logger? opts
  eventBus := last c.eventBus Opt.eventBus? opts
  timer := last c.timer Opt.timer? opts
  idGenerator := last c.idGenerator Opt.idGenerator? opts
  hooks := c.hooks ++ opts.filterMap Opt.hooks?

theorem last_append {α : Type} (d : α) (pick : Opt → Option α) (a b : List Opt) : last d pick (a ++ b) = last (last d pick a) pick b := by
  induction a generalizing d with
  | nil => simp [last]
  | cons x a ih => rw [List.cons_append, last_cons, last_cons, ih]

theorem over_meaning (l e : Nat) (a b : List Opt) : over (meaning l e a) b = meaning l e (a ++ b) := by
  simp [over, meaning, last_append]

/-- the options, the hooks being `hs`, as a configuration -/
def Options.conf (o : Options) (hs : List Nat) : Conf :=
  { withTransaction := o.withTransaction, recursiveDelete := o.recursiveDelete, dryRun := o.dryRun, locker := o.locker, executor := o.executor, eventPersist := o.eventPersist, logger := o.logger, eventBus := o.eventBus,
    timer := o.timer, idGenerator := o.idGenerator, hooks := hs }

theorem over_over (c : Conf) (a b : List Opt) : over (over c a) b = over c (a ++ b) := by
  simp [over, last_append]

theorem over_nil (c : Conf) : over c [] = c := by simp [over, last]

theorem applyAll_spec (grow : Nat → Nat) : ∀ (opts : List Opt) (m : Mem) (o : Options) (hs : List Nat), m.has o.hooks hs → o.hooks.arr < m.next →
    ∃ hs', (applyAll grow m o opts).1.has (applyAll grow m o opts).2.hooks hs' ∧ (applyAll grow m o opts).2.hooks.arr < (applyAll grow m o opts).1.next ∧
      (applyAll grow m o opts).2.conf hs' = over (o.conf hs) opts ∧ m.next ≤ (applyAll grow m o opts).1.next ∧
      (∀ a i, a < m.next → a ≠ o.hooks.arr ∨ i < o.hooks.len → (applyAll grow m o opts).1.cell a i = m.cell a i) ∧
      (((applyAll grow m o opts).2.hooks.arr = o.hooks.arr ∧ o.hooks.len ≤ (applyAll grow m o opts).2.hooks.len) ∨ m.next ≤ (applyAll grow m o opts).2.hooks.arr) ∧
      (o.hooks.cap = 0 → (applyAll grow m o opts).2.hooks = o.hooks ∨ m.next ≤ (applyAll grow m o opts).2.hooks.arr) := by
  intro opts
  induction opts with
  | nil =>
    intro m o hs h1 h2
    exact ⟨hs, h1, h2, by rw [over_nil]; rfl, Nat.le_refl _, fun _ _ _ _ => rfl, .inl ⟨rfl, Nat.le_refl _⟩, fun _ => .inl rfl⟩
  | cons x opts ih =>
    intro m o hs h1 h2
    have hf : applyAll grow m o (x :: opts) = applyAll grow (applyOpt grow (m, o) x).1 (applyOpt grow (m, o) x).2 opts := rfl
    rw [hf]
    have hx : (∃ h, x = .postSave h) ∨ ((applyOpt grow (m, o) x).1 = m ∧ (applyOpt grow (m, o) x).2.hooks = o.hooks ∧ ∀ hs, (applyOpt grow (m, o) x).2.conf hs = over (o.conf hs) [x]) := by
      cases x with
      | postSave h => exact .inl ⟨h, rfl⟩
      | _ => exact .inr ⟨rfl, rfl, fun hs => by simp [over, last_cons, applyOpt, Options.conf, last, Opt.withTransaction?, Opt.recursiveDelete?, Opt.dryRun?, Opt.locker?, Opt.executor?, Opt.eventPersist?, Opt.logger?, Opt.eventBus?, Opt.timer?, Opt.idGenerator?, Opt.hooks?]⟩
    rcases hx with ⟨h, rfl⟩ | ⟨hx1, hx2, hx3⟩
    · simp only [applyOpt]
      have hn : m.next ≤ (Hooks.append grow m o.hooks h).1.next := Hooks.append_next
      have ha := Hooks.append_arr (grow := grow) (m := m) (s := o.hooks) (h := h)
      obtain ⟨hs', g1, g2, g3, g4, g5, g6, g7⟩ := ih (Hooks.append grow m o.hooks h).1 { o with hooks := (Hooks.append grow m o.hooks h).2 } (hs ++ [h]) (Hooks.append_has h h1) (by
        simp only; rcases ha with ⟨_, h3, h4⟩ | ⟨_, h3, h4⟩ <;> omega)
      simp only at g5 g6 g7
      refine ⟨hs', g1, g2, ?_, by omega, ?_, ?_, ?_⟩
      · rw [g3]
        simp [over, Options.conf, last_cons, Opt.withTransaction?, Opt.recursiveDelete?, Opt.dryRun?, Opt.locker?, Opt.executor?, Opt.eventPersist?, Opt.logger?, Opt.eventBus?, Opt.timer?, Opt.idGenerator?, Opt.hooks?]
      · intro a i hlt hor
        rw [g5 a i (by omega) ?_]
        · rcases hor with h3 | h3
          · exact Hooks.append_other h3 hlt i
          · exact Hooks.append_low hlt h3
        · unfold Hooks.append
          split
          · simp only
            rcases hor with h3 | h3
            · exact .inl h3
            · exact .inr (by omega)
          · exact .inl (by simp only; omega)
      · have hlen : o.hooks.len ≤ (Hooks.append grow m o.hooks h).2.len := by unfold Hooks.append; split <;> simp
        omega
      · intro hc
        right
        omega
    · obtain ⟨hs', g1, g2, g3, g4, g5, g6, g7⟩ := ih (applyOpt grow (m, o) x).1 (applyOpt grow (m, o) x).2 hs (by rw [hx1, hx2]; exact h1) (by rw [hx1, hx2]; exact h2)
      rw [hx1, hx2] at g5 g6 g7
      rw [hx1] at g4
      refine ⟨hs', by rw [hx1] at g1; rw [hx1]; exact g1, by rw [hx1] at g2; rw [hx1]; exact g2, ?_, by rw [hx1]; exact g4, by rw [hx1]; exact g5, by rw [hx1]; exact g6, by rw [hx1]; exact g7⟩
      rw [g3, hx3, over_over]
      rfl

theorem attachBus_none {w : World} {b : Nat} : attachBus w b = none ↔ b = 0 := by
  unfold attachBus
  split
  · simp [*]
  · split <;> simp [*]

theorem attachTimer_none {w : World} {t : Nat} : attachTimer w t = none ↔ t = 0 := by
  unfold attachTimer
  split
  · simp [*]
  · split <;> simp [*]

theorem attachBus_some {w w' : World} {b : Nat} (h : attachBus w b = some w') : w'.mem = w.mem ∧ w'.isTx = w.isTx ∧ w'.timerCb = w.timerCb ∧
    (b ≠ 1 → w'.busCb b = some .router ∧ (w.isTx b = true → w'.busTx b = some .router)) ∧
    (∀ x, x ≠ b → w'.busCb x = w.busCb x ∧ w'.busTx x = w.busTx x) ∧ (w.isTx b = false → w'.busTx b = w.busTx b) := by
  unfold attachBus at h
  split at h
  · cases h
  · split at h
    · next hb =>
      cases h
      exact ⟨rfl, rfl, rfl, fun hn => absurd hb hn, fun _ _ => ⟨rfl, rfl⟩, fun _ => rfl⟩
    · cases h
      refine ⟨rfl, rfl, rfl, fun _ => ⟨by simp, fun ht => by simp [ht]⟩, fun x hx => ⟨by simp [hx], by simp [hx]⟩, fun ht => by simp [ht]⟩

theorem attachTimer_some {w w' : World} {t : Nat} (h : attachTimer w t = some w') : w'.mem = w.mem ∧ w'.isTx = w.isTx ∧ w'.busCb = w.busCb ∧ w'.busTx = w.busTx ∧
    (t ≠ 1 → w'.timerCb t = some .router) ∧ (∀ x, x ≠ t → w'.timerCb x = w.timerCb x) := by
  unfold attachTimer at h
  split at h
  · cases h
  · split at h
    · next hb =>
      cases h
      exact ⟨rfl, rfl, rfl, rfl, fun hn => absurd hb hn, fun _ _ => rfl⟩
    · cases h
      exact ⟨rfl, rfl, rfl, rfl, fun _ => by simp, fun x hx => by simp [hx]⟩

/-- the callbacks have been set for a bus and a timer, and nothing else changed -/
def Attached (w w' : World) (b t : Nat) : Prop :=
  w'.isTx = w.isTx ∧
  (b ≠ 1 → w'.busCb b = some .router ∧ (w.isTx b = true → w'.busTx b = some .router)) ∧
  (∀ x, x ≠ b → w'.busCb x = w.busCb x ∧ w'.busTx x = w.busTx x) ∧
  (t ≠ 1 → w'.timerCb t = some .router) ∧ (∀ x, x ≠ t → w'.timerCb x = w.timerCb x)

/-- everything an engine or a stage contains agrees with a configuration -/
structure Fits (m : Mem) (c : Conf) (locker executor idGenerator eventBus timer logger : Nat) (o : Options) : Prop where
  conf : o.conf c.hooks = c
  has : m.has o.hooks c.hooks
  lt : o.hooks.arr < m.next
  locker : locker = c.locker
  executor : executor = c.executor
  idGenerator : idGenerator = c.idGenerator
  eventBus : eventBus = c.eventBus
  timer : timer = c.timer
  logger : logger = c.logger

def Stage.Fits (st : Stage) (m : Mem) (c : Conf) : Prop := Config.Fits m c st.locker st.executor st.idGenerator st.eventBus st.timer st.logger st.options
def Engine.Fits (st : Engine) (m : Mem) (c : Conf) : Prop := Config.Fits m c st.locker st.executor st.idGenerator st.eventBus st.timer st.logger st.options

theorem Stage.Fits.uses {st : Stage} {m : Mem} {c : Conf} (h : st.Fits m c) : st.uses m = c := by
  obtain ⟨h1, h2, h3, h4, h5, h6, h7, h8, h9⟩ := h
  unfold Stage.uses
  rw [h4, h5, h6, h7, h8, h9, read_has h2]
  rw [← h1]
  rfl

/-- the part common to `NewEngine` and `WithOption` -/
theorem attach_spec {grow : Nat → Nat} {w : World} {o : Options} {hs : List Nat} {opts : List Opt} (hh : w.mem.has o.hooks hs) (hl : o.hooks.arr < w.mem.next) :
    let r := withOption grow w ⟨0, 0, 0, 0, 0, 0, o⟩ opts
    (r.2 = none ↔ ¬ (over (o.conf hs) opts).sound) ∧
    (∀ st, r.2 = some st → st.Fits r.1.mem (over (o.conf hs) opts) ∧ Attached w r.1 (over (o.conf hs) opts).eventBus (over (o.conf hs) opts).timer ∧
      ((st.options.hooks.arr = o.hooks.arr ∧ o.hooks.len ≤ st.options.hooks.len) ∨ w.mem.next ≤ st.options.hooks.arr) ∧ (o.hooks.cap = 0 → st.options.hooks = o.hooks ∨ w.mem.next ≤ st.options.hooks.arr)) ∧
    w.mem.next ≤ r.1.mem.next ∧ r.1.isTx = w.isTx ∧
    (∀ a i, a < w.mem.next → a ≠ o.hooks.arr ∨ i < o.hooks.len → r.1.mem.cell a i = w.mem.cell a i) := by
  obtain ⟨hs', g1, g2, g3, g4, g5, g6, g7⟩ := applyAll_spec grow opts w.mem o hs hh hl
  intro r
  have hr : r = withOption grow w ⟨0, 0, 0, 0, 0, 0, o⟩ opts := rfl
  clear_value r
  unfold withOption at hr
  simp only at hr
  generalize hmo : applyAll grow w.mem o opts = mo at *
  obtain ⟨m, o'⟩ := mo
  simp only at *
  have hbus : o'.eventBus = (over (o.conf hs) opts).eventBus := by rw [← g3]; rfl
  have htim : o'.timer = (over (o.conf hs) opts).timer := by rw [← g3]; rfl
  generalize over (o.conf hs) opts = c at *
  have hhs : hs' = c.hooks := by rw [← g3]; rfl
  subst hhs
  cases hb : attachBus { w with mem := m } o'.eventBus with
  | none =>
    rw [hb] at hr
    simp only at hr
    subst hr
    rw [attachBus_none] at hb
    exact ⟨by simp [Conf.sound, ← hbus, hb], by simp, g4, rfl, g5⟩
  | some w1 =>
    rw [hb] at hr
    simp only at hr
    have hb0 : o'.eventBus ≠ 0 := fun h => by rw [attachBus_none.2 h] at hb; cases hb
    obtain ⟨b1, b2, b3, b4, b5, b6⟩ := attachBus_some hb
    cases ht : attachTimer w1 o'.timer with
    | none =>
      rw [ht] at hr
      simp only at hr
      subst hr
      rw [attachTimer_none] at ht
      refine ⟨by simp [Conf.sound, ← htim, ht], by simp, ?_, b2, ?_⟩
      · rw [b1]; exact g4
      · rw [b1]; exact g5
    | some w2 =>
      rw [ht] at hr
      simp only at hr
      subst hr
      have ht0 : o'.timer ≠ 0 := fun h => by rw [attachTimer_none.2 h] at ht; cases ht
      obtain ⟨t1, t2, t3, t4, t5, t6⟩ := attachTimer_some ht
      have hm : w2.mem = m := by rw [t1, b1]
      refine ⟨by simp [Conf.sound, ← hbus, ← htim, hb0, ht0], ?_, ?_, by rw [t2, b2], ?_⟩
      · intro st hst
        simp only [Option.some.injEq] at hst
        subst hst
        refine ⟨?_, ?_, g6, g7⟩
        · constructor
          · exact g3
          · rw [hm]; exact g1
          · rw [hm]; exact g2
          all_goals (rw [← g3]; rfl)
        · refine ⟨by rw [t2, b2], ?_, ?_, ?_, ?_⟩
          · rw [t3, t4, ← hbus]; exact b4
          · rw [t3, t4, ← hbus]; exact b5
          · rw [← htim]; exact t5
          · rw [← htim, ← b3]; exact t6
      · rw [hm]; exact g4
      · rw [hm]; exact g5

theorem withOption_options (grow : Nat → Nat) (w : World) (st : Stage) (opts : List Opt) :
    withOption grow w st opts = withOption grow w ⟨0, 0, 0, 0, 0, 0, st.options⟩ opts := rfl

theorem newEngine_options (grow : Nat → Nat) (w : World) (l e : Nat) (opts : List Opt) :
    newEngine grow w l e opts = ((withOption grow w ⟨0, 0, 0, 0, 0, 0, defaults l e⟩ opts).1,
      (withOption grow w ⟨0, 0, 0, 0, 0, 0, defaults l e⟩ opts).2.map fun st => ⟨st.locker, st.executor, st.idGenerator, st.eventBus, st.timer, st.logger, st.options⟩) := by
  unfold newEngine withOption
  simp only
  cases attachBus { w with mem := (applyAll grow w.mem (defaults l e) opts).1 } (applyAll grow w.mem (defaults l e) opts).2.eventBus with
  | none => rfl
  | some w1 =>
    simp only
    cases attachTimer w1 (applyAll grow w.mem (defaults l e) opts).2.timer with
    | none => rfl
    | some w2 => rfl

structure Inv (s : State) (cr : List (Nat × Nat × List Opt)) : Prop where
  pos : 1 ≤ s.world.mem.next
  fits : List.Forall₂ (fun (g : Engine) x => g.Fits s.world.mem (meaning x.1 x.2.1 x.2.2)) s.engines cr
  zero : ∀ g ∈ s.engines, g.options.hooks.arr = 0 → g.options.hooks.len = 0
  apart : ∀ a ∈ s.engines, ∀ b ∈ s.engines, a.options.hooks.arr = b.options.hooks.arr → a.options.hooks.arr = 0 ∨ a = b

theorem Engine.Fits.mono {g : Engine} {m m' : Mem} {c : Conf} (h : g.Fits m c) (hn : m.next ≤ m'.next)
    (hm : ∀ i, i < g.options.hooks.len → m'.cell g.options.hooks.arr i = m.cell g.options.hooks.arr i) : g.Fits m' c := by
  obtain ⟨h1, h2, h3, h4, h5, h6, h7, h8, h9⟩ := h
  refine ⟨h1, ⟨h2.1, fun i x hx => ?_⟩, by omega, h4, h5, h6, h7, h8, h9⟩
  rw [hm i, h2.2 i x hx]
  rw [h2.1]
  by_contra hc
  rw [List.getElem?_eq_none (by omega)] at hx
  cases hx

theorem Inv.lt {s : State} {cr} (h : Inv s cr) {g : Engine} (hg : g ∈ s.engines) : g.options.hooks.arr < s.world.mem.next := by
  obtain ⟨i, hi, rfl⟩ := List.mem_iff_getElem.1 hg
  have := h.fits
  rw [List.forall₂_iff_get] at this
  exact (this.2 i hi (by omega)).lt

/-- memory that changes only beyond the hooks of one engine -/
theorem Inv.mem {s : State} {cr} (h : Inv s cr) {w : World} (hn : s.world.mem.next ≤ w.mem.next) (hm : ∀ g ∈ s.engines, ∀ i, i < g.options.hooks.len → w.mem.cell g.options.hooks.arr i = s.world.mem.cell g.options.hooks.arr i) :
    Inv { s with world := w } cr := by
  refine ⟨by have := h.pos; simp only; omega, ?_, h.zero, h.apart⟩
  have hf := h.fits
  rw [List.forall₂_iff_get] at hf ⊢
  refine ⟨hf.1, fun i h1 h2 => (hf.2 i h1 h2).mono hn (hm _ (by simp))⟩

theorem meaning_eq (l e : Nat) (opts : List Opt) : over ((defaults l e).conf []) opts = meaning l e opts := by
  simp [over, meaning, defaults, Options.conf]

theorem post_sound (c : Conf) (l : List Nat) : (over c (l.map .postSave)) = { c with hooks := c.hooks ++ l } := by
  induction l generalizing c with
  | nil => simp [over_nil]
  | cons x l ih =>
    have : over c ((x :: l).map .postSave) = over (over c [.postSave x]) (l.map .postSave) := by rw [over_over]; rfl
    rw [this, ih]
    simp [over, last, Opt.withTransaction?, Opt.recursiveDelete?, Opt.dryRun?, Opt.locker?, Opt.executor?, Opt.eventPersist?, Opt.logger?, Opt.eventBus?, Opt.timer?, Opt.idGenerator?, Opt.hooks?]

/-- the options a run adds to those of its engine -/
def added (opts : List Opt) (post : Option (List Nat)) : List Opt := opts ++ (post.getD []).map .postSave

theorem run_spec {grow : Nat → Nat} {w : World} {g : Engine} {c : Conf} (hg : g.Fits w.mem c) (opts : List Opt) (post : Option (List Nat)) :
    let r := runStage grow w g opts post
    (r.2 = none ↔ ¬ (over c (added opts post)).sound) ∧
    (∀ st, r.2 = some st → st.Fits r.1.mem (over c (added opts post)) ∧ Attached w r.1 (over c (added opts post)).eventBus (over c (added opts post)).timer) ∧
    w.mem.next ≤ r.1.mem.next ∧
    (∀ a i, a < w.mem.next → a ≠ g.options.hooks.arr ∨ i < g.options.hooks.len → r.1.mem.cell a i = w.mem.cell a i) := by
  intro r
  have hr : r = runStage grow w g opts post := rfl
  clear_value r
  unfold runStage at hr
  have ha := attach_spec (grow := grow) (opts := opts) hg.has hg.lt
  rw [hg.conf] at ha
  rw [show (newStage g) = ⟨g.locker, g.executor, g.idGenerator, g.eventBus, g.timer, g.logger, g.options⟩ from rfl, withOption_options] at hr
  simp only at ha hr
  have hcs : (over c (added opts post)).sound ↔ (over c opts).sound := by
    unfold added
    rw [← over_over, post_sound]
    rfl
  rw [hcs]
  generalize hx : withOption grow w ⟨0, 0, 0, 0, 0, 0, g.options⟩ opts = x at *
  obtain ⟨w1, o1⟩ := x
  obtain ⟨a1, a2, a3, a4, a5⟩ := ha
  cases o1 with
  | none =>
    simp only at hr
    subst hr
    exact ⟨a1, by simp, a3, a5⟩
  | some st1 =>
    simp only at hr a1 a2 a3 a4 a5
    obtain ⟨b1, b2, b3, b4⟩ := a2 st1 rfl
    cases post with
    | none =>
      simp only at hr
      subst hr
      simp only [added, Option.getD_none, List.map_nil, List.append_nil]
      exact ⟨a1, fun st hst => by cases hst; exact ⟨b1, b2⟩, a3, a5⟩
    | some l =>
      simp only at hr
      rw [withOption_options] at hr
      have hc := attach_spec (grow := grow) (opts := l.map .postSave) b1.has b1.lt
      rw [b1.conf, over_over] at hc
      simp only at hc
      rw [← hr] at hc
      have hcs' : (over c (opts ++ l.map .postSave)).sound ↔ (over c opts).sound := hcs
      obtain ⟨c1, c2, c3, c4, c5⟩ := hc
      refine ⟨by rw [c1, hcs'], ?_, by omega, ?_⟩
      · intro st hst
        obtain ⟨d1, d2, -, -⟩ := c2 st hst
        refine ⟨d1, ?_⟩
        have he : (over c (opts ++ l.map .postSave)).eventBus = (over c opts).eventBus ∧ (over c (opts ++ l.map .postSave)).timer = (over c opts).timer := by
          rw [← over_over, post_sound]; exact ⟨rfl, rfl⟩
        show Attached w r.1 (over c (opts ++ l.map .postSave)).eventBus (over c (opts ++ l.map .postSave)).timer
        rw [he.1, he.2] at d2 ⊢
        obtain ⟨e1, e2, e3, e4, e5⟩ := b2
        obtain ⟨f1, f2, f3, f4, f5⟩ := d2
        refine ⟨by rw [f1, e1], by rw [← e1]; exact f2, fun x hx => ?_, f4, fun x hx => by rw [f5 x hx, e5 x hx]⟩
        rw [(f3 x hx).1, (f3 x hx).2]; exact e3 x hx
      · intro a i hlt hor
        rw [c5 a i (by omega) (by omega), a5 a i hlt hor]

/-- the engine a call creates -/
def createdBy : Op → List (Nat × Nat × List Opt)
  | .newEngine l e opts => if (meaning l e opts).sound then [(l, e, opts)] else []
  | _ => []

theorem created_append (a : List Op) (x : Op) : created (a ++ [x]) = created a ++ createdBy x := by
  induction a with
  | nil =>
    cases x with
    | newEngine l e opts => simp only [List.nil_append, created, createdBy]
    | _ => rfl
  | cons y a ih =>
    cases y with
    | newEngine l e opts =>
      simp only [List.cons_append, created]
      split
      · rw [ih]; rfl
      · rw [ih]
    | _ => simpa only [List.cons_append, created] using ih

theorem inv_step {grow : Nat → Nat} {s : State} {cr : List (Nat × Nat × List Opt)} (h : Inv s cr) (op : Op) : Inv (step grow s op) (cr ++ createdBy op) := by
  cases op with
  | newEngine l e opts =>
    have ha := attach_spec (grow := grow) (w := s.world) (o := defaults l e) (hs := []) (opts := opts) ⟨rfl, by simp⟩ (by have := h.pos; simp only [defaults]; omega)
    rw [meaning_eq] at ha
    simp only [step, newEngine_options, createdBy]
    simp only at ha
    generalize hx : withOption grow s.world ⟨0, 0, 0, 0, 0, 0, defaults l e⟩ opts = x at *
    obtain ⟨w, o⟩ := x
    obtain ⟨a1, a2, a3, a4, a5⟩ := ha
    have hi : Inv { s with world := w } cr := h.mem a3 fun g hg i hi => a5 _ i (h.lt hg) (by
      by_cases h0 : g.options.hooks.arr = 0
      · have := h.zero g hg h0; omega
      · left; simp only [defaults]; exact h0)
    cases o with
    | none =>
      have : ¬ (meaning l e opts).sound := a1.1 rfl
      rw [if_neg this, List.append_nil]
      exact hi
    | some st =>
      have hs : (meaning l e opts).sound := by
        by_contra hc
        have := a1.2 hc
        cases this
      rw [if_pos hs]
      obtain ⟨b1, b2, b3, b4⟩ := a2 st rfl
      simp only [Option.map_some]
      have hnew : st.options.hooks = ⟨0, 0, 0⟩ ∨ s.world.mem.next ≤ st.options.hooks.arr := b4 rfl
      refine ⟨hi.pos, List.rel_append hi.fits (.cons b1 .nil), ?_, ?_⟩
      · intro g hg h0
        rcases List.mem_append.1 hg with hg | hg
        · exact h.zero g hg h0
        · simp only [List.mem_singleton] at hg
          subst hg
          simp only at h0 ⊢
          rcases hnew with hn | hn
          · rw [hn]
          · have := h.pos; omega
      · intro a hma b hmb hab
        rcases List.mem_append.1 hma with hma | hma <;> rcases List.mem_append.1 hmb with hmb | hmb
        · exact h.apart a hma b hmb hab
        · simp only [List.mem_singleton] at hmb
          subst hmb
          simp only at hab
          rcases hnew with hn | hn
          · left; rw [hab, hn]
          · have := h.lt hma; omega
        · simp only [List.mem_singleton] at hma
          subst hma
          simp only at hab ⊢
          rcases hnew with hn | hn
          · left; rw [hn]
          · have := h.lt hmb; omega
        · simp only [List.mem_singleton] at hma hmb
          right; rw [hma, hmb]
  | run i opts post =>
    simp only [createdBy, List.append_nil, step]
    cases hg : s.engines[i]? with
    | none => exact h
    | some g =>
      simp only
      have hm : g ∈ s.engines := List.mem_of_getElem? hg
      have hf := h.fits
      rw [List.forall₂_iff_get] at hf
      obtain ⟨hi, rfl⟩ := List.getElem?_eq_some_iff.1 hg
      obtain ⟨-, -, r3, r4⟩ := run_spec (grow := grow) (hf.2 i hi (by omega)) opts post
      refine h.mem r3 fun g' hg' k hk => r4 _ k (h.lt hg') ?_
      by_cases hab : g'.options.hooks.arr = s.engines[i].options.hooks.arr
      · rcases h.apart _ hg' _ hm hab with h0 | h0
        · have := h.zero g' hg' h0; omega
        · right; show k < s.engines[i].options.hooks.len; rw [← h0]; exact hk
      · left; exact hab
  | setBus b n => simp only [createdBy, List.append_nil, step]; exact h.mem (Nat.le_refl _) fun _ _ _ _ => rfl
  | setTx b n => simp only [createdBy, List.append_nil, step]; exact h.mem (Nat.le_refl _) fun _ _ _ _ => rfl
  | setTimer b n => simp only [createdBy, List.append_nil, step]; exact h.mem (Nat.le_refl _) fun _ _ _ _ => rfl

theorem inv_exec (grow : Nat → Nat) (isTx : Nat → Bool) (ops : List Op) : Inv (exec grow isTx ops) (created ops) := by
  rw [← List.reverse_reverse ops]
  induction ops.reverse with
  | nil => exact ⟨Nat.le_refl _, by simpa [exec, initial, created] using List.Forall₂.nil, by simp [exec, initial], by simp [exec, initial]⟩
  | cons x l ih =>
    rw [List.reverse_cons, created_append]
    unfold exec at ih ⊢
    rw [List.foldl_append]
    exact inv_step ih x

/-- **C83** After any calls, the engines are those whose `NewEngine` had a bus and a timer (it panicked otherwise). -/
theorem C83_engines (grow : Nat → Nat) (isTx : Nat → Bool) (ops : List Op) : (exec grow isTx ops).engines.length = (created ops).length :=
  (inv_exec grow isTx ops).fits.length_eq

/-- **C83** Whatever other engines were created, commands run and options given before: a run on an engine created with locker `l`, executor `e` and options `eo` uses, for every setting, what the last of the engine's options, the options of
this run, and the hook of its command says (or the default); its hooks are those of the engine, of this run and of the command, in this order, and no others. It panics exactly if this bus or timer is nil. -/
theorem C83_run (grow : Nat → Nat) (isTx : Nat → Bool) (ops : List Op) {i l e : Nat} {eo : List Opt} (hi : (created ops)[i]? = some (l, e, eo)) (opts : List Opt) (post : Option (List Nat)) :
    ∃ g, (exec grow isTx ops).engines[i]? = some g ∧
      ((runStage grow (exec grow isTx ops).world g opts post).2 = none ↔ ¬ (meaning l e (eo ++ opts)).sound) ∧
      ∀ st, (runStage grow (exec grow isTx ops).world g opts post).2 = some st →
        st.uses (runStage grow (exec grow isTx ops).world g opts post).1.mem = meaning l e (eo ++ opts ++ (post.getD []).map .postSave) := by
  have h := (inv_exec grow isTx ops).fits
  rw [List.forall₂_iff_get] at h
  obtain ⟨hlt, hx⟩ := List.getElem?_eq_some_iff.1 hi
  have hlt' : i < (exec grow isTx ops).engines.length := by omega
  refine ⟨(exec grow isTx ops).engines[i], by simp [hlt'], ?_⟩
  have hf := h.2 i hlt' hlt
  simp only [List.get_eq_getElem, hx] at hf
  obtain ⟨r1, r2, -, -⟩ := run_spec (grow := grow) hf opts post
  rw [over_meaning, added, ← List.append_assoc] at r1 r2
  refine ⟨?_, fun st hst => (r2 st hst).1.uses⟩
  rw [r1, ← over_meaning, post_sound]
  rfl

/-- **C83** Such a run makes the package's functions the callbacks of the bus and the timer it uses, in place of whatever the user had set there, and leaves all other buses and timers alone. -/
theorem C83_callbacks (grow : Nat → Nat) (isTx : Nat → Bool) (ops : List Op) {i l e : Nat} {eo : List Opt} (hi : (created ops)[i]? = some (l, e, eo)) (opts : List Opt) (post : Option (List Nat))
    (hs : (meaning l e (eo ++ opts)).sound) :
    let b := (meaning l e (eo ++ opts)).eventBus
    let t := (meaning l e (eo ++ opts)).timer
    let w := (exec grow isTx ops).world
    let w' := (exec grow isTx (ops ++ [.run i opts post])).world
    (b ≠ 1 → w'.busCb b = some .router ∧ (isTx b = true → w'.busTx b = some .router)) ∧
    (t ≠ 1 → w'.timerCb t = some .router) ∧
    (∀ x, x ≠ b → w'.busCb x = w.busCb x ∧ w'.busTx x = w.busTx x) ∧ (∀ x, x ≠ t → w'.timerCb x = w.timerCb x) := by
  have htx : ∀ ops, (exec grow isTx ops).world.isTx = isTx := by
    intro ops
    have key : ∀ (ops : List Op) (s : State), (ops.foldl (step grow) s).world.isTx = s.world.isTx := by
      intro ops
      induction ops with
      | nil => intro s; rfl
      | cons x ops ih =>
        intro s
        rw [List.foldl_cons, ih]
        have hw : ∀ w st opts, (withOption grow w st opts).1.isTx = w.isTx := by
          intro w st opts
          unfold withOption
          simp only
          cases hb : attachBus { w with mem := (applyAll grow w.mem st.options opts).1 } (applyAll grow w.mem st.options opts).2.eventBus with
          | none => rfl
          | some w1 =>
            simp only
            cases ht : attachTimer w1 (applyAll grow w.mem st.options opts).2.timer with
            | none => exact (attachBus_some hb).2.1
            | some w2 => exact (attachTimer_some ht).2.1.trans (attachBus_some hb).2.1
        cases x with
        | newEngine l e opts =>
          simp only [step, newEngine_options]
          have := hw s.world ⟨0, 0, 0, 0, 0, 0, defaults l e⟩ opts
          generalize withOption grow s.world ⟨0, 0, 0, 0, 0, 0, defaults l e⟩ opts = y at *
          obtain ⟨w, o⟩ := y
          cases o <;> exact this
        | run i opts post =>
          simp only [step]
          cases s.engines[i]? with
          | none => rfl
          | some g =>
            simp only [runStage]
            have h1 := hw s.world (newStage g) opts
            generalize withOption grow s.world (newStage g) opts = y at *
            obtain ⟨w, o⟩ := y
            cases o with
            | none => exact h1
            | some st =>
              cases post with
              | none => exact h1
              | some p => exact (hw w st _).trans h1
        | _ => rfl
    exact key ops _
  intro b t w w'
  obtain ⟨g, hg, h1, h2⟩ := C83_run grow isTx ops hi opts post
  have h := (inv_exec grow isTx ops).fits
  rw [List.forall₂_iff_get] at h
  obtain ⟨hlt, hx⟩ := List.getElem?_eq_some_iff.1 hi
  have hlt' : i < (exec grow isTx ops).engines.length := by omega
  have hf := h.2 i hlt' hlt
  simp only [List.get_eq_getElem, hx] at hf
  obtain ⟨r1, r2, -, -⟩ := run_spec (grow := grow) hf opts post
  have hgi : (exec grow isTx ops).engines[i] = g := by rw [List.getElem?_eq_some_iff] at hg; exact hg.2
  rw [hgi] at r1 r2
  have hst : ∃ st, (runStage grow (exec grow isTx ops).world g opts post).2 = some st := by
    rw [← Option.ne_none_iff_exists']
    exact fun hn => (h1.1 hn) hs
  obtain ⟨st, hst⟩ := hst
  have ha := (r2 st hst).2
  rw [over_meaning, added, ← List.append_assoc, ← over_meaning, post_sound] at ha
  have hw' : w' = (runStage grow (exec grow isTx ops).world g opts post).1 := by
    show (exec grow isTx (ops ++ [.run i opts post])).world = _
    unfold exec
    rw [List.foldl_append]
    show (step grow (exec grow isTx ops) (.run i opts post)).world = _
    simp only [step, hg]
    rfl
  rw [hw']
  obtain ⟨e1, e2, e3, e4, e5⟩ := ha
  refine ⟨fun hb => ?_, e4, e3, e5⟩
  have := e2 hb
  rw [htx] at this
  exact this

/-! ## A concrete process -/

/-- two engines: 0 with a transactional bus 7 and hooks 100, 101, 102; 1 with its own -/
def demoOps : List Op :=
  [.newEngine 5 6 [.eventBus 7, .postSave 100, .postSave 101, .postSave 102], .newEngine 5 6 [.timer 0], .newEngine 8 6 [.postSave 200],
   .setBus 7 33, .run 0 [.transaction false, .postSave 103] (some [104]), .setTx 7 34, .run 1 [] none]

/-- the hypotheses of C83 are met -/
example : created demoOps = [(5, 6, [.eventBus 7, .postSave 100, .postSave 101, .postSave 102]), (8, 6, [.postSave 200])] := by decide
example : (meaning 5 6 ([.eventBus 7, .postSave 100, .postSave 101, .postSave 102] ++ [.transaction true, .eventBus 9, .eventBus 8])).sound := by decide

/-- what a run on engine 0 uses -/
example : meaning 5 6 ([.eventBus 7, .postSave 100, .transaction false] ++ [.transaction true, .eventBus 9, .eventBus 8] ++ [.postSave 105]) =
    { withTransaction := true, recursiveDelete := false, dryRun := false, locker := 5, executor := 6, eventPersist := 0, logger := 1, eventBus := 8, timer := 1, idGenerator := 1, hooks := [100, 105] } := by decide

/-- a checker set by hand on bus 7 (34) is gone after the next run on engine 0, although that run has no options. -/
example : (exec Hooks.goGrow (fun b => b = 7) demoOps).world.busTx 7 = some (.user 34) ∧
    (exec Hooks.goGrow (fun b => b = 7) (demoOps ++ [.run 0 [] none])).world.busTx 7 = some .router := by decide +kernel

end Ddd.Config
