import Verif.Spec.Fleet
import Verif.Props.BusLTSDemo
import Verif.Props.Startup
/-!
# C122: several instances of one service, not all with the same program
-/
set_option linter.unusedVariables false
set_option linter.unusedSimpArgs false
namespace Ddd.Fleet
open Bus Router

variable {c : Cfg} {pol : Pol} {svcOf : Nat → Nat} {view : DEv → Event}

theorem bus_reachable {f : FState} (h : FReachable c pol svcOf view f) : Reachable c pol f.bus := by
  induction h with
  | init => exact .init
  | step _ hs ih =>
    cases hs with
    | bus _ _ h _ _ => exact .step ih h
    | register _ _ => exact ih
    | restart _ => exact ih
    | call _ _ _ _ h _ _ => exact .step ih h
    | finish _ _ _ _ _ _ _ _ h _ => exact .step ih h

/-- who made the calls in the log -/
structure Told (svcOf : Nat → Nat) (view : DEv → Event) (f : FState) : Prop where
  own : ∀ x ∈ f.running, svcOf x.2.1 = x.1.svc
  seen : ∀ en ∈ f.seen, svcOf en.inst = en.svc
  told : ∀ svc eid e ret t b, Log.returned svc eid e ret t b ∈ f.bus.log → ∃ en ∈ f.seen, en.svc = svc ∧ en.eid = eid ∧ en.e = e ∧ Startup.toRet (answer view en).1 = ret

theorem told {f : FState} (h : FReachable c pol svcOf view f) : Told svcOf view f := by
  induction h with
  | init => exact ⟨by simp [FState.init], by simp [FState.init], by simp [FState.init, State.init]⟩
  | step _ hs ih =>
    cases hs with
    | bus s' l h hl hq =>
      refine ⟨ih.own, ih.seen, fun svc eid e ret t b hm => ?_⟩
      simp only [hl, List.mem_append] at hm
      rcases hm with hm | hm
      · exact absurd (hq _ hm) (by simp [silent])
      · exact ih.told svc eid e ret t b hm
    | register _ _ => exact ⟨ih.own, ih.seen, ih.told⟩
    | restart _ => exact ⟨fun x hx => ih.own x (List.mem_filter.1 hx).1, ih.seen, ih.told⟩
    | call i j s' hi h hb hl =>
      refine ⟨fun x hx => ?_, ih.seen, fun svc eid e ret t b hm => ?_⟩
      · rcases List.mem_cons.1 hx with rfl | hx
        · exact hi
        · exact ih.own x hx
      · simp only [hl, List.mem_cons] at hm
        rcases hm with hm | hm
        · cases hm
        · exact ih.told svc eid e ret t b hm
    | finish i j hist w s' t b hr h hl =>
      refine ⟨fun x hx => ih.own x (List.mem_filter.1 hx).1, fun en hen => ?_, fun svc eid e ret t' b' hm => ?_⟩
      · rcases List.mem_cons.1 hen with rfl | hen
        · exact ih.own _ hr
        · exact ih.seen en hen
      · simp only [hl, List.mem_cons] at hm
        rcases hm with hm | hm
        · cases hm; exact ⟨_, List.mem_cons_self, rfl, rfl, rfl, rfl⟩
        · obtain ⟨en, h1, h2⟩ := ih.told svc eid e ret t' b' hm
          exact ⟨en, List.mem_cons_of_mem _ h1, h2⟩

/-- **C122** Whichever instance finishes a delivery has called all the handlers that were registered in it at that moment, in order, with the event, and each returned nil. -/
theorem C122_finished_by (hcalm : pol.calm = true) (hcount : Counting c.strategy) {f : FState} (h : FReachable c pol svcOf view f) {r : Rec} (hr : r ∈ f.bus.db.recs) (hs : r.status = .success) :
    ∃ en ∈ f.seen, svcOf en.inst = r.service ∧ en.svc = r.service ∧ en.eid = r.eventId ∧ en.e.id = r.eventId ∧
      ∀ fs, Registered (view en.e.ev).typ en.hist fs → (∀ q ∈ fs, WellTyped q.1) → Startup.AllHandled en.w (view en.e.ev) fs (answer view en).2 := by
  obtain ⟨x, hx, hok⟩ := ((safe_reachable hcalm hcount (bus_reachable h)).rows r hr).success hs
  cases x with
  | returned svc eid e ret t b =>
    simp only [Log.isOk, decide_eq_true_eq] at hok
    obtain ⟨rfl, rfl, h3, rfl⟩ := hok
    obtain ⟨en, h4, h5, h6, h7, h8⟩ := (told h).told _ _ _ _ _ _ hx
    refine ⟨en, h4, ((told h).seen en h4).trans h5, h5, h6, by rw [h7]; exact h3, fun fs hreg hw => ?_⟩
    have h9 := Startup.toRet_ok h8
    obtain ⟨r1, r2, r3, r4⟩ := C34_routing (w := en.w) hreg hw
    rcases r4 with ⟨_, g1, g2⟩ | ⟨fn, ty, y, g1, _⟩ | ⟨n, cc, g1, g2, g3, g4⟩
    · refine ⟨g1, fun i fn ty hf => ?_⟩
      obtain ⟨cc, hc⟩ : ∃ cc, (onEvent en.w (Reg.after en.hist) (view en.e.ev)).2[i]? = some cc := ⟨_, List.getElem?_eq_getElem (g1 ▸ (List.getElem?_eq_some_iff.1 hf).1)⟩
      obtain ⟨f', ty', q1, q2, q3⟩ := r2 i cc hc
      rw [hf] at q1; cases q1
      obtain ⟨fn', arg⟩ := cc
      subst q2
      exact ⟨arg, hc, q3, g2 i _ hc⟩
    · have : (onEvent en.w (Reg.after en.hist) (view en.e.ev)).1 = .nil := h9
      rw [this] at g1; cases g1
    · exact absurd h9 g4
  | _ => simp [Log.isOk] at hok

/-- **C122** (partial) A handler that every instance of the service has registered for the type of an event, whenever it handles it, has been called with the event and returned nil when the delivery is finished. Missing: the
assumption that all instances have it; `C122_old_instance`, `C122_swallowed`. -/
theorem C122_handled_partial (hcalm : pol.calm = true) (hcount : Counting c.strategy) {f : FState} (h : FReachable c pol svcOf view f) {r : Rec} (hr : r ∈ f.bus.db.recs) (hs : r.status = .success) {fn : Fn} {ty : Nat}
    (hall : Everywhere view r.service r.eventId fn ty f) (hw : ∀ en ∈ f.seen, ∀ fs, Registered (view en.e.ev).typ en.hist fs → ∀ q ∈ fs, WellTyped q.1) :
    ∃ en ∈ f.seen, svcOf en.inst = r.service ∧ en.e.id = r.eventId ∧ Ran view en fn ty := by
  obtain ⟨en, h1, h2, h3, h4, h5, h6⟩ := C122_finished_by hcalm hcount h hr hs
  obtain ⟨fs, hreg⟩ := Registered.total (view en.e.ev).typ en.hist
  obtain ⟨-, h8⟩ := h6 fs hreg (hw en h1 fs hreg)
  obtain ⟨i, hi⟩ := List.getElem?_of_mem (hall en h1 h3 h4 fs hreg)
  obtain ⟨a, h9, h10, h11⟩ := h8 i fn ty hi
  exact ⟨en, h1, h2, h5, i, a, h9, h10, h11⟩

/-- an instance takes a delivery that is ready, and its handlers succeed -/
theorem finishes {f : FState} {j : Job} {i : Nat} {w : World} (hi : svcOf i = j.svc) (hon : (onEvent w (Reg.after (f.regs i)) (view j.t.e.ev)).1 = .nil) (hj : j ∈ f.bus.pend) (hl : ¬ f.bus.locked j.t.r.id)
    (hx : ∃ x ∈ f.bus.db.recs, x.id = j.t.r.id) (hst : j.t.r.status = .init) (hm : mayCall f.bus.db j.svc j.start j.t.e = true) (hf : pol.fresh = true → j.t.r ∈ f.bus.db.recs) (hnext : j.t.r.next ≤ f.bus.now) :
    ∃ f', FSteps c pol svcOf view f f' ∧ f'.regs = f.regs ∧ { j.t.r with status := .success } ∈ f'.bus.db.recs ∧ (∀ x ∈ f'.bus.db.recs, x.id = j.t.r.id → x.status = .success) ∧ (∀ x ∈ f'.bus.db.recs, x.id ≠ j.t.r.id → x ∈ f.bus.db.recs) ∧
      f'.seen = ⟨i, j.svc, j.t.r.eventId, j.t.e, f.regs i, w⟩ :: f.seen := by
  obtain ⟨s1, hs1⟩ : ∃ s1 : State, s1 = { f.bus with pend := f.bus.pend.erase j, busy := j :: f.bus.busy, log := .called j.svc j.t.r.eventId j.t.e f.bus.now :: f.bus.log } := ⟨_, rfl⟩
  have st1 : Step c pol f.bus s1 := by rw [hs1]; exact .call f.bus j hj hl hx hst hm hf
  obtain ⟨s2, hs2⟩ : ∃ s2 : State, s2 = { s1 with busy := s1.busy.erase j, db := saveRec s1.db (afterCall c.strategy f.bus.now j.t.r .ok), log := .returned j.svc j.t.r.eventId j.t.e .ok f.bus.now true :: s1.log } := ⟨_, rfl⟩
  have st2 : Step c pol s1 s2 := by
    rw [hs2]
    exact .finish s1 j .ok (by rw [hs1]; simp) f.bus.now ⟨hnext, by rw [hs1]; exact Nat.le_add_right _ _⟩
  have ha : (answer view ⟨i, j.svc, j.t.r.eventId, j.t.e, f.regs i, w⟩).1 = .nil := hon
  have e1 : FStep c pol svcOf view f { f with bus := s1, running := (j, i, f.regs i) :: f.running } := .call f i j s1 hi st1 (by rw [hs1]) (by rw [hs1])
  have e2 := FStep.finish (c := c) (pol := pol) (svcOf := svcOf) (view := view) { f with bus := s1, running := (j, i, f.regs i) :: f.running } i j (f.regs i) w s2 f.bus.now true (by simp) st2
    (by rw [ha, hs2]; rfl)
  refine ⟨_, .step (.step (.refl f) e1) e2, rfl, ?_, ?_, ?_, rfl⟩
  · obtain ⟨x, hx1, hx2⟩ := hx
    simp only [hs2, hs1, saveRec, afterCall, List.mem_map]
    exact ⟨x, hx1, by simp [hx2]⟩
  · intro x hx3 hid
    simp only [hs2, hs1, saveRec, afterCall, List.mem_map] at hx3
    obtain ⟨y, hy, rfl⟩ := hx3
    by_cases hy2 : y.id = j.t.r.id
    · simp [hy2]
    · simp [hy2] at hid
  · intro x hx3 hid
    simp only [hs2, hs1, saveRec, afterCall, List.mem_map] at hx3
    obtain ⟨y, hy, rfl⟩ := hx3
    by_cases hy2 : y.id = j.t.r.id
    · simp [hy2] at hid
    · simpa [hy2] using hy

/-- **C122** An instance that runs a program without handlers for a type of events can take any delivery of the service that is ready: it is then finished for the whole service, although no function was called with it. What
the other instances have registered makes no difference. -/
theorem C122_old_instance {f : FState} {j : Job} {i : Nat} (hi : svcOf i = j.svc) (hnone : Registered (view j.t.e.ev).typ (f.regs i) []) (hj : j ∈ f.bus.pend) (hl : ¬ f.bus.locked j.t.r.id)
    (hx : ∃ x ∈ f.bus.db.recs, x.id = j.t.r.id) (hst : j.t.r.status = .init) (hm : mayCall f.bus.db j.svc j.start j.t.e = true) (hf : pol.fresh = true → j.t.r ∈ f.bus.db.recs) (hnext : j.t.r.next ≤ f.bus.now) :
    ∃ f', FSteps c pol svcOf view f f' ∧ f'.regs = f.regs ∧ { j.t.r with status := .success } ∈ f'.bus.db.recs ∧ (∀ x ∈ f'.bus.db.recs, x.id = j.t.r.id → x.status = .success) ∧ (∀ x ∈ f'.bus.db.recs, x.id ≠ j.t.r.id → x ∈ f.bus.db.recs) ∧
      ∃ en, f'.seen = en :: f.seen ∧ en.inst = i ∧ en.svc = j.svc ∧ en.eid = j.t.r.eventId ∧ (answer view en).2 = [] := by
  have hon : ∀ w : World, onEvent w (Reg.after (f.regs i)) (view j.t.e.ev) = (.nil, []) := by
    intro w
    unfold onEvent
    rw [registered_handlers hnone]; rfl
  obtain ⟨f', h1, h2, h3, h4, h5, h6⟩ := finishes (c := c) (pol := pol) (svcOf := svcOf) (view := view) (f := f) (w := Router.Demo.world) hi (by rw [hon]) hj hl hx hst hm hf hnext
  exact ⟨f', h1, h2, h3, h4, h5, _, h6, rfl, rfl, rfl, by show (onEvent _ _ _).2 = []; rw [hon]⟩

/-! ## a deployment -/

/-- not a call or a return of a callback -/
def quietAct : Act → Bool
  | .call _ => false
  | .finish _ _ => false
  | .finishLost _ _ => false
  | _ => true

theorem quiet_run {s s' : State} {a : Act} (hq : quietAct a = true) (h : a.run c pol s = some s') : ∃ l, s'.log = l ++ s.log ∧ ∀ x ∈ l, silent x = true := by
  cases a <;> simp only [quietAct, Bool.false_eq_true] at hq <;> simp only [Act.run] at h
  case recs ps svc todo =>
    split at h
    · cases h; exact ⟨_, rfl, by simp [silent]⟩
    · cases h
  case expire r =>
    split at h
    · cases h; exact ⟨[_], rfl, by simp [silent]⟩
    · cases h
  all_goals
    repeat' split at h
  all_goals
    first
      | (cases h; done)
      | (cases h; exact ⟨[], rfl, by simp⟩)

theorem steps_head {a b d : FState} (h : FStep c pol svcOf view a b) (hs : FSteps c pol svcOf view b d) : FSteps c pol svcOf view a d := by
  induction hs with
  | refl => exact .step (.refl a) h
  | step _ hs ih => exact .step ih hs

theorem lift_acts : ∀ (acts : List Act) {f : FState} {s' : State}, (∀ a ∈ acts, quietAct a = true) → acts.foldlM (Act.run c pol) f.bus = some s' → FSteps c pol svcOf view f { f with bus := s' }
  | [], f, s', _, h => by cases h; exact .refl f
  | a :: acts, f, s', hq, h => by
    simp only [List.foldlM_cons, Option.bind_eq_bind, Option.bind_eq_some_iff] at h
    obtain ⟨s1, h1, h2⟩ := h
    obtain ⟨l, hl, hs⟩ := quiet_run (hq a (by simp)) h1
    have e1 : FStep c pol svcOf view f { f with bus := s1 } := .bus f s1 l (Act.sound h1) hl hs
    have := lift_acts acts (f := { f with bus := s1 }) (fun b hb => hq b (by simp [hb])) h2
    exact steps_head e1 this

theorem reach_steps {f f' : FState} (h : FReachable c pol svcOf view f) (hs : FSteps c pol svcOf view f f') : FReachable c pol svcOf view f' := by
  induction hs with
  | refl => exact h
  | step _ hs ih => exact .step ih hs

namespace Demo
open Bus.LDemo

def handler : RegCall := .handler 10 (Router.Demo.goodFn 1 0)
/-- instances 1 and 2 of service 7; all events have type 10 -/
def svcs : Nat → Nat := fun _ => 7
def kind : DEv → Event := fun e => ⟨10, e.body⟩
/-- instance 1 runs the new program, instance 2 still the old one -/
def deploying : FState := { FState.init with regs := fun k => if k = 1 then [handler] else [] }
/-- an event was dispatched, and a scan of the service found it -/
def acts : List Act := dispatched 1 ++ scan7 [rec7 1]
def ready : Option State := acts.foldlM (Act.run (cfg (limitRetry 3)) strict) State.init

end Demo
open Demo Bus.LDemo

/-- **C122** In a deployment: one instance has the handler for the new type of events, another one has not. An event of this type can be finished for the service without the handler (or anything else) ever being called with it, even when
nothing else goes wrong (scans and workers do not overlap, no errors, no crashes). -/
theorem C122_swallowed : ∃ f, FReachable (cfg (limitRetry 3)) strict svcs kind f ∧ f.regs 1 = [handler] ∧ (∃ fs, Registered 10 (f.regs 1) fs ∧ fs ≠ []) ∧ svcs 1 = 7 ∧
    { rec7 1 with status := .success } ∈ f.bus.db.recs ∧ (∀ x ∈ f.bus.db.recs, x.status = .success) ∧ ∀ en ∈ f.seen, (answer kind en).2 = [] := by
  have h0 : FReachable (cfg (limitRetry 3)) strict svcs kind deploying := by
    have := FReachable.step .init (FStep.register (c := cfg (limitRetry 3)) (pol := strict) (svcOf := svcs) (view := kind) FState.init 1 handler)
    exact this
  obtain ⟨s1, hs1⟩ : ∃ s1, ready = some s1 := Option.isSome_iff_exists.1 (by decide +kernel)
  have h1 := reach_steps h0 (lift_acts acts (f := deploying) (by decide) hs1)
  have key : ∀ p : State → Bool, ready.all p = true → p s1 = true := by intro p hp; rw [hs1] at hp; simpa using hp
  have hrecs : s1.db.recs = [rec7 1] := by simpa using key (fun s => decide (s.db.recs = [rec7 1])) (by decide +kernel)
  obtain ⟨f', g1, g2, g3, g4, g4', en, g5, g6, g7, g8, g9⟩ := C122_old_instance (c := cfg (limitRetry 3)) (pol := strict) (svcOf := svcs) (view := kind) (f := { deploying with bus := s1 }) (j := job (rec7 1) (row 1)) (i := 2) rfl .none
    (by simpa using key (fun s => decide (job (rec7 1) (row 1) ∈ s.pend)) (by decide +kernel)) (show ¬ s1.locked (rec7 1).id by simpa using key (fun s => decide (¬ s.locked (rec7 1).id)) (by decide +kernel)) ⟨rec7 1, by rw [hrecs]; simp, rfl⟩ rfl
    (show mayCall s1.db 7 1 (row 1) = true by simpa using key (fun s => mayCall s.db 7 1 (row 1)) (by decide +kernel)) (fun _ => by rw [hrecs]; simp [job]) (show (rec7 1).next ≤ s1.now by simpa using key (fun s => decide ((rec7 1).next ≤ s.now)) (by decide +kernel))
  refine ⟨f', reach_steps h1 g1, by rw [g2]; rfl, ⟨[(Router.Demo.goodFn 1 0, 0)], by rw [g2]; exact .here (cs := []) (fs := []) .none ⟨rfl, _, _, _, rfl, rfl, rfl, rfl, rfl, rfl⟩, by simp⟩, rfl, g3, ?_, ?_⟩
  · intro x hx
    by_cases hid : x.id = (rec7 1).id
    · exact g4 x hx hid
    · have := g4' x hx hid
      rw [hrecs] at this
      simp at this
      rw [this] at hid
      exact absurd rfl hid
  · intro en' hen
    rw [g5] at hen
    rcases List.mem_cons.1 hen with rfl | hen
    · exact g9
    · simp [deploying, FState.init] at hen

/-- both instances run the new program -/
def updated : FState := { FState.init with regs := fun k => if k = 2 then [handler] else if k = 1 then [handler] else [] }

/-- `C122_handled_partial` applies: both instances have the handler, instance 2 takes the event, and the handler runs -/
example : ∃ f, FReachable (cfg (limitRetry 3)) strict svcs kind f ∧ { rec7 1 with status := .success } ∈ f.bus.db.recs ∧ ∃ en ∈ f.seen, Ran kind en (Router.Demo.goodFn 1 0) 0 := by
  have h0 : FReachable (cfg (limitRetry 3)) strict svcs kind updated := by
    have h1 := FReachable.step .init (FStep.register (c := cfg (limitRetry 3)) (pol := strict) (svcOf := svcs) (view := kind) FState.init 1 handler)
    exact FReachable.step h1 (FStep.register (c := cfg (limitRetry 3)) (pol := strict) (svcOf := svcs) (view := kind) _ 2 handler)
  obtain ⟨s1, hs1⟩ : ∃ s1, ready = some s1 := Option.isSome_iff_exists.1 (by decide +kernel)
  have h1 := reach_steps h0 (lift_acts acts (f := updated) (by decide) hs1)
  have key : ∀ p : State → Bool, ready.all p = true → p s1 = true := by intro p hp; rw [hs1] at hp; simpa using hp
  have hrecs : s1.db.recs = [rec7 1] := by simpa using key (fun s => decide (s.db.recs = [rec7 1])) (by decide +kernel)
  obtain ⟨f', g1, g2, g3, g4, -, g5⟩ := finishes (c := cfg (limitRetry 3)) (pol := strict) (svcOf := svcs) (view := kind) (f := { updated with bus := s1 }) (j := job (rec7 1) (row 1)) (i := 2) (w := Router.Demo.world) rfl
    (show (onEvent Router.Demo.world (Reg.after [handler]) ⟨10, (row 1).ev.body⟩).1 = .nil by decide) (by simpa using key (fun s => decide (job (rec7 1) (row 1) ∈ s.pend)) (by decide +kernel)) (show ¬ s1.locked (rec7 1).id by simpa using key (fun s => decide (¬ s.locked (rec7 1).id)) (by decide +kernel)) ⟨rec7 1, by rw [hrecs]; simp, rfl⟩ rfl
    (show mayCall s1.db 7 1 (row 1) = true by simpa using key (fun s => mayCall s.db 7 1 (row 1)) (by decide +kernel)) (fun _ => by rw [hrecs]; simp [job]) (show (rec7 1).next ≤ s1.now by simpa using key (fun s => decide ((rec7 1).next ≤ s.now)) (by decide +kernel))
  have hreg : Registered 10 [handler] [(Router.Demo.goodFn 1 0, 0)] := .here (cs := []) (fs := []) .none ⟨rfl, _, _, _, rfl, rfl, rfl, rfl, rfl, rfl⟩
  have only : ∀ en ∈ f'.seen, ∀ fs, Registered (kind en.e.ev).typ en.hist fs → fs = [(Router.Demo.goodFn 1 0, 0)] := by
    intro en hen fs hfs
    rw [g5] at hen
    simp only [updated, FState.init, List.mem_cons, List.not_mem_nil, or_false] at hen
    subst hen
    have h1 : (Reg.after [handler]).handlers 10 = fs.map fun p => ⟨p.1, p.2⟩ := registered_handlers hfs
    rw [registered_handlers hreg] at h1
    rcases fs with _ | ⟨⟨a, b⟩, _ | ⟨y, fs⟩⟩ <;> simp at h1
    rw [h1.1, h1.2]
  obtain ⟨en, h2, -, -, h5⟩ := C122_handled_partial rfl (counting_limitRetry 3) (reach_steps h1 g1) g3 rfl (fn := Router.Demo.goodFn 1 0) (ty := 0)
    (fun en hen _ _ fs hfs => by rw [only en hen fs hfs]; simp) (fun en hen fs hfs q hq => by rw [only en hen fs hfs] at hq; simp at hq; subst hq; exact wellTyped_iff.2 ⟨rfl, rfl⟩)
  exact ⟨f', reach_steps h1 g1, g3, en, h2, h5⟩

/-- **C122** The same of transactions that hang: the check-back of an instance with the new program would ask its checker and store the event; that of an instance which still runs the old program, without a checker for the type, rolls the
transaction back and the event is lost, for the same tables at the same time. -/
theorem C122_check_back : ∃ (env : Startup.Env) (new old : Startup.Proc) (tx : TxRow) (now : Nat) (ns : Nat → Nat), old.db = new.db ∧ tx ∈ new.db.txs ∧ tx.service = env.svc ∧
    (∃ x ∈ ((Startup.Act.tick now ns).apply env new).db.events, x.transId = tx.id) ∧ (∀ x ∈ ((Startup.Act.tick now ns).apply env old).db.events, x.transId ≠ tx.id) ∧
    ∀ x ∈ ((Startup.Act.tick now ns).apply env old).db.txs, x.id ≠ tx.id := by
  refine ⟨Startup.Demo.env, { Startup.Demo.overdue with engine := true, hist := [Startup.Demo.handler, Startup.Demo.checker] }, { Startup.Demo.overdue with engine := true, hist := [] }, Startup.Demo.tx, 80, fun _ => 100, rfl,
    by decide, rfl, by decide +kernel, ?_⟩
  have h := Startup.C116_rolled_back (env := Startup.Demo.env) (ns := fun _ => 100) (p := { Startup.Demo.overdue with engine := true, hist := [] }) (tx := Startup.Demo.tx) (now := 80) (e := BusMsg.Demo.ev 3) (es := []) rfl rfl
    (by intro f ty h; simp at h) (valid_apply BusMsg.Demo.valid.1 (.begin 7 10 60 [BusMsg.Demo.ev 3] true)) (by decide) rfl (by decide) rfl (by decide) (by decide) (by decide +kernel)
  exact ⟨h.2.1, h.1⟩

end Ddd.Fleet
