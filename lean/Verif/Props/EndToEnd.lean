import Verif.Props.BusLTS
import Verif.Props.BusDispatch
/-!
# C81: from a successful `Dispatch` to the handler, under all interleavings
-/
set_option linter.unusedVariables false
set_option linter.unusedSimpArgs false
namespace Ddd.Bus

theorem services_step {c : Cfg} {pol : Pol} {s s' : State} (hst : Step c pol s s') {svc : Nat} (h : svc ∈ s.db.services) : svc ∈ s'.db.services := by
  cases hst with
  | register sv =>
    simp only [register]
    split
    · exact h
    · simp [h]
  | _ => exact h

theorem mem_log_step {c : Cfg} {pol : Pol} {s s' : State} (hst : Step c pol s s') {x : Log} (h : x ∈ s.log) : x ∈ s'.log := by
  obtain ⟨l, hl⟩ := log_step hst
  rw [hl]; exact List.mem_append_right _ h

theorem log_steps {c : Cfg} {pol : Pol} {s s' : State} (hst : Steps c pol s s') {x : Log} (h : x ∈ s.log) : x ∈ s'.log := by
  induction hst with
  | refl => exact h
  | step _ h2 ih => exact mem_log_step h2 ih

theorem reachable_steps {c : Cfg} {pol : Pol} {s s' : State} (h : Reachable c pol s) (hst : Steps c pol s s') : Reachable c pol s' := by
  induction hst with
  | refl => exact h
  | step _ h2 ih => exact .step ih h2

/-- A dispatch of `ps` has dealt with `svc`, or still has it on its list. -/
def Covers (s : State) (svc : Nat) (ps : List EvRow) : Prop :=
  svc ∈ s.db.services ∧ ∀ todo, Disp.listed ps todo ∈ s.disps → svc ∈ todo ∨ ∀ p ∈ ps, Log.stored svc p.id ∈ s.log

theorem covers_step {c : Cfg} {pol : Pol} {s s' : State} {svc : Nat} {ps : List EvRow} (h : Covers s svc ps) (hst : Step c pol s s') : Covers s' svc ps := by
  refine ⟨services_step hst h.1, ?_⟩
  have keep : (∀ todo, Disp.listed ps todo ∈ s'.disps → Disp.listed ps todo ∈ s.disps) → ∀ todo, Disp.listed ps todo ∈ s'.disps → svc ∈ todo ∨ ∀ p ∈ ps, Log.stored svc p.id ∈ s'.log := by
    intro hsub todo hd
    rcases h.2 todo (hsub todo hd) with h1 | h1
    · exact .inl h1
    · exact .inr fun p hp => mem_log_step hst (h1 p hp)
  have hst' := hst
  cases hst with
  | dispInsert tid es he => exact keep fun todo hd => by simpa using hd
  | dispDrop d => exact keep fun todo hd => List.mem_of_mem_erase hd
  | dispList qs hq =>
    intro todo hd
    rcases List.mem_cons.1 hd with hd | hd
    · cases hd; exact .inl h.1
    · rcases h.2 todo (List.mem_of_mem_erase hd) with h1 | h1
      · exact .inl h1
      · exact .inr h1
  | dispRecs qs sv td hq hu =>
    intro todo hd
    rcases List.mem_cons.1 hd with hd | hd
    · cases hd
      rcases h.2 _ hq with h1 | h1
      · rcases List.mem_cons.1 h1 with rfl | h1
        · exact .inr fun p hp => List.mem_append_left _ (List.mem_map.2 ⟨p, hp, rfl⟩)
        · exact .inl h1
      · exact .inr fun p hp => List.mem_append_right _ (h1 p hp)
    · rcases h.2 todo (List.mem_of_mem_erase hd) with h1 | h1
      · exact .inl h1
      · exact .inr fun p hp => List.mem_append_right _ (h1 p hp)
  | _ => exact keep fun todo hd => hd

theorem covers_steps {c : Cfg} {pol : Pol} {s s' : State} {svc : Nat} {ps : List EvRow} (h : Covers s svc ps) (hst : Steps c pol s s') : Covers s' svc ps := by
  induction hst with
  | refl => exact h
  | step _ h2 ih => exact covers_step ih h2

/-- **C81** If `Dispatch` returns nil, then for every service registered before it was called and each of its events a delivery record has been stored, whatever else went on at the same time. -/
theorem C81_recorded {c : Cfg} {pol : Pol} {s s1 s2 : State} (h : Reachable c pol s) {svc : Nat} (hsvc : svc ∈ s.db.services) {tid : Nat} {es : List DEv} {ps : List EvRow}
    (hb : Begins s tid es s1 ps) (h12 : Steps c pol s1 s2) (hr : ReturnsNil s2 ps) :
    ps.map EvRow.ev = es ∧ ∀ p ∈ ps, Log.stored svc p.id ∈ s2.log := by
  obtain ⟨he, hps, rfl⟩ := hb
  refine ⟨by rw [hps, newEvents_ev], ?_⟩
  have hc : Covers { s with db := insertEvents s.db tid es, disps := .inserted ps :: s.disps } svc ps := by
    refine ⟨hsvc, fun todo hd => ?_⟩
    exfalso
    have hd' : Disp.listed ps todo ∈ s.disps := by simpa using hd
    cases es with
    | nil => exact he rfl
    | cons e es =>
      have := (inv_reachable h).disps.fresh _ hd' ⟨s.db.nextEv, e, tid⟩ (by simp [Disp.ps, hps, newEvents])
      simp at this
  rcases (covers_steps hc h12).2 _ hr with h1 | h1
  · simp at h1
  · exact h1

/-- **C81 (partial)** From then on, forever: for every such service the event is pending, or its handler has succeeded with it, or has failed as often as the retry strategy allows, or somebody expired the delivery by hand.
The assumption `calm` (a scan finds the events of the records it has read) is the one of C40, which fails without it (`C40_lost`). -/
theorem C81_delivered_partial {c : Cfg} {pol : Pol} (hcalm : pol.calm = true) (hcount : Counting c.strategy) {s s1 s2 s3 : State} (h : Reachable c pol s) {svc : Nat} (hsvc : svc ∈ s.db.services)
    {tid : Nat} {es : List DEv} {ps : List EvRow} (hb : Begins s tid es s1 ps) (h12 : Steps c pol s1 s2) (hr : ReturnsNil s2 ps) (h23 : Steps c pol s2 s3) :
    ∀ p ∈ ps, Pending s3.db svc p.id ∨ HandledOk s3.log svc p.id ∨ GivesUp c.strategy (failures s3.log svc p.id) ∨ .expired svc p.id ∈ s3.log := by
  intro p hp
  have h1 := (C81_recorded h hsvc hb h12 hr).2 p hp
  have hr1 : Reachable c pol s1 := by
    obtain ⟨he, rfl, rfl⟩ := hb
    exact .step h (.dispInsert s tid es he)
  exact C40_no_loss_partial hcalm hcount (reachable_steps (reachable_steps hr1 h12) h23) (log_steps h23 h1)

end Ddd.Bus
