import Verif.Props.EndToEnd
import Verif.Props.BusLTSDemo
/-! # C81: a concrete dispatch meeting the hypotheses -/
namespace Ddd.Bus
open LDemo

/-- service 7 is registered; two events are dispatched, while a scan of the service begins in between. -/
example : ∃ s s1 s2 ps, Reachable (cfg (limitRetry 3)) calm s ∧ 7 ∈ s.db.services ∧ Begins s 0 [ev 1, ev 2] s1 ps ∧ Steps (cfg (limitRetry 3)) calm s1 s2 ∧ ReturnsNil s2 ps ∧
    ps.length = 2 ∧ Counting (cfg (limitRetry 3)).strategy ∧ calm.calm = true := by
  obtain ⟨s, h1, h2⟩ := script_reaches' (c := cfg (limitRetry 3)) (pol := calm) [.register 7] (p := fun s => s.db.services = [7] ∧ s.disps = [] ∧ s.db.recs = []) (by decide +kernel)
  let ps := newEvents s.db.nextEv 0 [ev 1, ev 2]
  let s1 : State := { s with db := insertEvents s.db 0 [ev 1, ev 2], disps := .inserted ps :: s.disps }
  refine ⟨s, s1, _, ps, h1, by simp [h2.1], ⟨by simp, rfl, rfl⟩, .step (.step (.step (.refl _) (.tick _ 5)) (.dispList _ ps ?_)) (.dispRecs _ ps 7 [] ?_ ?_), ?_, rfl, counting_limitRetry 3, rfl⟩
  · simp [s1]
  · simp [s1, h2.1, insertEvents]
  · intro r hr
    simp [s1, insertEvents, h2.2.2] at hr
  · simp [ReturnsNil]

end Ddd.Bus
