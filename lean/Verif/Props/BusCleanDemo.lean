import Verif.Props.BusClean
import Verif.Props.BusScript
import Verif.Props.BusLTSDemo
/-!
# C103: a concrete execution meeting its circumstances
-/
set_option linter.unusedVariables false
namespace Ddd.Bus
open LDemo

theorem prompt_iff (c : Cfg) (a : Nat) (s : State) : Prompt c a s ↔ (∀ d ∈ s.disps, ∀ p ∈ d.unfinished, s.now + a ≤ p.ev.created + c.retention) ∧ ∀ sc ∈ s.scans, ∀ r ∈ sc.unpaired, s.now + a ≤ r.created + c.retention :=
  ⟨fun h => ⟨h.disp, h.scan⟩, fun h => ⟨h.1, h.2⟩⟩

instance (c : Cfg) (a : Nat) (s : State) : Decidable (Prompt c a s) := decidable_of_iff' _ (prompt_iff c a s)

def promptScript (c : Cfg) (pol : Pol) (acts : List Act) : Option State :=
  acts.foldlM (fun s a => (a.run c pol s).bind fun s' => if Prompt c pol.ahead s' then some s' else none) State.init

theorem promptScript_sound {c : Cfg} {pol : Pol} {acts : List Act} {s : State} (h : promptScript c pol acts = some s) : PromptReachable c pol s := by
  have key : ∀ (acts : List Act) (s0 : State), PromptReachable c pol s0 →
      acts.foldlM (fun s a => (a.run c pol s).bind fun s' => if Prompt c pol.ahead s' then some s' else none) s0 = some s → PromptReachable c pol s := by
    intro acts
    induction acts with
    | nil => intro s0 hr h; cases h; exact hr
    | cons a acts ih =>
      intro s0 hr h
      simp only [List.foldlM_cons, Option.bind_eq_bind, Option.bind_eq_some_iff] at h
      obtain ⟨s1, ⟨s2, h1, h2⟩, h3⟩ := h
      split at h2
      · rename_i ho
        cases h2
        exact ih s1 (.step hr (Act.sound h1) ho) h3
      · cases h2
  exact key acts _ .init h

theorem promptScript_reaches {c : Cfg} {pol : Pol} {acts : List Act} {a : Act} {p : State → State → Prop} [∀ s s', Decidable (p s s')]
    (h : ((promptScript c pol acts).bind fun s => (a.run c pol s).map fun s' => decide (p s s')) = some true) :
    ∃ s s', PromptReachable c pol s ∧ Step c pol s s' ∧ p s s' := by
  cases hs : promptScript c pol acts with
  | none => rw [hs] at h; simp at h
  | some s =>
    rw [hs] at h
    simp only [Option.bind_some, Option.map_eq_some_iff, decide_eq_true_eq] at h
    obtain ⟨s', h1, h2⟩ := h
    exact ⟨s, s', promptScript_sound hs, Act.sound h1, h2⟩

def cfg5 : Cfg := { window := 100, limit := 10, retention := 5, strategy := limitRetry 3 }
def ev8 : DEv := ⟨12, 0, .normal, 8, 2⟩
def row8 : EvRow := ⟨2, ev8, 0⟩

/-- Two services handle event 1. When it is older than the retention time both clean up while a dispatch of event 2 has still to store the record of service 8 and a scan of service 7 has not read the event of its
record yet. The last statement of the second cleaning removes event 1. -/
def cleaning : List Act :=
  [.register 7, .register 8, .insert [ev 1], .list [row 1], .recs [row 1] 7 [8], .recs [row 1] 8 [], .tick 1] ++
  [.scanBegin 7, .scanOffset 7 1, .scanBegin 8, .scanOffset 8 1, .scanRows 8 1 1, .scanRows 7 1 1, .scanEvents 7 1 [rec7 1], .scanEvents 8 1 [⟨2, 8, 1, 0, .init, 0, 0⟩],
   .call (job (rec7 1) (row 1)), .call ⟨8, 1, ⟨⟨2, 8, 1, 0, .init, 0, 0⟩, row 1⟩⟩, .finish (job (rec7 1) (row 1)) .ok, .finish ⟨8, 1, ⟨⟨2, 8, 1, 0, .init, 0, 0⟩, row 1⟩⟩ .ok, .tick 7] ++
  [.insert [ev8], .list [row8], .recs [row8] 7 [8], .scanBegin 7, .scanOffset 7 1, .scanRows 7 1 2,
   .cleanSelect 8, .cleanSelect 7, .cleanRecs 7 [1] [], .cleanCount 7 [1] [], .cleanEvents 7 [] [], .cleanRecs 8 [1] [], .cleanCount 8 [1] []]

theorem bus_clean_demo : ∃ s s', PromptReachable cfg5 .any s ∧ Step cfg5 .any s s' ∧
    (row 1 ∈ s.db.events ∧ row 1 ∉ s'.db.events ∧ Log.stored 7 1 ∈ s.log ∧ Log.stored 8 1 ∈ s.log ∧ (∃ d ∈ s.disps, d.unfinished = [row8]) ∧ (∃ sc ∈ s.scans, sc.unpaired ≠ []) ∧ s'.db.recs ≠ []) :=
  promptScript_reaches (acts := cleaning) (a := .cleanEvents 8 [1] []) (by decide +kernel)

/-- without promptness: the dispatch of `C40_dangling` -/
theorem bus_clean_late : promptScript (cfg (limitRetry 3)) strict ([.register 7, .register 8, .insert [ev 1], .list [row 1], .recs [row 1] 7 [8]]) ≠ none ∧
    promptScript (cfg (limitRetry 3)) strict ([.register 7, .register 8, .insert [ev 1], .list [row 1], .recs [row 1] 7 [8], .tick 1]) = none := by
  constructor
  · intro h
    have h2 : (promptScript (cfg (limitRetry 3)) strict ([.register 7, .register 8, .insert [ev 1], .list [row 1], .recs [row 1] 7 [8]])).isNone = false := by decide +kernel
    rw [h] at h2; cases h2
  · have h2 : (promptScript (cfg (limitRetry 3)) strict ([.register 7, .register 8, .insert [ev 1], .list [row 1], .recs [row 1] 7 [8], .tick 1])).isNone = true := by decide +kernel
    exact Option.isNone_iff_eq_none.1 h2

end Ddd.Bus
