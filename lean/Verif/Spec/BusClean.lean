import Verif.Spec.BusLTS
/-!
# Vocabulary: dispatches and scans that are prompt compared to the retention time
-/
namespace Ddd.Bus

/-- the event rows of a `Dispatch` that has still records to insert -/
def Disp.unfinished : Disp → List EvRow
  | .inserted ps => ps
  | .listed ps todo => if todo = [] then [] else ps

/-- the records of a scan that has not read the events yet -/
def Scan.unpaired : Scan → List Rec
  | .rows _ _ rs => rs
  | _ => []

/-- Nobody works on anything that a clock (none is ahead by more than `a`) may consider older than the retention time: neither a `Dispatch` that is still inserting records, nor a scan that has read its records but not yet their events. -/
structure Prompt (c : Cfg) (a : Nat) (s : State) : Prop where
  disp : ∀ d ∈ s.disps, ∀ p ∈ d.unfinished, s.now + a ≤ p.ev.created + c.retention
  scan : ∀ sc ∈ s.scans, ∀ r ∈ sc.unpaired, s.now + a ≤ r.created + c.retention

/-- States that occur under this condition. -/
inductive PromptReachable (c : Cfg) (pol : Pol) : State → Prop
  | init : PromptReachable c pol .init
  | step {s s'} : PromptReachable c pol s → Step c pol s s' → Prompt c pol.ahead s' → PromptReachable c pol s'

end Ddd.Bus
