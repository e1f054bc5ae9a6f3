import Verif.Model.Stage
import Verif.Spec.Graph
/-! # Specification vocabulary: domain events of a command -/
namespace Ddd.Spec
open Ddd

/-- event `e` is pending: some entity of the aggregate, or some entity at or below one removed during the stage, holds it. -/
def Pending (s : St) (e : Event) : Prop :=
  ∃ x, (Reach s.graph.kids none x ∨ ∃ d ∈ s.deleted, Reach s.graph.kids d x) ∧ e ∈ s.heap.eventsOf x

/-- pending events are told apart by their IDs. -/
def UniqueIDs (s : St) : Prop := ∀ e e', Pending s e → Pending s e' → e.id = e'.id → e = e'

/-- creation order: by time, then by ID. -/
def Before (a b : Event) : Prop := a.createdAt < b.createdAt ∨ (a.createdAt = b.createdAt ∧ a.id ≤ b.id)

/-- the events handed to the bus, in order. -/
def handed (t : Trace) : List Event :=
  t.flatMap fun | .dispatch es _ => es | .dispatchBegin es _ => es | _ => []

/-- calls handing events to the bus. -/
def isHandover : Call → Bool
  | .dispatch .. => true
  | .dispatchBegin .. => true
  | _ => false

/-- calls about events: turning one into a row, or handing over. -/
def isEventCall : Call → Bool
  | .evModel .. => true
  | .dispatch .. => true
  | .dispatchBegin .. => true
  | _ => false

end Ddd.Spec
