import Verif.Props.BusFifoTx
import Verif.Props.BusFifoDemo
/-!
# C124: a history that meets the hypotheses, and two in which events overtake each other
-/
set_option linter.unusedVariables false
namespace Ddd.Bus

/-- the parts of `FifoStored` about single operations, executably -/
def storedCheck (c : Cfg) (σ svc : Nat) : DB → List Op → Bool
  | _, [] => true
  | db, op :: ops =>
    ((newOf σ db (op.apply db)).all fun e => (op.apply db).recs.any fun r => r.service == svc && r.eventId == e.id) &&
    (match op with
      | .run _ s now _ => s != svc || db.recs.all fun r => r.service != svc || decide (r.status = .success) || db.events.all fun e => e.id != r.eventId || e.ev.sender != σ || decide (now ≤ e.ev.created + c.window)
      | _ => true) && storedCheck c σ svc (op.apply db) ops

theorem storedCheck_at {c : Cfg} {σ svc : Nat} {op : Op} {q : List Op} : ∀ {p : List Op} {db : DB}, storedCheck c σ svc db (p ++ op :: q) = true → storedCheck c σ svc (runOps db p) (op :: q) = true := by
  intro p
  induction p with
  | nil => intro db h; exact h
  | cons x p ih =>
    intro db h
    have h' : storedCheck c σ svc (x.apply db) (p ++ op :: q) = true := by
      simp only [List.cons_append, storedCheck, Bool.and_eq_true] at h; exact h.2
    exact ih h'

theorem fifoStored_of_check {c : Cfg} {σ svc : Nat} {ops : List Op} (h1 : ∀ a ∈ storedOrder σ (emptyDB []) ops, a.ev.sendType = .fifo) (h2 : (storedOrder σ (emptyDB []) ops).Pairwise fun a b => a.ev.before b.ev)
    (h : storedCheck c σ svc (emptyDB []) ops = true) : FifoStored c (emptyDB []) σ svc ops := by
  refine ⟨h1, h2, ?_, ?_⟩
  · rintro p op q rfl e he
    have := storedCheck_at h
    simp only [storedCheck, Bool.and_eq_true, List.all_eq_true, List.any_eq_true, beq_iff_eq] at this
    exact this.1.1 e he
  · rintro p c' now ans q rfl r hr hsv hst e he hid hσ
    have := storedCheck_at h
    simp only [storedCheck, Bool.and_eq_true, Bool.or_eq_true, List.all_eq_true, bne_iff_ne, decide_eq_true_eq] at this
    rcases this.1.2 with h' | h'
    · exact absurd rfl h'
    · rcases h' r hr with (h' | h') | h'
      · exact absurd hsv h'
      · exact absurd h' hst
      · rcases h' e he with (h' | h') | h'
        · exact absurd hid h'
        · exact absurd hσ h'
        · exact h'

namespace FifoTxDemo
open FifoDemo
/-- all calls of handlers succeed -/
def good : Nat → DEv → Ret := fun _ _ => .ok
/-- the transactions begun by the clients below, as they are in the context `DispatchBegin` returns -/
def tx1 : TxRow := ⟨1, 7, [f 1], 11⟩
def tx2 : TxRow := ⟨2, 7, [f 2, f 3], 12⟩
/-- A transaction is begun, its client dies; the check-back commits it; meanwhile nothing else of the sender came; the handler fails first; then a second transaction is committed by its client; then a plain dispatch. -/
def inOrder : List Op :=
  [.register 7, .begin 7 1 10 [f 1] true, .run conf 7 2 good, .check (fun _ => .commit) 7 12 (fun _ => 100), .run conf 7 13 fails, .begin 7 14 10 [f 2, f 3] true, .commit ⟨2, 7, [f 2, f 3], 24⟩ 100, .run conf 7 15 good,
    .dispatch [f 4] 100, .run conf 7 16 good, .run conf 7 17 good, .clean conf 7 18]
/-- Two clients, one after the other, begin a transaction each, the second one commits first. -/
def overlap : List Op := [.register 7, .begin 7 1 10 [f 1] true, .begin 7 2 10 [f 2, f 3] true, .commit tx2 100, .run conf 7 4 good, .commit tx1 100, .run conf 7 5 good]
/-- The first client dies after its own database transaction, before `Commit`; the second one begins after that, and commits at once; the check-back commits the first transaction. -/
def died : List Op :=
  [.register 7, .begin 7 1 10 [f 1] true, .begin 7 2 10 [f 2, f 3] true, .commit tx2 100, .run conf 7 4 good, .check (fun _ => .commit) 7 20 (fun _ => 100), .run conf 7 21 good]
end FifoTxDemo
open FifoDemo FifoTxDemo

/-- the hypotheses of `C124_prefix_partial` and `C124_next_partial` can be met: see `FifoTxDemo.inOrder`; after seven operations nothing is handled (the first handler call fails), at the end everything is. -/
theorem fifo_tx_demo : InTime conf 0 inOrder ∧ FifoStored conf (emptyDB []) 5 7 inOrder ∧ Counting conf.strategy ∧ handledOf 5 7 (opsLog (emptyDB []) (inOrder.take 8)) = [] ∧
    (storedOrder 5 (emptyDB []) inOrder).map EvRow.ev = [f 1, f 2, f 3, f 4] ∧ (handledOf 5 7 (opsLog (emptyDB []) inOrder)).map EvRow.ev = [f 1, f 2, f 3, f 4] := by
  refine ⟨?_, fifoStored_of_check (by decide +kernel) ?_ (by decide +kernel), counting_intervalRetry 3 3, by decide +kernel, by decide +kernel, by decide +kernel⟩
  · simp only [inOrder, InTime, Stops]
    exact ⟨by decide, ⟨10, by decide, rfl⟩, by decide, by decide, ⟨10, by decide, rfl⟩, by decide, by decide, ⟨10, by decide, rfl⟩, by decide, ⟨10, by decide, rfl⟩, by decide, ⟨10, by decide, rfl⟩, by decide, trivial, by decide, trivial⟩
  · have : storedOrder 5 (emptyDB []) inOrder = [⟨1, f 1, 1⟩, ⟨2, f 2, 2⟩, ⟨3, f 3, 2⟩, ⟨4, f 4, 0⟩] := by decide +kernel
    rw [this]
    simp [DEv.before, f]

/-- **C124** Without the condition on the order of storing the claim is false. Two transactions of FIFO events of one sender are begun in the order of creation, and both are committed, all statements and handler calls succeeding: the events of the second are
handled before that of the first, be it that its client is merely slower (`overlap`) or that it died and the check-back commits (`died`). -/
theorem C124_overtaken : ∀ ops ∈ [overlap, died], InTime conf 0 ops ∧ (∀ a ∈ storedOrder 5 (emptyDB []) ops, a.ev.sendType = .fifo) ∧ (f 1).before (f 2) ∧
    (ops.filterMap fun | .begin _ _ _ es _ => some es | _ => none) = [[f 1], [f 2, f 3]] ∧ (handledOf 5 7 (opsLog (emptyDB []) ops)).map EvRow.ev = [f 2, f 3, f 1] := by
  have hb : (f 1).before (f 2) := by simp [DEv.before, f]
  intro ops h
  simp only [List.mem_cons, List.not_mem_nil, or_false] at h
  rcases h with rfl | rfl
  · refine ⟨?_, by decide +kernel, hb, rfl, by decide +kernel⟩
    simp only [overlap, InTime, Stops]
    exact ⟨by decide, by decide, ⟨10, by decide, rfl⟩, by decide, ⟨10, by decide, rfl⟩, by decide, trivial⟩
  · refine ⟨?_, by decide +kernel, hb, rfl, by decide +kernel⟩
    simp only [died, InTime, Stops]
    exact ⟨by decide, by decide, ⟨10, by decide, rfl⟩, by decide, by decide, ⟨10, by decide, rfl⟩, by decide, trivial⟩

end Ddd.Bus
