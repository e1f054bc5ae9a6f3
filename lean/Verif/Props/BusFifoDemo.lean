import Verif.Props.BusFifo
/-!
# C104: a history that meets the hypotheses
-/
set_option linter.unusedVariables false
namespace Ddd.Bus

/-- the parts of `FifoHistory` about single operations, executably -/
def fifoCheck (c : Cfg) (σ svc : Nat) : DB → List Op → Bool
  | _, [] => true
  | db, op :: ops =>
    (match op with
      | .dispatch es n => !(es.any fun e => e.sender == σ) || (decide (svc ∈ db.services) && (dispatch db 0 es n).2)
      | .begin _ _ _ es _ => es.all fun e => e.sender != σ
      | .commit tx _ => tx.events.all fun e => e.sender != σ
      | .run _ s now _ => s != svc || db.recs.all fun r => r.service != svc || decide (r.status = .success) || db.events.all fun e => e.id != r.eventId || e.ev.sender != σ || decide (now ≤ e.ev.created + c.window)
      | _ => true) && fifoCheck c σ svc (op.apply db) ops

theorem fifoCheck_at {c : Cfg} {σ svc : Nat} {op : Op} {q : List Op} : ∀ {p : List Op} {db : DB}, fifoCheck c σ svc db (p ++ op :: q) = true → fifoCheck c σ svc (runOps db p) (op :: q) = true := by
  intro p
  induction p with
  | nil => intro db h; exact h
  | cons x p ih =>
    intro db h
    have h' : fifoCheck c σ svc (x.apply db) (p ++ op :: q) = true := by
      cases x <;> (simp only [List.cons_append, fifoCheck, Bool.and_eq_true] at h; exact h.2)
    exact ih h'

theorem fifoHistory_of_check {c : Cfg} {σ svc : Nat} {ops : List Op} (h1 : ∀ e ∈ sentBy σ ops, e.sendType = .fifo) (h2 : (sentBy σ ops).Pairwise DEv.before)
    (h : fifoCheck c σ svc (emptyDB []) ops = true) : FifoHistory c (emptyDB []) σ svc ops := by
  refine ⟨h1, h2, ?_, ?_, ?_⟩
  · rintro p es n q rfl hσ
    have := fifoCheck_at h
    simp only [fifoCheck, Bool.and_eq_true, Bool.or_eq_true, Bool.not_eq_true', List.any_eq_false, decide_eq_true_eq, beq_iff_eq] at this
    obtain ⟨e, he, hs⟩ := hσ
    rcases this.1 with h' | h'
    · exact absurd hs (h' e he)
    · exact h'
  · intro op hop
    obtain ⟨p, q, rfl⟩ := List.append_of_mem hop
    have := fifoCheck_at h
    constructor
    · rintro s now timeout es ok rfl
      simp only [fifoCheck, Bool.and_eq_true, List.all_eq_true, bne_iff_ne] at this
      exact this.1
    · rintro tx n rfl
      simp only [fifoCheck, Bool.and_eq_true, List.all_eq_true, bne_iff_ne] at this
      exact this.1
  · rintro p c' now ans q rfl r hr hsv hst e he hid hσ
    have := fifoCheck_at h
    simp only [fifoCheck, Bool.and_eq_true, Bool.or_eq_true, List.all_eq_true, bne_iff_ne, decide_eq_true_eq] at this
    rcases this.1 with h' | h'
    · exact absurd rfl h'
    · rcases h' r hr with (h' | h') | h'
      · exact absurd hsv h'
      · exact absurd h' hst
      · rcases h' e he with (h' | h') | h'
        · exact absurd hid h'
        · exact absurd hσ h'
        · exact h'

namespace FifoDemo
def conf : Cfg := ⟨100, 10, 5, intervalRetry 3 3⟩
/-- events of the FIFO sender 5 -/
def f (i : Nat) : DEv := ⟨10 + i, 5, .fifo, i, i⟩
/-- an event of another sender -/
def o : DEv := ⟨30, 6, .normal, 1, 9⟩
/-- the handler fails for the first event of the sender -/
def fails : Nat → DEv → Ret := fun _ e => if e.body = 1 then .err else .ok
/-- Three events in two dispatches; the handler fails for the first one, so that the second and the third wait although the other sender's event is handled; then they are handled, one run breaking off after the first; then a fourth one. -/
def hist : List Op :=
  [.register 7, .register 8, .dispatch [f 1, o, f 2] 100, .run conf 7 3 fails, .dispatch [f 3] 100, .run conf 7 4 (fun _ _ => .ok), .run { conf with limit := 1 } 7 7 (fun _ _ => .ok), .run conf 7 8 (fun _ _ => .ok), .clean conf 7 9,
    .dispatch [f 4] 100, .run conf 7 10 (fun _ _ => .ok)]
end FifoDemo
open FifoDemo

/-- the hypotheses of `C104_prefix` and `C104_next` can be met: see `FifoDemo.hist`; after six operations nothing of the sender is handled but the other sender's event is, at the end everything is handled. -/
theorem fifo_demo : InTime conf 0 hist ∧ FifoHistory conf (emptyDB []) 5 7 hist ∧ Counting conf.strategy ∧ handledOf 5 7 (opsLog (emptyDB []) (hist.take 6)) = [] ∧
    (handledOf 6 7 (opsLog (emptyDB []) (hist.take 6))).map EvRow.ev = [o] ∧ (handledOf 5 7 (opsLog (emptyDB []) hist)).map EvRow.ev = [f 1, f 2, f 3, f 4] := by
  refine ⟨?_, fifoHistory_of_check (by decide) (by simp [DEv.before, sentBy, hist, Op.sends, f, o]) (by decide +kernel), counting_intervalRetry 3 3, by decide +kernel, by decide +kernel, by decide +kernel⟩
  simp only [hist, InTime, Stops]
  exact ⟨⟨10, by decide, rfl⟩, by decide, ⟨10, by decide, rfl⟩, by decide, ⟨1, by decide, rfl⟩, by decide, ⟨10, by decide, rfl⟩, by decide, trivial, by decide, ⟨10, by decide, rfl⟩, by decide, trivial⟩

end Ddd.Bus
