import Verif.Props.Chain
import Verif.Props.OnceDemo
/-!
# C123: a concrete chain

The command of `Props/CommandDemo.lean` dies right after its commit, before the bus is told. The check-back of its service stores the event, the worker of service 8 calls the handler command twice: the first time the database refuses
its write, the second time it commits.
-/
set_option linter.unusedVariables false
set_option linter.unusedSimpArgs false
namespace Ddd.Chain
open Spec Bus

/-- **C123** Every story has a history of operations behind it. -/
theorem C123_history {conv : Event → DEv} {svc timeout : Nat} {fate : Bool} {w0 w : BusWorld} {H : List (DB × DB)} (hv : Valid w0.db) (hr : w0.row = none) (hs : Story conv svc timeout fate w0 H w) :
    (∀ tx, w.row = some tx → tx.id < w.db.nextTx) ∧ ∃ ops, Behind w0.db H ops w.db := by
  induction hs with
  | start => exact ⟨by simp [hr], [], .start⟩
  | @call H w w' x _ ha he ih =>
    obtain ⟨ih, ops, hb⟩ := ih
    cases he with
    | begun es now db' tx h =>
      have h' : db' = (Bus.Op.begin svc now timeout (es.map conv) true).apply w.db := by simp only [Op.apply, h]
      refine ⟨?_, ops ++ [.begin svc now timeout (es.map conv) true], by dsimp only; rw [h']; exact .op _ hb⟩
      intro t ht
      simp only [Option.some.injEq] at ht
      subst ht
      unfold dispatchBegin at h
      split at h
      · simp at h
      · simp only [if_true] at h
        simp at h; obtain ⟨rfl, rfl⟩ := h
        exact Nat.lt_succ_self _
    | begunUnheard es st now db' tx hne h =>
      have h' : db' = (Bus.Op.begin svc now timeout (es.map conv) true).apply w.db := by simp only [Op.apply, h]
      refine ⟨?_, ops ++ [.begin svc now timeout (es.map conv) true], by dsimp only; rw [h']; exact .op _ hb⟩
      intro t ht
      simp only [Option.some.injEq] at ht
      subst ht
      unfold dispatchBegin at h
      split at h
      · simp at h
      · simp only [if_true] at h
        simp at h; obtain ⟨rfl, rfl⟩ := h
        exact Nat.lt_succ_self _
    | notBegun => exact ⟨ih, ops, .idle hb⟩
    | committed tx n db' hr' hh h =>
      have hlt := ih tx hr'
      have h' : db' = (Bus.Op.commit tx n).apply w.db := by simp only [Op.apply, if_pos hlt, h]
      refine ⟨fun t ht => ?_, ops ++ [.commit tx n], by dsimp only; rw [h']; exact .op _ hb⟩
      have := nextTx_mono (hb.valid hv) (.commit tx n)
      rw [← h'] at this
      exact Nat.lt_of_lt_of_le (ih t ht) this
    | commitUnheard tx st n hr' hh hne hn =>
      have hlt := ih tx hr'
      have h' : (Bus.commit w.db tx n).1 = (Bus.Op.commit tx n).apply w.db := by simp only [Op.apply, if_pos hlt]
      refine ⟨fun t ht => ?_, ops ++ [.commit tx n], by dsimp only; rw [h']; exact .op _ hb⟩
      have := nextTx_mono (hb.valid hv) (.commit tx n)
      rw [← h'] at this
      exact Nat.lt_of_lt_of_le (ih t ht) this
    | rolledBack tx st ok hr' hh h =>
      have hlt := ih tx hr'
      have h' : (Bus.rollback w.db tx ok).1 = (Bus.Op.rollback tx ok).apply w.db := by simp only [Op.apply, if_pos hlt]
      refine ⟨fun t ht => ?_, ops ++ [.rollback tx ok], by dsimp only; rw [h']; exact .op _ hb⟩
      have := nextTx_mono (hb.valid hv) (.rollback tx ok)
      rw [← h'] at this
      exact Nat.lt_of_lt_of_le (ih t ht) this
    | noContext => exact ⟨ih, ops, .idle hb⟩
    | elsewhere => exact ⟨ih, ops, .idle hb⟩
  | @other H w o _ ho ih =>
    obtain ⟨ih, ops, hb⟩ := ih
    exact ⟨fun t ht => Nat.lt_of_lt_of_le (ih t ht) (nextTx_mono (hb.valid hv) o), ops ++ [o], .op o hb⟩
  | dies _ ih => exact ih


/-- calls of the bus that change the tables in a story -/
def busCall : Call → Bool
  | .dispatchBegin .. => true
  | .busCommit _ => true
  | .busRollback _ => true
  | _ => false

theorem story_calls {conv : Event → DEv} {svc timeout : Nat} {fate : Bool} {w0 : BusWorld} {ops : List Bus.Op} (P : Trace) : ∀ {w : BusWorld} {H : List (DB × DB)}, Story conv svc timeout fate w0 H w → Behind w0.db H ops w.db →
    w.alive = true → (∀ x ∈ P, busCall x = false) →
    ∃ H', Story conv svc timeout fate w0 H' { w with done := w.done ++ P } ∧ Behind w0.db H' ops w.db := by
  induction P with
  | nil => intro w H hs hb ha hP; exact ⟨H, by simpa using hs, hb⟩
  | cons x P ih =>
    intro w H hs hb ha hP
    have hx := hP x (by simp)
    have h1 := Story.call hs ha (.elsewhere x (by rintro es st rfl; simp [busCall] at hx) (by intro st; constructor <;> (rintro rfl; simp [busCall] at hx)))
    obtain ⟨H', h2, h3⟩ := ih h1 (.idle hb) ha fun y hy => hP y (by simp [hy])
    exact ⟨H', by simpa using h2, h3⟩

namespace Demo
def conf : Cfg := ⟨100, 10, 5, limitRetry 3⟩
def conv (e : Event) : DEv := ⟨e.id, 1, .transaction, e.createdAt, 12⟩
def conv' (e : EvRow) : Router.Event := ⟨e.ev.body, 42⟩
/-- service 8 listens; the command of service 7 begins; the check-back of service 7; two runs of the worker of service 8. -/
def ops : List Bus.Op :=
  [.register 8, .begin 7 5 10 [conv ⟨21, 5, true, 0⟩] true, .check (fun _ => .commit) 7 16 (fun _ => 10), .run conf 8 17 (fun _ _ => .err), .run conf 8 18 (fun _ _ => .ok)]
def row : TxRow := ⟨1, 7, [⟨21, 1, .transaction, 5, 12⟩], 15⟩
/-- the deliveries to service 8, latest first -/
def first : List Consumer.Done := (Consumer.deliver Consumer.Demo.world Consumer.Demo.reg [] ⟨12, 42⟩).2
def second : List Consumer.Done := (Consumer.deliver Consumer.Demo.world Consumer.Demo.reg first ⟨12, 42⟩).2.drop 1
end Demo
open Ddd.Chain.Demo

theorem demo_story : ∃ H w, Story conv 7 10 true (BusWorld.before (emptyDB [])) H w ∧ Behind (emptyDB []) H ops w.db ∧ w.done = diedAfterCommit ∧ w.row = some row := by
  have h0 : Story conv 7 10 true (BusWorld.before (emptyDB [])) [] (BusWorld.before (emptyDB [])) := .start
  have b0 : Behind (emptyDB []) [] [] (emptyDB []) := .start
  have h1 := Story.other (o := .register 8) h0 (by intro tx h; simp [BusWorld.before] at h)
  have b1 := Behind.op (.register 8) b0
  obtain ⟨H2, h2, b2⟩ := story_calls (diedAfterCommit.take 11) h1 b1 rfl (by decide +kernel)
  have h3 := Story.call h2 rfl (.begun [⟨21, 5, true, 0⟩] 5 ((Bus.Op.begin 7 5 10 [conv ⟨21, 5, true, 0⟩] true).apply ((Bus.Op.register 8).apply (emptyDB []))) row (by decide +kernel))
  have b3 := Behind.op (.begin 7 5 10 [conv ⟨21, 5, true, 0⟩] true) b2
  obtain ⟨H4, h4, b4⟩ := story_calls (diedAfterCommit.drop 12) h3 b3 rfl (by decide +kernel)
  have h5 := Story.dies h4
  have hdone : diedAfterCommit.take 11 ++ [Call.dispatchBegin [⟨21, 5, true, 0⟩] .ok] ++ diedAfterCommit.drop 12 = diedAfterCommit := by decide +kernel
  have hc : Call.commit .ok ∈ diedAfterCommit := by decide +kernel
  have h6 := Story.other (o := .check (fun _ => .commit) 7 16 (fun _ => 10)) h5 (by
    intro tx h
    refine ⟨fun _ => .inr (by show 4 + 1 ≤ 10; decide), fun e he => ⟨fun _ => ⟨rfl, .ok, ?_⟩, fun h => by cases h⟩⟩
    show Call.commit .ok ∈ [] ++ diedAfterCommit.take 11 ++ [Call.dispatchBegin [⟨21, 5, true, 0⟩] .ok] ++ diedAfterCommit.drop 12
    rw [List.nil_append, hdone]; exact hc)
  have b6 := Behind.op (.check (fun _ => .commit) 7 16 (fun _ => 10)) b4
  have h7 := Story.other (o := .run conf 8 17 (fun _ _ => .err)) h6 (by intro tx h; trivial)
  have b7 := Behind.op (.run conf 8 17 (fun _ _ => .err)) b6
  have h8 := Story.other (o := .run conf 8 18 (fun _ _ => .ok)) h7 (by intro tx h; trivial)
  have b8 := Behind.op (.run conf 8 18 (fun _ _ => .ok)) b7
  exact ⟨_, _, h8, b8, by show [] ++ diedAfterCommit.take 11 ++ [Call.dispatchBegin [⟨21, 5, true, 0⟩] .ok] ++ diedAfterCommit.drop 12 = _; rw [List.nil_append]; exact hdone, rfl⟩


theorem demo_plays : Consumer.Plays Consumer.Demo.world Consumer.Demo.reg conv' 8 (opsLog (emptyDB []) ops) [(1, second), (1, first)] := by
  have hl : opsLog (emptyDB []) ops = [.returned 8 1 ⟨1, ⟨21, 1, .transaction, 5, 12⟩, 1⟩ .ok 18 true, .called 8 1 ⟨1, ⟨21, 1, .transaction, 5, 12⟩, 1⟩ 18,
      .returned 8 1 ⟨1, ⟨21, 1, .transaction, 5, 12⟩, 1⟩ .err 17 true, .called 8 1 ⟨1, ⟨21, 1, .transaction, 5, 12⟩, 1⟩ 17, .stored 8 1] := by decide +kernel
  rw [hl]
  have hsplit : ∀ (o : Router.Ret) (a b : List Consumer.Done) (x : Router.Ret × List Consumer.Done), x.1 = o → x.2 = a ++ b → x = (o, a ++ b) := by
    rintro o a b ⟨x, y⟩ rfl rfl; rfl
  refine .delivery (out := .nil) (.other (.delivery (out := .err 1) (.other (.other .nil (by simp)) (by simp)) (hsplit _ _ _ _ (by decide +kernel) rfl) trivial) (by simp)) ?_ trivial
  have hpast : Consumer.past [(1, first)] = first := by simp [Consumer.past]
  rw [hpast]
  have h1 : first.length = 1 := by decide +kernel
  have h2 := Consumer.C79_delivery (w := Consumer.Demo.world) (r := Consumer.Demo.reg) (e := ⟨12, 42⟩) (ks := [(2, Consumer.Demo.flaky)]) ⟨by decide, by simp [Consumer.Demo.world]⟩ first
  obtain ⟨ds, h3, -⟩ := h2
  refine hsplit _ _ _ _ (by decide +kernel) ?_
  show (Consumer.deliver Consumer.Demo.world Consumer.Demo.reg first ⟨12, 42⟩).2 = first ++ (Consumer.deliver Consumer.Demo.world Consumer.Demo.reg first ⟨12, 42⟩).2.drop 1
  rw [h3, List.drop_append_of_le_length (by omega), ← List.append_assoc]
  rw [List.drop_eq_nil_of_le (by omega), List.append_nil]

theorem writes_exist {D : Type} (apply : Action → D → D) : ∀ (t : Trace) (S : D), ∃ d, Writes apply S t d := by
  intro t
  induction t with
  | nil => intro S; exact ⟨S, .nil S⟩
  | cons x t ih =>
    intro S
    cases x with
    | exec a st =>
      cases st with
      | ok => obtain ⟨d, hd⟩ := ih (apply a S); exact ⟨d, .ok hd⟩
      | err => obtain ⟨d, hd⟩ := ih S; exact ⟨d, .bad (by simp) hd⟩
      | panic => obtain ⟨d, hd⟩ := ih S; exact ⟨d, .bad (by simp) hd⟩
    | _ => obtain ⟨d, hd⟩ := ih S; exact ⟨d, .other (by simp) hd⟩

/-- not vacuous: the chain of this file meets the hypotheses of the theorems, has passed the bus, and ends with one commit at service 8, after one failure. -/
example : ∃ H w d, Story conv 7 10 true (BusWorld.before (emptyDB [])) H w ∧ w.done <+: (run Ddd.Demo.okEnv Ddd.Demo.txOpts Ddd.Demo.addCmd Ddd.Demo.evHeap).2.trace ∧
    Decided (fun a l => l ++ [a]) [] (run Ddd.Demo.okEnv Ddd.Demo.txOpts Ddd.Demo.addCmd Ddd.Demo.evHeap).2.trace w.done d true ∧ Behind (emptyDB []) H ops w.db ∧ InTime conf 0 ops ∧ w.row = some row ∧ row ∉ w.db.txs ∧
    Consumer.Plays Consumer.Demo.world Consumer.Demo.reg conv' 8 (opsLog (emptyDB []) ops) [(1, second), (1, first)] ∧
    (∃ id k, Consumer.Commands Consumer.Demo.world Consumer.Demo.reg (conv' ⟨1, ⟨21, 1, .transaction, 5, 12⟩, 1⟩).typ [(id, k)] ∧ k.opts.withTransaction = true) ∧
    Consumer.NoLatePanic (Consumer.runsFor [(1, second), (1, first)] 1) ∧ NoBreak (Consumer.runsFor [(1, second), (1, first)] 1) ∧
    Consumer.commits [(1, second), (1, first)] 1 = 1 ∧ failures (opsLog (emptyDB []) ops) 8 1 = 1 := by
  obtain ⟨H, w, hs, hb, hd, hr⟩ := demo_story
  have hT : InTime conf 0 ops := by
    simp only [ops, InTime, Stops]
    exact ⟨by decide, by decide, ⟨10, by decide, rfl⟩, by decide, ⟨10, by decide, rfl⟩, by decide, trivial⟩
  obtain ⟨d, hd'⟩ := writes_exist (fun a l => l ++ [a]) (run Ddd.Demo.okEnv Ddd.Demo.txOpts Ddd.Demo.addCmd Ddd.Demo.evHeap).2.trace []
  refine ⟨H, w, d, hs, by rw [hd]; exact List.take_prefix _ _, ⟨hd', .ok, by rw [hd]; decide +kernel⟩, hb, hT, hr, ?_, demo_plays, ⟨2, Consumer.Demo.flaky, ⟨by decide, by simp [Consumer.Demo.world]⟩, rfl⟩, ?_, ?_, ?_, ?_⟩
  · rw [hb.run]
    have : (runOps (emptyDB []) ops).txs = [] := by decide +kernel
    rw [this]; simp
  · unfold Consumer.NoLatePanic; decide +kernel
  · unfold NoBreak; decide +kernel
  · decide +kernel
  · decide +kernel

end Ddd.Chain
