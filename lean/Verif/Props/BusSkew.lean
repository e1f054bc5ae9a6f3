import Verif.Props.BusCleanDemo
import Verif.Props.BusLTSDemo
/-!
# C118: hosts whose clocks differ

In `Model/BusLTS.lean` a step uses the time that the clock of its process showed: any time up to `Pol.ahead` after the true time, and any amount before it. Every theorem about reachable states is for all values of `ahead`;
the ones below spell out what depends on it.
-/
set_option linter.unusedVariables false
namespace Ddd.Bus
open LDemo

/-- **C118 (partial)** Back-off with clocks that differ: if no clock is ahead by more than `a`, a call of the handler comes (in true time) at most `a` earlier than the interval after what the failing process's clock showed at the failure.
As in C42, without workers acting on stale copies. -/
theorem C118_backoff_partial {c : Cfg} {pol : Pol} (hfresh : pol.fresh = true) {d : Nat} {L : Int} (hst : c.strategy = intervalRetry d L) {s : State} (h : Reachable c pol s) {l1 l2 l3 : List Log} {svc eid t1 t2 : Nat}
    {e e' : EvRow} {ret : Ret} (hlog : s.log = l1 ++ .called svc eid e t2 :: (l2 ++ .returned svc eid e' ret t1 true :: l3)) (hr : ret ≠ .ok) : t1 + d ≤ t2 + pol.ahead :=
  C42_interval_partial hfresh hst h hlog hr

/-- **C118 (partial)** Retention with clocks that differ: an event is removed (in true time) at most `ahead` earlier than the retention time after its creation. -/
theorem C118_retention_partial {c : Cfg} {pol : Pol} {s s' : State} (h : PromptReachable c pol s) (hst : Step c pol s s') {e : EvRow} (he : e ∈ s.db.events) (hgone : e ∉ s'.db.events) :
    e.ev.created + c.retention < s.now + pol.ahead := (C103_removed h hst he hgone).2.2

/-- **C118** Whatever the clocks show, no delivery is lost (as in C40: scans find the events of the records they have read). -/
theorem C118_no_loss_partial {c : Cfg} {pol : Pol} (hcalm : pol.calm = true) (hcount : Counting c.strategy) {s : State} (h : Reachable c pol s) {svc eid : Nat} (hs : .stored svc eid ∈ s.log) :
    Pending s.db svc eid ∨ HandledOk s.log svc eid ∨ GivesUp c.strategy (failures s.log svc eid) ∨ .expired svc eid ∈ s.log :=
  C40_no_loss_partial hcalm hcount h hs

namespace SkewDemo

/-- a scan by a process whose clock is ahead by `a` -/
def fastRows (c : Cfg) (a svc start off : Nat) (s : State) : Option State :=
  if .offset svc start off ∈ s.scans then
    some { s with scans := .rows svc start (((pendingFrom s.db svc off).filter fun r => decide (r.next ≤ s.now + a)).take c.limit) :: s.scans.erase (.offset svc start off) } else none

theorem fastRows_sound {c : Cfg} {pol : Pol} {svc start off : Nat} {s s' : State} (hr : Reachable c pol s) (h : fastRows c pol.ahead svc start off s = some s') : Reachable c pol s' := by
  unfold fastRows at h
  split at h
  · cases h; exact .step hr (.scanRows s svc start off ‹_› _ (Nat.le_refl _))
  · cases h

theorem resume {c : Cfg} {pol : Pol} : ∀ (acts : List Act) (s0 s : State), Reachable c pol s0 → acts.foldlM (Act.run c pol) s0 = some s → Reachable c pol s := by
  intro acts
  induction acts with
  | nil => intro s0 s hr h; cases h; exact hr
  | cons a acts ih =>
    intro s0 s hr h
    simp only [List.foldlM_cons, Option.bind_eq_bind, Option.bind_eq_some_iff] at h
    obtain ⟨s1, h1, h2⟩ := h
    exact ih s1 s (.step hr (Act.sound h1)) h2

/-- the clocks of two hosts: one is right, the other one is `a` ahead; workers do not overlap -/
def two (a : Nat) : Pol := ⟨true, true, true, true, a⟩

/-- the record after the failure at time 1 -/
def again : Rec := ⟨1, 7, 1, 1, .init, 0, 51⟩

/-- the first host calls the handler, which fails at time 1; the interval is 50; the other host scans at time 31 with a clock that shows 51 -/
def story : Option State :=
  (script (cfg (intervalRetry 50 3)) (two 20) (dispatched 1 ++ scan7 [rec7 1] ++ [.call (job (rec7 1) (row 1)), .finish (job (rec7 1) (row 1)) .err, .tick 30, .scanBegin 7, .scanOffset 7 1])).bind fun s =>
    (fastRows (cfg (intervalRetry 50 3)) 20 7 1 1 s).bind fun s =>
      [Act.scanEvents 7 1 [again], .call (job again (row 1))].foldlM (Act.run (cfg (intervalRetry 50 3)) (two 20)) s

end SkewDemo
open SkewDemo

/-- **C118** The bound is sharp: a clock that is ahead by 20 makes a host call the handler 30 after the failure, although the interval is 50. -/
theorem C118_early : ∃ s, Reachable (cfg (intervalRetry 50 3)) (two 20) s ∧ s.log.take 2 = [.called 7 1 (row 1) 31, .returned 7 1 (row 1) .err 1 true] := by
  have h : story.any (fun s => decide (s.log.take 2 = [.called 7 1 (row 1) 31, .returned 7 1 (row 1) .err 1 true])) = true := by decide +kernel
  cases hs : story with
  | none => rw [hs] at h; simp at h
  | some s =>
    rw [hs] at h
    refine ⟨s, ?_, by simpa using h⟩
    unfold story at hs
    simp only [Option.bind_eq_some_iff] at hs
    obtain ⟨s1, h1, s2, h2, h3⟩ := hs
    exact resume _ _ _ (fastRows_sound (pol := two 20) (script_sound h1) h2) h3

end Ddd.Bus
