import Verif.Spec.Once
import Verif.Props.Consumer
import Verif.Props.BusLTS
/-!
# C80: the effect of an event handler command happens at most once
-/
set_option linter.unusedVariables false
set_option linter.unusedSimpArgs false
namespace Ddd.Bus

/-- the successes of a service for an event: at most one. -/
theorem successes_le_one {c : Cfg} {pol : Pol} (hfresh : pol.fresh = true) (hloss : pol.lossless = true) {s : State} (h : Reachable c pol s) (svc eid : Nat) :
    successes s.log svc eid ≤ 1 ∧ ∀ e t b, Log.returned svc eid e .ok t b ∈ s.log → b = true := by
  induction h with
  | init => simp [State.init, successes]
  | @step s s' h1 hst ih =>
    have hi := inv_reachable h1
    have hh := held_reachable hfresh h1
    have quiet : ∀ l, s'.log = l ++ s.log → (∀ x ∈ l, x.isDone svc eid = false) → successes s'.log svc eid ≤ 1 ∧ ∀ e t b, Log.returned svc eid e .ok t b ∈ s'.log → b = true := by
      intro l hl hn
      constructor
      · have : l.countP (Log.isDone svc eid) = 0 := List.countP_eq_zero.2 fun x hx => by simp [hn x hx]
        unfold successes
        rw [hl, List.countP_append, this, Nat.zero_add]
        exact ih.1
      · intro e t b hm
        rw [hl, List.mem_append] at hm
        rcases hm with hm | hm
        · have := hn _ hm; simp [Log.isDone] at this
        · exact ih.2 e t b hm
    cases hst with
    | dispRecs ps sv todo hps hu => exact quiet _ rfl (by intro x hx; obtain ⟨p, -, rfl⟩ := List.mem_map.1 hx; rfl)
    | call j hj hl hx hs hm hf => exact quiet [_] rfl (by intro x hx; simp only [List.mem_singleton] at hx; subst hx; rfl)
    | finishLost j ret hj hp t0 ht => rw [hloss] at hp; cases hp
    | expire r hr hl hp => exact quiet [_] rfl (by intro x hx; simp only [List.mem_singleton] at hx; subst hx; rfl)
    | finish j ret hj t0 ht =>
      by_cases hk : j.svc = svc ∧ j.t.r.eventId = eid ∧ ret = .ok
      · obtain ⟨rfl, rfl, rfl⟩ := hk
        have hnone : successes s.log j.svc j.t.r.eventId = 0 := by
          refine List.countP_eq_zero.2 ?_
          intro x hx hd
          cases x with
          | returned sv i e r t b =>
            simp only [Log.isDone, decide_eq_true_eq] at hd
            obtain ⟨rfl, h3, rfl⟩ := hd
            subst h3
            have hb := ih.2 e t b hx
            subst hb
            have hset := (settled_done hfresh h1 (svc := j.svc) (eid := j.t.r.eventId)).1 ⟨e, t, hx⟩
            have := hi.copies.init _ (.inr (.inr ⟨j, hj, rfl⟩))
            exact hset.2 _ (hh j hj) (hi.copies.busy j hj) rfl this
          | _ => simp [Log.isDone] at hd
        constructor
        · unfold successes at hnone ⊢
          simp [List.countP_cons, hnone]
          split <;> omega
        · intro e t b hm
          simp only [List.mem_cons, Log.returned.injEq] at hm
          rcases hm with hm | hm
          · exact hm.2.2.2.2.2
          · exact ih.2 e t b hm
      · exact quiet [_] rfl (by
          intro x hx; simp only [List.mem_singleton] at hx; subst hx
          simp only [Log.isDone, decide_eq_false_iff_not]
          exact hk)
    | _ => exact quiet [] rfl (by simp)

end Ddd.Bus

namespace Ddd.Consumer
open Spec
open Router (Reg)

theorem plays_commits {w : World} {r : Reg} {conv : Bus.EvRow → Router.Event} {svc : Nat} {log : List Bus.Log} {ps : List (Nat × List Done)} (hp : Plays w r conv svc log ps) {eid : Nat}
    (hone : ∀ e ret t b, Bus.Log.returned svc eid e ret t b ∈ log → ∃ id k, Commands w r (conv e).typ [(id, k)] ∧ k.opts.withTransaction = true)
    (hlate : NoLatePanic (runsFor ps eid)) :
    commits ps eid ≤ Bus.successes log svc eid ∧
    ((∀ d ∈ runsFor ps eid, d.ret = .nil → d.committed = true) → commits ps eid = Bus.successes log svc eid) := by
  induction hp with
  | nil => simp [commits, runsFor, Bus.successes]
  | @other log ps x h1 hx ih =>
    have ih := ih (fun e ret t b hm => hone e ret t b (by simp [hm])) hlate
    have : Bus.successes (x :: log) svc eid = Bus.successes log svc eid := by
      unfold Bus.successes
      rw [List.countP_cons_of_neg]
      cases x with
      | returned sv i e ret t b =>
        simp only [Bus.Log.isDone, decide_eq_true_eq]
        rintro ⟨rfl, rfl, rfl⟩
        exact hx _ _ _ _ _ rfl
      | _ => simp [Bus.Log.isDone]
    rw [this]; exact ih
  | @delivery log ps i e ret t b ds out h1 h2 h3 ih =>
    by_cases hi : i = eid
    · subst hi
      have hrf : runsFor ((i, ds) :: ps) i = ds ++ runsFor ps i := by simp [runsFor]
      rw [hrf] at hlate
      have ih := ih (fun e ret t b hm => hone e ret t b (by simp [hm])) fun d hd => hlate d (by simp [hd])
      have hc : commits ((i, ds) :: ps) i = ds.countP Done.committed + commits ps i := by
        simp [commits, hrf, List.countP_append]
      obtain ⟨id, k, hk, htx⟩ := hone e ret t b (by simp)
      obtain ⟨ds', h4, h5⟩ := C79_delivery hk (past ps)
      rw [h2] at h4 h5
      have := List.append_cancel_left h4
      subst this
      rcases h5 with ⟨h5, h6, h7⟩ | ⟨n, k', d, h6, h7, h8, h9, h10, h11, h12, -⟩
      · simp only at h5
        subst h5
        have hret : ret = .ok := by cases ret <;> simp_all [SameOutcome]
        subst hret
        have hs : Bus.successes (.returned svc i e .ok t b :: log) svc i = Bus.successes log svc i + 1 := by
          unfold Bus.successes; rw [List.countP_cons_of_pos]; simp [Bus.Log.isDone]
        simp only [List.length_cons, List.length_nil] at h6
        obtain ⟨d, rfl⟩ := List.length_eq_one_iff.1 h6
        have hd := h7 0 (id, k) d rfl rfl
        rw [hc, hs]
        constructor
        · have : [d].countP Done.committed ≤ 1 := List.countP_le_length
          omega
        · intro hall
          have h12 : d.committed = true := hall d (by simp [hrf]) hd.2.1
          have h13 := ih.2 fun d hd => hall d (by rw [hrf]; simp [hd])
          rw [List.countP_singleton, h12, h13]
          simp; omega
      · have hn : n = 0 := by
          have := (List.getElem?_eq_some_iff.1 h7).1
          simpa using this
        subst hn
        simp only [List.getElem?_cons_zero, Option.some.injEq] at h7
        subst h7
        obtain ⟨d', rfl⟩ := List.length_eq_one_iff.1 h6
        simp only [List.getElem?_cons_zero, Option.some.injEq] at h8
        subst h8
        simp only at h10 h11
        have hnc : d'.committed = false := by
          cases hr : d'.ret with
          | nil => rw [hr] at h11; exact absurd h11.symm h10
          | err x =>
            rw [hr] at h12
            simpa [Done.committed] using C79_failed_not_committed htx h12
          | panic =>
            by_contra hcm
            exact hlate d' (by simp) (by simpa using hcm) hr
        have hret : ret ≠ .ok := by
          rintro rfl
          cases out <;> simp_all [SameOutcome]
        have hs : Bus.successes (.returned svc i e ret t b :: log) svc i = Bus.successes log svc i := by
          unfold Bus.successes; rw [List.countP_cons_of_neg]; simp [Bus.Log.isDone, hret]
        rw [hc, hs, List.countP_singleton, hnc]
        refine ⟨by simpa using ih.1, fun hall => ?_⟩
        simpa using ih.2 fun d hd => hall d (by rw [hrf]; simp [hd])
    · have hrf : runsFor ((i, ds) :: ps) eid = runsFor ps eid := by simp [runsFor, hi]
      have hs : Bus.successes (.returned svc i e ret t b :: log) svc eid = Bus.successes log svc eid := by
        unfold Bus.successes; rw [List.countP_cons_of_neg]; simp [Bus.Log.isDone, hi]
      have ih := ih (fun e ret t b hm => hone e ret t b (by simp [hm])) (by rw [hrf] at hlate; exact hlate)
      rw [hs, hrf]
      simpa [commits, hrf] using ih

/-- **C80 (partial)** However often the bus delivers an event to a service (retries, several workers, restarts), the command handling it commits at most once, and, unless it broke off with `ErrBreak`, exactly once if
the handler has succeeded and not at all otherwise. Assumed: one command handler per event type, no overlapping workers (`fresh`), no death between the return of a handler and the commit of its outcome (`lossless`), no
panic after the commit. `C80_two_handlers` and `C80_late_panic` show that the property is false without the first and the last assumption, `C46_handled_twice` shows the second. -/
theorem C80_at_most_once_partial {c : Bus.Cfg} {pol : Bus.Pol} (hfresh : pol.fresh = true) (hloss : pol.lossless = true) {s : Bus.State} (h : Bus.Reachable c pol s)
    {w : World} {r : Reg} {conv : Bus.EvRow → Router.Event} {svc : Nat} {ps : List (Nat × List Done)} (hp : Plays w r conv svc s.log ps) {eid : Nat}
    (hone : ∀ e ret t b, Bus.Log.returned svc eid e ret t b ∈ s.log → ∃ id k, Commands w r (conv e).typ [(id, k)] ∧ k.opts.withTransaction = true)
    (hlate : NoLatePanic (runsFor ps eid)) :
    commits ps eid ≤ 1 ∧
    ((∀ d ∈ runsFor ps eid, d.ret = .nil → d.committed = true) → (commits ps eid = 1 ↔ ∃ e t b, Bus.Log.returned svc eid e .ok t b ∈ s.log)) := by
  obtain ⟨h1, h2⟩ := plays_commits hp hone hlate
  have h3 := (Bus.successes_le_one hfresh hloss h svc eid).1
  refine ⟨by omega, fun hall => ?_⟩
  rw [h2 hall]
  constructor
  · intro h4
    have : 0 < List.countP (Bus.Log.isDone svc eid) s.log := by unfold Bus.successes at h4; omega
    obtain ⟨x, hx, hd⟩ := List.countP_pos_iff.1 this
    cases x with
    | returned sv i e ret t b =>
      simp only [Bus.Log.isDone, decide_eq_true_eq] at hd
      obtain ⟨rfl, rfl, rfl⟩ := hd
      exact ⟨e, t, b, hx⟩
    | _ => simp [Bus.Log.isDone] at hd
  · rintro ⟨e, t, b, hm⟩
    have : 0 < List.countP (Bus.Log.isDone svc eid) s.log := List.countP_pos_iff.2 ⟨_, hm, by simp [Bus.Log.isDone]⟩
    unfold Bus.successes at h3 ⊢
    omega

end Ddd.Consumer
