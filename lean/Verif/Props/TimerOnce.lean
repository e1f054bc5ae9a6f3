import Verif.Props.TimerLife
import Verif.Props.TimerKept
/-!
# One instance, from its start (C126)

The process model of C99 is shown to do nothing that the transition system of C52–C56 can not do; so what is proved there holds for it.
-/
set_option linter.unusedVariables false
set_option linter.unusedSimpArgs false
namespace Ddd.TimerLife
open Ddd.Timer Ddd.Spec

/-- the call an entry of the log of the transition system is about -/
def callOf : Timer.Log → Option (Job × Nat)
  | .called _ j t => some (j, t)
  | _ => none

/-- `t` is a state of the transition system in which the same happened as in the process state `s` -/
structure Follows (c : Cfg) (svc : Nat) (s : State) (t : Timer.State) : Prop where
  reach : Reachable c t
  now : t.now = s.now
  db : t.db = s.db
  busy : t.busy = []
  pass : ∀ l, s.pass = some l → (svc, l) ∈ t.loops
  calls : s.calls = t.log.filterMap callOf

variable {c : Cfg} {interval : Int} {svc : Nat} {cb : Nat → Job → Ans} {mayLock maySave : Bool}

theorem follows_client {s : State} {t : Timer.State} (h : Follows c svc s t) {db' : DB} (hc : Clients c s.db db') :
    ∃ t', Follows c svc { s with db := db' } t' ∧ t'.log.filterMap callOf = t.log.filterMap callOf ∧ ∃ l, t'.log = l ++ t.log ∧ (∀ x ∈ l, callOf x = none) ∧ (∀ x ∈ l, ∀ i, x.isSaved i = false) := by
  obtain ⟨hr, hn, hd, hb, hp, hcl⟩ := h
  generalize hdb : s.db = db at hc
  cases hc with
  | register svc' t0 r ht =>
    have same : (Timer.register c db svc' t0 r).1 = db → ∃ t', Follows c svc { s with db := (Timer.register c db svc' t0 r).1 } t' ∧ t'.log.filterMap callOf = t.log.filterMap callOf ∧ ∃ l, t'.log = l ++ t.log ∧ (∀ x ∈ l, callOf x = none) ∧ (∀ x ∈ l, ∀ i, x.isSaved i = false) := by
      intro he
      exact ⟨t, ⟨hr, hn, by rw [hd, hdb]; exact he.symm, hb, hp, hcl⟩, rfl, [], rfl, by simp, by simp⟩
    rcases hj : r.job c svc' t0 with ⟨j, e⟩
    cases e with
    | ok =>
      by_cases hf : finds db svc' r.key = true
      · exact same (by simp [Timer.register, hj, hf])
      · have hf' : finds db svc' r.key = false := by simpa using hf
        rcases hi : Timer.insert c db j with ⟨db2, e2⟩
        have heq : (Timer.register c db svc' t0 r).1 = db2 := by simp [Timer.register, hj, hf', hi]
        by_cases he2 : e2 = .ok
        · subst he2
          let t1 : Timer.State := { t with regs := j :: t.regs, log := .asked svc' r t0 :: t.log }
          have h1 : Timer.Step c t t1 := .regFind t svc' r j t0 (by omega) hj (by rw [hd, hdb]; exact hf')
          have h2 := Timer.Step.regInsert (c := c) t1 j db2 List.mem_cons_self (by show Timer.insert c t.db j = _; rw [hd, hdb]; exact hi)
          refine ⟨_, ⟨.step (.step hr h1) h2, hn, heq.symm, hb, hp, ?_⟩, ?_, [_, _], rfl, ?_, ?_⟩
          · rw [hcl]; rfl
          · rfl
          · simp [callOf]
          · simp [Timer.Log.isSaved]
        · refine same ?_
          rw [heq]
          unfold Timer.insert at hi
          split at hi
          · simp only [Prod.mk.injEq] at hi; exact hi.1.symm
          · simp only [Prod.mk.injEq] at hi; exact absurd hi.2.symm he2
    | overdue => exact same (by simp [Timer.register, hj])
    | badCron => exact same (by simp [Timer.register, hj])
    | duplicate => exact same (by simp [Timer.register, hj])
    | dbError => exact same (by simp [Timer.register, hj])
  | cancel key =>
    by_cases hk : key = 0
    · refine ⟨t, ⟨hr, hn, ?_, hb, hp, hcl⟩, rfl, [], rfl, by simp, by simp⟩
      rw [hd, hdb]; simp [Timer.cancel, hk]
    · have hcn : Timer.cancel db key = ((Timer.cancel db key).1, .ok) := by simp [Timer.cancel, hk]
      have h1 := Timer.Step.cancel (c := c) t key (Timer.cancel db key).1 (by rw [hd, hdb]; exact hcn) (by intro j _ _ hl; simp [Timer.State.locked, hb] at hl)
      have hnone : ∀ x ∈ (t.db.jobs.filter fun j => decide (j.key = key)).map Timer.Log.deleted, callOf x = none := by
        intro x hx
        obtain ⟨j, _, rfl⟩ := List.mem_map.1 hx
        rfl
      have hfm : ((t.db.jobs.filter fun j => decide (j.key = key)).map Timer.Log.deleted ++ t.log).filterMap callOf = t.log.filterMap callOf := by
        rw [List.filterMap_append, List.filterMap_eq_nil_iff.2 hnone, List.nil_append]
      exact ⟨_, ⟨.step hr h1, hn, rfl, hb, hp, by rw [hcl]; exact hfm.symm⟩, hfm, _, rfl, hnone, fun x hx i => by obtain ⟨j, _, rfl⟩ := List.mem_map.1 hx; rfl⟩

/-- what a step adds to the log: nothing about calls, or a call with its end -/
def Adds (svc : Nat) (maySave : Bool) (panics : Prop) (l : List Timer.Log) : Prop :=
  (∀ x ∈ l, callOf x = none) ∨ ∃ j t e, l = [e, .called svc j t] ∧ (e = .returned svc j t true ∨ (maySave = true ∧ e = .returned svc j t false) ∨ (panics ∧ e = .died svc j t))

theorem follows_step {s s' : State} {t : Timer.State} (h : Follows c svc s t) (st : TimerLife.Step c interval svc cb mayLock maySave (Clients c) s s') :
    ∃ t', Follows c svc s' t' ∧ ∃ l, t'.log = l ++ t.log ∧ Adds svc maySave (∃ t j, cb t j = .panics) l ∧ ((∀ x ∈ l, callOf x = none) → ∀ x ∈ l, ∀ i, x.isSaved i = false) := by
  obtain ⟨hr, hn, hd, hb, hp, hcl⟩ := h
  have quiet : Adds svc maySave (∃ t j, cb t j = .panics) [] ∧ ((∀ x ∈ ([] : List Timer.Log), callOf x = none) → ∀ x ∈ ([] : List Timer.Log), ∀ i, x.isSaved i = false) := ⟨.inl (by simp), by simp⟩
  cases st with
  | @time d => exact ⟨_, ⟨.step hr (.tick t d), by simp [hn], hd, hb, hp, hcl⟩, [], rfl, quiet⟩
  | other ho =>
    obtain ⟨t', h1, _, l, hl, hx, hx'⟩ := follows_client ⟨hr, hn, hd, hb, hp, hcl⟩ ho
    exact ⟨t', h1, l, hl, .inl hx, fun _ => hx'⟩
  | boot => exact ⟨t, ⟨hr, hn, hd, hb, by simp [State.boot], hcl⟩, [], rfl, quiet⟩
  | start =>
    refine ⟨t, ?_, [], rfl, quiet⟩
    unfold State.start
    split
    · exact ⟨hr, hn, hd, hb, hp, hcl⟩
    · split
      · exact ⟨hr, hn, hd, hb, hp, hcl⟩
      · exact ⟨hr, hn, hd, hb, hp, hcl⟩
  | poll ha hl hps =>
    refine ⟨_, ⟨.step hr (.select t svc t.now (by omega)), hn, hd, hb, ?_, hcl⟩, [], rfl, quiet⟩
    intro l hl
    simp only [State.poll, Option.some.injEq] at hl
    rw [← hl, hd, hn]
    exact List.mem_cons_self
  | skip hm ha hps =>
    refine ⟨_, ⟨.step hr (.skip t svc _ _ (hp _ hps)), hn, hd, hb, ?_, hcl⟩, [], rfl, quiet⟩
    intro l hl
    simp only [Option.some.injEq] at hl
    rw [← hl]; exact List.mem_cons_self
  | over ha hps => exact ⟨t, ⟨hr, hn, hd, hb, by simp, hcl⟩, [], rfl, quiet⟩
  | @job id rest saved hs ha hps =>
    unfold State.job
    split
    · refine ⟨_, ⟨.step hr (.skip t svc _ _ (hp _ hps)), hn, hd, hb, ?_, hcl⟩, [], rfl, quiet⟩
      intro l hl
      simp only [Option.some.injEq] at hl
      rw [← hl]; exact List.mem_cons_self
    · rename_i j hj
      have hjm := List.mem_of_find?_eq_some hj
      have hjp := List.find?_some hj
      simp only [Bool.and_eq_true, beq_iff_eq] at hjp
      have hcall := Timer.Step.call (c := c) t svc id rest j (hp _ hps) (by rw [hd]; exact hjm) hjp.2 t.now ⟨by omega, fun _ => rfl⟩ (by rw [hn]; exact hjp.1) (by simp [Timer.State.locked, hb])
      rw [hn, hb] at hcall
      split
      · rename_i hpan
        have hend := Timer.Step.crash (c := c) { t with now := s.now, loops := (svc, rest) :: t.loops.erase (svc, id :: rest), busy := [⟨svc, j, s.now⟩], log := .called svc j s.now :: t.log } ⟨svc, j, s.now⟩ List.mem_cons_self
        refine ⟨_, ⟨.step (.step hr hcall) hend, rfl, hd, by simp, by simp, by rw [hcl]; rfl⟩, [_, _], rfl, .inr ⟨j, s.now, _, rfl, .inr (.inr ⟨⟨_, _, hpan⟩, rfl⟩)⟩, fun h => absurd (h (.called svc j s.now) (by simp)) (by simp [callOf])⟩
      · cases saved with
        | true =>
          have hend := Timer.Step.finish (c := c) { t with now := s.now, loops := (svc, rest) :: t.loops.erase (svc, id :: rest), busy := [⟨svc, j, s.now⟩], log := .called svc j s.now :: t.log } ⟨svc, j, s.now⟩ List.mem_cons_self s.now ⟨Nat.le_refl _, by show s.now ≤ s.now + c.ahead; omega⟩
          refine ⟨_, ⟨.step (.step hr hcall) hend, rfl, by simp [hd], by simp, ?_, by rw [hcl]; rfl⟩, [_, _], rfl, .inr ⟨j, s.now, _, rfl, .inl rfl⟩, fun h => absurd (h (.called svc j s.now) (by simp)) (by simp [callOf])⟩
          intro l hl
          simp only [Option.some.injEq] at hl
          rw [← hl]; exact List.mem_cons_self
        | false =>
          have hend := Timer.Step.finishLost (c := c) { t with now := s.now, loops := (svc, rest) :: t.loops.erase (svc, id :: rest), busy := [⟨svc, j, s.now⟩], log := .called svc j s.now :: t.log } ⟨svc, j, s.now⟩ List.mem_cons_self s.now ⟨Nat.le_refl _, by show s.now ≤ s.now + c.ahead; omega⟩
          refine ⟨_, ⟨.step (.step hr hcall) hend, rfl, by simp [hd], by simp, ?_, by rw [hcl]; rfl⟩, [_, _], rfl, .inr ⟨j, s.now, _, rfl, .inr (.inl ⟨hs rfl, rfl⟩)⟩, fun h => absurd (h (.called svc j s.now) (by simp)) (by simp [callOf])⟩
          intro l hl
          simp only [Option.some.injEq] at hl
          rw [← hl]; exact List.mem_cons_self

/-- every call is followed by its end -/
def Ended (maySave : Bool) (panics : Prop) (log : List Timer.Log) : Prop :=
  ∀ svc j t l1 l2, log = l1 ++ .called svc j t :: l2 → ∃ l e, l1 = l ++ [e] ∧ (e = .returned svc j t true ∨ (maySave = true ∧ e = .returned svc j t false) ∨ (panics ∧ e = .died svc j t))

theorem ended_adds {panics : Prop} {l log : List Timer.Log} (h : Ended maySave panics log) (ha : Adds svc maySave panics l) : Ended maySave panics (l ++ log) := by
  intro k j t l1 l2 he
  rcases ha with ha | ⟨j', t', e, rfl, hend⟩
  · induction l generalizing l1 with
    | nil => exact h k j t l1 l2 he
    | cons x xs ih =>
      cases l1 with
      | nil =>
        simp only [List.cons_append, List.nil_append, List.cons.injEq] at he
        have := ha x List.mem_cons_self
        rw [he.1] at this
        simp [callOf] at this
      | cons y l1 =>
        simp only [List.cons_append, List.cons.injEq] at he
        obtain ⟨l, e, h1, h2⟩ := ih l1 he.2 (fun z hz => ha z (List.mem_cons_of_mem _ hz))
        exact ⟨y :: l, e, by rw [h1]; rfl, h2⟩
  · cases l1 with
    | nil =>
      simp only [List.cons_append, List.nil_append, List.cons.injEq] at he
      rcases hend with h1 | ⟨_, h1⟩ | ⟨_, h1⟩ <;> rw [h1] at he <;> simp at he
    | cons y l1 =>
      simp only [List.cons_append, List.nil_append, List.cons.injEq] at he
      cases l1 with
      | nil =>
        simp only [List.nil_append, List.cons.injEq, Timer.Log.called.injEq] at he
        obtain ⟨h0, ⟨rfl, rfl, rfl⟩, _⟩ := he
        exact ⟨[], y, rfl, by rw [← h0]; exact hend⟩
      | cons z l1 =>
        simp only [List.cons_append, List.cons.injEq] at he
        obtain ⟨l, e', h1, h2⟩ := h k j t l1 l2 he.2.2
        exact ⟨y :: z :: l, e', by rw [h1]; rfl, h2⟩

/-- every completed call was begun just before -/
def Begun (log : List Timer.Log) : Prop := ∀ k j t l1 l2, log = l1 ++ .returned k j t true :: l2 → ∃ l, l2 = .called k j t :: l

theorem begun_adds {panics : Prop} {l log : List Timer.Log} (h : Begun log) (ha : Adds svc maySave panics l) (hn : (∀ x ∈ l, callOf x = none) → ∀ x ∈ l, ∀ i, x.isSaved i = false) : Begun (l ++ log) := by
  intro k j t l1 l2 he
  rcases ha with ha | ⟨j', t', e, rfl, hend⟩
  · have hn := hn ha
    clear ha
    induction l generalizing l1 with
    | nil => exact h k j t l1 l2 he
    | cons x xs ih =>
      cases l1 with
      | nil =>
        simp only [List.cons_append, List.nil_append, List.cons.injEq] at he
        have := hn x List.mem_cons_self j.id
        rw [he.1] at this
        simp [Timer.Log.isSaved] at this
      | cons y l1 =>
        simp only [List.cons_append, List.cons.injEq] at he
        exact ih (fun _ z hz => hn z (List.mem_cons_of_mem _ hz)) l1 he.2 (fun z hz => hn z (List.mem_cons_of_mem _ hz))
  · cases l1 with
    | nil =>
      simp only [List.cons_append, List.nil_append, List.cons.injEq] at he
      rcases hend with h1 | ⟨_, h1⟩ | ⟨_, h1⟩ <;> rw [h1] at he
      · simp only [Timer.Log.returned.injEq, and_true] at he
        obtain ⟨⟨rfl, rfl, rfl⟩, rfl⟩ := he
        exact ⟨_, rfl⟩
      · simp at he
      · simp at he
    | cons y l1 =>
      simp only [List.cons_append, List.nil_append, List.cons.injEq] at he
      cases l1 with
      | nil => simp at he
      | cons z l1 =>
        simp only [List.cons_append, List.cons.injEq] at he
        exact h k j t l1 l2 he.2.2

/-- every execution of a process, starting with an empty table, is an execution of the transition system -/
theorem follows_steps {others : DB → DB → Prop} (ho : ∀ d d', others d d' → Clients c d d') {s : State} (h : TimerLife.Steps c interval svc cb mayLock maySave others (noProcess ⟨[], 1⟩) s) :
    ∃ t, Follows c svc s t ∧ Ended maySave (∃ t j, cb t j = .panics) t.log ∧ Begun t.log ∧ ∀ k j τ, .called k j τ ∈ t.log → k = svc := by
  generalize hs : noProcess ⟨[], 1⟩ = s0 at h
  induction h with
  | refl =>
    subst hs
    refine ⟨.init, ⟨.init, rfl, rfl, rfl, by simp [noProcess], rfl⟩, ?_, ?_, by simp [Timer.State.init]⟩
    · intro svc j t l1 l2 he
      simp [Timer.State.init] at he
    · intro svc j t l1 l2 he
      simp [Timer.State.init] at he
  | @snoc s1 s2 _ st ih =>
    obtain ⟨t, h1, h2, h2', h3⟩ := ih
    have st' : TimerLife.Step c interval svc cb mayLock maySave (Clients c) s1 s2 := by
      cases st with
      | time => exact .time
      | other h => exact .other (ho _ _ h)
      | boot => exact .boot
      | start a => exact .start a
      | poll a b d => exact .poll a b d
      | skip a b d => exact .skip a b d
      | job a b d => exact .job a b d
      | over a b => exact .over a b
    obtain ⟨t', h4, l, hl, ha, hns⟩ := follows_step h1 st'
    refine ⟨t', h4, by rw [hl]; exact ended_adds h2 ha, by rw [hl]; exact begun_adds h2' ha hns, ?_⟩
    intro k j τ hm
    rw [hl, List.mem_append] at hm
    rcases hm with hm | hm
    · rcases ha with ha | ⟨j', τ', e, rfl, he⟩
      · have := ha _ hm; simp [callOf] at this
      · simp only [List.mem_cons, List.not_mem_nil, or_false] at hm
        rcases hm with hm | hm
        · rcases he with h | ⟨_, h⟩ | ⟨_, h⟩ <;> rw [h] at hm <;> cases hm
        · cases hm; rfl
    · exact h3 k j τ hm

/-- splitting a filtered list -/
theorem filterMap_split {α β : Type} {f : α → Option β} : ∀ {l : List α} {a b : List β} {y : β}, l.filterMap f = a ++ y :: b → ∃ l1 l2 x, l = l1 ++ x :: l2 ∧ f x = some y ∧ l1.filterMap f = a ∧ l2.filterMap f = b := by
  intro l
  induction l with
  | nil => intro a b y h; simp at h
  | cons x xs ih =>
    intro a b y h
    cases hx : f x with
    | none =>
      rw [List.filterMap_cons_none hx] at h
      obtain ⟨l1, l2, z, h1, h2, h3, h4⟩ := ih h
      exact ⟨x :: l1, l2, z, by rw [h1]; rfl, h2, by rw [List.filterMap_cons_none hx, h3], h4⟩
    | some w =>
      rw [List.filterMap_cons_some hx] at h
      cases a with
      | nil =>
        simp only [List.nil_append, List.cons.injEq] at h
        exact ⟨[], xs, x, rfl, by rw [hx, h.1], rfl, h.2⟩
      | cons w' a =>
        simp only [List.cons_append, List.cons.injEq] at h
        obtain ⟨l1, l2, z, h1, h2, h3, h4⟩ := ih h.2
        exact ⟨x :: l1, l2, z, by rw [h1]; rfl, h2, by rw [List.filterMap_cons_some hx, h3, h.1], h4⟩

theorem callOf_some {x : Timer.Log} {j : Job} {t : Nat} (h : callOf x = some (j, t)) : ∃ k, x = .called k j t := by
  cases x <;> simp [callOf] at h
  exact ⟨_, by rw [h.1, h.2]⟩

/-- C126: whatever the process does, and the clients meanwhile, from an empty table on: every call is of a pending job of the service whose time has come. -/
theorem C126_due {s : State} (h : TimerLife.Steps c interval svc cb mayLock maySave (Clients c) (noProcess ⟨[], 1⟩) s) {j : Job} {t : Nat} (hm : (j, t) ∈ s.calls) :
    j.service = svc ∧ j.status = .toRun ∧ j.next ≤ t ∧ t ≤ s.now + c.ahead := by
  obtain ⟨u, hf, _, _, hk⟩ := follows_steps (fun _ _ h => h) h
  rw [hf.calls, List.mem_filterMap] at hm
  obtain ⟨x, hx, hx'⟩ := hm
  obtain ⟨k, rfl⟩ := callOf_some hx'
  obtain ⟨l1, l2, hl⟩ := List.append_of_mem hx
  obtain ⟨h1, h2, h3, h4, _⟩ := C52_only_due hf.reach hl
  exact ⟨by rw [h1, hk _ _ _ hx], h2, h3, by rw [← hf.now]; exact h4⟩

/-- C126: if no callback panics and saving works, a one-shot job is called at most once, however often the process is stopped between two jobs and started again and whatever the clients do. -/
theorem C126_at_most_once_partial (hc : ∀ t j, cb t j ≠ .panics) {s : State} (h : TimerLife.Steps c interval svc cb mayLock false (Clients c) (noProcess ⟨[], 1⟩) s) {a b : List (Job × Nat)} {j : Job} {t : Nat}
    (hs : s.calls = a ++ (j, t) :: b) (h0 : j.cron = 0) : ∀ y ∈ b, y.1.id ≠ j.id := by
  obtain ⟨u, hf, he, _, hk⟩ := follows_steps (fun _ _ h => h) h
  rw [hf.calls] at hs
  obtain ⟨l1, l2, x, hl, hx, _, hb⟩ := filterMap_split hs
  obtain ⟨k, rfl⟩ := callOf_some hx
  rintro ⟨j', t'⟩ hy hid
  rw [← hb, List.mem_filterMap] at hy
  obtain ⟨z, hz, hz'⟩ := hy
  obtain ⟨k', rfl⟩ := callOf_some hz'
  obtain ⟨l3, l4, hl2⟩ := List.append_of_mem hz
  have hl' : u.log = (l1 ++ .called k j t :: l3) ++ .called k' j' t' :: l4 := by rw [hl, hl2]; simp
  obtain ⟨l, e, h1, h2⟩ := he _ _ _ _ _ hl'
  have he' : e = .returned k' j' t' true := by
    rcases h2 with h2 | ⟨h2, _⟩ | ⟨⟨t0, j0, hp⟩, _⟩
    · exact h2
    · cases h2
    · exact absurd hp (hc _ _)
  subst he'
  have hmem : Timer.Log.returned k' j' t' true ∈ l2 := by
    rcases List.eq_nil_or_concat l3 with rfl | ⟨l3', w, rfl⟩
    · have := congrArg List.getLast? h1
      simp at this
    · have h1' : (l1 ++ Timer.Log.called k j t :: l3') ++ [w] = l ++ [Timer.Log.returned k' j' t' true] := by rw [← h1]; simp
      have hw := (List.append_inj' h1' rfl).2
      simp only [List.cons.injEq, and_true] at hw
      rw [hl2, hw]; simp
  have := C53_once hf.reach hl h0 _ hmem
  simp [Timer.Log.isSaved] at this
  exact this hid

/-- C126: under the same conditions consecutive calls of a cron job are for consecutive times: the later one is for the first time of the schedule after the earlier call, as stored (times missed meanwhile are left out), and not before it. -/
theorem C126_cron_partial (hc : ∀ t j, cb t j ≠ .panics) {s : State} (h : TimerLife.Steps c interval svc cb mayLock false (Clients c) (noProcess ⟨[], 1⟩) s) {a b d : List (Job × Nat)} {j j' : Job} {t t' : Nat}
    (hs : s.calls = a ++ (j', t') :: (b ++ (j, t) :: d)) (hid : j'.id = j.id) (hb : ∀ y ∈ b, y.1.id ≠ j.id) (h0 : j.cron ≠ 0) {f : Nat → Nat} (hp : c.parse j.cron = some f) :
    j' = { j with next := c.round (f t), status := .toRun } ∧ c.round (f t) ≤ t' := by
  obtain ⟨u, hf, he, hbg, hk⟩ := follows_steps (fun _ _ h => h) h
  have hdue := C126_due h (j := j') (t := t') (by rw [hs]; simp)
  rw [hf.calls] at hs
  obtain ⟨l1, l2, x, hl, hx, _, hl2⟩ := filterMap_split hs
  obtain ⟨k', rfl⟩ := callOf_some hx
  obtain ⟨l3, l4, z, hl3, hz, hb3, _⟩ := filterMap_split hl2
  obtain ⟨k, rfl⟩ := callOf_some hz
  have hl' : u.log = (l1 ++ .called k' j' t' :: l3) ++ .called k j t :: l4 := by rw [hl, hl3]; simp
  obtain ⟨l, e, h1, h2⟩ := he _ _ _ _ _ hl'
  have he' : e = .returned k j t true := by
    rcases h2 with h2 | ⟨h2, _⟩ | ⟨⟨t0, j0, hp⟩, _⟩
    · exact h2
    · cases h2
    · exact absurd hp (hc _ _)
  subst he'
  obtain ⟨l3', rfl⟩ : ∃ l3', l3 = l3' ++ [Timer.Log.returned k j t true] := by
    rcases List.eq_nil_or_concat l3 with rfl | ⟨l3', w, rfl⟩
    · have := congrArg List.getLast? h1
      simp at this
    · have h1' : (l1 ++ Timer.Log.called k' j' t' :: l3') ++ [w] = l ++ [Timer.Log.returned k j t true] := by rw [← h1]; simp
      have hw := (List.append_inj' h1' rfl).2
      simp only [List.cons.injEq, and_true] at hw
      exact ⟨l3', by simp [hw]⟩
  have hlog : u.log = l1 ++ .called k' j' t' :: (l3' ++ .returned k j t true :: (.called k j t :: l4)) := by rw [hl']; simp
  have hns : ∀ x ∈ l3', x.isSaved j.id = false := by
    intro x hx
    cases hsv : x.isSaved j.id with
    | false => rfl
    | true =>
      exfalso
      cases x with
      | returned kx jx tx bx =>
        cases bx with
        | false => simp [Timer.Log.isSaved] at hsv
        | true =>
          simp only [Timer.Log.isSaved, beq_iff_eq] at hsv
          obtain ⟨m1, m2, hm⟩ := List.append_of_mem hx
          obtain ⟨m3, hm3⟩ := hbg kx jx tx (l1 ++ .called k' j' t' :: m1) (m2 ++ .returned k j t true :: (.called k j t :: l4)) (by rw [hlog, hm]; simp)
          cases m2 with
          | nil => simp at hm3
          | cons w m2 =>
            simp only [List.cons_append, List.cons.injEq] at hm3
            refine hb (jx, tx) ?_ hsv
            rw [← hb3, List.mem_filterMap]
            exact ⟨w, by rw [hm]; simp, by rw [hm3.1]; rfl⟩
      | _ => simp [Timer.Log.isSaved] at hsv
  have hj' := C54_consecutive hf.reach hlog hid hns h0 f hp
  refine ⟨hj', ?_⟩
  have := hdue.2.2.1
  rw [hj'] at this
  exact this

theorem steps_mono {o1 o2 : DB → DB → Prop} (ho : ∀ d d', o1 d d' → o2 d d') {a b : State} (h : TimerLife.Steps c interval svc cb mayLock maySave o1 a b) : TimerLife.Steps c interval svc cb mayLock maySave o2 a b := by
  induction h with
  | refl => exact .refl _
  | snoc _ st ih =>
    refine .snoc ih ?_
    cases st with
    | time => exact .time
    | other h => exact .other (ho _ _ h)
    | boot => exact .boot
    | start a => exact .start a
    | poll a b d => exact .poll a b d
    | skip a b d => exact .skip a b d
    | job a b d => exact .job a b d
    | over a b => exact .over a b

theorem steps_trans {o : DB → DB → Prop} {x y z : State} (h1 : TimerLife.Steps c interval svc cb mayLock maySave o x y) (h2 : TimerLife.Steps c interval svc cb mayLock maySave o y z) : TimerLife.Steps c interval svc cb mayLock maySave o x z := by
  induction h2 with
  | refl => exact h1
  | snoc _ st ih => exact .snoc ih st

theorem onward_steps {o : DB → DB → Prop} {x y : State} (h : Onward c interval svc cb mayLock maySave o x y) : TimerLife.Steps c interval svc cb mayLock maySave o x y := by
  induction h with
  | refl => exact .refl _
  | snoc _ st _ ih => exact .snoc ih st

/-- the counter is above all IDs, and the table is ordered -/
def Neat (d : DB) : Prop := Ordered d ∧ ∀ x ∈ d.jobs, x.id < d.nextId

theorem neat_client {d d' : DB} (h : Clients c d d') (hn : Neat d) : Neat d' := by
  obtain ⟨h1, h2⟩ := hn
  cases h with
  | register svc' t r ht =>
    unfold Timer.register
    rcases hj : r.job c svc' t with ⟨j, e⟩
    cases e with
    | ok =>
      dsimp only
      split
      · exact ⟨h1, h2⟩
      · unfold Timer.insert
        split
        · exact ⟨h1, h2⟩
        · refine ⟨?_, ?_⟩
          · unfold Ordered
            rw [List.pairwise_append]
            exact ⟨h1, by simp, by simpa using h2⟩
          · intro x hx
            simp only [List.mem_append, List.mem_singleton] at hx
            rcases hx with hx | rfl
            · exact Nat.lt_succ_of_lt (h2 x hx)
            · exact Nat.lt_succ_self _
    | _ => exact ⟨h1, h2⟩
  | cancel key =>
    unfold Timer.cancel
    split
    · exact ⟨h1, h2⟩
    · exact ⟨h1.sublist List.filter_sublist, fun x hx => h2 x (List.mem_filter.1 hx).1⟩

theorem neat_save {d : DB} {x j : Job} (hn : Neat d) (hx : x.id = j.id) (hj : j ∈ d.jobs) : Neat (save d x) := by
  refine ⟨ordered_save hn.1, ?_⟩
  intro y hy
  rcases mem_save hy with rfl | ⟨hy, _⟩
  · rw [hx]; exact hn.2 j hj
  · exact hn.2 y hy

theorem neat_step {s s' : State} (h : TimerLife.Step c interval svc cb mayLock maySave (Clients c) s s') (hn : Neat s.db) : Neat s'.db := by
  cases h with
  | time => exact hn
  | other h => exact neat_client h hn
  | boot => exact hn
  | start => unfold State.start; split; · exact hn
             · split <;> exact hn
  | poll => exact hn
  | skip => exact hn
  | over => exact hn
  | job =>
    unfold State.job
    split
    · exact hn
    · rename_i j hj
      split
      · exact hn
      · split
        · exact neat_save hn (afterCall_id _ _ _) (List.mem_of_find?_eq_some hj)
        · exact hn

/-- C126: exactly once. A one-shot job that is waiting when a poll begins, and that nobody cancels, is called exactly once by the end of that poll, and ever after exactly once has it been called: in the whole life of the process and its successors, whatever other jobs there are and whatever their callbacks answer. (No callback panics, rows can be locked and saved.) -/
theorem C126_exactly_once_partial (hc : ∀ t j, cb t j ≠ .panics) {j : Job} (h0 : j.cron = 0) {s0 s s' : State}
    (hb : TimerLife.Steps c interval svc cb false false (Clients c) (noProcess ⟨[], 1⟩) s0) (hw : Waiting svc j s0) (ha : s0.alive = true) (hst : s0.started = true) (hlp : 0 < s0.loops) (hps : s0.pass = none)
    (h : Onward c interval svc cb false false (fun d d' => Clients c d d' ∧ (j ∈ d.jobs → j ∈ d'.jobs)) (s0.poll svc) s) (hover : s.pass = none)
    (hafter : TimerLife.Steps c interval svc cb false false (Clients c) s s') :
    (s'.calls.filter fun x => decide (x.1.id = j.id)).length = 1 ∧ ∃ t, s0.now ≤ t ∧ (j, t) ∈ s.calls := by
  have neat0 : Neat s0.db := by
    have : ∀ {x : State}, TimerLife.Steps c interval svc cb false false (Clients c) (noProcess ⟨[], 1⟩) x → Neat x.db := by
      intro x hx
      generalize hs : noProcess ⟨[], 1⟩ = z at hx
      induction hx with
      | refl => subst hs; exact ⟨by simp [Ordered, noProcess], by simp [noProcess]⟩
      | snoc _ st ih => exact neat_step st ih
    exact this hb
  have hstep1 : TimerLife.Steps c interval svc cb false false (Clients c) (noProcess ⟨[], 1⟩) (s0.poll svc) := .snoc hb (.poll ha hlp hps)
  have hclient : TimerLife.Steps c interval svc cb false false (Clients c) (s0.poll svc) s := steps_mono (fun _ _ h => h.1) (onward_steps h)
  have hall := steps_trans hstep1 hclient
  obtain ⟨t, ht, hm⟩ : ∃ t, s0.now ≤ t ∧ (j, t) ∈ s.calls := by
    have conv : ∀ {x : State}, Onward c interval svc cb false false (fun d d' => Clients c d d' ∧ (j ∈ d.jobs → j ∈ d'.jobs)) (s0.poll svc) x →
        Neat x.db ∧ Onward c interval svc cb false false (fun d d' => (Clients c d d' ∧ (j ∈ d.jobs → j ∈ d'.jobs)) ∧ Neat d) (s0.poll svc) x := by
      intro x hx
      induction hx with
      | refl => exact ⟨neat0, .refl _⟩
      | @snoc x1 x2 _ st hs2 ih =>
        have st2 : TimerLife.Step c interval svc cb false false (Clients c) x1 x2 := by
          cases st with
          | time => exact .time
          | other h => exact .other h.1
          | boot => exact .boot
          | start a => exact .start a
          | poll a b d => exact .poll a b d
          | skip a b d => exact .skip a b d
          | job a b d => exact .job a b d
          | over a b => exact .over a b
        refine ⟨neat_step st2 ih.1, .snoc ih.2 ?_ hs2⟩
        cases st with
        | time => exact .time
        | other h => exact .other ⟨h, ih.1⟩
        | boot => exact .boot
        | start a => exact .start a
        | poll a b d => exact .poll a b d
        | skip a b d => exact .skip a b d
        | job a b d => exact .job a b d
        | over a b => exact .over a b
    refine C99_others_partial hc ?_ hw neat0.1 hst (conv h).2 hover
    intro d d' hd
    exact ⟨hd.1.2, fun _ => (neat_client hd.1.1 hd.2).1⟩
  refine ⟨?_, t, ht, hm⟩
  have hend := steps_trans hall hafter
  have hgrow : ∀ {x y : State}, TimerLife.Steps c interval svc cb false false (Clients c) x y → ∀ q ∈ x.calls, q ∈ y.calls := by
    intro x y hxy
    induction hxy with
    | refl => exact fun q h => h
    | snoc _ st ih =>
      intro q hq
      have := ih q hq
      cases st with
      | start => unfold State.start; split; · exact this
                 · split <;> exact this
      | job =>
        unfold State.job
        split
        · exact this
        · split <;> exact List.mem_cons_of_mem _ this
      | _ => exact this
  have hm' := hgrow hafter _ hm
  have uniq : ∀ (l : List (Job × Nat)), (∀ a b (k : Job) t, l = a ++ (k, t) :: b → k.cron = 0 → ∀ y ∈ b, y.1.id ≠ k.id) → (∀ q ∈ l, q.1.id = j.id → q.1.cron = 0) → (j, t) ∈ l → (l.filter fun x => decide (x.1.id = j.id)).length = 1 := by
    intro l
    induction l with
    | nil => intro _ _ h; cases h
    | cons q l ih =>
      intro h1 h2 h3
      by_cases hq : q.1.id = j.id
      · have : l.filter (fun x => decide (x.1.id = j.id)) = [] := by
          rw [List.filter_eq_nil_iff]
          intro y hy
          have := h1 [] l q.1 q.2 rfl (h2 q List.mem_cons_self hq) y hy
          rw [hq] at this
          simpa using this
        rw [List.filter_cons_of_pos (by simpa using hq), this]
        rfl
      · rw [List.filter_cons_of_neg (by simpa using hq)]
        refine ih (fun a b k t he => h1 (q :: a) b k t (by rw [he]; rfl)) (fun y hy => h2 y (List.mem_cons_of_mem _ hy)) ?_
        rcases List.mem_cons.1 h3 with rfl | h3
        · exact absurd rfl hq
        · exact h3
  refine uniq _ (fun a b k t he hk => C126_at_most_once_partial hc hend he hk) ?_ hm'
  intro q hq hid
  obtain ⟨u, hf, _⟩ := follows_steps (fun _ _ h => h) hend
  have look : ∀ {k : Job} {τ : Nat}, (k, τ) ∈ s'.calls → ∃ i, Timer.Log.called i k τ ∈ u.log := by
    intro k τ hk
    rw [hf.calls, List.mem_filterMap] at hk
    obtain ⟨x, hx, hx'⟩ := hk
    obtain ⟨i, rfl⟩ := callOf_some hx'
    exact ⟨i, hx⟩
  have orig : ∀ {k : Job} {τ i : Nat}, Timer.Log.called i k τ ∈ u.log → ∃ o, .created o ∈ u.log ∧ o.id = k.id ∧ k.cron = o.cron := by
    intro k τ i hk
    obtain ⟨l1, l2, hl⟩ := List.append_of_mem hk
    obtain ⟨a, har, hal, ham, _⟩ := call_split hf.reach hl
    obtain ⟨o, ho, hoid⟩ := (orig_reachable har).rows k ham
    exact ⟨o, by rw [hl]; rw [hal] at ho; simp [ho], hoid, (C55_stable har o k ho ham hoid.symm).2.2.1⟩
  obtain ⟨i1, hi1⟩ := look (k := q.1) (τ := q.2) hq
  obtain ⟨i2, hi2⟩ := look hm'
  obtain ⟨o1, ho1, hoid1, hoc1⟩ := orig hi1
  obtain ⟨o2, ho2, hoid2, hoc2⟩ := orig hi2
  have : o1 = o2 := created_unique hf.reach ho1 ho2 (by rw [hoid1, hoid2, hid])
  rw [hoc1, this, ← hoc2, h0]

/-- whole seconds; the only expression is "the next full ten" -/
def onceCfg : Cfg := { parse := fun e => if e = 1 then some fun t => (t / 10 + 1) * 10 else none, round := id }

/-- The hypotheses of the theorems above can be met: a client registers a one-shot job for time 5 (key 7), the process is started, polls at time 6 and calls it once; it is polled again at time 20 and not called. -/
theorem once_demo : ∃ s0 s s', TimerLife.Steps onceCfg 1 1 (fun _ _ => .ok) false false (Clients onceCfg) (noProcess ⟨[], 1⟩) s0 ∧ Waiting 1 ⟨1, 1, 7, 0, 5, .toRun, 9⟩ s0 ∧
    s0.alive = true ∧ s0.started = true ∧ 0 < s0.loops ∧ s0.pass = none ∧
    Onward onceCfg 1 1 (fun _ _ => .ok) false false (fun d d' => Clients onceCfg d d' ∧ (⟨1, 1, 7, 0, 5, .toRun, 9⟩ ∈ d.jobs → ⟨1, 1, 7, 0, 5, .toRun, 9⟩ ∈ d'.jobs)) (s0.poll 1) s ∧ s.pass = none ∧
    TimerLife.Steps onceCfg 1 1 (fun _ _ => .ok) false false (Clients onceCfg) s s' ∧ s'.now = 20 ∧ s'.pass = some [] ∧ s'.calls = [(⟨1, 1, 7, 0, 5, .toRun, 9⟩, 6)] := by
  let db1 : DB := ⟨[⟨1, 1, 7, 0, 5, .toRun, 9⟩], 2⟩
  let db2 : DB := ⟨[⟨1, 1, 7, 0, 5, .finished, 9⟩], 2⟩
  let j : Job := ⟨1, 1, 7, 0, 5, .toRun, 9⟩
  have h0 : TimerLife.Steps onceCfg 1 1 (fun _ _ => .ok) false false (Clients onceCfg) (noProcess ⟨[], 1⟩) ⟨6, db1, true, true, 1, none, []⟩ := by
    refine .snoc (s1 := ⟨0, db1, true, true, 1, none, []⟩) (.snoc (s1 := ⟨0, db1, true, false, 0, none, []⟩) (.snoc (s1 := ⟨0, db1, false, false, 0, none, []⟩) (.snoc (.refl _) ?_) .boot) (.start rfl)) (.time (d := 6))
    exact .other (Clients.register _ 1 0 (.once 7 5 9) (Nat.zero_le _))
  refine ⟨⟨6, db1, true, true, 1, none, []⟩, ⟨6, db2, true, true, 1, none, [(j, 6)]⟩, ⟨20, db2, true, true, 1, some [], [(j, 6)]⟩, h0, by simp [Waiting, db1], rfl, rfl, by decide, rfl, ?_, rfl, ?_, rfl, rfl, rfl⟩
  · refine .snoc (s1 := ⟨6, db2, true, true, 1, some [], [(j, 6)]⟩) (.snoc (s1 := ⟨6, db1, true, true, 1, some [1], []⟩) (.refl _) ?_ rfl) (.over rfl rfl) rfl
    exact .job (s := ⟨6, db1, true, true, 1, some [1], []⟩) (id := 1) (rest := []) (saved := true) (by simp) rfl rfl
  · exact .snoc (s1 := ⟨20, db2, true, true, 1, none, [(j, 6)]⟩) (.snoc (.refl _) (.time (d := 14))) (.poll rfl (by decide) rfl)

/-- A cron job (key 8): registered at time 0 for 10, called at 12 and then, for the time 20 the first call computed, at 25. -/
theorem cron_demo : ∃ s, TimerLife.Steps onceCfg 1 1 (fun _ _ => .ok) false false (Clients onceCfg) (noProcess ⟨[], 1⟩) s ∧
    s.calls = [] ++ (⟨1, 1, 8, 1, 20, .toRun, 9⟩, 25) :: ([] ++ (⟨1, 1, 8, 1, 10, .toRun, 9⟩, 12) :: []) := by
  let db : Nat → DB := fun n => ⟨[⟨1, 1, 8, 1, n, .toRun, 9⟩], 2⟩
  let j : Nat → Job := fun n => ⟨1, 1, 8, 1, n, .toRun, 9⟩
  have e (n t m : Nat) (l : List (Job × Nat)) (h : n ≤ t) (hm : (t / 10 + 1) * 10 = m) : State.job onceCfg 1 (fun _ _ => .ok) true ⟨t, db n, true, true, 1, some [1], l⟩ 1 [] = ⟨t, db m, true, true, 1, some [], (j n, t) :: l⟩ := by
    subst hm
    simp [State.job, db, j, due, h, save, onceCfg, Job.afterCall, Job.step, Job.reset, Job.stored]
  refine ⟨⟨25, db 30, true, true, 1, some [], [(j 20, 25), (j 10, 12)]⟩, ?_, rfl⟩
  have h1 : TimerLife.Steps onceCfg 1 1 (fun _ _ => .ok) false false (Clients onceCfg) (noProcess ⟨[], 1⟩) ⟨12, db 10, true, true, 1, none, []⟩ := by
    refine .snoc (s1 := ⟨0, db 10, true, true, 1, none, []⟩) (.snoc (s1 := ⟨0, db 10, true, false, 0, none, []⟩) (.snoc (s1 := ⟨0, db 10, false, false, 0, none, []⟩) (.snoc (.refl _) ?_) .boot) (.start rfl)) (.time (d := 12))
    exact .other (Clients.register _ 1 0 (.cron 8 1 9) (Nat.zero_le _))
  have h2 : TimerLife.Steps onceCfg 1 1 (fun _ _ => .ok) false false (Clients onceCfg) (noProcess ⟨[], 1⟩) ⟨12, db 20, true, true, 1, some [], [(j 10, 12)]⟩ :=
    .snoc (.snoc h1 (.poll rfl (by decide) rfl)) (e 10 12 20 [] (by decide) (by decide) ▸ .job (s := ⟨12, db 10, true, true, 1, some [1], []⟩) (id := 1) (rest := []) (saved := true) (by simp) rfl rfl)
  have h3 : TimerLife.Steps onceCfg 1 1 (fun _ _ => .ok) false false (Clients onceCfg) (noProcess ⟨[], 1⟩) ⟨25, db 20, true, true, 1, none, [(j 10, 12)]⟩ :=
    .snoc (s1 := ⟨12, db 20, true, true, 1, none, [(j 10, 12)]⟩) (.snoc h2 (.over rfl rfl)) (.time (d := 13))
  exact .snoc (.snoc h3 (.poll rfl (by decide) rfl)) (e 20 25 30 [(j 10, 12)] (by decide) (by decide) ▸ .job (s := ⟨25, db 20, true, true, 1, some [1], [(j 10, 12)]⟩) (id := 1) (rest := []) (saved := true) (by simp) rfl rfl)

end Ddd.TimerLife
