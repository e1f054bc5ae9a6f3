import Verif.Spec.TimerLife
/-! C99: construction and life of a DB timer. -/
set_option linter.unusedVariables false
set_option linter.unusedSimpArgs false
namespace Ddd.TimerLife
open Ddd.Timer Ddd.Spec

/-- C99: NewDBTimer refuses a timer without a name and nothing else: any interval is accepted. -/
theorem C99_accepts (default : Int) (named : Bool) (opts : List (Int → Int)) :
    (newTimer default named opts = none ↔ named = false) ∧ (newTimer default true [] = some default) ∧ ∀ i, newTimer default true (opts ++ [fun _ => i]) = some i := by
  cases named <;> simp [newTimer]

variable {c : Cfg} {interval : Int} {svc : Nat} {cb : Nat → Job → Ans} {mayLock maySave : Bool} {others : DB → DB → Prop}

/-- C99: a process has at most one polling loop, however often Start is called; passes never overlap in it (`pass` is one pass at most), and only a started process polls. -/
theorem C99_start_once {db : DB} {s : State} (h : Steps c interval svc cb mayLock maySave others (noProcess db) s) : s.loops ≤ 1 ∧ (s.started = false → s.loops = 0 ∧ s.pass = none) := by
  generalize hs : noProcess db = s0 at h
  induction h with
  | refl => subst hs; simp [noProcess]
  | snoc _ st ih =>
    obtain ⟨h1, h2⟩ := ih
    cases st with
    | time => exact ⟨h1, h2⟩
    | other => exact ⟨h1, h2⟩
    | boot => simp [State.boot]
    | start ha =>
      unfold State.start
      split
      · exact ⟨h1, h2⟩
      · rename_i hn
        have := h2 (by simpa using hn)
        split <;> simp [this]
    | poll ha hl hp => exact ⟨h1, fun hs => by have := h2 hs; omega⟩
    | skip => exact ⟨h1, fun hs => by simp_all⟩
    | job hs ha hp =>
      unfold State.job
      split
      · exact ⟨h1, fun hs => by simp_all⟩
      · split
        · exact ⟨h1, fun hs => ⟨(h2 hs).1, rfl⟩⟩
        · exact ⟨h1, fun hs => by simp_all⟩
    | over => exact ⟨h1, fun hs => ⟨(h2 hs).1, rfl⟩⟩

/-- C99: only two things end the process: Start with an interval that is not positive, and a callback that panics (for want of a handler, for example). Errors of callbacks, selects, locks and saves do not. -/
theorem C99_kills {s s' : State} (st : Step c interval svc cb mayLock maySave others s s') (ha : s.alive = true) (hd : s'.alive = false) :
    (interval ≤ 0 ∧ s.started = false ∧ s'.calls = s.calls) ∨ (∃ j, s'.calls = (j, s.now) :: s.calls ∧ cb s.now j = .panics ∧ j ∈ s.db.jobs ∧ due svc s.now j = true ∧ s'.db = s.db) := by
  cases st with
  | time => simp_all
  | other => simp_all
  | boot => simp [State.boot] at hd
  | start =>
    unfold State.start at hd ⊢
    split at hd
    · simp_all
    · split at hd
      · simp_all
      · left; rename_i h1 h2; exact ⟨by omega, by simpa using h1, by simp [h1, h2]⟩
  | poll => simp_all [State.poll]
  | skip => simp_all
  | job hs _ hp =>
    unfold State.job at hd ⊢
    split at hd
    · simp_all
    · rename_i j hj
      split at hd
      · rename_i hc
        right
        have h1 := List.find?_some hj
        have h2 := List.mem_of_find?_eq_some hj
        simp only [Bool.and_eq_true] at h1
        refine ⟨j, ?_, hc, h2, h1.1, ?_⟩ <;> simp [hj, hc]
      · simp_all
  | over => simp_all

/-- C99: with a positive interval and callbacks that do not panic, a process that was started is never ended from within, whatever fails. -/
theorem C99_survives_partial (hi : 0 < interval) (hc : ∀ t j, cb t j ≠ .panics) {s s' : State} (h : Steps c interval svc cb mayLock maySave others s s') (ha : s.alive = true) : s'.alive = true := by
  induction h with
  | refl => exact ha
  | @snoc s1 s2 _ st h1 =>
    cases hd : s2.alive with
    | true => rfl
    | false =>
      rcases C99_kills st h1 hd with ⟨h, _⟩ | ⟨j, _, h, _⟩
      · omega
      · exact absurd h (hc _ _)

/-- C99, counterexample: an interval that is not positive ends the process at Start. -/
theorem C99_dead_at_start (hi : interval ≤ 0) {s : State} (hs : s.started = false) : (s.start interval).alive = false := by
  simp [State.start, hs, show ¬ 0 < interval from by omega]

theorem find_unique {db : DB} (ho : Ordered db) {j : Job} (hj : j ∈ db.jobs) {p : Job → Bool} (hp : p j = true) : db.jobs.find? (fun x => p x && x.id == j.id) = some j := by
  unfold Ordered at ho
  generalize db.jobs = l at ho hj
  induction l with
  | nil => simp at hj
  | cons a l ih =>
    rw [List.find?_cons]
    rw [List.pairwise_cons] at ho
    rcases List.mem_cons.1 hj with rfl | hm
    · simp [hp]
    · have := ho.1 j hm
      have hne : (a.id == j.id) = false := by simp; omega
      simp only [hne, Bool.and_false]
      exact ih ho.2 hm

theorem mem_save_ne {db : DB} {x j : Job} (h : j ∈ db.jobs) (hne : j.id ≠ x.id) : j ∈ (save db x).jobs := by
  simp only [save, List.mem_map]
  exact ⟨j, h, by simp [hne]⟩

theorem ordered_save {db : DB} {x : Job} (h : Ordered db) : Ordered (save db x) := by
  unfold Ordered save at *
  simp only
  rw [List.pairwise_map]
  refine h.imp fun {a b} hab => ?_
  split <;> split <;> simp_all

/-- the invariant behind C99_poison -/
theorem poison_inv {j : Job} (hp : ∀ t, cb t j = .panics) (hk : ∀ d d', others d d' → (j ∈ d.jobs → j ∈ d'.jobs) ∧ (Ordered d → Ordered d'))
    {s0 s : State} (hw : Waiting svc j s0) (ho : Ordered s0.db) (hn : s0.pass = none) (hc : s0.calls = []) (h : Steps c interval svc cb false maySave others s0 s) :
    Waiting svc j s ∧ Ordered s.db ∧ (∀ p, s.pass = some p → j.id ∈ p ∧ p.Pairwise (· < ·)) ∧ (∀ q ∈ s.calls, q.1.id ≤ j.id) ∧ (∀ q ∈ s.calls, q.1.id = j.id → q.1 = j) := by
  induction h with
  | refl => exact ⟨hw, ho, by simp [hn], by simp [hc], by simp [hc]⟩
  | @snoc s1 _ _ st ih =>
    obtain ⟨⟨w1, w2, w3, w4⟩, h2, h3, h4, h5⟩ := ih
    cases st with
    | time => exact ⟨⟨w1, w2, w3, Nat.le_trans w4 (Nat.le_add_right _ _)⟩, h2, h3, h4, h5⟩
    | other hx => exact ⟨⟨(hk _ _ hx).1 w1, w2, w3, w4⟩, (hk _ _ hx).2 h2, h3, h4, h5⟩
    | boot => exact ⟨⟨w1, w2, w3, w4⟩, h2, by simp [State.boot], h4, h5⟩
    | start =>
      unfold State.start
      split
      · exact ⟨⟨w1, w2, w3, w4⟩, h2, h3, h4, h5⟩
      · split <;> exact ⟨⟨w1, w2, w3, w4⟩, h2, h3, h4, h5⟩
    | poll ha hl hn' =>
      refine ⟨⟨w1, w2, w3, w4⟩, h2, ?_, h4, h5⟩
      intro p hpp
      simp only [State.poll, Option.some.injEq] at hpp
      subst hpp
      refine ⟨List.mem_map.2 ⟨j, List.mem_filter.2 ⟨w1, by simp [due, w2, w3, w4]⟩, rfl⟩, ?_⟩
      rw [List.pairwise_map]
      exact List.Pairwise.filter _ h2
    | skip hm => simp at hm
    | @job id rest saved hs ha hpass =>
      obtain ⟨hin, hsort⟩ := h3 _ hpass
      rw [List.pairwise_cons] at hsort
      by_cases hid : id = j.id
      · subst hid
        have hf := find_unique h2 w1 (p := due svc s1.now) (by simp [due, w2, w3, w4])
        simp only [State.job, hf, hp]
        exact ⟨⟨w1, w2, w3, w4⟩, h2, by simp, by simp; exact fun a b hab => h4 _ hab, by simp; exact fun a b hab => h5 _ hab⟩
      · have hin' : j.id ∈ rest := (List.mem_cons.1 hin).resolve_left fun h => hid h.symm
        have hlt := hsort.1 _ hin'
        have hpost : ∀ p, some rest = some p → j.id ∈ p ∧ p.Pairwise (· < ·) := by rintro p ⟨⟩; exact ⟨hin', hsort.2⟩
        unfold State.job
        split
        · exact ⟨⟨w1, w2, w3, w4⟩, h2, hpost, h4, h5⟩
        · rename_i k hk1
          have hkid : k.id = id := by have := List.find?_some hk1; simp at this; exact this.2
          have hcalls : ∀ q ∈ (k, s1.now) :: s1.calls, q.1.id ≤ j.id := by
            intro q hq
            rcases List.mem_cons.1 hq with rfl | hq
            · simp only [hkid]; exact Nat.le_of_lt hlt
            · exact h4 q hq
          have hcalls2 : ∀ q ∈ (k, s1.now) :: s1.calls, q.1.id = j.id → q.1 = j := by
            intro q hq he
            rcases List.mem_cons.1 hq with rfl | hq
            · simp only [hkid] at he; omega
            · exact h5 q hq he
          split
          · exact ⟨⟨w1, w2, w3, w4⟩, h2, by simp, hcalls, hcalls2⟩
          · refine ⟨⟨?_, w2, w3, w4⟩, ?_, hpost, hcalls, hcalls2⟩
            · simp only
              split
              · apply mem_save_ne w1
                have e : ((k.afterCall c s1.now).stored c).id = k.id := by
                  grind [Job.stored, Job.afterCall, Job.step, Job.reset]
                rw [e, hkid]; exact fun h => hid h.symm
              · exact w1
            · simp only
              split
              · exact ordered_save h2
              · exact h2
    | over ha hpass => have := h3 _ hpass; simp at this

/-- C99: a pass in a process that goes on calls every job that was due when it began and that nobody else took away, whatever the callbacks of the other jobs answer and however many saves fail, as long as no callback panics and
rows can be locked. -/
theorem C99_others_partial (hc : ∀ t x, cb t x ≠ .panics) {j : Job} (hk : ∀ d d', others d d' → (j ∈ d.jobs → j ∈ d'.jobs) ∧ (Ordered d → Ordered d'))
    {s0 s : State} (hw : Waiting svc j s0) (ho : Ordered s0.db) (hs0 : s0.started = true) (h : Onward c interval svc cb false maySave others (s0.poll svc) s) (hover : s.pass = none) :
    ∃ t, s0.now ≤ t ∧ (j, t) ∈ s.calls := by
  have inv : s0.now ≤ s.now ∧ ((∃ t, s0.now ≤ t ∧ (j, t) ∈ s.calls) ∨ (Waiting svc j s ∧ Ordered s.db ∧ s.started = true ∧ ∃ p, s.pass = some p ∧ j.id ∈ p)) := by
    clear hover
    induction h with
    | refl =>
      obtain ⟨w1, w2, w3, w4⟩ := hw
      exact ⟨Nat.le_refl _, .inr ⟨⟨w1, w2, w3, w4⟩, ho, hs0, _, rfl, List.mem_map.2 ⟨j, List.mem_filter.2 ⟨w1, by simp [due, w2, w3, w4]⟩, rfl⟩⟩⟩
    | @snoc s1 s2 _ st hst ih =>
      obtain ⟨hle, ih⟩ := ih
      have hle2 : s1.now ≤ s2.now ∧ ∀ q ∈ s1.calls, q ∈ s2.calls := by
        cases st with
        | time => exact ⟨Nat.le_add_right _ _, fun q h => h⟩
        | start =>
          unfold State.start
          split
          · exact ⟨Nat.le_refl _, fun q h => h⟩
          · split <;> exact ⟨Nat.le_refl _, fun q h => h⟩
        | job =>
          unfold State.job
          split
          · exact ⟨Nat.le_refl _, fun q h => h⟩
          · split <;> exact ⟨Nat.le_refl _, fun q h => List.mem_cons_of_mem _ h⟩
        | _ => exact ⟨Nat.le_refl _, fun q h => h⟩
      refine ⟨Nat.le_trans hle hle2.1, ?_⟩
      rcases ih with ⟨t, ht, hm⟩ | ⟨⟨w1, w2, w3, w4⟩, h2, h3, p, hp, hin⟩
      · exact .inl ⟨t, ht, hle2.2 _ hm⟩
      cases st with
      | time => exact .inr ⟨⟨w1, w2, w3, Nat.le_trans w4 (Nat.le_add_right _ _)⟩, h2, h3, p, hp, hin⟩
      | other hx => exact .inr ⟨⟨(hk _ _ hx).1 w1, w2, w3, w4⟩, (hk _ _ hx).2 h2, h3, p, hp, hin⟩
      | boot => simp [State.boot] at hst
      | start =>
        have e : s1.start interval = s1 := by simp [State.start, h3]
        rw [e]
        exact .inr ⟨⟨w1, w2, w3, w4⟩, h2, h3, p, hp, hin⟩
      | poll _ _ hn => rw [hn] at hp; exact absurd hp (by simp)
      | skip hm => simp at hm
      | @job id rest saved hs ha hpass =>
        rw [hpass] at hp
        cases hp
        by_cases hid : id = j.id
        · subst hid
          have hf := find_unique h2 w1 (p := due svc s1.now) (by simp [due, w2, w3, w4])
          refine .inl ⟨s1.now, hle, ?_⟩
          unfold State.job
          rw [hf]
          dsimp only
          split <;> exact List.mem_cons_self
        · have hin' : j.id ∈ rest := (List.mem_cons.1 hin).resolve_left fun h => hid h.symm
          refine .inr ?_
          unfold State.job
          split
          · exact ⟨⟨w1, w2, w3, w4⟩, h2, h3, rest, rfl, hin'⟩
          · rename_i k hk1
            have hkid : k.id = id := by have := List.find?_some hk1; simp at this; exact this.2
            split
            · rename_i hcb; exact absurd hcb (hc _ _)
            · refine ⟨⟨?_, w2, w3, w4⟩, ?_, h3, rest, rfl, hin'⟩
              · simp only
                split
                · apply mem_save_ne w1
                  have e : ((k.afterCall c s1.now).stored c).id = k.id := by
                    grind [Job.stored, Job.afterCall, Job.step, Job.reset]
                  rw [e, hkid]; exact fun h => hid h.symm
                · exact w1
              · simp only
                split
                · exact ordered_save h2
                · exact h2
      | over ha hpass => rw [hpass] at hp; cases hp; simp at hin
  rcases inv.2 with h | ⟨_, _, _, p, hp, _⟩
  · exact h
  · rw [hp] at hover; exact absurd hover (by simp)

/-- C99, counterexample: a job whose callback always panics. Whatever happens (restarts, registrations and changes by others, failing saves), as long as nobody takes the job away and rows can be locked: it stays waiting, each call
of it ends the process, and no job registered after it is ever called. -/
theorem C99_poison {j : Job} (hp : ∀ t, cb t j = .panics) (hk : ∀ d d', others d d' → (j ∈ d.jobs → j ∈ d'.jobs) ∧ (Ordered d → Ordered d'))
    {s0 s : State} (hw : Waiting svc j s0) (ho : Ordered s0.db) (hn : s0.pass = none) (hc : s0.calls = []) (h : Steps c interval svc cb false maySave others s0 s) :
    Waiting svc j s ∧ (∀ q ∈ s.calls, q.1.id ≤ j.id) ∧
    ∀ s', Step c interval svc cb false maySave others s s' → s'.calls = (j, s.now) :: s.calls → s'.alive = false := by
  obtain ⟨h1, h2, h3, h4, h5⟩ := poison_inv hp hk hw ho hn hc h
  refine ⟨h1, h4, fun s' st he => ?_⟩
  have ne : ∀ (x : Job × Nat) (l : List (Job × Nat)), l ≠ x :: l := fun x l h => by simpa using congrArg List.length h
  cases st with
  | time => exact absurd he (ne _ _)
  | other => exact absurd he (ne _ _)
  | boot => exact absurd he (ne _ _)
  | start =>
    unfold State.start at he
    split at he
    · exact absurd he (ne _ _)
    · split at he <;> exact absurd he (ne _ _)
  | poll => exact absurd he (ne _ _)
  | skip => exact absurd he (ne _ _)
  | job hs ha hpass =>
    unfold State.job at he ⊢
    split at he
    · exact absurd he (ne _ _)
    · rename_i k hk1
      split at he
      · rename_i hc; simp [hk1, hc]
      · rename_i hcb
        simp only [List.cons.injEq, Prod.mk.injEq, and_true] at he
        subst he
        exact absurd (hp _) hcb
  | over => exact absurd he (ne _ _)

/-- two one-shot jobs of service 1, both due at 5 -/
def exJobs : DB := ⟨[⟨1, 1, 7, 0, 5, .toRun, 0⟩, ⟨2, 1, 8, 0, 5, .toRun, 0⟩], 3⟩
/-- the callback panics on job 1 -/
def exPanics : Nat → Job → Ans := fun _ j => if j.id = 1 then .panics else .ok

/-- The hypotheses of C99_poison can be met: the process dies of job 1, is started again and dies again, and job 2 was not called. With job 2 as the one that panics, job 1 is called once and done. -/
theorem poison_demo (c : Cfg) (hi : 0 < interval) :
    (∀ t, exPanics t ⟨1, 1, 7, 0, 5, .toRun, 0⟩ = .panics) ∧ Waiting 1 ⟨1, 1, 7, 0, 5, .toRun, 0⟩ { noProcess exJobs with now := 6 } ∧ Ordered exJobs ∧
    ∃ s, Steps c interval 1 exPanics false false (fun _ _ => False) { noProcess exJobs with now := 6 } s ∧ s.alive = false ∧ s.calls.map (·.1.id) = [1, 1] := by
  refine ⟨fun _ => rfl, by simp [Waiting, noProcess, exJobs], by simp [Ordered, exJobs], ?_⟩
  have life : ∀ s : State, s.db = exJobs → s.now = 6 → ∃ s', Steps c interval 1 exPanics false false (fun _ _ => False) s s' ∧ s'.db = exJobs ∧ s'.now = 6 ∧ s'.alive = false ∧ s'.calls.map (·.1.id) = 1 :: s.calls.map (·.1.id) := by
    intro s hd hn
    have e : ((s.boot.start interval).poll 1).pass = some [1, 2] := by
      simp [State.poll, State.start, State.boot, hi, hd, hn, exJobs, due]
    refine ⟨((s.boot.start interval).poll 1).job c 1 exPanics true 1 [2], ?_, ?_⟩
    · refine .snoc (.snoc (.snoc (.snoc (.refl s) .boot) (.start rfl)) (.poll ?_ ?_ ?_)) (.job (by simp) ?_ e)
      all_goals simp [State.poll, State.start, State.boot, hi]
    · simp [State.job, State.poll, State.start, State.boot, hi, hd, hn, exJobs, due, exPanics]
  obtain ⟨s1, a1, a2, a3, a4, a5⟩ := life { noProcess exJobs with now := 6 } rfl rfl
  obtain ⟨s2, b1, b2, b3, b4, b5⟩ := life s1 a2 a3
  have trans : ∀ {x y z : State}, Steps c interval 1 exPanics false false (fun _ _ => False) x y → Steps c interval 1 exPanics false false (fun _ _ => False) y z → Steps c interval 1 exPanics false false (fun _ _ => False) x z := by
    intro x y z h1 h2
    induction h2 with
    | refl => exact h1
    | snoc _ st ih => exact .snoc ih st
  exact ⟨s2, trans a1 b1, b4, by rw [b5, a5]; rfl⟩

/-- the callback of job 1 fails -/
def exFails : Nat → Job → Ans := fun _ j => if j.id = 1 then .failed else .ok

/-- The hypotheses of C99_others_partial can be met: job 1 fails, job 2 is called all the same. -/
theorem others_demo (c : Cfg) (hi : 0 < interval) : let s0 := ({ noProcess exJobs with now := 6 } : State).boot.start interval
    (∀ t x, exFails t x ≠ .panics) ∧ Waiting 1 ⟨2, 1, 8, 0, 5, .toRun, 0⟩ s0 ∧ Ordered s0.db ∧ s0.started = true ∧
    ∃ s, Onward c interval 1 exFails false false (fun _ _ => False) (s0.poll 1) s ∧ s.pass = none ∧ s.calls.map (·.1.id) = [2, 1] := by
  intro s0
  have hs0 : s0 = { now := 6, db := exJobs, alive := true, started := true, loops := 1, pass := none, calls := [] } := by simp [s0, State.start, State.boot, noProcess, hi]
  rw [hs0]
  refine ⟨by intro t x; unfold exFails; split <;> simp, by simp [Waiting, exJobs], by simp [Ordered, exJobs], rfl, ?_⟩
  have e : (State.poll 1 { now := 6, db := exJobs, alive := true, started := true, loops := 1, pass := none, calls := [] }) = { now := 6, db := exJobs, alive := true, started := true, loops := 1, pass := some [1, 2], calls := [] } := by
    simp [State.poll, exJobs, due]
  rw [e]
  have ha : ∀ k : Job, ((k.afterCall c 6).stored c).id = k.id := by intro k; grind [Job.stored, Job.afterCall, Job.step, Job.reset]
  refine ⟨_, .snoc (.snoc (.snoc (.refl _) (.job (saved := true) (by simp) rfl rfl) ?_) (.job (id := 2) (rest := []) (saved := true) (by simp) ?_ ?_) ?_) (.over ?_ ?_) ?_, ?_, ?_⟩
  all_goals simp [State.job, exJobs, due, exFails, save, ha]

end Ddd.TimerLife
