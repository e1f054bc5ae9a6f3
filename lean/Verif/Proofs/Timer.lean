import Mathlib.Data.List.Nodup
import Verif.Spec.Timer
/-!
# Invariants of the DB timer under all interleavings
-/
set_option linter.unusedVariables false
set_option linter.unusedSimpArgs false
namespace Ddd.Timer

theorem reset_id (c : Cfg) (now : Nat) (j : Job) : (j.reset c now).1.id = j.id ∧ (j.reset c now).1.key = j.key ∧ (j.reset c now).1.service = j.service ∧ (j.reset c now).1.cron = j.cron ∧ (j.reset c now).1.data = j.data := by
  unfold Job.reset; split <;> [simp; (split <;> simp)]

theorem afterCall_id (c : Cfg) (now : Nat) (j : Job) : ((j.afterCall c now).stored c).id = j.id := by
  have := reset_id c now j
  unfold Job.afterCall Job.stored Job.step
  split <;> grind

theorem afterCall_same (c : Cfg) (now : Nat) (j : Job) :
    ((j.afterCall c now).stored c).key = j.key ∧ ((j.afterCall c now).stored c).service = j.service ∧ ((j.afterCall c now).stored c).cron = j.cron ∧ ((j.afterCall c now).stored c).data = j.data := by
  have := reset_id c now j
  unfold Job.afterCall Job.stored Job.step
  split <;> grind

theorem afterCall_once (c : Cfg) (now : Nat) (j : Job) (h : j.cron = 0) : ((j.afterCall c now).stored c).status = .finished := by
  unfold Job.afterCall Job.stored Job.step; simp [h]

theorem afterCall_cron (c : Cfg) (now : Nat) (j : Job) (h : j.cron ≠ 0) (f : Nat → Nat) (hf : c.parse j.cron = some f) :
    (j.afterCall c now).stored c = { j with next := c.round (f now), status := .toRun } := by
  unfold Job.afterCall Job.stored Job.step Job.reset; simp [h, hf]

theorem afterCall_bad (c : Cfg) (now : Nat) (j : Job) (h : j.cron ≠ 0) (hf : c.parse j.cron = none) :
    ((j.afterCall c now).stored c).status = .failed := by
  unfold Job.afterCall Job.stored Job.step Job.reset; simp [h, hf]

theorem mem_save {db : DB} {j x : Job} (h : x ∈ (save db j).jobs) : x = j ∨ (x ∈ db.jobs ∧ x.id ≠ j.id) := by
  simp only [save, List.mem_map] at h
  obtain ⟨y, hy, rfl⟩ := h
  split <;> grind

theorem save_ids (db : DB) (j : Job) : (save db j).jobs.map Job.id = db.jobs.map Job.id := by
  simp only [save, List.map_map]
  apply List.map_congr_left
  intro x hx
  simp only [Function.comp]
  split <;> simp_all

theorem insert_ok {c : Cfg} {db db' : DB} {j : Job} (h : insert c db j = (db', .ok)) :
    db' = ⟨db.jobs ++ [{ j.stored c with id := db.nextId }], db.nextId + 1⟩ ∧ ∀ x ∈ db.jobs, x.key ≠ j.key := by
  unfold insert at h
  split at h
  · simp at h
  · rename_i hn
    simp only [Prod.mk.injEq, and_true] at h
    refine ⟨h.symm, ?_⟩
    intro x hx hk
    apply hn
    simp only [List.any_eq_true]
    exact ⟨x, hx, by simp [hk]⟩

theorem cancel_ok {db db' : DB} {key : Nat} (h : cancel db key = (db', .ok)) : key ≠ 0 ∧ db' = { db with jobs := db.jobs.filter fun j => decide (j.key ≠ key) } := by
  unfold cancel at h
  split at h
  · simp at h
  · simp only [Prod.mk.injEq, and_true] at h
    exact ⟨by assumption, h.symm⟩

theorem due_iff {svc now : Nat} {j : Job} : due svc now j = true ↔ j.service = svc ∧ j.next ≤ now ∧ j.status = .toRun := by
  simp [due, and_assoc]

theorem due_mono {svc t t' : Nat} {j : Job} (h : due svc t j = true) (ht : t ≤ t') : due svc t' j = true := by
  rw [due_iff] at h ⊢
  exact ⟨h.1, Nat.le_trans h.2.1 ht, h.2.2⟩

/-- IDs are never reused, locked rows do not change. -/
structure Inv (s : State) : Prop where
  nodup : (s.db.jobs.map Job.id).Nodup
  lt : ∀ j ∈ s.db.jobs, j.id < s.db.nextId
  busyMem : ∀ r ∈ s.busy, r.j ∈ s.db.jobs
  busyDue : ∀ r ∈ s.busy, due r.svc r.time r.j = true
  busyNodup : (s.busy.map fun r => r.j.id).Nodup
  keys : (s.db.jobs.map Job.key).Nodup
  pos : 0 < s.db.nextId

theorem save_keys (c : Cfg) (now : Nat) (db : DB) (j : Job) (hj : j ∈ db.jobs) (hn : (db.jobs.map Job.id).Nodup) :
    (save db ((j.afterCall c now).stored c)).jobs.map Job.key = db.jobs.map Job.key := by
  simp only [save, List.map_map]
  apply List.map_congr_left
  intro x hx
  simp only [Function.comp]
  rw [afterCall_id]
  split
  · rename_i h
    rw [(afterCall_same c now j).1, List.inj_on_of_nodup_map hn hx hj h]
  · rfl

theorem inv_init : Inv .init := by constructor <;> simp [State.init]

theorem inv_step {c : Cfg} {s s' : State} (hs : Inv s) (h : Step c s s') : Inv s' := by
  obtain ⟨h1, h2, h3, h4, h5, h6, h7⟩ := hs
  cases h with
  | tick d => exact ⟨h1, h2, h3, h4, h5, h6, h7⟩
  | regFind => exact ⟨h1, h2, h3, h4, h5, h6, h7⟩
  | regInsert j db' hj hi =>
    obtain ⟨rfl, hk⟩ := insert_ok hi
    refine ⟨?_, ?_, ?_, h4, h5, ?_, Nat.succ_pos _⟩
    · simp only [List.map_append, List.map_cons, List.map_nil]
      rw [List.nodup_append]
      refine ⟨h1, by simp, ?_⟩
      intro a ha b hb
      simp only [List.mem_map] at ha
      obtain ⟨x, hx, rfl⟩ := ha
      simp at hb
      have := h2 x hx
      omega
    · intro x hx
      simp only [List.mem_append, List.mem_singleton] at hx
      rcases hx with hx | rfl
      · have := h2 x hx; show _ < s.db.nextId + 1; omega
      · show s.db.nextId < s.db.nextId + 1; omega
    · intro r hr
      exact List.mem_append_left _ (h3 r hr)
    · simp only [List.map_append, List.map_cons, List.map_nil]
      rw [List.nodup_append]
      refine ⟨h6, by simp, ?_⟩
      intro a ha b hb
      simp only [List.mem_map] at ha
      obtain ⟨x, hx, rfl⟩ := ha
      simp [Job.stored] at hb
      rw [hb]
      exact hk x hx
  | regDrop => exact ⟨h1, h2, h3, h4, h5, h6, h7⟩
  | cancel key db' hc hl =>
    obtain ⟨_, rfl⟩ := cancel_ok hc
    refine ⟨?_, ?_, ?_, h4, h5, ?_, h7⟩
    · exact h1.sublist (List.filter_sublist.map _)
    · intro x hx
      exact h2 x (List.mem_filter.mp hx).1
    · intro r hr
      refine List.mem_filter.mpr ⟨h3 r hr, ?_⟩
      simp only [decide_eq_true_eq]
      intro hk
      exact hl _ (h3 r hr) hk ⟨r, hr, rfl⟩
    · exact h6.sublist (List.filter_sublist.map _)
  | select => exact ⟨h1, h2, h3, h4, h5, h6, h7⟩
  | call svc id rest j h hj hid t0 ht hd hl =>
    refine ⟨h1, h2, ?_, ?_, ?_, h6, h7⟩
    · intro r hr
      rcases List.mem_cons.mp hr with rfl | hr
      · exact hj
      · exact h3 r hr
    · intro r hr
      rcases List.mem_cons.mp hr with rfl | hr
      · exact hd
      · exact h4 r hr
    · simp only [List.map_cons, List.nodup_cons, List.mem_map]
      refine ⟨?_, h5⟩
      rintro ⟨r, hr, he⟩
      exact hl ⟨r, hr, by rw [he, hid]⟩
  | skip => exact ⟨h1, h2, h3, h4, h5, h6, h7⟩
  | loopDrop => exact ⟨h1, h2, h3, h4, h5, h6, h7⟩
  | finish r hr t0 ht =>
    have hsub : ∀ x ∈ s.busy.erase r, x ∈ s.busy ∧ x.j.id ≠ r.j.id := by
      intro x hx
      have hx' := List.mem_of_mem_erase hx
      refine ⟨hx', ?_⟩
      intro he
      have hxr : x = r := List.inj_on_of_nodup_map h5 hx' hr he
      have hnd : s.busy.Nodup := List.Nodup.of_map _ h5
      rw [hxr] at hx
      exact (List.Nodup.not_mem_erase hnd) hx
    refine ⟨?_, ?_, ?_, ?_, ?_, ?_, h7⟩
    · show ((save s.db _).jobs.map Job.id).Nodup
      rw [save_ids]; exact h1
    · intro x hx
      rcases mem_save hx with rfl | ⟨hx, _⟩
      · rw [afterCall_id]; exact h2 _ (h3 r hr)
      · exact h2 x hx
    · intro x hx
      obtain ⟨hxb, hne⟩ := hsub x hx
      simp only [save, List.mem_map]
      exact ⟨x.j, h3 x hxb, by rw [afterCall_id, if_neg hne]⟩
    · intro x hx; exact h4 x (hsub x hx).1
    · exact h5.sublist (List.erase_sublist.map _)
    · show ((save s.db _).jobs.map Job.key).Nodup
      rw [save_keys c _ _ _ (h3 r hr) h1]; exact h6
  | finishLost r hr t0 ht => exact ⟨h1, h2, fun x hx => h3 x (List.mem_of_mem_erase hx), fun x hx => h4 x (List.mem_of_mem_erase hx), h5.sublist (List.erase_sublist.map _), h6, h7⟩
  | crash r hr => exact ⟨h1, h2, fun x hx => h3 x (List.mem_of_mem_erase hx), fun x hx => h4 x (List.mem_of_mem_erase hx), h5.sublist (List.erase_sublist.map _), h6, h7⟩

theorem inv_reachable {c : Cfg} {s : State} (h : Reachable c s) : Inv s := by
  induction h with
  | init => exact inv_init
  | step _ hst ih => exact inv_step ih hst

/-- The job an entry is about. -/
def Log.id : Log → Nat
  | .asked _ _ _ => 0
  | .created j => j.id
  | .called _ j _ => j.id
  | .returned _ j _ _ => j.id
  | .died _ j _ => j.id
  | .deleted j => j.id

/-- `x` has the arguments of `j`. -/
def Same (x j : Job) : Prop := x.key = j.key ∧ x.service = j.service ∧ x.cron = j.cron ∧ x.data = j.data

/-- What an entry says about the row of its job afterwards. -/
def Rel (c : Cfg) : Log → Job → Prop
  | .called _ j _, x => Same x j ∧ (Satisfiable c → x.status = .toRun → j.next ≤ x.next)
  | .returned _ j t saved, x => Same x j ∧ (saved = true → (j.cron = 0 → x.status = .finished) ∧ (j.cron ≠ 0 → c.parse j.cron = none → x.status = .failed) ∧ (Satisfiable c → j.cron ≠ 0 → x.status = .toRun → t < x.next))
  | .asked _ _ _, _ => True
  | .created j, x => Same x j ∧ (j.cron = 0 → x.status = .toRun → x.next = j.next) ∧ (Satisfiable c → x.status = .toRun → j.next ≤ x.next)
  | .died _ j _, x => Same x j
  | .deleted _, _ => False

structure Past (c : Cfg) (s : State) : Prop where
  known : ∀ e ∈ s.log, e.id < s.db.nextId
  rel : ∀ e ∈ s.log, ∀ x ∈ s.db.jobs, x.id = e.id → Rel c e x

theorem rel_afterCall {c : Cfg} {e : Log} {x : Job} {svc now : Nat} (h : Rel c e x) (hd : due svc now x = true) : Rel c e ((x.afterCall c now).stored c) := by
  have hs := afterCall_same c now x
  have ho := afterCall_once c now x
  have hb := afterCall_bad c now x
  have hc := afterCall_cron c now x
  have hr := due_iff.mp hd
  have hn : Satisfiable c → ((x.afterCall c now).stored c).status = .toRun → now < ((x.afterCall c now).stored c).next := by
    intro hsat hst
    by_cases h0 : x.cron = 0
    · rw [ho h0] at hst; cases hst
    · cases hp : c.parse x.cron with
      | none => rw [hb h0 hp] at hst; cases hst
      | some f => rw [hc h0 f hp]; exact hsat _ _ hp _
  cases e with
  | asked => trivial
  | created j =>
    simp only [Rel, Same] at h ⊢
    refine ⟨by grind, fun h0 hst => ?_, fun h1 h2 => ?_⟩
    · rw [ho (by rw [h.1.2.2.1]; exact h0)] at hst; cases hst
    · have := hn h1 h2
      have := h.2.2 h1 hr.2.2
      omega
  | called s j t =>
    simp only [Rel, Same] at h ⊢
    refine ⟨by grind, fun h1 h2 => ?_⟩
    have := hn h1 h2
    have := h.2 h1 hr.2.2
    omega
  | returned s j t b =>
    simp only [Rel, Same] at h ⊢
    refine ⟨by grind, fun hb' => ?_⟩
    obtain ⟨h1, h2, h3⟩ := h.2 hb'
    refine ⟨fun h0 => ?_, fun h0 hp => ?_, fun hsat h0 hst => ?_⟩
    · have := h1 h0; rw [hr.2.2] at this; cases this
    · have := h2 h0 hp; rw [hr.2.2] at this; cases this
    · have := h3 hsat h0 hr.2.2
      have := hn hsat hst
      omega
  | died s j t => simp only [Rel, Same] at h ⊢; grind
  | deleted j => exact h.elim

/-- a step that leaves the table as it is and adds at most an entry -/
theorem past_quiet {c : Cfg} {s s' : State} (h : Past c s) (hdb : s'.db = s.db) (hl : s'.log = s.log) : Past c s' := by
  obtain ⟨h1, h2⟩ := h
  exact ⟨by rw [hl, hdb]; exact h1, by rw [hl, hdb]; exact h2⟩

theorem past_add {c : Cfg} {s s' : State} (h : Past c s) (e : Log) (hdb : s'.db = s.db) (hl : s'.log = e :: s.log) (hk : e.id < s.db.nextId)
    (hr : ∀ x ∈ s.db.jobs, x.id = e.id → Rel c e x) : Past c s' := by
  obtain ⟨h1, h2⟩ := h
  refine ⟨?_, ?_⟩
  · rw [hl, hdb]
    intro y hy
    rcases List.mem_cons.mp hy with rfl | hy
    · exact hk
    · exact h1 y hy
  · rw [hl, hdb]
    intro y hy
    rcases List.mem_cons.mp hy with rfl | hy
    · exact hr
    · exact h2 y hy

theorem same_self (x : Job) : Same x x := ⟨rfl, rfl, rfl, rfl⟩

theorem past_step {c : Cfg} {s s' : State} (hi : Inv s) (hp : Past c s) (h : Step c s s') : Past c s' := by
  have uniq : ∀ x ∈ s.db.jobs, ∀ y ∈ s.db.jobs, x.id = y.id → x = y := fun x hx y hy he => List.inj_on_of_nodup_map hi.nodup hx hy he
  cases h with
  | tick => exact past_quiet hp rfl rfl
  | regFind => exact past_add hp _ rfl rfl hi.pos (fun _ _ _ => trivial)
  | regDrop => exact past_quiet hp rfl rfl
  | select => exact past_quiet hp rfl rfl
  | skip => exact past_quiet hp rfl rfl
  | loopDrop => exact past_quiet hp rfl rfl
  | regInsert j db' hj hins =>
    obtain ⟨rfl, hk⟩ := insert_ok hins
    obtain ⟨h1, h2⟩ := hp
    refine ⟨?_, ?_⟩
    · intro e he
      show e.id < s.db.nextId + 1
      rcases List.mem_cons.mp he with rfl | he
      · simp [Log.id]
      · have := h1 e he; omega
    · intro e he x hx hid
      simp only [List.mem_append, List.mem_singleton] at hx
      rcases List.mem_cons.mp he with rfl | he
      · simp only [Log.id] at hid
        rcases hx with hx | rfl
        · have := hi.lt x hx; omega
        · exact ⟨same_self _, fun _ _ => rfl, fun _ _ => Nat.le_refl _⟩
      · rcases hx with hx | rfl
        · exact h2 e he x hx hid
        · have := h1 e he
          simp only at hid
          omega
  | cancel key db' hc hl =>
    obtain ⟨_, rfl⟩ := cancel_ok hc
    obtain ⟨h1, h2⟩ := hp
    refine ⟨?_, ?_⟩
    · intro e he
      rcases List.mem_append.mp he with he | he
      · simp only [List.mem_map, List.mem_filter] at he
        obtain ⟨j, ⟨hj, _⟩, rfl⟩ := he
        exact hi.lt j hj
      · exact h1 e he
    · intro e he x hx hid
      have hx' := (List.mem_filter.mp hx)
      rcases List.mem_append.mp he with he | he
      · simp only [List.mem_map, List.mem_filter, decide_eq_true_eq] at he
        obtain ⟨j, ⟨hj, hjk⟩, rfl⟩ := he
        have := uniq x hx'.1 j hj hid
        subst this
        simp [hjk] at hx'
      · exact h2 e he x hx'.1 hid
  | call svc id rest j hm hj hid hd hl =>
    refine past_add hp _ rfl rfl (hi.lt j hj) ?_
    intro x hx he
    have := uniq x hx j hj he
    subst this
    exact ⟨same_self _, fun _ _ => Nat.le_refl _⟩
  | finish r hr t0 ht =>
    have hrj := hi.busyMem r hr
    have hrd := hi.busyDue r hr
    obtain ⟨h1, h2⟩ := hp
    refine ⟨?_, ?_⟩
    · intro e he
      show e.id < s.db.nextId
      rcases List.mem_cons.mp he with rfl | he
      · exact hi.lt _ hrj
      · exact h1 e he
    · intro e he x hx hid
      rcases List.mem_cons.mp he with rfl | he
      · rcases mem_save hx with rfl | ⟨hx, hne⟩
        · have hs := afterCall_same c t0 r.j
          refine ⟨⟨hs.1, hs.2.1, hs.2.2.1, hs.2.2.2⟩, fun _ => ⟨afterCall_once c _ _, afterCall_bad c _ _, ?_⟩⟩
          intro hsat h0 hst
          cases hpa : c.parse r.j.cron with
          | none => rw [afterCall_bad c _ _ h0 hpa] at hst; cases hst
          | some f => rw [afterCall_cron c _ _ h0 f hpa]; exact hsat _ _ hpa _
        · rw [afterCall_id] at hne
          exact absurd hid hne
      · rcases mem_save hx with rfl | ⟨hx, hne⟩
        · rw [afterCall_id] at hid
          exact rel_afterCall (h2 e he r.j hrj hid) (due_mono hrd ht.1)
        · exact h2 e he x hx hid
  | finishLost r hr t0 ht =>
    refine past_add hp _ rfl rfl (hi.lt _ (hi.busyMem r hr)) ?_
    intro x hx he
    have := uniq x hx _ (hi.busyMem r hr) he
    subst this
    exact ⟨same_self _, fun h => by cases h⟩
  | crash r hr =>
    refine past_add hp _ rfl rfl (hi.lt _ (hi.busyMem r hr)) ?_
    intro x hx he
    have := uniq x hx _ (hi.busyMem r hr) he
    subst this
    exact same_self _

theorem past_reachable {c : Cfg} {s : State} (h : Reachable c s) : Past c s := by
  induction h with
  | init => constructor <;> simp [State.init]
  | step hr hst ih => exact past_step (inv_reachable hr) ih hst

/-- When an entry was added, the state before it was reachable, and the step that added it. -/
theorem log_split {c : Cfg} {s : State} (h : Reachable c s) {l1 l2 : List Log} {e : Log} (hl : s.log = l1 ++ e :: l2) (hd : ∀ j, e ≠ .deleted j) :
    ∃ a b, Reachable c a ∧ Step c a b ∧ a.log = l2 ∧ b.log = e :: l2 := by
  induction h generalizing l1 with
  | init => simp [State.init] at hl
  | @step a b hr hst ih =>
    have quiet : b.log = a.log → ∃ a b, Reachable c a ∧ Step c a b ∧ a.log = l2 ∧ b.log = e :: l2 := fun he => ih (he ▸ hl)
    have one : ∀ x, b.log = x :: a.log → ∃ a b, Reachable c a ∧ Step c a b ∧ a.log = l2 ∧ b.log = e :: l2 := by
      intro x hx
      rw [hx] at hl
      cases l1 with
      | nil =>
        simp only [List.nil_append, List.cons.injEq] at hl
        exact ⟨a, b, hr, hst, hl.2, by rw [hx, hl.1, hl.2]⟩
      | cons y l1 =>
        simp only [List.cons_append, List.cons.injEq] at hl
        exact ih hl.2
    cases hst with
    | tick => exact quiet rfl
    | regFind => exact one _ rfl
    | regDrop => exact quiet rfl
    | select => exact quiet rfl
    | skip => exact quiet rfl
    | loopDrop => exact quiet rfl
    | regInsert => exact one _ rfl
    | call => exact one _ rfl
    | finish => exact one _ rfl
    | finishLost => exact one _ rfl
    | crash => exact one _ rfl
    | cancel key db' hc hk =>
      have key : ∀ (ds : List Job) (l1 : List Log), ds.map Log.deleted ++ a.log = l1 ++ e :: l2 → ∃ l1', a.log = l1' ++ e :: l2 := by
        intro ds
        induction ds with
        | nil => intro l1 h; exact ⟨l1, h⟩
        | cons d ds ihd =>
          intro l1 h
          cases l1 with
          | nil => simp at h; exact absurd h.1.symm (hd d)
          | cons y l1 => simp at h; exact ihd l1 h.2
      obtain ⟨l1', h'⟩ := key _ _ hl
      exact ih h'

theorem call_split {c : Cfg} {s : State} (h : Reachable c s) {l1 l2 : List Log} {svc : Nat} {j : Job} {t : Nat} (hl : s.log = l1 ++ .called svc j t :: l2) :
    ∃ a, Reachable c a ∧ a.log = l2 ∧ j ∈ a.db.jobs ∧ due svc t j = true ∧ ¬ a.locked j.id ∧ t ≤ a.now + c.ahead ∧ (c.exact = true → t = a.now) := by
  obtain ⟨a, b, hr, hst, h1, h2⟩ := log_split h hl (by simp)
  refine ⟨a, hr, h1, ?_⟩
  cases hst with
  | call svc' id rest j' hm hj hid t0 ht hd hnl =>
    simp only [h1] at h2
    simp only [List.cons.injEq, Log.called.injEq, and_true] at h2
    obtain ⟨rfl, rfl, rfl⟩ := h2
    subst hid
    exact ⟨hj, hd, hnl, ht⟩
  | cancel key db' hc hk =>
    simp only [h1] at h2
    cases hf : (a.db.jobs.filter fun j => decide (j.key = key)) with
    | nil => rw [hf] at h2; simp at h2
    | cons x xs => rw [hf] at h2; simp at h2
  | _ => simp [h1] at h2

/-- A call under way is not over: since it began nothing in the log ended it. -/
def Open (s : State) : Prop := ∀ svc j t l1 l2, s.log = l1 ++ .called svc j t :: l2 → (∀ x ∈ l1, x.isEnd j.id = false) → ⟨svc, j, t⟩ ∈ s.busy

theorem open_reachable {c : Cfg} {s : State} (h : Reachable c s) : Open s := by
  induction h with
  | init => intro svc j t l1 l2 h; simp [State.init] at h
  | @step a b hr hst ih =>
    have hi := inv_reachable hr
    have quiet : b.log = a.log → b.busy = a.busy → Open b := by
      intro h1 h2 svc j t l1 l2 h; rw [h1] at h; rw [h2]; exact ih svc j t l1 l2 h
    have gone : ∀ r ∈ a.busy, ∀ e, e.isEnd r.j.id = true → (∀ svc j t, e ≠ .called svc j t) → b.log = e :: a.log → b.busy = a.busy.erase r → Open b := by
      intro r hr e he hne h1 h2 svc j t l1 l2 h hall
      rw [h1] at h
      rw [h2]
      cases l1 with
      | nil => simp at h; exact absurd h.1 (hne _ _ _)
      | cons y l1 =>
        simp only [List.cons_append, List.cons.injEq] at h
        have hb := ih svc j t l1 l2 h.2 (fun x hx => hall x (List.mem_cons_of_mem _ hx))
        have hy := hall y (List.mem_cons_self)
        rw [← h.1] at hy
        refine (List.mem_erase_of_ne ?_).mpr hb
        rintro rfl
        rw [hy] at he
        cases he
    cases hst with
    | tick => exact quiet rfl rfl
    | regFind =>
      intro svc k t l1 l2 h hall
      cases l1 with
      | nil => simp at h
      | cons y l1 =>
        simp only [List.cons_append, List.cons.injEq] at h
        exact ih svc k t l1 l2 h.2 (fun x hx => hall x (List.mem_cons_of_mem _ hx))
    | regDrop => exact quiet rfl rfl
    | select => exact quiet rfl rfl
    | skip => exact quiet rfl rfl
    | loopDrop => exact quiet rfl rfl
    | finish r hr t0 ht => exact gone r hr _ (by simp [Log.isEnd]) (by simp) rfl rfl
    | finishLost r hr t0 ht => exact gone r hr _ (by simp [Log.isEnd]) (by simp) rfl rfl
    | crash r hr => exact gone r hr _ (by simp [Log.isEnd]) (by simp) rfl rfl
    | regInsert j db' hj hins =>
      intro svc k t l1 l2 h hall
      cases l1 with
      | nil => simp at h
      | cons y l1 =>
        simp only [List.cons_append, List.cons.injEq] at h
        exact ih svc k t l1 l2 h.2 (fun x hx => hall x (List.mem_cons_of_mem _ hx))
    | call svc' id rest j' hm hj hid hd hnl =>
      intro svc k t l1 l2 h hall
      cases l1 with
      | nil =>
        simp only [List.nil_append, List.cons.injEq, Log.called.injEq] at h
        obtain ⟨⟨rfl, rfl, rfl⟩, _⟩ := h
        exact List.mem_cons_self
      | cons y l1 =>
        simp only [List.cons_append, List.cons.injEq] at h
        exact List.mem_cons_of_mem _ (ih svc k t l1 l2 h.2 (fun x hx => hall x (List.mem_cons_of_mem _ hx)))
    | cancel key db' hc hk =>
      intro svc k t l1 l2 h hall
      show _ ∈ a.busy
      have gen : ∀ (ds : List Job) (l1 : List Log), ds.map Log.deleted ++ a.log = l1 ++ .called svc k t :: l2 → (∀ x ∈ l1, x.isEnd k.id = false) → ⟨svc, k, t⟩ ∈ a.busy := by
        intro ds
        induction ds with
        | nil => intro l1 h ha; exact ih _ _ _ _ _ h ha
        | cons d ds ihd =>
          intro l1 h ha
          cases l1 with
          | nil => simp at h
          | cons y l1 => simp at h; exact ihd l1 h.2 (fun x hx => ha x (List.mem_cons_of_mem _ hx))
      exact gen _ _ h hall

/-- Where jobs come from. -/
structure Orig (c : Cfg) (s : State) : Prop where
  regs : ∀ j ∈ s.regs, ∃ svc r t, .asked svc r t ∈ s.log ∧ t ≤ s.now + c.ahead ∧ r.job c svc t = (j, .ok)
  created : ∀ j, .created j ∈ s.log → ∃ svc r t j0, .asked svc r t ∈ s.log ∧ t ≤ s.now + c.ahead ∧ r.job c svc t = (j0, .ok) ∧ j = { j0.stored c with id := j.id }
  rows : ∀ x ∈ s.db.jobs, ∃ j, .created j ∈ s.log ∧ j.id = x.id

theorem orig_keep {c : Cfg} {s s' : State} (h : Orig c s) (hr : ∀ j ∈ s'.regs, j ∈ s.regs) (hl : ∀ x ∈ s.log, x ∈ s'.log) (hc : ∀ j, .created j ∈ s'.log → .created j ∈ s.log)
    (hn : s.now ≤ s'.now) (hd : ∀ x ∈ s'.db.jobs, ∃ y ∈ s.db.jobs, y.id = x.id) : Orig c s' := by
  obtain ⟨h1, h2, h3⟩ := h
  refine ⟨?_, ?_, ?_⟩
  · intro j hj
    obtain ⟨svc, r, t, ha, hb, hc'⟩ := h1 j (hr j hj)
    exact ⟨svc, r, t, hl _ ha, by omega, hc'⟩
  · intro j hj
    obtain ⟨svc, r, t, j0, ha, hb, hc'⟩ := h2 j (hc j hj)
    exact ⟨svc, r, t, j0, hl _ ha, by omega, hc'⟩
  · intro x hx
    obtain ⟨y, hy, he⟩ := hd x hx
    obtain ⟨j, hj, hje⟩ := h3 y hy
    exact ⟨j, hl _ hj, by rw [hje, he]⟩

theorem orig_reachable {c : Cfg} {s : State} (h : Reachable c s) : Orig c s := by
  induction h with
  | init => constructor <;> simp [State.init]
  | @step a b hr hst ih =>
    have rows : ∀ x ∈ a.db.jobs, ∃ y ∈ a.db.jobs, y.id = x.id := fun x hx => ⟨x, hx, rfl⟩
    cases hst with
    | tick d => exact orig_keep ih (fun _ h => h) (fun _ h => h) (fun _ h => h) (Nat.le_add_right _ _) rows
    | regFind svc r j t0 ht hj hf =>
      obtain ⟨h1, h2, h3⟩ := ih
      refine ⟨?_, ?_, ?_⟩
      · intro x hx
        rcases List.mem_cons.mp hx with rfl | hx
        · exact ⟨svc, r, t0, List.mem_cons_self, ht, hj⟩
        · obtain ⟨svc, r, t, ha, hb, hc'⟩ := h1 x hx
          exact ⟨svc, r, t, List.mem_cons_of_mem _ ha, hb, hc'⟩
      · intro x hx
        have hx' : Log.created x ∈ a.log := by simpa using hx
        obtain ⟨svc, r, t, j0, ha, hb, hc'⟩ := h2 x hx'
        exact ⟨svc, r, t, j0, List.mem_cons_of_mem _ ha, hb, hc'⟩
      · intro x hx
        obtain ⟨y, hy, he⟩ := h3 x hx
        exact ⟨y, List.mem_cons_of_mem _ hy, he⟩
    | regDrop j => exact orig_keep ih (fun _ h => List.mem_of_mem_erase h) (fun _ h => h) (fun _ h => h) (Nat.le_refl _) rows
    | select => exact orig_keep ih (fun _ h => h) (fun _ h => h) (fun _ h => h) (Nat.le_refl _) rows
    | skip => exact orig_keep ih (fun _ h => h) (fun _ h => h) (fun _ h => h) (Nat.le_refl _) rows
    | loopDrop => exact orig_keep ih (fun _ h => h) (fun _ h => h) (fun _ h => h) (Nat.le_refl _) rows
    | call => exact orig_keep ih (fun _ h => h) (fun _ h => List.mem_cons_of_mem _ h) (fun _ h => by simpa using h) (Nat.le_refl _) rows
    | finishLost => exact orig_keep ih (fun _ h => h) (fun _ h => List.mem_cons_of_mem _ h) (fun _ h => by simpa using h) (Nat.le_refl _) rows
    | crash => exact orig_keep ih (fun _ h => h) (fun _ h => List.mem_cons_of_mem _ h) (fun _ h => by simpa using h) (Nat.le_refl _) rows
    | finish r hr' t0 ht =>
      refine orig_keep ih (fun _ h => h) (fun _ h => List.mem_cons_of_mem _ h) (fun _ h => by simpa using h) (Nat.le_refl _) ?_
      intro x hx
      rcases mem_save hx with rfl | ⟨hx, _⟩
      · exact ⟨r.j, (inv_reachable hr).busyMem r hr', (afterCall_id _ _ _).symm⟩
      · exact ⟨x, hx, rfl⟩
    | cancel key db' hc hk =>
      obtain ⟨_, rfl⟩ := cancel_ok hc
      refine orig_keep ih (fun _ h => h) (fun _ h => List.mem_append_right _ h) (fun _ h => by simpa using h) (Nat.le_refl _) ?_
      intro x hx
      exact ⟨x, (List.mem_filter.mp hx).1, rfl⟩
    | regInsert j db' hj hins =>
      obtain ⟨rfl, _⟩ := insert_ok hins
      obtain ⟨h1, h2, h3⟩ := ih
      refine ⟨?_, ?_, ?_⟩
      · intro x hx
        obtain ⟨svc, r, t, ha, hb, hc'⟩ := h1 x (List.mem_of_mem_erase hx)
        exact ⟨svc, r, t, List.mem_cons_of_mem _ ha, hb, hc'⟩
      · intro x hx
        rcases List.mem_cons.mp hx with hx | hx
        · simp only [Log.created.injEq] at hx
          obtain ⟨svc, r, t, ha, hb, hc'⟩ := h1 j hj
          exact ⟨svc, r, t, j, List.mem_cons_of_mem _ ha, hb, hc', by rw [hx]⟩
        · obtain ⟨svc, r, t, j0, ha, hb, hc'⟩ := h2 x hx
          exact ⟨svc, r, t, j0, List.mem_cons_of_mem _ ha, hb, hc'⟩
      · intro x hx
        simp only [List.mem_append, List.mem_singleton] at hx
        rcases hx with hx | rfl
        · obtain ⟨y, hy, he⟩ := h3 x hx
          exact ⟨y, List.mem_cons_of_mem _ hy, he⟩
        · exact ⟨_, List.mem_cons_self, rfl⟩

/-- Time stamps are in the past. -/
theorem timed_reachable {c : Cfg} {s : State} (h : Reachable c s) :
    (∀ svc j t, .called svc j t ∈ s.log → t ≤ s.now + c.ahead ∧ (c.exact = true → t ≤ s.now)) ∧ (∀ svc j t b, .returned svc j t b ∈ s.log → t ≤ s.now + c.ahead) := by
  induction h with
  | init => simp [State.init]
  | @step a b hr hst ih =>
    obtain ⟨h1, h2⟩ := ih
    cases hst with
    | tick d =>
      refine ⟨fun svc j t h => ?_, fun svc j t b h => ?_⟩
      · obtain ⟨e1, e2⟩ := h1 svc j t h
        exact ⟨by show t ≤ a.now + d + c.ahead; omega, fun he => Nat.le_trans (e2 he) (Nat.le_add_right _ _)⟩
      · have := h2 svc j t b h; show t ≤ a.now + d + c.ahead; omega
    | call svc id rest j hm hj hid t0 ht hd hl =>
      refine ⟨fun svc' j' t h => ?_, fun svc' j' t b h => ?_⟩
      · rcases List.mem_cons.mp h with h | h
        · simp only [Log.called.injEq] at h
          have h3 := h.2.2
          refine ⟨by show t ≤ a.now + c.ahead; omega, fun he => ?_⟩
          have := ht.2 he
          show t ≤ a.now
          omega
        · exact h1 _ _ _ h
      · exact h2 _ _ _ _ (by simpa using h)
    | finish r hr' t0 ht =>
      refine ⟨fun svc' j' t h => ?_, fun svc' j' t b h => ?_⟩
      · exact h1 _ _ _ (by simpa using h)
      · rcases List.mem_cons.mp h with h | h
        · simp only [Log.returned.injEq] at h; show t ≤ a.now + c.ahead; omega
        · exact h2 _ _ _ _ h
    | finishLost r hr' t0 ht =>
      refine ⟨fun svc' j' t h => ?_, fun svc' j' t b h => ?_⟩
      · exact h1 _ _ _ (by simpa using h)
      · rcases List.mem_cons.mp h with h | h
        · simp only [Log.returned.injEq] at h; show t ≤ a.now + c.ahead; omega
        · exact h2 _ _ _ _ h
    | _ => exact ⟨fun svc' j' t h => h1 _ _ _ (by simpa using h), fun svc' j' t b h => h2 _ _ _ _ (by simpa using h)⟩

/-- The call under way is the latest one of its job. -/
theorem latest_reachable {c : Cfg} (hex : c.exact = true) {s : State} (h : Reachable c s) : ∀ r ∈ s.busy, ∀ svc j t, Log.called svc j t ∈ s.log → j.id = r.j.id → t ≤ r.time := by
  induction h with
  | init => simp [State.init]
  | @step a b hr hst ih =>
    cases hst with
    | call svc id rest j hm hj hid t0 ht hd hl =>
      intro r hr' svc' j' t hc hid'
      rcases List.mem_cons.mp hr' with rfl | hrb
      · rcases List.mem_cons.mp hc with hc | hc
        · simp only [Log.called.injEq] at hc; exact Nat.le_of_eq hc.2.2
        · show t ≤ t0
          rw [ht.2 hex]; exact ((timed_reachable hr).1 _ _ _ hc).2 hex
      · rcases List.mem_cons.mp hc with hc | hc
        · simp only [Log.called.injEq] at hc
          obtain ⟨rfl, rfl, rfl⟩ := hc
          exact absurd ⟨r, hrb, by rw [← hid', hid]⟩ hl
        · exact ih r hrb _ _ _ hc hid'
    | finish r0 hr0 t0 ht => intro r hr' svc' j' t hc hid'; exact ih r (List.mem_of_mem_erase hr') _ _ _ (by simpa using hc) hid'
    | finishLost r0 hr0 t0 ht => intro r hr' svc' j' t hc hid'; exact ih r (List.mem_of_mem_erase hr') _ _ _ (by simpa using hc) hid'
    | crash r0 hr0 => intro r hr' svc' j' t hc hid'; exact ih r (List.mem_of_mem_erase hr') _ _ _ (by simpa using hc) hid'
    | _ => intro r hr' svc' j' t hc hid'; exact ih r hr' _ _ _ (by simpa using hc) hid'

theorem returned_split {c : Cfg} {s : State} (h : Reachable c s) {l1 l2 : List Log} {svc : Nat} {j : Job} {t : Nat} {b : Bool} (hl : s.log = l1 ++ .returned svc j t b :: l2) :
    ∃ a, Reachable c a ∧ a.log = l2 ∧ t ≤ a.now + c.ahead ∧ j ∈ a.db.jobs ∧ due svc t j = true ∧ (c.exact = true → ∀ svc' j' t', .called svc' j' t' ∈ l2 → j'.id = j.id → t' ≤ t) := by
  obtain ⟨a, b', hr, hst, h1, h2⟩ := log_split h hl (by simp)
  refine ⟨a, hr, h1, ?_⟩
  have hi := inv_reachable hr
  cases hst with
  | finish r hm t0 ht =>
    simp only [h1] at h2
    simp only [List.cons.injEq, Log.returned.injEq, and_true] at h2
    obtain ⟨rfl, rfl, rfl, _⟩ := h2
    exact ⟨ht.2, hi.busyMem r hm, due_mono (hi.busyDue r hm) ht.1, fun hex svc' j' t' hc hid => Nat.le_trans (latest_reachable hex hr r hm svc' j' t' (h1 ▸ hc) hid) ht.1⟩
  | finishLost r hm t0 ht =>
    simp only [h1] at h2
    simp only [List.cons.injEq, Log.returned.injEq, and_true] at h2
    obtain ⟨rfl, rfl, rfl, _⟩ := h2
    exact ⟨ht.2, hi.busyMem r hm, due_mono (hi.busyDue r hm) ht.1, fun hex svc' j' t' hc hid => Nat.le_trans (latest_reachable hex hr r hm svc' j' t' (h1 ▸ hc) hid) ht.1⟩
  | cancel key db' hc hk =>
    simp only [h1] at h2
    cases hf : (a.db.jobs.filter fun j => decide (j.key = key)) with
    | nil => rw [hf] at h2; simp at h2
    | cons x xs => rw [hf] at h2; simp at h2
  | _ => simp [h1] at h2

/-- Entries that change or delete the row of a job. -/
def Log.isChange (id : Nat) (e : Log) : Bool := e.isSaved id || e.isDeleted id

/-- The row of a job is what the last call left. -/
structure Last (c : Cfg) (s : State) : Prop where
  called : ∀ svc j t l1 l2, s.log = l1 ++ .called svc j t :: l2 → (∀ x ∈ l1, x.isChange j.id = false) → j ∈ s.db.jobs
  saved : ∀ svc j t l1 l2, s.log = l1 ++ .returned svc j t true :: l2 → (∀ x ∈ l1, x.isChange j.id = false) → (j.afterCall c t).stored c ∈ s.db.jobs

theorem last_one {c : Cfg} {a b : State} (h : Last c a) (e : Log) (hl : b.log = e :: a.log) (hk : ∀ x ∈ a.db.jobs, e.isChange x.id = false → x ∈ b.db.jobs)
    (h1 : ∀ svc j t, e = .called svc j t → j ∈ b.db.jobs) (h2 : ∀ svc j t, e = .returned svc j t true → (j.afterCall c t).stored c ∈ b.db.jobs) : Last c b := by
  refine ⟨?_, ?_⟩
  · intro svc j t l1 l2 he hall
    rw [hl] at he
    cases l1 with
    | nil => simp only [List.nil_append, List.cons.injEq] at he; exact h1 _ _ _ he.1
    | cons y l1 =>
      simp only [List.cons_append, List.cons.injEq] at he
      exact hk _ (h.called _ _ _ _ _ he.2 (fun x hx => hall x (List.mem_cons_of_mem _ hx))) (by rw [he.1]; exact hall y List.mem_cons_self)
  · intro svc j t l1 l2 he hall
    rw [hl] at he
    cases l1 with
    | nil => simp only [List.nil_append, List.cons.injEq] at he; exact h2 _ _ _ he.1
    | cons y l1 =>
      simp only [List.cons_append, List.cons.injEq] at he
      exact hk _ (h.saved _ _ _ _ _ he.2 (fun x hx => hall x (List.mem_cons_of_mem _ hx))) (by rw [he.1, afterCall_id]; exact hall y List.mem_cons_self)

theorem last_reachable {c : Cfg} {s : State} (h : Reachable c s) : Last c s := by
  induction h with
  | init => constructor <;> (intro svc j t l1 l2 h; simp [State.init] at h)
  | @step a b hr hst ih =>
    have hi := inv_reachable hr
    have quiet : b.log = a.log → b.db = a.db → Last c b := by
      intro h1 h2
      obtain ⟨i1, i2⟩ := ih
      exact ⟨by rw [h1, h2]; exact i1, by rw [h1, h2]; exact i2⟩
    cases hst with
    | tick => exact quiet rfl rfl
    | regDrop => exact quiet rfl rfl
    | select => exact quiet rfl rfl
    | skip => exact quiet rfl rfl
    | loopDrop => exact quiet rfl rfl
    | regFind => exact last_one ih _ rfl (fun x hx _ => hx) (by simp) (by simp)
    | regInsert j db' hj hins =>
      obtain ⟨rfl, _⟩ := insert_ok hins
      exact last_one ih _ rfl (fun x hx _ => List.mem_append_left _ hx) (by simp) (by simp)
    | call svc id rest j hm hj hid hd hl =>
      refine last_one ih _ rfl (fun x hx _ => hx) ?_ (by simp)
      intro svc' j' t he
      simp only [Log.called.injEq] at he
      rw [← he.2.1]; exact hj
    | crash => exact last_one ih _ rfl (fun x hx _ => hx) (by simp) (by simp)
    | finishLost => exact last_one ih _ rfl (fun x hx _ => hx) (by simp) (by simp)
    | finish r hm t0 ht =>
      have hmem := hi.busyMem r hm
      refine last_one ih _ rfl ?_ (by simp) ?_
      · intro x hx hc
        simp only [Log.isChange, Log.isSaved, Bool.or_eq_false_iff, beq_eq_false_iff_ne] at hc
        simp only [save, List.mem_map]
        exact ⟨x, hx, by rw [afterCall_id, if_neg (Ne.symm hc.1)]⟩
      · intro svc j t he
        simp only [Log.returned.injEq, and_true] at he
        obtain ⟨rfl, rfl, rfl⟩ := he
        simp only [save, List.mem_map]
        exact ⟨r.j, hmem, by rw [afterCall_id, if_pos rfl]⟩
    | cancel key db' hc hk =>
      obtain ⟨_, rfl⟩ := cancel_ok hc
      have strip : ∀ (ds : List Job) (l1 l2 : List Log) (e : Log), (∀ j, e ≠ .deleted j) → ds.map Log.deleted ++ a.log = l1 ++ e :: l2 →
          ∃ l1', a.log = l1' ++ e :: l2 ∧ l1 = ds.map Log.deleted ++ l1' := by
        intro ds
        induction ds with
        | nil => intro l1 l2 e _ h; exact ⟨l1, h, rfl⟩
        | cons d ds ihd =>
          intro l1 l2 e hne h
          cases l1 with
          | nil => simp at h; exact absurd h.1.symm (hne d)
          | cons y l1 =>
            simp at h
            obtain ⟨l1', h1, h2⟩ := ihd l1 l2 e hne h.2
            exact ⟨l1', h1, by simp [h2, h.1]⟩
      have stay : ∀ x ∈ a.db.jobs, ∀ l1', (∀ y ∈ (a.db.jobs.filter fun j => decide (j.key = key)).map Log.deleted ++ l1', y.isChange x.id = false) →
          x ∈ a.db.jobs.filter fun j => decide (j.key ≠ key) := by
        intro x hx l1' hall
        refine List.mem_filter.mpr ⟨hx, ?_⟩
        simp only [decide_eq_true_eq]
        intro hkey
        have := hall (.deleted x) (List.mem_append_left _ (List.mem_map_of_mem (List.mem_filter.mpr ⟨hx, by simpa using hkey⟩)))
        simp [Log.isChange, Log.isSaved, Log.isDeleted] at this
      refine ⟨?_, ?_⟩
      · intro svc j t l1 l2 he hall
        obtain ⟨l1', h1, rfl⟩ := strip _ _ _ _ (by simp) he
        exact stay _ (ih.called _ _ _ _ _ h1 (fun x hx => hall x (List.mem_append_right _ hx))) _ hall
      · intro svc j t l1 l2 he hall
        obtain ⟨l1', h1, rfl⟩ := strip _ _ _ _ (by simp) he
        exact stay _ (ih.saved _ _ _ _ _ h1 (fun x hx => hall x (List.mem_append_right _ hx))) l1' (by rw [afterCall_id]; exact hall)

theorem created_unique {c : Cfg} {s : State} (h : Reachable c s) : ∀ {k k1 : Job}, .created k ∈ s.log → .created k1 ∈ s.log → k.id = k1.id → k = k1 := by
  induction h with
  | init => intro k k1 h; simp [State.init] at h
  | @step a b hr hst ih =>
    have hp := past_reachable hr
    intro k k1 h1 h2 he
    cases hst with
    | regInsert j db' hj hins =>
      rcases List.mem_cons.mp h1 with h1 | h1 <;> rcases List.mem_cons.mp h2 with h2 | h2
      · simp only [Log.created.injEq] at h1 h2; rw [h1, h2]
      · have := hp.known _ h2
        simp only [Log.created.injEq] at h1
        simp only [Log.id] at this
        rw [h1] at he; simp only at he; omega
      · have := hp.known _ h1
        simp only [Log.created.injEq] at h2
        simp only [Log.id] at this
        rw [h2] at he; simp only at he; omega
      · exact ih h1 h2 he
    | _ => exact ih (by simpa using h1) (by simpa using h2) he

end Ddd.Timer
