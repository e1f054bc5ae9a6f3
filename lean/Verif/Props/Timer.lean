import Verif.Proofs.Timer
/-!
# C52–C56, C63, C64: DB timer
-/
set_option linter.unusedVariables false
set_option linter.unusedSimpArgs false
namespace Ddd.Timer

/-! ## C52 -/

/-- C52: whenever the callback of `svc` is called, by whichever instance and whatever the others do, at that very moment the table has the job, pending, of this service and with a time that has come, and the callback gets what this row says. -/
theorem C52_only_due {c : Cfg} {s : State} (h : Reachable c s) {l1 l2 : List Log} {svc : Nat} {j : Job} {t : Nat} (hl : s.log = l1 ++ .called svc j t :: l2) :
    j.service = svc ∧ j.status = .toRun ∧ j.next ≤ t ∧ t ≤ s.now + c.ahead ∧ ∃ a, Reachable c a ∧ a.log = l2 ∧ t ≤ a.now + c.ahead ∧ (c.exact = true → t = a.now) ∧ j ∈ a.db.jobs := by
  obtain ⟨a, ha, h1, h2, h3, h4, h5⟩ := call_split h hl
  obtain ⟨h6, h7, h8⟩ := due_iff.mp h3
  exact ⟨h6, h8, h7, ((timed_reachable h).1 svc j t (by rw [hl]; simp)).1, a, ha, h1, h5.1, h5.2, h2⟩

/-- the request was accepted and is the origin of the job -/
theorem job_of_req {c : Cfg} {svc now : Nat} {r : Req} {j : Job} (h : r.job c svc now = (j, .ok)) :
    (∃ T, r = .once j.key T j.data ∧ now ≤ T ∧ j.next = T ∧ j.cron = 0 ∧ j.service = svc ∧ j.status = .toRun) ∨
    (r = .cron j.key 0 j.data ∧ j.cron = 0 ∧ j.next = 0 ∧ j.service = svc ∧ j.status = .toRun) ∨
    (∃ f, r = .cron j.key j.cron j.data ∧ j.cron ≠ 0 ∧ c.parse j.cron = some f ∧ j.next = f now ∧ j.service = svc ∧ j.status = .toRun) := by
  cases r with
  | once k T d =>
    simp only [Req.job] at h
    split at h
    · simp at h
    · rename_i hn
      simp only [Prod.mk.injEq, and_true] at h
      subst h
      exact .inl ⟨T, rfl, by omega, rfl, rfl, rfl, rfl⟩
  | cron k e d =>
    simp only [Req.job, Job.reset] at h
    by_cases he : e = 0
    · simp only [he, if_true] at h
      simp only [Prod.mk.injEq, and_true] at h
      subst h
      subst he
      exact .inr (.inl ⟨rfl, rfl, rfl, rfl, rfl⟩)
    · simp only [if_neg he] at h
      cases hp : c.parse e with
      | none => simp [hp] at h
      | some f =>
        simp only [hp] at h
        simp only [Prod.mk.injEq, and_true] at h
        subst h
        exact .inr (.inr ⟨f, rfl, he, hp, rfl, rfl, rfl⟩)

/-- C52, seen from the caller of `RunOnce`: a call of a job without cron expression goes back to a `RunOnce` of the same service with this key and these data, for a time not before that request, and it is not before that time as the
database stores it. (Or to a `RunCron` with an empty expression, see `empty_cron_fires_once`.) -/
theorem C52_once_not_early {c : Cfg} {s : State} (h : Reachable c s) {l1 l2 : List Log} {svc : Nat} {j : Job} {t : Nat} (hl : s.log = l1 ++ .called svc j t :: l2) (h0 : j.cron = 0) :
    (∃ T t0, .asked svc (.once j.key T j.data) t0 ∈ l2 ∧ t0 ≤ T ∧ c.round T ≤ t) ∨ ∃ t0, .asked svc (.cron j.key 0 j.data) t0 ∈ l2 ∧ (c.exact = true → t0 ≤ t + c.ahead) := by
  obtain ⟨a, ha, h1, h2, h3, h4, h5⟩ := call_split h hl
  obtain ⟨h6, h7, h8⟩ := due_iff.mp h3
  obtain ⟨x, hx, hid⟩ := (orig_reachable ha).rows j h2
  obtain ⟨svc0, r, t0, j0, hask, ht0, hjob, hxe⟩ := (orig_reachable ha).created x hx
  have hrel := (past_reachable ha).rel _ hx j h2 (by simp [Log.id, hid])
  obtain ⟨⟨hk, hs, hc, hd⟩, hn, _⟩ := hrel
  have e1 : x.key = j0.key := by rw [hxe]; rfl
  have e2 : x.service = j0.service := by rw [hxe]; rfl
  have e3 : x.cron = j0.cron := by rw [hxe]; rfl
  have e4 : x.data = j0.data := by rw [hxe]; rfl
  have e5 : x.next = c.round j0.next := by rw [hxe]; rfl
  rcases job_of_req hjob with ⟨T, hr, hT, hnx, hc0, hsv, _⟩ | ⟨hr, hc0, hnx, hsv, _⟩ | ⟨f, hr, hc0, hp, hnx, hsv, _⟩
  · left
    refine ⟨T, t0, ?_, hT, ?_⟩
    · rw [← h1, ← h6, hs, hk, hd, e2, e4, e1, hsv, ← hr]; exact hask
    · have := hn (by rw [← hc, h0]) h8
      rw [← hnx, ← e5, ← this]; exact h7
  · right
    refine ⟨t0, ?_, fun he => by have := h5.2 he; omega⟩
    rw [← h1, ← h6, hs, hk, hd, e2, e4, e1, hsv, ← hr]; exact hask
  · exact absurd (by rw [← e3, ← hc, h0]) hc0

/-- C52, seen from the caller of `RunCron`: a call of a job with a cron expression goes back to a `RunCron` of the same service with this key, expression and data, and is not before the first time of the schedule after that request. -/
theorem C52_cron_not_early {c : Cfg} (hsat : Satisfiable c) {s : State} (h : Reachable c s) {l1 l2 : List Log} {svc : Nat} {j : Job} {t : Nat} (hl : s.log = l1 ++ .called svc j t :: l2) (h0 : j.cron ≠ 0) :
    ∃ f t0, .asked svc (.cron j.key j.cron j.data) t0 ∈ l2 ∧ c.parse j.cron = some f ∧ t0 < t ∧ c.round (f t0) ≤ t := by
  obtain ⟨a, ha, h1, h2, h3, h4, h5⟩ := call_split h hl
  obtain ⟨h6, h7, h8⟩ := due_iff.mp h3
  obtain ⟨x, hx, hid⟩ := (orig_reachable ha).rows j h2
  obtain ⟨svc0, r, t0, j0, hask, ht0, hjob, hxe⟩ := (orig_reachable ha).created x hx
  have hrel := (past_reachable ha).rel _ hx j h2 (by simp [Log.id, hid])
  obtain ⟨⟨hk, hs, hc, hd⟩, _, hn⟩ := hrel
  have e1 : x.key = j0.key := by rw [hxe]; rfl
  have e2 : x.service = j0.service := by rw [hxe]; rfl
  have e3 : x.cron = j0.cron := by rw [hxe]; rfl
  have e4 : x.data = j0.data := by rw [hxe]; rfl
  have e5 : x.next = c.round j0.next := by rw [hxe]; rfl
  rcases job_of_req hjob with ⟨T, hr, hT, hnx, hc0, hsv, _⟩ | ⟨hr, hc0, hnx, hsv, _⟩ | ⟨f, hr, hc0, hp, hnx, hsv, _⟩
  · exact absurd (by rw [hc, e3, hc0]) h0
  · exact absurd (by rw [hc, e3, hc0]) h0
  · have hle := hn hsat h8
    rw [e5, hnx] at hle
    have := hsat _ _ hp t0
    refine ⟨f, t0, ?_, by rw [hc, e3]; exact hp, by omega, by omega⟩
    rw [← h1, ← h6, hs, hk, hd, hc, e2, e4, e1, e3, hsv, ← hr]; exact hask

/-! ## C53 -/

/-- C53: once a call of a `RunOnce` job is saved, no instance calls it again. -/
theorem C53_once {c : Cfg} {s : State} (h : Reachable c s) {l1 l2 : List Log} {svc : Nat} {j : Job} {t : Nat} (hl : s.log = l1 ++ .called svc j t :: l2) (h0 : j.cron = 0) :
    ∀ x ∈ l2, x.isSaved j.id = false := by
  obtain ⟨a, ha, h1, h2, h3, h4, h5⟩ := call_split h hl
  obtain ⟨h6, h7, h8⟩ := due_iff.mp h3
  intro x hx
  cases x with
  | returned svc' j' t' b =>
    cases b with
    | false => rfl
    | true =>
      simp only [Log.isSaved, beq_eq_false_iff_ne]
      intro hid
      have hrel := (past_reachable ha).rel _ (h1 ▸ hx) j h2 (by simp [Log.id, hid])
      have := (hrel.2 rfl).1 (by rw [← hrel.1.2.2.1, h0])
      rw [h8] at this; cases this
  | _ => rfl

/-- C53, number of calls: a `RunOnce` job has at most one saved call. -/
theorem C53_count {c : Cfg} {s : State} (h : Reachable c s) (svc : Nat) (j : Job) (t : Nat) (hm : .called svc j t ∈ s.log) (h0 : j.cron = 0) : s.log.countP (Log.isSaved j.id) ≤ 1 := by
  -- two saved returns: the state before the later one would be finished
  by_contra hcon
  have hcon : 1 < s.log.countP (Log.isSaved j.id) := by omega
  have split : ∀ (l : List Log) (p : Log → Bool), 1 < l.countP p → ∃ l1 x l2, l = l1 ++ x :: l2 ∧ p x = true ∧ ∃ y ∈ l2, p y = true := by
    intro l p
    induction l with
    | nil => simp
    | cons a l ih =>
      intro hc
      by_cases hp : p a = true
      · rw [List.countP_cons_of_pos hp] at hc
        have : 0 < l.countP p := by omega
        obtain ⟨y, hy, hpy⟩ := List.countP_pos_iff.mp this
        exact ⟨[], a, l, rfl, hp, y, hy, hpy⟩
      · rw [List.countP_cons_of_neg hp] at hc
        obtain ⟨l1, x, l2, rfl, h1, h2⟩ := ih hc
        exact ⟨a :: l1, x, l2, rfl, h1, h2⟩
  obtain ⟨l1, x, l2, hl, hx, y, hy, hys⟩ := split _ _ hcon
  cases x with
  | returned svc1 j1 t1 b1 =>
    cases b1 with
    | false => cases hx
    | true =>
      simp only [Log.isSaved, beq_iff_eq] at hx
      obtain ⟨a, ha, h1, h2, h3, h4, _⟩ := returned_split h hl
      obtain ⟨h6, h7, h8⟩ := due_iff.mp h4
      -- the job is a one-shot job
      have hc1 : j1.cron = 0 := by
        obtain ⟨m1, m2, hsplit⟩ := List.append_of_mem hm
        obtain ⟨a', ha', g1, g2, g3, g4, g5⟩ := call_split h hsplit
        obtain ⟨k, hk, hkid⟩ := (orig_reachable ha').rows j g2
        obtain ⟨k1, hk1, hkid1⟩ := (orig_reachable ha).rows j1 h3
        have r1 := (past_reachable ha').rel _ hk j g2 (by simp [Log.id, hkid])
        have r2 := (past_reachable ha).rel _ hk1 j1 h3 (by simp [Log.id, hkid1])
        -- both creations have the same ID, hence are the same
        have hkk : k = k1 := by
          have hm1 : Log.created k ∈ s.log := by rw [hsplit, ← g1]; simp [hk]
          have hm2 : Log.created k1 ∈ s.log := by rw [hl, ← h1]; simp [hk1]
          exact created_unique h hm1 hm2 (by rw [hkid, hkid1, hx])
        rw [r2.1.2.2.1, ← hkk, ← r1.1.2.2.1, h0]
      cases y with
      | returned svc2 j2 t2 b2 =>
        cases b2 with
        | false => cases hys
        | true =>
          simp only [Log.isSaved, beq_iff_eq] at hys
          have hrel := (past_reachable ha).rel _ (h1 ▸ hy) j1 h3 (by simp [Log.id, hys, hx])
          have := (hrel.2 rfl).1 (by rw [← hrel.1.2.2.1, hc1])
          rw [h8] at this; cases this
      | _ => cases hys
  | _ => cases hx

/-- C53, lost calls: as long as no call of a job was saved and the job was not removed since the call, its row is as it was: pending, and due. -/
theorem C53_stays {c : Cfg} {s : State} (h : Reachable c s) {l1 l2 : List Log} {svc : Nat} {j : Job} {t : Nat} (hl : s.log = l1 ++ .called svc j t :: l2)
    (hk : ∀ x ∈ l1, x.isSaved j.id = false ∧ x.isDeleted j.id = false) : j ∈ s.db.jobs ∧ j.status = .toRun ∧ j.next ≤ s.now + c.ahead := by
  obtain ⟨h1, h2, h3, h4, _⟩ := C52_only_due h hl
  exact ⟨(last_reachable h).called svc j t l1 l2 hl (fun x hx => by simp [Log.isChange, hk x hx]), h2, by omega⟩

/-- An instance of its service whose clock shows `t0` can call a pending job whose time is not after `t0` and that nobody is just running. -/
theorem can_run_at {c : Cfg} {s : State} (j : Job) (hj : j ∈ s.db.jobs) (hs : j.status = .toRun) (t0 : Nat) (ht : t0 ≤ s.now + c.ahead ∧ (c.exact = true → t0 = s.now)) (hn : j.next ≤ t0) (hl : ¬ s.locked j.id) :
    ∃ s', Steps c s s' ∧ s'.log = .called j.service j t0 :: s.log := by
  have hd : due j.service t0 j = true := due_iff.mpr ⟨rfl, hn, hs⟩
  obtain ⟨pre, post, hsplit⟩ : ∃ pre post, (s.db.jobs.filter (due j.service t0)).map Job.id = pre ++ j.id :: post :=
    List.append_of_mem (List.mem_map_of_mem (List.mem_filter.mpr ⟨hj, hd⟩))
  -- skip the jobs before it
  have skips : ∀ (pre : List Nat) (post : List Nat) (a : State), (j.service, pre ++ post) ∈ a.loops → ∃ b, Steps c a b ∧ (j.service, post) ∈ b.loops ∧ b.db = a.db ∧ b.now = a.now ∧ b.log = a.log ∧ b.busy = a.busy := by
    intro pre post
    induction pre with
    | nil => intro a ha; exact ⟨a, .refl _, ha, rfl, rfl, rfl, rfl⟩
    | cons x pre ih =>
      intro a ha
      have hst := Step.skip (c := c) a j.service x (pre ++ post) ha
      obtain ⟨b, hb, h1, h2, h3, h4, h5⟩ := ih { a with loops := (j.service, pre ++ post) :: a.loops.erase (j.service, x :: (pre ++ post)) } List.mem_cons_self
      refine ⟨b, ?_, h1, h2, h3, h4, h5⟩
      have trans : ∀ {x y : State}, Steps c x y → ∀ {w}, Step c w x → Steps c w y := by
        intro x y hxy
        induction hxy with
        | refl => intro w hw; exact .step (.refl _) hw
        | step _ hlast ih => intro w hw; exact .step (ih hw) hlast
      exact trans hb hst
  have hsel := Step.select (c := c) s j.service t0 ht.1
  obtain ⟨b, hb, h1, h2, h3, h4, h5⟩ := skips pre (j.id :: post) { s with loops := (j.service, (s.db.jobs.filter (due j.service t0)).map Job.id) :: s.loops } (by rw [hsplit]; exact List.mem_cons_self)
  have hcall := Step.call (c := c) b j.service j.id post j h1 (by rw [h2]; exact hj) rfl t0 (by rw [h3]; exact ht) hd (by unfold State.locked; rw [h5]; exact hl)
  refine ⟨_, .step ?_ hcall, by simp only [h4]⟩
  have trans : ∀ {x y : State}, Steps c x y → ∀ {w}, Step c w x → Steps c w y := by
    intro x y hxy
    induction hxy with
    | refl => intro w hw; exact .step (.refl _) hw
    | step _ hlast ih => intro w hw; exact .step (ih hw) hlast
  exact trans hb hsel

/-- A due job that nobody is just running can be called at once, by any instance of its service. -/
theorem C64_can_run {c : Cfg} {s : State} (j : Job) (hj : j ∈ s.db.jobs) (hs : j.status = .toRun) (hn : j.next ≤ s.now) (hl : ¬ s.locked j.id) :
    ∃ s', Steps c s s' ∧ s'.log = .called j.service j s.now :: s.log :=
  can_run_at j hj hs s.now ⟨by omega, fun _ => rfl⟩ hn hl

/-- C53, lost calls: such a job, when nobody runs it any more, can be called again at once (by an instance with a clock as far ahead as that of the lost call, if it was ahead). -/
theorem C53_again {c : Cfg} {s : State} (h : Reachable c s) {l1 l2 : List Log} {svc : Nat} {j : Job} {t : Nat} (hl : s.log = l1 ++ .called svc j t :: l2)
    (hk : ∀ x ∈ l1, x.isSaved j.id = false ∧ x.isDeleted j.id = false) (hf : ¬ s.locked j.id) :
    ∃ s' t', Steps c s s' ∧ s'.log = .called svc j t' :: s.log ∧ s.now ≤ t' ∧ t' ≤ s.now + c.ahead ∧ (c.exact = true → t' = s.now) := by
  obtain ⟨h1, h2, h3⟩ := C53_stays h hl hk
  obtain ⟨h4, h5, h6, h7, a, ha, h8, h9, h10, h11⟩ := C52_only_due h hl
  have hex : ∃ t', (t' ≤ s.now + c.ahead ∧ (c.exact = true → t' = s.now)) ∧ j.next ≤ t' ∧ s.now ≤ t' := by
    cases hb : c.exact with
    | true => exact ⟨s.now, ⟨by omega, fun _ => rfl⟩, Nat.le_trans h6 (((timed_reachable h).1 svc j t (by rw [hl]; simp)).2 hb), Nat.le_refl _⟩
    | false => exact ⟨s.now + c.ahead, ⟨Nat.le_refl _, fun h => by cases h⟩, h3, by omega⟩
  obtain ⟨t', g1, g2, g3⟩ := hex
  obtain ⟨s', k1, k2⟩ := can_run_at (c := c) j h1 h2 t' g1 g2 hf
  rw [h4] at k2
  exact ⟨s', t', k1, k2, g3, g1.1, g1.2⟩

/-! ## C54 -/

/-- C54: what a completed call leaves in the table is the same job with the first time of the schedule after the end of the call (unless the job is saved again or removed later). -/
theorem C54_next {c : Cfg} {s : State} (h : Reachable c s) {l1 l2 : List Log} {svc : Nat} {j : Job} {t : Nat} (hl : s.log = l1 ++ .returned svc j t true :: l2)
    (hk : ∀ x ∈ l1, x.isSaved j.id = false ∧ x.isDeleted j.id = false) (h0 : j.cron ≠ 0) (f : Nat → Nat) (hp : c.parse j.cron = some f) (S : Nat → Prop) (hS : Schedules f S)
    (hr : ∀ u, S u → c.round u = u) : ∃ n, { j with next := n, status := .toRun } ∈ s.db.jobs ∧ S n ∧ t < n ∧ ∀ u, S u → t < u → n ≤ u := by
  have := (last_reachable h).saved svc j t l1 l2 hl (fun x hx => by simp [Log.isChange, hk x hx])
  rw [afterCall_cron c t j h0 f hp, hr _ (hS t).1] at this
  exact ⟨f t, this, hS t⟩

/-- C54: the call after a completed call is for the first time of the schedule after the completed call: times missed meanwhile are not made up for. -/
theorem C54_consecutive {c : Cfg} {s : State} (h : Reachable c s) {l1 l2 l3 : List Log} {svc svc' : Nat} {j j' : Job} {t t' : Nat}
    (hl : s.log = l1 ++ .called svc' j' t' :: (l2 ++ .returned svc j t true :: l3)) (hid : j'.id = j.id)
    (hk : ∀ x ∈ l2, x.isSaved j.id = false) (h0 : j.cron ≠ 0) (f : Nat → Nat) (hp : c.parse j.cron = some f) :
    j' = { j with next := c.round (f t), status := .toRun } := by
  obtain ⟨a, ha, h1, h2, h3, h4, h5⟩ := call_split h hl
  have hdel : ∀ x ∈ l2, x.isDeleted j.id = false := by
    intro x hx
    cases x with
    | deleted k =>
      simp only [Log.isDeleted, beq_eq_false_iff_ne]
      intro hk'
      exact (past_reachable ha).rel (.deleted k) (by rw [h1]; simp [hx]) j' h2 (by simp [Log.id, hid, hk'])
    | _ => rfl
  have := (last_reachable ha).saved svc j t l2 l3 h1 (fun x hx => by simp [Log.isChange, hk x hx, hdel x hx])
  rw [afterCall_cron c t j h0 f hp] at this
  exact List.inj_on_of_nodup_map (inv_reachable ha).nodup h2 this (by simp [hid])

/-- C54: the times of the calls of a job never go back, and if a call was saved between two calls, the later one is for a later time of the schedule. -/
theorem C54_increasing {c : Cfg} (hsat : Satisfiable c) {s : State} (h : Reachable c s) {l1 l2 l3 : List Log} {svc svc' : Nat} {j j' : Job} {t t' : Nat}
    (hl : s.log = l1 ++ .called svc' j' t' :: (l2 ++ .called svc j t :: l3)) (hid : j'.id = j.id) :
    j.next ≤ j'.next ∧ (∀ x ∈ l2, x.isSaved j.id = true → j.next < j'.next ∧ (c.exact = true → t < j'.next)) := by
  obtain ⟨a, ha, h1, h2, h3, h4, h5⟩ := call_split h hl
  obtain ⟨h6, h7, h8⟩ := due_iff.mp h3
  have hm : Log.called svc j t ∈ a.log := by rw [h1]; simp
  refine ⟨((past_reachable ha).rel _ hm j' h2 (by simp [Log.id, hid])).2 hsat h8, ?_⟩
  intro x hx hsv
  cases x with
  | returned svc2 j2 t2 b =>
    cases b with
    | false => cases hsv
    | true =>
      simp only [Log.isSaved, beq_iff_eq] at hsv
      have hm2 : Log.returned svc2 j2 t2 true ∈ a.log := by rw [h1]; simp [hx]
      have hrel := (past_reachable ha).rel _ hm2 j' h2 (by simp [Log.id, hid, hsv])
      have hc : j2.cron ≠ 0 := by
        intro h0
        have := (hrel.2 rfl).1 h0
        rw [h8] at this; cases this
      have hlt := (hrel.2 rfl).2.2 hsat hc h8
      obtain ⟨m1, m2, rfl⟩ := List.append_of_mem hx
      obtain ⟨a', ha', g1, g2, g3, g4, g5⟩ := returned_split ha (l1 := m1) (l2 := m2 ++ .called svc j t :: l3) (svc := svc2) (j := j2) (t := t2) (b := true) (by rw [h1]; simp)
      have hm' : Log.called svc j t ∈ a'.log := by rw [g1]; simp
      have hle := ((past_reachable ha').rel _ hm' j2 g3 (by simp [Log.id, hsv])).2 hsat (due_iff.mp g4).2.2
      have hd2 := (due_iff.mp g4).2.1
      refine ⟨by omega, fun he => ?_⟩
      have htt := g5 he svc j t (by simp) hsv.symm
      omega
  | _ => cases hsv

/-! ## C63 -/

/-- C63: two calls of a job never overlap, whichever instances make them: before the later one begins, the earlier one has returned or died. -/
theorem C63_exclusive {c : Cfg} {s : State} (h : Reachable c s) {l1 l2 l3 : List Log} {svc svc' : Nat} {j j' : Job} {t t' : Nat}
    (hl : s.log = l1 ++ .called svc' j' t' :: (l2 ++ .called svc j t :: l3)) (hid : j'.id = j.id) : ∃ x ∈ l2, x.isEnd j.id = true := by
  obtain ⟨a, ha, h1, h2, h3, h4, h5⟩ := call_split h hl
  by_contra hcon
  have := open_reachable ha svc j t l2 l3 h1 (fun x hx => by
    cases hb : x.isEnd j.id with
    | false => rfl
    | true => exact absurd ⟨x, hx, hb⟩ hcon)
  exact h4 ⟨_, this, hid.symm⟩

/-! ## C55 -/

/-- The request is refused: overdue, or an invalid cron expression. -/
def Refused (c : Cfg) (now : Nat) : Req → Prop
  | .once _ t _ => t < now
  | .cron _ e _ => e ≠ 0 ∧ c.parse e = none

/-- the first time of an accepted request -/
def FirstTime (c : Cfg) (now : Nat) : Req → Nat → Prop
  | .once _ t _, n => n = t
  | .cron _ e _, n => (e = 0 ∧ n = 0) ∨ (e ≠ 0 ∧ ∃ f, c.parse e = some f ∧ n = f now)

/-- C55: a refused request fails with the error of its kind and changes nothing. -/
theorem C55_refused (c : Cfg) (db : DB) (svc now : Nat) (r : Req) (h : Refused c now r) :
    (register c db svc now r).1 = db ∧ (register c db svc now r).2 = (match r with | .once .. => Res.overdue | .cron .. => Res.badCron) := by
  cases r with
  | once k t d => simp only [Refused] at h; simp [register, Req.job, h]
  | cron k e d => simp only [Refused] at h; simp [register, Req.job, Job.reset, h.1, h.2]

theorem accepted_job {c : Cfg} {svc now : Nat} {r : Req} (h : ¬ Refused c now r) :
    ∃ j, r.job c svc now = (j, .ok) ∧ j.service = svc ∧ j.key = r.key ∧ j.status = .toRun ∧ FirstTime c now r j.next ∧ r = (match r with | .once .. => .once j.key j.next j.data | .cron .. => .cron j.key j.cron j.data) := by
  cases r with
  | once k t d =>
    simp only [Refused] at h
    simp only [Req.job, if_neg h]
    exact ⟨_, rfl, rfl, rfl, rfl, rfl, rfl⟩
  | cron k e d =>
    simp only [Refused] at h
    by_cases he : e = 0
    · subst he
      refine ⟨⟨0, svc, k, 0, 0, .toRun, d⟩, by simp [Req.job, Job.reset], rfl, rfl, rfl, .inl ⟨rfl, rfl⟩, rfl⟩
    · cases hp : c.parse e with
      | none => exact absurd ⟨he, hp⟩ h
      | some f => exact ⟨⟨0, svc, k, e, f now, .toRun, d⟩, by simp [Req.job, Job.reset, he, hp], rfl, rfl, rfl, .inr ⟨he, f, hp, rfl⟩, rfl⟩

/-- C55: a request for a key the service already has is successful and changes nothing, whatever its other arguments, unless they are refused. -/
theorem C55_existing_partial (c : Cfg) (db : DB) (svc now : Nat) (r : Req) (x : Job) (hx : x ∈ db.jobs) (hs : x.service = svc) (hk : x.key = r.key) (h : ¬ Refused c now r) : register c db svc now r = (db, .ok) := by
  obtain ⟨j, hj, _⟩ := accepted_job (svc := svc) h
  have : finds db svc r.key = true := by
    simp only [finds, List.any_eq_true]
    exact ⟨x, hx, by simp [hs, hk]⟩
  simp [register, hj, this]

/-- C55: a request for a nonempty key nobody has creates one pending job with the arguments and the first time, and leaves the others alone. -/
theorem C55_new (c : Cfg) (db : DB) (svc now : Nat) (r : Req) (hk : r.key ≠ 0) (hnew : ∀ x ∈ db.jobs, x.key ≠ r.key) (h : ¬ Refused c now r) :
    ∃ j n, register c db svc now r = (⟨db.jobs ++ [j], db.nextId + 1⟩, .ok) ∧ j.id = db.nextId ∧ j.service = svc ∧ j.key = r.key ∧ j.status = .toRun ∧ FirstTime c now r n ∧ j.next = c.round n ∧
      (match r with | .once _ _ d => j.cron = 0 ∧ j.data = d | .cron _ e d => j.cron = e ∧ j.data = d) := by
  obtain ⟨j, hj, h1, h2, h3, h4, h5⟩ := accepted_job (svc := svc) h
  have hf : finds db svc r.key = false := by
    rw [Bool.eq_false_iff]
    simp only [finds, ne_eq, List.any_eq_true, not_exists, not_and]
    intro x hx
    simp [hnew x hx, hk]
  have hi : (db.jobs.any fun x => x.key == j.key) = false := by
    rw [Bool.eq_false_iff]
    simp only [ne_eq, List.any_eq_true, not_exists, not_and]
    intro x hx
    simp [h2, hnew x hx]
  refine ⟨{ j.stored c with id := db.nextId }, j.next, by simp [register, hj, hf, insert, hi], rfl, h1, h2, h3, h4, rfl, ?_⟩
  rcases job_of_req hj with ⟨T, hr, _, _, hc0, _⟩ | ⟨hr, hc0, _⟩ | ⟨f, hr, _⟩
  · rw [hr]; exact ⟨hc0, rfl⟩
  · rw [hr]; exact ⟨hc0, rfl⟩
  · rw [hr]; exact ⟨rfl, rfl⟩

/-- C55 in all histories: no two jobs of the table have the same key, and every job goes back to an accepted request. -/
theorem C55_unique {c : Cfg} {s : State} (h : Reachable c s) : (s.db.jobs.map Job.key).Nodup := (inv_reachable h).keys

/-- C55: registering again does not disturb a job, in all histories: as long as a job exists it has the key, service, expression and data it was created with. -/
theorem C55_stable {c : Cfg} {s : State} (h : Reachable c s) (j x : Job) (hj : .created j ∈ s.log) (hx : x ∈ s.db.jobs) (hid : x.id = j.id) :
    x.key = j.key ∧ x.service = j.service ∧ x.cron = j.cron ∧ x.data = j.data := ((past_reachable h).rel _ hj x hx (by simp [Log.id, hid])).1

/-- A request that is not first: another service has the key. It fails. -/
theorem C55_other_service (c : Cfg) (db : DB) (svc now : Nat) (r : Req) (hk : r.key ≠ 0) (x : Job) (hx : x ∈ db.jobs) (hxk : x.key = r.key) (hs : ∀ y ∈ db.jobs, y.key = r.key → y.service ≠ svc) (h : ¬ Refused c now r) :
    register c db svc now r = (db, .duplicate) := by
  obtain ⟨j, hj, h1, h2, h3, h4, h5⟩ := accepted_job (svc := svc) h
  have hf : finds db svc r.key = false := by
    rw [Bool.eq_false_iff]
    simp only [finds, ne_eq, List.any_eq_true, not_exists, not_and]
    intro y hy
    simp only [Bool.and_eq_true, beq_iff_eq, Bool.or_eq_true, decide_eq_true_eq, hk, false_or, not_and]
    intro h1 h2
    exact hs y hy h2 h1
  have hi : (db.jobs.any fun x => x.key == j.key) = true := by
    simp only [List.any_eq_true]
    exact ⟨x, hx, by simp [h2, hxk]⟩
  simp [register, hj, hf, insert, hi]

/-! ## C56 -/

/-- C56, what holds: `Cancel` with a nonempty key removes exactly the jobs with this key, of whatever service. -/
theorem C56_partial (db : DB) (key : Nat) (h : key ≠ 0) :
    (cancel db key).2 = .ok ∧ (cancel db key).1.nextId = db.nextId ∧ ∀ j, j ∈ (cancel db key).1.jobs ↔ j ∈ db.jobs ∧ j.key ≠ key := by
  simp [cancel, h]

/-- C56: an empty key is refused. -/
theorem C56_empty (db : DB) : cancel db 0 = (db, .dbError) := by simp [cancel]

/-- C56: a removed job is never called again, by any instance, even one that had selected it before. -/
theorem C56_never_again {c : Cfg} {s : State} (h : Reachable c s) {l1 l2 : List Log} {svc : Nat} {j : Job} {t : Nat} (hl : s.log = l1 ++ .called svc j t :: l2) :
    ∀ x ∈ l2, x.isDeleted j.id = false := by
  obtain ⟨a, ha, h1, h2, h3, h4, h5⟩ := call_split h hl
  intro x hx
  cases x with
  | deleted k =>
    simp only [Log.isDeleted, beq_eq_false_iff_ne]
    intro hk
    exact (past_reachable ha).rel (.deleted k) (by rw [h1]; exact hx) j h2 (by simp [Log.id, hk])
  | _ => rfl

/-! ## C64: a poll -/

theorem runJobs_spec (c : Cfg) (svc now : Nat) (js : List Job) : ∀ (db : DB), (db.jobs.map Job.id).Nodup → (js.map Job.id).Nodup → (∀ j ∈ js, j ∈ db.jobs ∧ due svc now j = true) →
    (runJobs c svc now db (js.map Job.id)).2 = js ∧ (runJobs c svc now db (js.map Job.id)).1 = { db with jobs := db.jobs.map fun j => if j ∈ js then (j.afterCall c now).stored c else j } := by
  induction js with
  | nil => intro db _ _ _; simp [runJobs]
  | cons j js ih =>
    intro db hn hjs hall
    have hj := hall j List.mem_cons_self
    have huniq : ∀ x ∈ db.jobs, x.id = j.id → x = j := fun x hx he => List.inj_on_of_nodup_map hn hx hj.1 he
    have hfind : (db.jobs.find? fun k => due svc now k && k.id == j.id) = some j := by
      cases hf : db.jobs.find? fun k => due svc now k && k.id == j.id with
      | none =>
        rw [List.find?_eq_none] at hf
        exact absurd (by simp [hj.2]) (hf j hj.1)
      | some k =>
        have hk := List.find?_some hf
        simp only [Bool.and_eq_true, beq_iff_eq] at hk
        rw [huniq k (List.mem_of_find?_eq_some hf) hk.2]
    have hrun : runJob c svc now db j.id = (save db ((j.afterCall c now).stored c), [j]) := by simp [runJob, hfind]
    simp only [List.map_cons, List.nodup_cons] at hjs
    have hin : ∀ k ∈ js, k ∈ (save db ((j.afterCall c now).stored c)).jobs ∧ due svc now k = true := by
      intro k hk
      obtain ⟨hk1, hk2⟩ := hall k (List.mem_cons_of_mem _ hk)
      refine ⟨?_, hk2⟩
      simp only [save, List.mem_map]
      refine ⟨k, hk1, ?_⟩
      rw [afterCall_id, if_neg]
      intro he
      exact hjs.1 (he ▸ List.mem_map_of_mem hk)
    obtain ⟨ih1, ih2⟩ := ih (save db ((j.afterCall c now).stored c)) (by rw [save_ids]; exact hn) hjs.2 hin
    simp only [List.map_cons, runJobs, hrun, ih1, ih2]
    refine ⟨rfl, ?_⟩
    simp only [save, List.map_map]
    congr 1
    apply List.map_congr_left
    intro x hx
    simp only [Function.comp, afterCall_id]
    by_cases hxj : x = j
    · subst hxj
      have hnj : (x.afterCall c now).stored c ∉ js := by
        intro hmem
        exact hjs.1 ((afterCall_id c now x) ▸ List.mem_map_of_mem hmem)
      simp [hnj]
    · have : x.id ≠ j.id := fun he => hxj (huniq x hx he)
      simp [this, hxj]

/-- C64: a poll that is not interfered with calls the callback exactly once for each due job of the service and for no other, stores each of them as after a call and leaves all other rows alone. -/
theorem C64_poll (c : Cfg) (svc now : Nat) (db : DB) (hn : (db.jobs.map Job.id).Nodup) :
    (handleJobs c svc now db).2 = (db.jobs.filter fun j => decide (j.service = svc ∧ j.next ≤ now ∧ j.status = .toRun)) ∧
    (handleJobs c svc now db).1.jobs = db.jobs.map fun j => if j.service = svc ∧ j.next ≤ now ∧ j.status = .toRun then (j.afterCall c now).stored c else j := by
  have hfil : (db.jobs.filter (due svc now)) = db.jobs.filter fun j => decide (j.service = svc ∧ j.next ≤ now ∧ j.status = .toRun) := by
    apply List.filter_congr
    intro x _
    rw [Bool.eq_iff_iff, due_iff, decide_eq_true_eq]
  obtain ⟨h1, h2⟩ := runJobs_spec c svc now (db.jobs.filter (due svc now)) db hn (hn.sublist (List.filter_sublist.map _)) (fun j hj => List.mem_filter.mp hj)
  refine ⟨by rw [handleJobs, h1, hfil], ?_⟩
  rw [handleJobs, h2]
  apply List.map_congr_left
  intro x hx
  have : (x ∈ db.jobs.filter (due svc now)) ↔ (x.service = svc ∧ x.next ≤ now ∧ x.status = .toRun) := by
    rw [List.mem_filter, due_iff]
    exact ⟨fun h => h.2, fun h => ⟨hx, h⟩⟩
  simp only [this]

/-- C64: after it no job of the service is due: a further poll at the same time calls nothing. -/
theorem C64_drained (c : Cfg) (hsat : Satisfiable c) (svc now : Nat) (db : DB) (hn : (db.jobs.map Job.id).Nodup) : (handleJobs c svc now (handleJobs c svc now db).1).2 = [] := by
  obtain ⟨_, h2⟩ := C64_poll c svc now db hn
  have hn' : ((handleJobs c svc now db).1.jobs.map Job.id).Nodup := by
    rw [h2, List.map_map]
    have : (Job.id ∘ fun j : Job => if j.service = svc ∧ j.next ≤ now ∧ j.status = .toRun then (j.afterCall c now).stored c else j) = Job.id := by
      funext x
      simp only [Function.comp]
      split
      · exact afterCall_id _ _ _
      · rfl
    rw [this]; exact hn
  rw [(C64_poll c svc now _ hn').1, h2, List.filter_eq_nil_iff]
  intro x hx
  rw [List.mem_map] at hx
  obtain ⟨y, hy, rfl⟩ := hx
  simp only [decide_eq_true_eq]
  split
  · rintro ⟨_, ha, hb⟩
    by_cases h0 : y.cron = 0
    · rw [afterCall_once c now y h0] at hb; cases hb
    · cases hp : c.parse y.cron with
      | none => rw [afterCall_bad c now y h0 hp] at hb; cases hb
      | some f =>
        rw [afterCall_cron c now y h0 f hp] at ha
        have := hsat _ _ hp now
        simp only at ha
        omega
  · assumption

end Ddd.Timer
