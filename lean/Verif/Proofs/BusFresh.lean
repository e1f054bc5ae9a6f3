import Verif.Proofs.BusLTS
/-!
# More invariants of the MySQL event bus under all interleavings
-/
set_option linter.unusedVariables false
set_option linter.unusedSimpArgs false
namespace Ddd.Bus

/-- dispatches under way: none can insert the delivery record of an event for a service twice -/
structure Disps (s : State) : Prop where
  svcs : s.db.services.Nodup
  fresh : ∀ d ∈ s.disps, ∀ p ∈ d.ps, p.id < s.db.nextEv
  apart : s.disps.Pairwise fun a b => ∀ p ∈ a.ps, ∀ q ∈ b.ps, p.id ≠ q.id
  todo : ∀ ps todo, Disp.listed ps todo ∈ s.disps → todo.Nodup
  ins : ∀ ps, Disp.inserted ps ∈ s.disps → ∀ p ∈ ps, ∀ svc, Log.stored svc p.id ∉ s.log
  lis : ∀ ps todo, Disp.listed ps todo ∈ s.disps → ∀ p ∈ ps, ∀ svc ∈ todo, Log.stored svc p.id ∉ s.log
  old : ∀ svc eid, Log.stored svc eid ∈ s.log → eid < s.db.nextEv

theorem Disps.same {s s' : State} (h : Disps s) (h1 : s'.db.services = s.db.services) (h2 : s'.db.nextEv = s.db.nextEv) (h3 : s'.disps.Sublist s.disps)
    (h4 : ∀ svc eid, Log.stored svc eid ∈ s'.log → Log.stored svc eid ∈ s.log) : Disps s' := by
  refine ⟨by rw [h1]; exact h.svcs, ?_, h.apart.sublist h3, fun ps todo hd => h.todo ps todo (h3.subset hd), ?_, ?_, ?_⟩
  · rw [h2]; exact fun d hd => h.fresh d (h3.subset hd)
  · exact fun ps hd p hp svc hs => h.ins ps (h3.subset hd) p hp svc (h4 _ _ hs)
  · exact fun ps todo hd p hp svc hsv hs => h.lis ps todo (h3.subset hd) p hp svc hsv (h4 _ _ hs)
  · rw [h2]; exact fun svc eid hs => h.old svc eid (h4 _ _ hs)

theorem newEvents_range {first tid : Nat} {es : List DEv} {p : EvRow} (h : p ∈ newEvents first tid es) : first ≤ p.id ∧ p.id < first + es.length := by
  induction es generalizing first with
  | nil => simp [newEvents] at h
  | cons e es ih =>
    simp only [newEvents, List.mem_cons] at h
    rcases h with rfl | h
    · simp
    · have := ih h
      simp only [List.length_cons]; omega

theorem apart_of_mem {l : List Disp} (h : l.Pairwise fun a b => ∀ p ∈ a.ps, ∀ q ∈ b.ps, p.id ≠ q.id) {a b : Disp} (ha : a ∈ l) (hb : b ∈ l.erase a) : ∀ p ∈ a.ps, ∀ q ∈ b.ps, p.id ≠ q.id := by
  induction l with
  | nil => simp at ha
  | cons x l ih =>
    rw [List.pairwise_cons] at h
    by_cases hx : x = a
    · subst hx
      rw [List.erase_cons_head] at hb
      exact h.1 b hb
    · rw [List.erase_cons_tail (by simpa using hx)] at hb
      have ha' : a ∈ l := by
        rcases List.mem_cons.1 ha with ha | ha
        · exact absurd ha.symm hx
        · exact ha
      rcases List.mem_cons.1 hb with rfl | hb
      · intro p hp q hq heq
        exact h.1 a ha' q hq p hp heq.symm
      · exact ih h.2 ha' hb

theorem disps_step {c : Cfg} {pol : Pol} {s s' : State} (h : Disps s) (hst : Step c pol s s') : Disps s' := by
  cases hst with
  | register svc =>
    have e1 : (register s.db svc).nextEv = s.db.nextEv := by unfold register; split <;> rfl
    refine ⟨?_, ?_, h.apart, h.todo, h.ins, h.lis, ?_⟩
    · dsimp only [register]
      split
      · exact h.svcs
      · rename_i hn
        refine List.nodup_append.2 ⟨h.svcs, by simp, ?_⟩
        intro a ha b hb; simp at hb; subst hb; intro heq; subst heq; exact hn ha
    · dsimp only; rw [e1]; exact h.fresh
    · dsimp only; rw [e1]; exact h.old
  | dispInsert tid es he =>
    have hr : ∀ p ∈ newEvents s.db.nextEv tid es, s.db.nextEv ≤ p.id ∧ p.id < s.db.nextEv + es.length := fun p hp => newEvents_range hp
    refine ⟨h.svcs, ?_, ?_, ?_, ?_, ?_, ?_⟩
    · intro d hd p hp
      rcases List.mem_cons.1 hd with rfl | hd
      · exact (hr p hp).2
      · have := h.fresh d hd p hp
        show p.id < s.db.nextEv + es.length
        omega
    · refine List.pairwise_cons.2 ⟨?_, h.apart⟩
      intro d hd p hp q hq
      have := h.fresh d hd q hq
      have := (hr p hp).1
      omega
    · intro ps todo hd
      rcases List.mem_cons.1 hd with hd | hd
      · cases hd
      · exact h.todo ps todo hd
    · intro ps hd p hp svc hs
      rcases List.mem_cons.1 hd with hd | hd
      · cases hd
        have := (hr p hp).1
        have := h.old _ _ hs
        omega
      · exact h.ins ps hd p hp svc hs
    · intro ps todo hd
      rcases List.mem_cons.1 hd with hd | hd
      · cases hd
      · exact h.lis ps todo hd
    · intro svc eid hs
      have := h.old svc eid hs
      show eid < s.db.nextEv + es.length
      omega
  | dispList ps hps =>
    refine ⟨h.svcs, ?_, ?_, ?_, ?_, ?_, h.old⟩
    · intro d hd
      rcases List.mem_cons.1 hd with rfl | hd
      · exact fun p hp => h.fresh _ hps p hp
      · exact h.fresh d (List.mem_of_mem_erase hd)
    · refine List.pairwise_cons.2 ⟨?_, h.apart.sublist List.erase_sublist⟩
      intro d hd
      exact fun p hp => apart_of_mem h.apart hps hd p hp
    · intro ps' todo hd
      rcases List.mem_cons.1 hd with hd | hd
      · cases hd; exact h.svcs
      · exact h.todo ps' todo (List.mem_of_mem_erase hd)
    · intro ps' hd
      rcases List.mem_cons.1 hd with hd | hd
      · cases hd
      · exact h.ins ps' (List.mem_of_mem_erase hd)
    · intro ps' todo hd
      rcases List.mem_cons.1 hd with hd | hd
      · cases hd; exact fun p hp svc _ => h.ins ps hps p hp svc
      · exact h.lis ps' todo (List.mem_of_mem_erase hd)
  | dispRecs ps svc todo hps hu =>
    have hnew : ∀ svc' eid, Log.stored svc' eid ∈ ps.map (fun p => Log.stored svc p.id) ++ s.log → (svc' = svc ∧ ∃ p ∈ ps, p.id = eid) ∨ Log.stored svc' eid ∈ s.log := by
      intro svc' eid hs
      rcases List.mem_append.1 hs with hs | hs
      · obtain ⟨p, hp, heq⟩ := List.mem_map.1 hs
        simp only [Log.stored.injEq] at heq
        exact .inl ⟨heq.1.symm, p, hp, heq.2⟩
      · exact .inr hs
    refine ⟨h.svcs, ?_, ?_, ?_, ?_, ?_, ?_⟩
    · intro d hd
      rcases List.mem_cons.1 hd with rfl | hd
      · exact fun p hp => h.fresh _ hps p hp
      · exact h.fresh d (List.mem_of_mem_erase hd)
    · refine List.pairwise_cons.2 ⟨?_, h.apart.sublist List.erase_sublist⟩
      intro d hd
      exact fun p hp => apart_of_mem h.apart hps hd p hp
    · intro ps' todo' hd
      rcases List.mem_cons.1 hd with hd | hd
      · cases hd; exact (List.nodup_cons.1 (h.todo _ _ hps)).2
      · exact h.todo ps' todo' (List.mem_of_mem_erase hd)
    · intro ps' hd p hp svc' hs
      rcases List.mem_cons.1 hd with hd | hd
      · cases hd
      · rcases hnew _ _ hs with ⟨rfl, q, hq, heq⟩ | hs
        · exact apart_of_mem h.apart hps hd q hq p hp heq
        · exact h.ins ps' (List.mem_of_mem_erase hd) p hp svc' hs
    · intro ps' todo' hd p hp svc' hsv hs
      rcases List.mem_cons.1 hd with hd | hd
      · cases hd
        rcases hnew _ _ hs with ⟨rfl, q, hq, heq⟩ | hs
        · exact (List.nodup_cons.1 (h.todo _ _ hps)).1 hsv
        · exact h.lis _ _ hps p hp svc' (by simp [hsv]) hs
      · rcases hnew _ _ hs with ⟨rfl, q, hq, heq⟩ | hs
        · exact apart_of_mem h.apart hps hd q hq p hp heq
        · exact h.lis ps' todo' (List.mem_of_mem_erase hd) p hp svc' hsv hs
    · intro svc' eid hs
      rcases hnew _ _ hs with ⟨rfl, q, hq, rfl⟩ | hs
      · exact h.fresh _ hps q hq
      · exact h.old _ _ hs
  | dispDrop d => exact h.same rfl rfl List.erase_sublist fun _ _ h => h
  | _ => exact h.same rfl rfl (List.Sublist.refl _) (by simp)

/-- everything in the rows, in memory and in the log is about stored records; copies were due when read -/
structure Trail (a : Nat) (s : State) : Prop where
  rows : ∀ r ∈ s.db.recs, Log.stored r.service r.eventId ∈ s.log
  off : ∀ r, Off s r → Log.stored r.service r.eventId ∈ s.log
  called : ∀ svc eid e t, Log.called svc eid e t ∈ s.log → Log.stored svc eid ∈ s.log
  returned : ∀ svc eid e ret t sv, Log.returned svc eid e ret t sv ∈ s.log → Log.stored svc eid ∈ s.log
  due : ∀ r, Off s r → r.next ≤ s.now + a

theorem Trail.same {a : Nat} {s s' : State} (h : Trail a s) (hr : ∀ r ∈ s'.db.recs, r ∈ s.db.recs ∨ Off s r) (hoff : ∀ r, Off s' r → Off s r) (hn : s.now ≤ s'.now) (hl : s'.log = s.log) : Trail a s' := by
  refine ⟨?_, ?_, by rw [hl]; exact h.called, by rw [hl]; exact h.returned, fun r ho => (h.due r (hoff r ho)).trans (Nat.add_le_add_right hn a)⟩
  · intro r hr'; rw [hl]; exact (hr r hr').elim (h.rows r) (h.off r)
  · intro r ho; rw [hl]; exact h.off r (hoff r ho)

theorem afterCall_svc (st : Strategy) (now : Nat) (r : Rec) (ret : Ret) : (afterCall st now r ret).service = r.service ∧ (afterCall st now r ret).eventId = r.eventId ∧ (afterCall st now r ret).id = r.id := by
  have := Rec.key_eq.1 (afterCall_key st now r ret)
  exact ⟨this.2.1, this.2.2, this.1⟩

theorem trail_step {c : Cfg} {pol : Pol} {s s' : State} (hco : Copies s) (h : Trail pol.ahead s) (hst : Step c pol s s') : Trail pol.ahead s' := by
  cases hst with
  | tick d => exact h.same (fun _ h => .inl h) (fun _ h => h) (Nat.le_add_right ..) rfl
  | txBegin svc timeout es he t0 ht => exact h.same (fun _ h => .inl h) (fun _ h => h) (Nat.le_refl _) rfl
  | txDelete tid => exact h.same (fun _ h => .inl h) (fun _ h => h) (Nat.le_refl _) rfl
  | register svc =>
    refine h.same (fun r hr => .inl ?_) (fun _ h => h) (Nat.le_refl _) rfl
    have : (register s.db svc).recs = s.db.recs := by unfold register; split <;> rfl
    simpa [this] using hr
  | dispInsert tid es he => exact h.same (fun _ h => .inl h) (fun _ h => h) (Nat.le_refl _) rfl
  | dispList ps hps => exact h.same (fun _ h => .inl h) (fun _ h => h) (Nat.le_refl _) rfl
  | dispRecs ps svc todo hps hu =>
    have hm : ∀ x ∈ s.log, x ∈ ps.map (fun p => Log.stored svc p.id) ++ s.log := fun x hx => by simp [hx]
    refine ⟨?_, fun r hr => hm _ (h.off r hr), ?_, ?_, h.due⟩
    · intro r hr
      rcases List.mem_append.1 hr with hr | hr
      · exact hm _ (h.rows r hr)
      · obtain ⟨p, hp, hf⟩ := newRecs_fresh hr
        refine List.mem_append.2 (.inl (List.mem_map.2 ⟨p, hp, ?_⟩))
        rw [hf.1, hf.2.1]
    · intro svc' eid e t hs
      exact hm _ (h.called svc' eid e t (by simpa using hs))
    · intro svc' eid e ret t sv hs
      exact hm _ (h.returned svc' eid e ret t sv (by simpa using hs))
  | dispDrop d => exact h.same (fun _ h => .inl h) (fun _ h => h) (Nat.le_refl _) rfl
  | scanBegin svc start t0 ht hs =>
    refine h.same (fun _ h => .inl h) ?_ (Nat.le_refl _) rfl
    intro r hr
    rcases hr with ⟨x, hx, hr⟩ | hr | hr
    · rcases List.mem_cons.1 hx with rfl | hx
      · simp [Scan.recs] at hr
      · exact .inl ⟨x, hx, hr⟩
    · exact .inr (.inl hr)
    · exact .inr (.inr hr)
  | scanOffset svc start r0 hs h0 => exact h.same (fun _ h => .inl h) (fun r hr => off_scan_nil (by rfl) hr) (Nat.le_refl _) rfl
  | scanRows svc start off hs t0 ht =>
    refine ⟨h.rows, ?_, h.called, h.returned, ?_⟩
    · intro r hr
      rcases off_scanRows ht hr with hr | hr
      · exact h.off r hr
      · exact h.rows r hr.1
    · intro r hr
      rcases off_scanRows ht hr with hr | hr
      · exact h.due r hr
      · exact hr.2.2.2
  | scanEvents svc start rs hs hc => exact h.same (fun _ h => .inl h) (fun r hr => off_scanEvents hs hr) (Nat.le_refl _) rfl
  | scanDrop sc => exact h.same (fun _ h => .inl h) (fun r hr => off_erase_scan hr) (Nat.le_refl _) rfl
  | call j hj hl hx hs hm hf =>
    have hst : Log.stored j.svc j.t.r.eventId ∈ s.log := by rw [← hco.pend j hj]; exact h.off _ (.inr (.inl ⟨j, hj, rfl⟩))
    refine ⟨fun r hr => List.mem_cons_of_mem _ (h.rows r hr), fun r hr => List.mem_cons_of_mem _ (h.off r (off_call hj hr)), ?_, ?_, fun r hr => h.due r (off_call hj hr)⟩
    · intro svc eid e t hc
      rcases List.mem_cons.1 hc with hc | hc
      · cases hc; exact List.mem_cons_of_mem _ hst
      · exact List.mem_cons_of_mem _ (h.called _ _ _ _ hc)
    · intro svc eid e ret t sv hc
      exact List.mem_cons_of_mem _ (h.returned _ _ _ _ _ _ (by simpa using hc))
  | blocked j hj hl hx hs hm hf =>
    refine h.same (fun r hr => ?_) (fun r hr => off_erase_pend hr) (Nat.le_refl _) rfl
    rcases mem_saveRec.1 hr with ⟨rfl, -⟩ | ⟨hr, -⟩
    · exact .inr (.inr (.inl ⟨j, hj, rfl⟩))
    · exact .inl hr
  | jobDrop j => exact h.same (fun _ h => .inl h) (fun r hr => off_erase_pend hr) (Nat.le_refl _) rfl
  | finish j ret hj t0 ht =>
    have ho : Log.stored j.t.r.service j.t.r.eventId ∈ s.log := h.off _ (.inr (.inr ⟨j, hj, rfl⟩))
    refine ⟨?_, fun r hr => List.mem_cons_of_mem _ (h.off r (off_erase_busy hr)), ?_, ?_, fun r hr => h.due r (off_erase_busy hr)⟩
    · intro r hr
      rcases mem_saveRec.1 hr with ⟨rfl, -⟩ | ⟨hr, -⟩
      · have := afterCall_svc c.strategy t0 j.t.r ret
        rw [this.1, this.2.1]; exact List.mem_cons_of_mem _ ho
      · exact List.mem_cons_of_mem _ (h.rows r hr)
    · intro svc eid e t hc
      exact List.mem_cons_of_mem _ (h.called _ _ _ _ (by simpa using hc))
    · intro svc eid e ret' t sv hc
      rcases List.mem_cons.1 hc with hc | hc
      · cases hc; rw [← hco.busy j hj]; exact List.mem_cons_of_mem _ ho
      · exact List.mem_cons_of_mem _ (h.returned _ _ _ _ _ _ hc)
  | finishLost j ret hj hp t0 ht =>
    have ho : Log.stored j.t.r.service j.t.r.eventId ∈ s.log := h.off _ (.inr (.inr ⟨j, hj, rfl⟩))
    refine ⟨fun r hr => List.mem_cons_of_mem _ (h.rows r hr), fun r hr => List.mem_cons_of_mem _ (h.off r (off_erase_busy hr)), ?_, ?_, fun r hr => h.due r (off_erase_busy hr)⟩
    · intro svc eid e t hc
      exact List.mem_cons_of_mem _ (h.called _ _ _ _ (by simpa using hc))
    · intro svc eid e ret' t sv hc
      rcases List.mem_cons.1 hc with hc | hc
      · cases hc; rw [← hco.busy j hj]; exact List.mem_cons_of_mem _ ho
      · exact List.mem_cons_of_mem _ (h.returned _ _ _ _ _ _ hc)
  | crash j hp => exact h.same (fun _ h => .inl h) (fun r hr => off_erase_busy hr) (Nat.le_refl _) rfl
  | cleanSelect svc t0 ht => exact h.same (fun _ h => .inl h) (fun _ h => h) (Nat.le_refl _) rfl
  | cleanRecs svc b rest hb hl => exact h.same (fun _ h => .inl (List.mem_of_mem_filter h)) (fun _ h => h) (Nat.le_refl _) rfl
  | cleanCount svc b rest hb => exact h.same (fun _ h => .inl h) (fun _ h => h) (Nat.le_refl _) rfl
  | cleanEvents svc d rest hd => exact h.same (fun _ h => .inl h) (fun _ h => h) (Nat.le_refl _) rfl
  | cleanDrop x => exact h.same (fun _ h => .inl h) (fun _ h => h) (Nat.le_refl _) rfl
  | expire r hr hl hp =>
    refine ⟨?_, fun r hr => List.mem_cons_of_mem _ (h.off r hr), ?_, ?_, h.due⟩
    · intro x hx
      rcases mem_saveRec.1 hx with ⟨rfl, -⟩ | ⟨hx, -⟩
      · exact List.mem_cons_of_mem _ (h.rows r hr)
      · exact List.mem_cons_of_mem _ (h.rows x hx)
    · intro svc eid e t hc
      exact List.mem_cons_of_mem _ (h.called _ _ _ _ (by simpa using hc))
    · intro svc eid e ret' t sv hc
      exact List.mem_cons_of_mem _ (h.returned _ _ _ _ _ _ (by simpa using hc))

/-- a locked row is locked once -/
def Once (s : State) : Prop := (s.busy.map fun j => j.t.r.id).Nodup

theorem once_step {c : Cfg} {pol : Pol} {s s' : State} (h : Once s) (hst : Step c pol s s') : Once s' := by
  have sub : ∀ l : List Job, l.Sublist s.busy → (l.map fun j => j.t.r.id).Nodup := fun l hl => h.sublist (hl.map _)
  cases hst with
  | call j hj hl hx hs hm hf =>
    refine List.nodup_cons.2 ⟨?_, h⟩
    intro hm
    obtain ⟨x, hx, heq⟩ := List.mem_map.1 hm
    exact hl ⟨x, hx, heq⟩
  | finish j ret hj t0 ht => exact sub _ List.erase_sublist
  | finishLost j ret hj hp t0 ht => exact sub _ List.erase_sublist
  | crash j hp => exact sub _ List.erase_sublist
  | _ => exact h

/-- other busy jobs have other rows -/
theorem Once.ne {s : State} (h : Once s) {j x : Job} (hj : j ∈ s.busy) (hx : x ∈ s.busy.erase j) : x.t.r.id ≠ j.t.r.id := by
  unfold Once at h
  have hp := List.perm_cons_erase hj
  rw [(hp.map _).nodup_iff] at h
  simp only [List.map_cons, List.nodup_cons] at h
  intro heq
  exact h.1 (heq ▸ List.mem_map_of_mem (f := fun j : Job => j.t.r.id) hx)

/-- while a handler is running, its record is as the worker read it -/
def Held (s : State) : Prop := ∀ j ∈ s.busy, j.t.r ∈ s.db.recs

theorem held_step {c : Cfg} {pol : Pol} (hfresh : pol.fresh = true) {s s' : State} (hon : Once s) (hco : Copies s) (h : Held s) (hst : Step c pol s s') : Held s' := by
  cases hst with
  | register svc =>
    have : (register s.db svc).recs = s.db.recs := by unfold register; split <;> rfl
    intro j hj
    show j.t.r ∈ (register s.db svc).recs
    rw [this]; exact h j hj
  | dispRecs ps svc todo hps hu => intro j hj; exact List.mem_append.2 (.inl (h j hj))
  | call j hj hl hx hs hm hf =>
    intro x hx
    rcases List.mem_cons.1 hx with rfl | hx
    · exact hf hfresh
    · exact h x hx
  | blocked j hj hl hx hs hm hf =>
    intro x hx
    refine mem_saveRec.2 (.inr ⟨h x hx, ?_⟩)
    intro heq; exact hl ⟨x, hx, heq⟩
  | finish j ret hj t0 ht =>
    intro x hx
    refine mem_saveRec.2 (.inr ⟨h x (List.mem_of_mem_erase hx), ?_⟩)
    rw [(afterCall_svc _ _ _ _).2.2]
    exact hon.ne hj hx
  | finishLost j ret hj hp t0 ht => intro x hx; exact h x (List.mem_of_mem_erase hx)
  | crash j hp => intro x hx; exact h x (List.mem_of_mem_erase hx)
  | cleanRecs svc b rest hb hl =>
    intro x hx
    simp only [deleteRecs, List.mem_filter]
    refine ⟨h x hx, ?_⟩
    simp only [Bool.not_eq_true', Bool.and_eq_false_imp, beq_iff_eq, decide_eq_false_iff_not]
    intro h1 h2
    exact hl _ (h x hx) h1 h2 ⟨x, hx, rfl⟩
  | expire r hr hl hp =>
    intro x hx
    refine mem_saveRec.2 (.inr ⟨h x hx, ?_⟩)
    intro heq; exact hl ⟨x, hx, heq⟩
  | _ => exact h

structure Inv (a : Nat) (s : State) : Prop where
  schema : Schema s
  copies : Copies s
  disps : Disps s
  trail : Trail a s
  once : Once s

theorem not_off_init (r : Rec) : ¬ Off State.init r := by
  intro hr
  rcases hr with ⟨x, hx, _⟩ | ⟨x, hx, _⟩ | ⟨x, hx, _⟩ <;> simp [State.init] at hx

theorem inv_init {a : Nat} : Inv a State.init := by
  obtain ⟨h1, h2⟩ := schema_reachable (Reachable.init (c := ⟨0, 0, 0, fun _ _ => none⟩) (pol := Pol.any 0))
  exact ⟨h1, h2, ⟨by simp [State.init], by simp [State.init], by simp [State.init], by simp [State.init], by simp [State.init], by simp [State.init], by simp [State.init]⟩,
    ⟨by simp [State.init], fun r h => absurd h (not_off_init r), by simp [State.init], by simp [State.init], fun r h => absurd h (not_off_init r)⟩, by simp [State.init, Once]⟩

theorem inv_step {c : Cfg} {pol : Pol} {s s' : State} (h : Inv pol.ahead s) (hst : Step c pol s s') : Inv pol.ahead s' :=
  ⟨schema_step h.schema hst, copies_step h.schema h.copies hst, disps_step h.disps hst, trail_step h.copies h.trail hst, once_step h.once hst⟩

theorem inv_reachable {c : Cfg} {pol : Pol} {s : State} (h : Reachable c pol s) : Inv pol.ahead s := by
  induction h with
  | init => exact inv_init
  | step _ hst ih => exact inv_step ih hst

theorem held_reachable {c : Cfg} {pol : Pol} (hf : pol.fresh = true) {s : State} (h : Reachable c pol s) : Held s := by
  induction h with
  | init => simp [State.init, Held]
  | step h1 hst ih => exact held_step hf (inv_reachable h1).once (inv_reachable h1).copies ih hst

/-- the log only grows -/
theorem log_step {c : Cfg} {pol : Pol} {s s' : State} (hst : Step c pol s s') : ∃ l, s'.log = l ++ s.log := by
  cases hst with
  | dispRecs ps svc todo hps hu => exact ⟨_, rfl⟩
  | call j hj hl hx hs hm hf => exact ⟨[_], rfl⟩
  | finish j ret hj t0 ht => exact ⟨[_], rfl⟩
  | finishLost j ret hj hp t0 ht => exact ⟨[_], rfl⟩
  | expire r hr hl hp => exact ⟨[_], rfl⟩
  | _ => exact ⟨[], rfl⟩

end Ddd.Bus
