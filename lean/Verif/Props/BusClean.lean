import Verif.Spec.BusClean
import Verif.Props.BusLTS
/-!
# C103: cleaning is safe next to everything else
-/
set_option linter.unusedVariables false
set_option linter.unusedSimpArgs false
namespace Ddd.Bus

theorem PromptReachable.reachable {c : Cfg} {pol : Pol} {s : State} (h : PromptReachable c pol s) : Reachable c pol s := by
  induction h with
  | init => exact .init
  | step _ hst _ ih => exact .step ih hst

theorem PromptReachable.prompt {c : Cfg} {pol : Pol} {s : State} (h : PromptReachable c pol s) : Prompt c pol.ahead s := by
  cases h with
  | init => exact ⟨by simp [State.init], by simp [State.init]⟩
  | step _ _ h => exact h

/-- a row of an event, in the table or in the memory of a dispatch -/
def Row (s : State) (a : EvRow) : Prop := a ∈ s.db.events ∨ ∃ d ∈ s.disps, a ∈ d.ps

/-- a record, in the table or in the memory of a worker -/
def Known (s : State) (r : Rec) : Prop := r ∈ s.db.recs ∨ Off s r

/-- all event IDs a cleaning deals with -/
def Clean.all : Clean → List Nat
  | .todo _ ids => ids
  | .counting _ b rest => b ++ rest
  | .deleting _ d rest => d ++ rest

/-- the event IDs whose rows are about to be deleted -/
def Clean.doomed : Clean → List Nat
  | .deleting _ d _ => d
  | _ => []

structure Tidy (c : Cfg) (ah : Nat) (s : State) : Prop where
  rows : ∀ a b, Row s a → Row s b → a.id = b.id → a = b
  fresh : ∀ a, Row s a → a.id < s.db.nextEv
  known : ∀ r, Known s r → r.eventId < s.db.nextEv ∧ ∀ a, Row s a → a.id = r.eventId → a.ev.created = r.created
  disp : ∀ d ∈ s.disps, ∀ p ∈ d.unfinished, p ∈ s.db.events
  recs : ∀ r ∈ s.db.recs, ∃ e ∈ s.db.events, e.id = r.eventId
  scan : ∀ sc ∈ s.scans, ∀ r ∈ sc.recs, ∃ e ∈ s.db.events, e.id = r.eventId
  clean : ∀ x ∈ s.cleans, ∀ i ∈ x.all, i < s.db.nextEv ∧ ∀ a, Row s a → a.id = i → a.ev.created + c.retention < s.now + ah
  doomed : ∀ x ∈ s.cleans, ∀ i ∈ x.doomed, ∀ r ∈ s.db.recs, r.eventId ≠ i

theorem unfinished_sub {d : Disp} {p : EvRow} (h : p ∈ d.unfinished) : p ∈ d.ps := by
  cases d with
  | inserted ps => exact h
  | listed ps todo => simp only [Disp.unfinished] at h; split at h <;> simp_all [Disp.ps]

/-- nothing new, except time -/
theorem Tidy.same {c : Cfg} {ah : Nat} {s s' : State} (h : Tidy c ah s) (hn : s.now ≤ s'.now) (he : s'.db.events = s.db.events) (hr : s'.db.recs = s.db.recs) (hx : s'.db.nextEv = s.db.nextEv)
    (hd : ∀ d ∈ s'.disps, ∃ d' ∈ s.disps, d.ps = d'.ps ∧ ∀ p ∈ d.unfinished, p ∈ d'.unfinished) (ho : ∀ r, Off s' r → Off s r) (hsc : ∀ sc ∈ s'.scans, ∀ r ∈ sc.recs, ∃ sc ∈ s.scans, r ∈ sc.recs)
    (hc : ∀ x ∈ s'.cleans, x ∈ s.cleans ∨ x.doomed = [] ∧ ∀ i ∈ x.all, ∃ y ∈ s.cleans, i ∈ y.all) : Tidy c ah s' := by
  have hrow : ∀ a, Row s' a → Row s a := by
    rintro a (ha | ⟨d, hd', ha⟩)
    · exact .inl (he ▸ ha)
    · obtain ⟨d', h1, h2, -⟩ := hd d hd'
      exact .inr ⟨d', h1, h2 ▸ ha⟩
  have hkn : ∀ r, Known s' r → Known s r := by
    rintro r (h | h)
    · exact .inl (hr ▸ h)
    · exact .inr (ho r h)
  refine ⟨fun a b ha hb => h.rows a b (hrow a ha) (hrow b hb), ?_, ?_, ?_, ?_, ?_, ?_, ?_⟩
  · rw [hx]; exact fun a ha => h.fresh a (hrow a ha)
  · rw [hx]; exact fun r hr => ⟨(h.known r (hkn r hr)).1, fun a ha => (h.known r (hkn r hr)).2 a (hrow a ha)⟩
  · rw [he]; intro d hd' p hp
    obtain ⟨d', h1, -, h2⟩ := hd d hd'
    exact h.disp d' h1 p (h2 p hp)
  · rw [he, hr]; exact h.recs
  · rw [he]; intro sc hs r hr
    obtain ⟨sc', h1, h2⟩ := hsc sc hs r hr
    exact h.scan sc' h1 r h2
  · rw [hx]; intro x hx' i hi
    have : ∃ y ∈ s.cleans, i ∈ y.all := by
      rcases hc x hx' with h | ⟨-, h⟩
      · exact ⟨x, h, hi⟩
      · exact h i hi
    obtain ⟨y, hy, hi⟩ := this
    have := h.clean y hy i hi
    exact ⟨this.1, fun a ha hai => Nat.lt_of_lt_of_le (this.2 a (hrow a ha) hai) (Nat.add_le_add_right hn ah)⟩
  · rw [hr]; intro x hx' i hi
    rcases hc x hx' with h1 | ⟨h1, -⟩
    · exact h.doomed x h1 i hi
    · rw [h1] at hi; simp at hi

theorem tidy_saveRec {c : Cfg} {ah : Nat} {s s' : State} {r : Rec} (h : Tidy c ah s) (hr : ∃ r', Known s r' ∧ r.eventId = r'.eventId ∧ r.created = r'.created) (hk : ∀ x ∈ s.db.recs, x.id = r.id → x.key = r.key)
    (hn : s'.now = s.now) (hdb : s'.db = saveRec s.db r) (hd : s'.disps = s.disps) (ho : ∀ r, Off s' r → Off s r) (hsc : s'.scans = s.scans) (hc : s'.cleans = s.cleans) : Tidy c ah s' := by
  obtain ⟨r', hr', hi, hcr⟩ := hr
  have hrow : ∀ a, Row s' a ↔ Row s a := by intro a; unfold Row; rw [hdb, hd]; rfl
  have hev : (saveRec s.db r).events = s.db.events := rfl
  have hnx : (saveRec s.db r).nextEv = s.db.nextEv := rfl
  have hsome : ∀ x ∈ (saveRec s.db r).recs, ∃ y ∈ s.db.recs, y.eventId = x.eventId := by
    intro x hx
    rcases mem_saveRec.1 hx with ⟨rfl, y, hy, hid⟩ | ⟨hx, -⟩
    · exact ⟨y, hy, (Rec.key_eq.1 (hk y hy hid)).2.2⟩
    · exact ⟨x, hx, rfl⟩
  refine ⟨?_, ?_, ?_, ?_, ?_, ?_, ?_, ?_⟩
  · intro a b ha hb; exact h.rows a b ((hrow a).1 ha) ((hrow b).1 hb)
  · rw [hdb, hnx]; exact fun a ha => h.fresh a ((hrow a).1 ha)
  · rw [hdb, hnx]
    intro x hx
    have : ∃ y, Known s y ∧ x.eventId = y.eventId ∧ x.created = y.created := by
      rcases hx with hx | hx
      · rw [hdb] at hx
        rcases mem_saveRec.1 hx with ⟨rfl, -⟩ | ⟨hx, -⟩
        · exact ⟨r', hr', hi, hcr⟩
        · exact ⟨x, .inl hx, rfl, rfl⟩
      · exact ⟨x, .inr (ho x hx), rfl, rfl⟩
    obtain ⟨y, hy, h1, h2⟩ := this
    rw [h1, h2]
    exact ⟨(h.known y hy).1, fun a ha => (h.known y hy).2 a ((hrow a).1 ha)⟩
  · rw [hdb, hd]; exact h.disp
  · rw [hdb]; intro x hx
    obtain ⟨y, hy, hyx⟩ := hsome x hx
    rw [← hyx]; exact h.recs y hy
  · rw [hdb, hsc]; exact h.scan
  · rw [hdb, hc, hn, hnx]; intro x hx i hi
    exact ⟨(h.clean x hx i hi).1, fun a ha => (h.clean x hx i hi).2 a ((hrow a).1 ha)⟩
  · rw [hdb, hc]; intro x hx i hi y hy
    obtain ⟨z, hz, hzy⟩ := hsome y hy
    rw [← hzy]; exact h.doomed x hx i hi z hz

theorem afterCall_created (st : Strategy) (now : Nat) (r : Rec) (ret : Ret) : (afterCall st now r ret).created = r.created := by
  cases ret <;> simp only [afterCall, retryStep] <;> (try split) <;> rfl

theorem off_of_scan {s : State} {sc : Scan} (h : sc ∈ s.scans) {r : Rec} (hr : r ∈ sc.recs) : Off s r := .inl ⟨sc, h, hr⟩

theorem tidy_step {c : Cfg} {pol : Pol} {s s' : State} (hsch : Schema s) (hp : Prompt c pol.ahead s) (h : Tidy c pol.ahead s) (hst : Step c pol s s') : Tidy c pol.ahead s' := by
  have dsame : ∀ d ∈ s.disps, ∃ d' ∈ s.disps, d.ps = d'.ps ∧ ∀ p ∈ d.unfinished, p ∈ d'.unfinished := fun d hd => ⟨d, hd, rfl, fun _ h => h⟩
  have ssame : ∀ sc ∈ s.scans, ∀ r ∈ sc.recs, ∃ sc ∈ s.scans, r ∈ sc.recs := fun sc hs r hr => ⟨sc, hs, hr⟩
  cases hst with
  | tick d => exact h.same (Nat.le_add_right ..) rfl rfl rfl dsame (fun _ h => h) ssame fun _ h => .inl h
  | txBegin svc timeout es he t0 ht => exact h.same (Nat.le_refl _) rfl rfl rfl dsame (fun _ h => h) ssame fun _ h => .inl h
  | txDelete tid => exact h.same (Nat.le_refl _) rfl rfl rfl dsame (fun _ h => h) ssame fun _ h => .inl h
  | register svc =>
    have e1 : (register s.db svc).events = s.db.events ∧ (register s.db svc).recs = s.db.recs ∧ (register s.db svc).nextEv = s.db.nextEv := by
      unfold register; split <;> exact ⟨rfl, rfl, rfl⟩
    exact h.same (Nat.le_refl _) e1.1 e1.2.1 e1.2.2 dsame (fun _ h => h) ssame fun _ h => .inl h
  | dispInsert tid es he =>
    have hrow : ∀ a, Row { s with db := insertEvents s.db tid es, disps := Disp.inserted (newEvents s.db.nextEv tid es) :: s.disps } a →
        Row s a ∨ a ∈ newEvents s.db.nextEv tid es := by
      rintro a (ha | ⟨d, hd, ha⟩)
      · rcases List.mem_append.1 ha with ha | ha
        · exact .inl (.inl ha)
        · exact .inr ha
      · rcases List.mem_cons.1 hd with rfl | hd
        · exact .inr ha
        · exact .inl (.inr ⟨d, hd, ha⟩)
    have hnew : ∀ a ∈ newEvents s.db.nextEv tid es, s.db.nextEv ≤ a.id ∧ a.id < s.db.nextEv + es.length := by
      intro a ha
      have : a.id ∈ (newEvents s.db.nextEv tid es).map EvRow.id := List.mem_map_of_mem ha
      rw [newEvents_ids, List.mem_range'_1] at this
      exact this
    have hnd : ((newEvents s.db.nextEv tid es).map EvRow.id).Nodup := by rw [newEvents_ids]; exact List.nodup_range'
    have hnx : (insertEvents s.db tid es).nextEv = s.db.nextEv + es.length := rfl
    have hev : ∀ e, e ∈ s.db.events → e ∈ (insertEvents s.db tid es).events := fun e he => List.mem_append_left _ he
    refine ⟨?_, ?_, ?_, ?_, ?_, ?_, ?_, ?_⟩
    · intro a b ha hb hab
      rcases hrow a ha with ha | ha <;> rcases hrow b hb with hb | hb
      · exact h.rows a b ha hb hab
      · have := h.fresh a ha; have := hnew b hb; omega
      · have := h.fresh b hb; have := hnew a ha; omega
      · exact List.inj_on_of_nodup_map hnd ha hb hab
    · intro a ha
      rcases hrow a ha with ha | ha
      · have := h.fresh a ha; simp only [hnx]; omega
      · exact (hnew a ha).2
    · intro r hr
      have h1 := h.known r hr
      refine ⟨by simp only [hnx]; omega, ?_⟩
      intro a ha hi
      rcases hrow a ha with ha | ha
      · exact h1.2 a ha hi
      · have := hnew a ha; omega
    · intro d hd p hp'
      rcases List.mem_cons.1 hd with rfl | hd
      · exact List.mem_append_right _ hp'
      · exact hev p (h.disp d hd p hp')
    · intro r hr
      obtain ⟨e, he, hi⟩ := h.recs r hr
      exact ⟨e, hev e he, hi⟩
    · intro sc hs r hr
      obtain ⟨e, he, hi⟩ := h.scan sc hs r hr
      exact ⟨e, hev e he, hi⟩
    · intro x hx i hi
      have h1 := h.clean x hx i hi
      refine ⟨by simp only [hnx]; omega, ?_⟩
      intro a ha hai
      rcases hrow a ha with ha | ha
      · exact h1.2 a ha hai
      · have := hnew a ha; omega
    · exact h.doomed
  | dispList ps hps =>
    refine h.same (Nat.le_refl _) rfl rfl rfl ?_ (fun _ h => h) ssame fun _ h => .inl h
    intro d hd
    rcases List.mem_cons.1 hd with rfl | hd
    · refine ⟨_, hps, rfl, fun p hp => ?_⟩
      exact unfinished_sub hp
    · exact ⟨d, List.mem_of_mem_erase hd, rfl, fun _ h => h⟩
  | dispRecs ps svc todo hps hu =>
    have hopen : ∀ p ∈ ps, p ∈ (Disp.listed ps (svc :: todo)).unfinished := by intro p hp; simpa [Disp.unfinished] using hp
    have hrow : ∀ a, Row { s with db := insertRecs s.db svc ps, disps := Disp.listed ps todo :: s.disps.erase (.listed ps (svc :: todo)), log := ps.map (fun p => .stored svc p.id) ++ s.log } a → Row s a := by
      rintro a (ha | ⟨d, hd, ha⟩)
      · exact .inl ha
      · rcases List.mem_cons.1 hd with rfl | hd
        · exact .inr ⟨_, hps, ha⟩
        · exact .inr ⟨d, List.mem_of_mem_erase hd, ha⟩
    refine ⟨fun a b ha hb => h.rows a b (hrow a ha) (hrow b hb), fun a ha => h.fresh a (hrow a ha), ?_, ?_, ?_, h.scan, ?_, ?_⟩
    · intro r hr
      have : Known s r ∨ r ∈ newRecs s.db.nextRec svc ps := by
        rcases hr with hr | hr
        · rcases List.mem_append.1 hr with hr | hr
          · exact .inl (.inl hr)
          · exact .inr hr
        · exact .inl (.inr hr)
      rcases this with hr | hr
      · exact ⟨(h.known r hr).1, fun a ha => (h.known r hr).2 a (hrow a ha)⟩
      · obtain ⟨p, hp1, hp2⟩ := newRecs_fresh hr
        have hpr : Row s p := .inr ⟨_, hps, hp1⟩
        refine ⟨by rw [hp2.2.1]; exact h.fresh p hpr, ?_⟩
        intro a ha hi
        have := h.rows a p (hrow a ha) hpr (hi.trans hp2.2.1)
        subst this
        exact hp2.2.2.2.2.2.symm
    · intro d hd p hp'
      rcases List.mem_cons.1 hd with rfl | hd
      · exact h.disp _ hps p (hopen p (unfinished_sub hp'))
      · exact h.disp d (List.mem_of_mem_erase hd) p hp'
    · intro r hr
      rcases List.mem_append.1 hr with hr | hr
      · exact h.recs r hr
      · obtain ⟨p, hp1, hp2⟩ := newRecs_fresh hr
        exact ⟨p, h.disp _ hps p (hopen p hp1), hp2.2.1.symm⟩
    · intro x hx i hi
      exact ⟨(h.clean x hx i hi).1, fun a ha => (h.clean x hx i hi).2 a (hrow a ha)⟩
    · intro x hx i hi r hr
      rcases List.mem_append.1 hr with hr | hr
      · exact h.doomed x hx i hi r hr
      · obtain ⟨p, hp1, hp2⟩ := newRecs_fresh hr
        intro hri
        have hall : i ∈ x.all := by cases x <;> simp_all [Clean.doomed, Clean.all]
        have h1 := (h.clean x hx i hall).2 p (.inr ⟨_, hps, hp1⟩) (hp2.2.1.symm.trans hri)
        have h2 := hp.disp _ hps p (hopen p hp1)
        omega
  | dispDrop d => exact h.same (Nat.le_refl _) rfl rfl rfl (fun d hd => dsame d (List.mem_of_mem_erase hd)) (fun _ h => h) ssame fun _ h => .inl h
  | scanBegin svc start t0 ht hs =>
    refine h.same (Nat.le_refl _) rfl rfl rfl dsame ?_ ?_ fun _ h => .inl h
    · rintro r (⟨x, hx, hr⟩ | hr | hr)
      · rcases List.mem_cons.1 hx with rfl | hx
        · simp [Scan.recs] at hr
        · exact .inl ⟨x, hx, hr⟩
      · exact .inr (.inl hr)
      · exact .inr (.inr hr)
    · intro sc hs' r hr
      rcases List.mem_cons.1 hs' with rfl | hs'
      · simp [Scan.recs] at hr
      · exact ⟨sc, hs', hr⟩
  | scanOffset svc start r0 hs h0 =>
    refine h.same (Nat.le_refl _) rfl rfl rfl dsame (fun r hr => off_scan_nil (by rfl) hr) ?_ fun _ h => .inl h
    intro sc hs' r hr
    rcases List.mem_cons.1 hs' with rfl | hs'
    · simp [Scan.recs] at hr
    · exact ⟨sc, List.mem_of_mem_erase hs', hr⟩
  | scanRows svc start off hs t0 ht =>
    refine ⟨h.rows, h.fresh, ?_, h.disp, h.recs, ?_, h.clean, h.doomed⟩
    · intro r hr
      refine h.known r ?_
      rcases hr with hr | hr
      · exact .inl hr
      · rcases off_scanRows ht hr with hr | hr
        · exact .inr hr
        · exact .inl hr.1
    · intro sc hs' r hr
      rcases List.mem_cons.1 hs' with rfl | hs'
      · have hr := List.mem_of_mem_take hr
        exact h.recs r (mem_pendingFrom.1 (List.mem_of_mem_filter hr)).1
      · exact h.scan sc (List.mem_of_mem_erase hs') r hr
  | scanEvents svc start rs hs hc =>
    exact h.same (Nat.le_refl _) rfl rfl rfl dsame (fun r hr => off_scanEvents hs hr) (fun sc hs' => ssame sc (List.mem_of_mem_erase hs')) fun _ h => .inl h
  | scanDrop sc => exact h.same (Nat.le_refl _) rfl rfl rfl dsame (fun r hr => off_erase_scan hr) (fun sc hs' => ssame sc (List.mem_of_mem_erase hs')) fun _ h => .inl h
  | call j hj hl hx hs hm hf => exact h.same (Nat.le_refl _) rfl rfl rfl dsame (fun r hr => off_call hj hr) ssame fun _ h => .inl h
  | blocked j hj hl hx hs hm hf =>
    have ho : Off s j.t.r := .inr (.inl ⟨j, hj, rfl⟩)
    exact tidy_saveRec h ⟨_, .inr ho, rfl, rfl⟩ (hsch.off _ ho).2 rfl rfl rfl (fun r hr => off_erase_pend hr) rfl rfl
  | jobDrop j => exact h.same (Nat.le_refl _) rfl rfl rfl dsame (fun r hr => off_erase_pend hr) ssame fun _ h => .inl h
  | finish j ret hj t0 ht =>
    have ho : Off s j.t.r := .inr (.inr ⟨j, hj, rfl⟩)
    have hk := afterCall_key c.strategy t0 j.t.r ret
    refine tidy_saveRec (r := afterCall c.strategy t0 j.t.r ret) h ⟨_, .inr ho, (Rec.key_eq.1 hk).2.2, afterCall_created ..⟩ ?_ rfl rfl rfl (fun r hr => off_erase_busy hr) rfl rfl
    intro x hx hi
    rw [hk]
    exact (hsch.off _ ho).2 x hx (by rw [hi]; exact (Rec.key_eq.1 hk).1)
  | finishLost j ret hj hp t0 ht => exact h.same (Nat.le_refl _) rfl rfl rfl dsame (fun r hr => off_erase_busy hr) ssame fun _ h => .inl h
  | crash j hp => exact h.same (Nat.le_refl _) rfl rfl rfl dsame (fun r hr => off_erase_busy hr) ssame fun _ h => .inl h
  | cleanSelect svc t0 ht =>
    refine ⟨h.rows, h.fresh, h.known, h.disp, h.recs, h.scan, ?_, ?_⟩
    · intro x hx i hi
      rcases List.mem_cons.1 hx with rfl | hx
      · simp only [Clean.all, cleanable, List.mem_map, List.mem_filter, Bool.and_eq_true, decide_eq_true_eq] at hi
        obtain ⟨r, ⟨hr, -, hold⟩, rfl⟩ := hi
        have hk := h.known r (.inl hr)
        refine ⟨hk.1, ?_⟩
        intro a ha hai
        rw [hk.2 a ha hai]
        exact Nat.lt_of_lt_of_le hold ht
      · exact h.clean x hx i hi
    · intro x hx i hi
      rcases List.mem_cons.1 hx with rfl | hx
      · simp [Clean.doomed] at hi
      · exact h.doomed x hx i hi
  | cleanRecs svc b rest hb hl =>
    have hsub : ∀ r ∈ (deleteRecs s.db svc b).recs, r ∈ s.db.recs := fun r hr => List.mem_of_mem_filter hr
    refine ⟨h.rows, h.fresh, ?_, h.disp, fun r hr => h.recs r (hsub r hr), h.scan, ?_, ?_⟩
    · intro r hr
      refine h.known r ?_
      rcases hr with hr | hr
      · exact .inl (hsub r hr)
      · exact .inr hr
    · intro x hx i hi
      rcases List.mem_cons.1 hx with rfl | hx
      · exact h.clean _ hb i hi
      · exact h.clean x (List.mem_of_mem_erase hx) i hi
    · intro x hx i hi r hr
      rcases List.mem_cons.1 hx with rfl | hx
      · simp [Clean.doomed] at hi
      · exact h.doomed x (List.mem_of_mem_erase hx) i hi r (hsub r hr)
  | cleanCount svc b rest hb =>
    refine ⟨h.rows, h.fresh, h.known, h.disp, h.recs, h.scan, ?_, ?_⟩
    · intro x hx i hi
      rcases List.mem_cons.1 hx with rfl | hx
      · refine h.clean _ hb i ?_
        simp only [Clean.all, unreferenced, List.mem_append, List.mem_filter] at hi ⊢
        exact hi.imp And.left id
      · exact h.clean x (List.mem_of_mem_erase hx) i hi
    · intro x hx i hi r hr
      rcases List.mem_cons.1 hx with rfl | hx
      · simp only [Clean.doomed, unreferenced, List.mem_filter] at hi
        intro hri
        have := hi.2
        simp only [Bool.not_eq_true', List.any_eq_false, beq_iff_eq] at this
        exact this r hr hri
      · exact h.doomed x (List.mem_of_mem_erase hx) i hi r hr
  | cleanEvents svc d rest hd =>
    have hsub : ∀ e ∈ (deleteEvents s.db d).events, e ∈ s.db.events := fun e he => List.mem_of_mem_filter he
    have hkeep : ∀ e ∈ s.db.events, e.id ∉ d → e ∈ (deleteEvents s.db d).events := fun e he hn => by simp [deleteEvents, he, hn]
    have hrow : ∀ a, Row { s with cleans := Clean.todo svc rest :: s.cleans.erase (.deleting svc d rest), db := deleteEvents s.db d } a → Row s a := by
      rintro a (ha | ha)
      · exact .inl (hsub a ha)
      · exact .inr ha
    have hold : ∀ a, Row s a → a.id ∈ d → a.ev.created + c.retention < s.now + pol.ahead := by
      intro a ha hi
      exact (h.clean _ hd a.id (by simp [Clean.all, hi])).2 a ha rfl
    refine ⟨fun a b ha hb => h.rows a b (hrow a ha) (hrow b hb), fun a ha => h.fresh a (hrow a ha), ?_, ?_, ?_, ?_, ?_, ?_⟩
    · intro r hr
      exact ⟨(h.known r hr).1, fun a ha => (h.known r hr).2 a (hrow a ha)⟩
    · intro x hx p hpx
      refine hkeep p (h.disp x hx p hpx) fun hi => ?_
      have h1 := hold p (.inr ⟨x, hx, unfinished_sub hpx⟩) hi
      have h2 := hp.disp x hx p hpx
      omega
    · intro r hr
      obtain ⟨e, he, hi⟩ := h.recs r hr
      exact ⟨e, hkeep e he fun hid => h.doomed _ hd e.id hid r hr hi.symm, hi⟩
    · intro sc hs r hr
      obtain ⟨e, he, hi⟩ := h.scan sc hs r hr
      refine ⟨e, hkeep e he fun hid => ?_, hi⟩
      have h1 := hold e (.inl he) hid
      rw [(h.known r (.inr (off_of_scan hs hr))).2 e (.inl he) hi] at h1
      have h2 := hp.scan sc hs r (by cases sc <;> simp_all [Scan.recs, Scan.unpaired])
      omega
    · intro x hx i hi
      have : ∃ y ∈ s.cleans, i ∈ y.all := by
        rcases List.mem_cons.1 hx with rfl | hx
        · exact ⟨_, hd, by simp only [Clean.all] at hi ⊢; simp [hi]⟩
        · exact ⟨x, List.mem_of_mem_erase hx, hi⟩
      obtain ⟨y, hy, hiy⟩ := this
      exact ⟨(h.clean y hy i hiy).1, fun a ha => (h.clean y hy i hiy).2 a (hrow a ha)⟩
    · intro x hx i hi
      rcases List.mem_cons.1 hx with rfl | hx
      · simp [Clean.doomed] at hi
      · exact h.doomed x (List.mem_of_mem_erase hx) i hi
  | cleanDrop x => exact h.same (Nat.le_refl _) rfl rfl rfl dsame (fun _ h => h) ssame fun _ h => .inl (List.mem_of_mem_erase h)
  | expire r hr hl hp =>
    refine tidy_saveRec (r := { r with status := .expired }) h ⟨r, .inl hr, rfl, rfl⟩ ?_ rfl rfl rfl (fun _ h => h) rfl rfl
    intro x hx hi
    have : x = r := List.inj_on_of_nodup_map hsch.ids hx hr hi
    subst this; rfl

theorem tidy_reachable {c : Cfg} {pol : Pol} {s : State} (h : PromptReachable c pol s) : Tidy c pol.ahead s := by
  induction h with
  | init =>
    refine ⟨?_, ?_, ?_, by simp [State.init], by simp [State.init], by simp [State.init], by simp [State.init], by simp [State.init]⟩
    · rintro a b (h | ⟨d, h, _⟩) <;> simp [State.init] at h
    · rintro a (h | ⟨d, h, _⟩) <;> simp [State.init] at h
    · rintro r (h | ⟨x, h, _⟩ | ⟨x, h, _⟩ | ⟨x, h, _⟩) <;> simp [State.init] at h
  | step h1 hst _ ih => exact tidy_step (schema_reachable h1.reachable).1 h1.prompt ih hst

/-! ## the theorems -/

/-- Whatever is going on, the event of every stored delivery record is there: no record is left without its event. -/
theorem C103_events_kept {c : Cfg} {pol : Pol} {s : State} (h : PromptReachable c pol s) : ∀ r ∈ s.db.recs, ∃ e ∈ s.db.events, e.id = r.eventId :=
  (tidy_reachable h).recs

/-- An event disappears only when no record of any service references it, no dispatch under way is going to, and it is older than the retention time. -/
theorem C103_removed {c : Cfg} {pol : Pol} {s s' : State} (h : PromptReachable c pol s) (hst : Step c pol s s') {e : EvRow} (he : e ∈ s.db.events) (hgone : e ∉ s'.db.events) :
    (∀ r ∈ s.db.recs, r.eventId ≠ e.id) ∧ (∀ d ∈ s.disps, e ∉ d.unfinished) ∧ e.ev.created + c.retention < s.now + pol.ahead := by
  have ht := tidy_reachable h
  have hp := h.prompt
  cases hst with
  | cleanEvents svc d rest hd =>
    have hi : e.id ∈ d := by
      by_cases hn : e.id ∈ d
      · exact hn
      · exact absurd (by simp [deleteEvents, he, hn]) hgone
    have hold := (ht.clean _ hd e.id (by simp [Clean.all, hi])).2 e (.inl he) rfl
    refine ⟨fun r hr => ht.doomed _ hd e.id hi r hr, ?_, hold⟩
    intro x hx hu
    have := hp.disp x hx e hu
    omega
  | register svc =>
    exfalso; apply hgone
    show e ∈ (register s.db svc).events
    unfold register; split <;> exact he
  | dispInsert tid es hes => exact absurd (List.mem_append_left _ he) hgone
  | _ => exact absurd he hgone

/-- Nobody ever reads the events of a scan when one of them is gone: the assumption `calm` of C40 and the following holds by itself. -/
theorem C103_calm {c : Cfg} {pol : Pol} {s : State} (h : PromptReachable c pol s) : Reachable c { pol with calm := true } s := by
  induction h with
  | init => exact .init
  | step h1 hst _ ih =>
    have ht := tidy_reachable h1
    refine .step ih ?_
    cases hst with
    | scanEvents svc start rs hs hc => exact .scanEvents _ svc start rs hs fun _ r hr => ht.scan _ hs r hr
    | tick d => exact .tick _ d
    | txBegin svc timeout es he t0 ht => exact .txBegin _ _ _ _ he _ ht
    | txDelete tid => exact .txDelete ..
    | register svc => exact .register ..
    | dispInsert tid es he => exact .dispInsert _ _ _ he
    | dispList ps hps => exact .dispList _ _ hps
    | dispRecs ps svc todo hps hu => exact .dispRecs _ _ _ _ hps hu
    | dispDrop d => exact .dispDrop ..
    | scanBegin svc start t0 ht hs => exact .scanBegin _ _ _ _ ht hs
    | scanOffset svc start r0 hs h0 => exact .scanOffset _ _ _ _ hs h0
    | scanRows svc start off hs t0 ht => exact .scanRows _ _ _ _ hs _ ht
    | scanDrop sc => exact .scanDrop ..
    | call j hj hl hx hs hm hf => exact .call _ j hj hl hx hs hm hf
    | blocked j hj hl hx hs hm hf => exact .blocked _ j hj hl hx hs hm hf
    | jobDrop j => exact .jobDrop ..
    | finish j ret hj t0 ht => exact .finish _ j ret hj t0 ht
    | finishLost j ret hj hp t0 ht => exact Step.finishLost (pol := { pol with calm := true }) _ j ret hj hp t0 ht
    | crash j hp => exact Step.crash (pol := { pol with calm := true }) _ j hp
    | cleanSelect svc t0 ht => exact .cleanSelect _ _ _ ht
    | cleanRecs svc b rest hb hl => exact .cleanRecs _ _ _ _ hb hl
    | cleanCount svc b rest hb => exact .cleanCount _ _ _ _ hb
    | cleanEvents svc d rest hd => exact .cleanEvents _ _ _ _ hd
    | cleanDrop x => exact .cleanDrop ..
    | expire r hr hl hp => exact Step.expire (pol := { pol with calm := true }) _ r hr hl hp

/-- Hence no delivery is lost, without any assumption on how workers and cleaners interleave: it is pending, or was handled, or failed until the strategy gave up, or was expired by hand. -/
theorem C103_no_loss {c : Cfg} {pol : Pol} (hcount : Counting c.strategy) {s : State} (h : PromptReachable c pol s) {svc eid : Nat} (hs : .stored svc eid ∈ s.log) :
    (∃ r ∈ s.db.recs, r.service = svc ∧ r.eventId = eid ∧ r.status = .init ∧ ∃ e ∈ s.db.events, e.id = eid) ∨
      HandledOk s.log svc eid ∨ GivesUp c.strategy (failures s.log svc eid) ∨ .expired svc eid ∈ s.log := by
  rcases C40_no_loss_partial (by rfl) hcount (C103_calm h) hs with ⟨r, hr, h1, h2, h3⟩ | h2
  · obtain ⟨e, he, hi⟩ := C103_events_kept h r hr
    exact .inl ⟨r, hr, h1, h2, h3, e, he, hi.trans h2⟩
  · exact .inr h2

/-- And an event disappears only after every service that a record of it was stored for has handled it successfully. -/
theorem C103_removed_handled {c : Cfg} {pol : Pol} (hcount : Counting c.strategy) {s s' : State} (h : PromptReachable c pol s) (hst : Step c pol s s') {e : EvRow} (he : e ∈ s.db.events)
    (hgone : e ∉ s'.db.events) : ∀ svc, .stored svc e.id ∈ s.log → HandledOk s.log svc e.id := by
  intro svc hs
  refine C40_removed_after_success_partial (by rfl) hcount (C103_calm h) hs ?_
  rintro r hr ⟨-, hi⟩
  exact (C103_removed h hst he hgone).1 r hr hi

end Ddd.Bus
