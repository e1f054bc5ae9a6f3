import Verif.Proofs.BusLTS
/-!
# Scripts: concrete executions of the MySQL event bus, used by examples and counterexamples
-/
set_option linter.unusedVariables false
namespace Ddd.Bus

/-- Steps as data. -/
inductive Act where
  | tick (d : Nat)
  | register (svc : Nat)
  | insert (es : List DEv)
  | list (ps : List EvRow)
  | recs (ps : List EvRow) (svc : Nat) (todo : List Nat)
  | scanBegin (svc : Nat)
  | scanOffset (svc start : Nat)
  | scanRows (svc start off : Nat)
  | scanEvents (svc start : Nat) (rs : List Rec)
  | call (j : Job)
  | blocked (j : Job)
  | jobDrop (j : Job)
  | finish (j : Job) (ret : Ret)
  | finishLost (j : Job) (ret : Ret)
  | cleanSelect (svc : Nat)
  | cleanRecs (svc : Nat) (b rest : List Nat)
  | cleanCount (svc : Nat) (b rest : List Nat)
  | cleanEvents (svc : Nat) (d rest : List Nat)
  | expire (r : Rec)

instance (s : State) (rid : Nat) : Decidable (s.locked rid) := by unfold State.locked; infer_instance

/-- execute one step if it is possible -/
def Act.run (c : Cfg) (pol : Pol) (s : State) : Act → Option State
  | .tick d => some { s with now := s.now + d }
  | .register svc => some { s with db := Bus.register s.db svc }
  | .insert es => if es ≠ [] then some { s with db := insertEvents s.db 0 es, disps := .inserted (newEvents s.db.nextEv 0 es) :: s.disps } else none
  | .list ps => if .inserted ps ∈ s.disps then some { s with disps := .listed ps s.db.services :: s.disps.erase (.inserted ps) } else none
  | .recs ps svc todo =>
    if .listed ps (svc :: todo) ∈ s.disps ∧ ∀ r ∈ s.db.recs, r.service = svc → ∀ p ∈ ps, r.eventId ≠ p.id then
      some { s with db := insertRecs s.db svc ps, disps := .listed ps todo :: s.disps.erase (.listed ps (svc :: todo)), log := ps.map (fun p => .stored svc p.id) ++ s.log } else none
  | .scanBegin svc =>
    match scanStart s.db c.window s.now with
    | some start => some { s with scans := .begun svc start :: s.scans }
    | none => none
  | .scanOffset svc start =>
    if .begun svc start ∈ s.scans then
      match (pendingFrom s.db svc start).head? with
      | some r0 => some { s with scans := .offset svc start (Bus.scanOffset start r0) :: s.scans.erase (.begun svc start) }
      | none => none
    else none
  | .scanRows svc start off =>
    if .offset svc start off ∈ s.scans then
      some { s with scans := .rows svc start (((pendingFrom s.db svc off).filter fun r => decide (r.next ≤ s.now)).take c.limit) :: s.scans.erase (.offset svc start off) } else none
  | .scanEvents svc start rs =>
    if .rows svc start rs ∈ s.scans ∧ (pol.calm = true → ∀ r ∈ rs, ∃ e ∈ s.db.events, e.id = r.eventId) then
      some { s with scans := s.scans.erase (.rows svc start rs), pend := (pairUp s.db rs).map (fun t => ⟨svc, start, t⟩) ++ s.pend } else none
  | .call j =>
    if j ∈ s.pend ∧ ¬ s.locked j.t.r.id ∧ (∃ x ∈ s.db.recs, x.id = j.t.r.id) ∧ j.t.r.status = .init ∧ mayCall s.db j.svc j.start j.t.e = true ∧ (pol.fresh = true → j.t.r ∈ s.db.recs) then
      some { s with pend := s.pend.erase j, busy := j :: s.busy, log := .called j.svc j.t.r.eventId j.t.e s.now :: s.log } else none
  | .blocked j =>
    if j ∈ s.pend ∧ ¬ s.locked j.t.r.id ∧ (∃ x ∈ s.db.recs, x.id = j.t.r.id) ∧ j.t.r.status = .init ∧ mayCall s.db j.svc j.start j.t.e = false ∧ (pol.fresh = true → j.t.r ∈ s.db.recs) then
      some { s with pend := s.pend.erase j, db := saveRec s.db j.t.r } else none
  | .jobDrop j => some { s with pend := s.pend.erase j }
  | .finish j ret =>
    if j ∈ s.busy ∧ j.t.r.next ≤ s.now then
      some { s with busy := s.busy.erase j, db := saveRec s.db (afterCall c.strategy s.now j.t.r ret), log := .returned j.svc j.t.r.eventId j.t.e ret s.now true :: s.log } else none
  | .finishLost j ret =>
    if j ∈ s.busy ∧ pol.lossless = false ∧ j.t.r.next ≤ s.now then
      some { s with busy := s.busy.erase j, log := .returned j.svc j.t.r.eventId j.t.e ret s.now false :: s.log } else none
  | .cleanSelect svc => some { s with cleans := .todo svc (cleanable c s.db svc s.now) :: s.cleans }
  | .cleanRecs svc b rest =>
    if .todo svc (b ++ rest) ∈ s.cleans ∧ ∀ r ∈ s.db.recs, r.service = svc → r.eventId ∈ b → ¬ s.locked r.id then
      some { s with cleans := .counting svc b rest :: s.cleans.erase (.todo svc (b ++ rest)), db := deleteRecs s.db svc b } else none
  | .cleanCount svc b rest =>
    if .counting svc b rest ∈ s.cleans then some { s with cleans := .deleting svc (unreferenced s.db b) rest :: s.cleans.erase (.counting svc b rest) } else none
  | .cleanEvents svc d rest =>
    if .deleting svc d rest ∈ s.cleans then some { s with cleans := .todo svc rest :: s.cleans.erase (.deleting svc d rest), db := deleteEvents s.db d } else none
  | .expire r =>
    if r ∈ s.db.recs ∧ ¬ s.locked r.id ∧ pol.noExpire = false then
      some { s with db := saveRec s.db { r with status := .expired }, log := .expired r.service r.eventId :: s.log } else none

theorem Act.sound {c : Cfg} {pol : Pol} {s s' : State} {a : Act} (h : a.run c pol s = some s') : Step c pol s s' := by
  cases a with
  | tick d => cases h; exact .tick s d
  | register svc => cases h; exact .register s svc
  | insert es =>
    simp only [Act.run] at h; split at h
    · cases h; exact .dispInsert s 0 es ‹_›
    · cases h
  | list ps =>
    simp only [Act.run] at h; split at h
    · cases h; exact .dispList s ps ‹_›
    · cases h
  | recs ps svc todo =>
    simp only [Act.run] at h; split at h
    · rename_i hh; cases h; exact .dispRecs s ps svc todo hh.1 hh.2
    · cases h
  | scanBegin svc =>
    simp only [Act.run] at h; split at h
    · cases h; exact .scanBegin s svc _ _ (Nat.le_add_right _ _) ‹_›
    · cases h
  | scanOffset svc start =>
    simp only [Act.run] at h; split at h
    · split at h
      · cases h; exact .scanOffset s svc start _ ‹_› ‹_›
      · cases h
    · cases h
  | scanRows svc start off =>
    simp only [Act.run] at h; split at h
    · cases h; exact .scanRows s svc start off ‹_› _ (Nat.le_add_right _ _)
    · cases h
  | scanEvents svc start rs =>
    simp only [Act.run] at h; split at h
    · rename_i hh; cases h; exact .scanEvents s svc start rs hh.1 hh.2
    · cases h
  | call j =>
    simp only [Act.run] at h; split at h
    · rename_i hh; cases h; exact .call s j hh.1 hh.2.1 hh.2.2.1 hh.2.2.2.1 hh.2.2.2.2.1 hh.2.2.2.2.2
    · cases h
  | blocked j =>
    simp only [Act.run] at h; split at h
    · rename_i hh; cases h; exact .blocked s j hh.1 hh.2.1 hh.2.2.1 hh.2.2.2.1 (fifo_of_blocked hh.2.2.2.2.1) hh.2.2.2.2.2
    · cases h
  | jobDrop j => cases h; exact .jobDrop s j
  | finish j ret =>
    simp only [Act.run] at h; split at h
    · rename_i hh; cases h; exact .finish s j ret hh.1 _ ⟨hh.2, Nat.le_add_right _ _⟩
    · cases h
  | finishLost j ret =>
    simp only [Act.run] at h; split at h
    · rename_i hh; cases h; exact .finishLost s j ret hh.1 hh.2.1 _ ⟨hh.2.2, Nat.le_add_right _ _⟩
    · cases h
  | cleanSelect svc => cases h; exact .cleanSelect s svc _ (Nat.le_add_right _ _)
  | cleanRecs svc b rest =>
    simp only [Act.run] at h; split at h
    · rename_i hh; cases h; exact .cleanRecs s svc b rest hh.1 hh.2
    · cases h
  | cleanCount svc b rest =>
    simp only [Act.run] at h; split at h
    · cases h; exact .cleanCount s svc b rest ‹_›
    · cases h
  | cleanEvents svc d rest =>
    simp only [Act.run] at h; split at h
    · cases h; exact .cleanEvents s svc d rest ‹_›
    · cases h
  | expire r =>
    simp only [Act.run] at h; split at h
    · rename_i hh; cases h; exact .expire s r hh.1 hh.2.1 hh.2.2
    · cases h

/-- a whole script from the start -/
def script (c : Cfg) (pol : Pol) (acts : List Act) : Option State := acts.foldlM (Act.run c pol) State.init

theorem script_sound {c : Cfg} {pol : Pol} {acts : List Act} {s : State} (h : script c pol acts = some s) : Reachable c pol s := by
  unfold script at h
  have key : ∀ (acts : List Act) (s0 : State), Reachable c pol s0 → acts.foldlM (Act.run c pol) s0 = some s → Reachable c pol s := by
    intro acts
    induction acts with
    | nil => intro s0 hr h; cases h; exact hr
    | cons a acts ih =>
      intro s0 hr h
      simp only [List.foldlM_cons, Option.bind_eq_bind, Option.bind_eq_some_iff] at h
      obtain ⟨s1, h1, h2⟩ := h
      exact ih s1 (.step hr (Act.sound h1)) h2
  exact key acts _ .init h

/-- a script that can be executed shows that a state with property `p` is reachable. -/
theorem script_reaches {c : Cfg} {pol : Pol} {acts : List Act} {p : State → Bool} (h : (script c pol acts).any p = true) : ∃ s, Reachable c pol s ∧ p s = true := by
  cases hs : script c pol acts with
  | none => rw [hs] at h; simp at h
  | some s => rw [hs] at h; exact ⟨s, script_sound hs, by simpa using h⟩

theorem script_reaches' {c : Cfg} {pol : Pol} (acts : List Act) {p : State → Prop} [DecidablePred p] (h : (script c pol acts).any (fun s => decide (p s)) = true) : ∃ s, Reachable c pol s ∧ p s := by
  obtain ⟨s, h1, h2⟩ := script_reaches h
  exact ⟨s, h1, of_decide_eq_true h2⟩

end Ddd.Bus
