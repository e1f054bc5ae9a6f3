import Verif.Model.Bus
/-!
# Vocabulary for the MySQL event bus properties
-/
namespace Ddd.Bus

/-- What the schema and the auto-increment counters guarantee: primary keys are unique and below the counters, a service is registered once, no delivery record is there for an event ID that
was not given out yet, and no event of a transaction that was not begun yet (0 is no transaction). Holds initially and is kept by every operation (`valid_runOps`). -/
structure Valid (db : DB) : Prop where
  evIds : (db.events.map EvRow.id).Nodup
  evFresh : ∀ e ∈ db.events, e.id < db.nextEv
  recIds : (db.recs.map Rec.id).Nodup
  recFresh : ∀ r ∈ db.recs, r.id < db.nextRec
  recEv : ∀ r ∈ db.recs, r.eventId < db.nextEv
  recKeys : (db.recs.map fun r => (r.service, r.eventId)).Nodup
  svcs : db.services.Nodup
  txIds : (db.txs.map TxRow.id).Nodup
  txFresh : ∀ t ∈ db.txs, t.id < db.nextTx
  evTx : ∀ e ∈ db.events, e.transId < db.nextTx
  txPos : 0 < db.nextTx

/-- Every delivery record has its event. -/
def Integrity (db : DB) : Prop := ∀ r ∈ db.recs, ∃ e ∈ db.events, e.id = r.eventId

/-- `r` is a fresh delivery record of service `s` for the event row `p`. -/
def FreshRecord (r : Rec) (s : Nat) (p : EvRow) : Prop :=
  r.service = s ∧ r.eventId = p.id ∧ r.status = .init ∧ r.retry = 0 ∧ r.next = p.ev.created ∧ r.created = p.ev.created

/-- The rows `es` were stored by `db → db'` as the event rows `ps`: one row per event in order, with new IDs. -/
def StoredAs (db db' : DB) (tid : Nat) (es : List DEv) (ps : List EvRow) : Prop :=
  db'.events = db.events ++ ps ∧ ps.map EvRow.ev = es ∧ (∀ p ∈ ps, p.transId = tid) ∧ (ps.map EvRow.id).Nodup ∧ ∀ p ∈ ps, ∀ e ∈ db.events, p.id ≠ e.id

/-- Exactly one fresh delivery record per service of `ss` and event row of `ps` was added, and no other record was added, changed or removed. -/
def RecordedFor (db db' : DB) (ss : List Nat) (ps : List EvRow) : Prop :=
  ∃ rs, db'.recs = db.recs ++ rs ∧
    (∀ r ∈ rs, ∃ s ∈ ss, ∃ p ∈ ps, FreshRecord r s p) ∧
    ∀ s ∈ ss, ∀ p ∈ ps, (rs.countP fun r => decide (r.service = s ∧ r.eventId = p.id)) = 1

/-- Event `i` is still to be delivered to service `s`. -/
def Pending (db : DB) (s i : Nat) : Prop := ∃ r ∈ db.recs, r.service = s ∧ r.eventId = i ∧ r.status = .init

/-- `start` is the first event, by ID, that was created within the last `window` time units. -/
def IsWindowStart (db : DB) (window now start : Nat) : Prop :=
  (∃ e ∈ db.events, e.id = start ∧ now ≤ e.ev.created + window) ∧ ∀ e ∈ db.events, now ≤ e.ev.created + window → start ≤ e.id

/-- A delivery record that a scan of service `svc` should consider at time `now`: own, pending, due, and its event is not before the start of the window. -/
def Due (db : DB) (svc start now : Nat) (r : Rec) : Prop :=
  r ∈ db.recs ∧ r.service = svc ∧ r.status = .init ∧ r.next ≤ now ∧ start ≤ r.eventId

/-- `ts` is the right work: due records with their own events, in ascending event order, and the first `limit` ones: if one is left out, `limit` earlier ones are in. -/
structure RightWork (db : DB) (svc start limit now : Nat) (ts : List Tuple) : Prop where
  due : ∀ t ∈ ts, Due db svc start now t.r
  own : ∀ t ∈ ts, t.e ∈ db.events ∧ t.e.id = t.r.eventId
  ordered : ts.Pairwise fun a b => a.r.eventId < b.r.eventId
  bounded : ts.length ≤ limit
  first : ∀ r, Due db svc start now r → r ∉ ts.map Tuple.r → ts.length = limit ∧ ∀ t ∈ ts, t.r.eventId < r.eventId

/-- `p` precedes `e`: an earlier event of the same sender. -/
def Earlier (db : DB) (e p : EvRow) : Prop := p ∈ db.events ∧ p.ev.sender = e.ev.sender ∧ p.ev.created ≤ e.ev.created ∧ p.id < e.id

/-- `p` is the latest of them: by creation time, then by the (time ordered) event ID. -/
def IsPreceding (db : DB) (e p : EvRow) : Prop :=
  Earlier db e p ∧ ∀ q, Earlier db e q → q.ev.created < p.ev.created ∨ (q.ev.created = p.ev.created ∧ q.ev.evId ≤ p.ev.evId)

/-- no delivery record of service `svc` for event row `p` exists, or one with a status in `ok` -/
def RecordIs (db : DB) (svc : Nat) (p : EvRow) (ok : Status → Prop) : Prop := ∀ r ∈ db.recs, r.service = svc → r.eventId = p.id → ok r.status

/-- A delivery record cleaning may remove: own, success, older than the retention time. -/
def Finished (retention svc now : Nat) (r : Rec) : Prop := r.service = svc ∧ r.status = .success ∧ r.created + retention < now

/-- number of records of service `svc` still pending from event `start` on -/
def backlog (db : DB) (svc start : Nat) : Nat := db.recs.countP fun r => decide (r.service = svc ∧ r.status = .init ∧ start ≤ r.eventId)

end Ddd.Bus
