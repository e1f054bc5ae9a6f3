import Verif.Spec.BusCtx
import Verif.Props.BusTx
/-! C100: transactions in contexts of the MySQL event bus. -/
set_option linter.unusedVariables false
set_option linter.unusedSimpArgs false
namespace Ddd.BusCtx
open Ddd.Bus Ddd.Spec

theorem getTX_ownPart (b : EB) (ctx : Ctx) : b.getTX (ownPart b ctx) = b.getTX ctx := by
  unfold EB.getTX ownPart
  induction ctx with
  | nil => rfl
  | cons x ctx ih =>
    by_cases h : x.1 = b.key
    · rw [List.filter_cons_of_pos (by simp [h])]
      have : (b.key == x.1) = true := by simp [h]
      obtain ⟨k, t⟩ := x
      simp only at this h
      simp [List.lookup, this]
    · rw [List.filter_cons_of_neg (by simp [h])]
      have : (b.key == x.1) = false := by simp; exact fun e => h e.symm
      obtain ⟨k, t⟩ := x
      simp only at this h
      simpa [List.lookup, this] using ih

/-- C100: what buses created in another second have put into the context does not matter: every call does the same to all databases and answers the same without it (and a context returned by DispatchBegin has the same own part). -/
theorem C100_own_partial (w : Nat → DB) (op : Op) :
    (op.run w).1 = ((withCtx (ownPart op.bus (ctxOf op)) op).run w).1 ∧
    match (op.run w).2, ((withCtx (ownPart op.bus (ctxOf op)) op).run w).2 with
    | .ctx c, .ctx c' => c' = ownPart op.bus c
    | o, o' => o = o' := by
  have same : ∀ op : Op, (∀ db, op.on db = (withCtx (ownPart op.bus (ctxOf op)) op).on db) → (withCtx (ownPart op.bus (ctxOf op)) op).bus = op.bus →
      op.run w = (withCtx (ownPart op.bus (ctxOf op)) op).run w := by
    intro op h hb
    unfold Op.run
    rw [hb]
    simp only [h]
  cases op with
  | dispatch b ctx es n =>
    have h := same (.dispatch b ctx es n) (by intro db; simp only [Op.on, withCtx, ctxOf, Op.bus, getTX_ownPart]) rfl
    rw [← h]
    refine ⟨rfl, ?_⟩
    simp only [Op.run, Op.on]
    split <;> first | rfl | (rename_i h1 h2; split at h1 <;> cases h1)
  | commit b ctx n =>
    have h := same (.commit b ctx n) (by intro db; simp only [Op.on, withCtx, ctxOf, Op.bus, getTX_ownPart]) rfl
    rw [← h]
    refine ⟨rfl, ?_⟩
    simp only [Op.run, Op.on]
    cases b.getTX ctx <;> simp only
    split <;> first | rfl | (rename_i h1 h2; split at h1 <;> cases h1)
  | rollback b ctx ok =>
    have h := same (.rollback b ctx ok) (by intro db; simp only [Op.on, withCtx, ctxOf, Op.bus, getTX_ownPart]) rfl
    rw [← h]
    refine ⟨rfl, ?_⟩
    simp only [Op.run, Op.on]
    cases b.getTX ctx <;> simp only
    split <;> first | rfl | (rename_i h1 h2; split at h1 <;> cases h1)
  | begin b ctx now t es ok =>
    constructor
    · funext d
      show (if d = b.db then _ else w d) = (if d = b.db then _ else w d)
      simp only [Op.on, withCtx, ctxOf, Op.bus]
      rcases h : dispatchBegin (w d) b.svc now t es ok with ⟨x, _ | tx⟩ <;> rfl
    · simp only [Op.run, Op.on, withCtx, ctxOf, Op.bus]
      rcases h : dispatchBegin (w b.db) b.svc now t es ok with ⟨x, _ | tx⟩ <;> simp [ownPart]

/-- C100: a call changes no database but that of its bus. -/
theorem C100_local (w : Nat → DB) (op : Op) (d : Nat) (h : d ≠ op.bus.db) : (op.run w).1 d = w d := by simp [Op.run, h]

/-- C100: without a transaction of a bus of that second in the context, Commit and Rollback answer ErrNoTransaction and change nothing. -/
theorem C100_none (w : Nat → DB) (b : EB) (ctx : Ctx) (h : ∀ x ∈ ctx, x.1 ≠ b.key) (n : Nat) (ok : Bool) :
    ((Op.commit b ctx n).run w) = (w, .noTransaction) ∧ ((Op.rollback b ctx ok).run w) = (w, .noTransaction) := by
  have e : b.getTX ctx = none := by
    rw [← getTX_ownPart]
    have : ownPart b ctx = [] := List.filter_eq_nil_iff.2 (by simpa using h)
    rw [this]; rfl
  constructor <;> simp [Op.run, Op.on, Op.bus, e]

/-- C100: the context returned by DispatchBegin, and every context made from it with transactions of buses created in other seconds, stands for the transaction just begun: Commit and Rollback with it concern that one, the events
are those handed over. A transaction of the same bus further out in the context is hidden. -/
theorem C100_begun (w : Nat → DB) (b : EB) (ctx c : Ctx) (now t : Nat) (es : List DEv) (ok : Bool) (h : ((Op.begin b ctx now t es ok).run w).2 = .ctx c) (extra : Ctx) (hx : ∀ x ∈ extra, x.1 ≠ b.key) :
    ∃ tx, tx.events = es ∧ tx.service = b.svc ∧ ((Op.begin b ctx now t es ok).run w).1 b.db = { w b.db with txs := (w b.db).txs ++ [tx], nextTx := (w b.db).nextTx + 1 } ∧
      (∀ w' n, ((Op.commit b (extra ++ c) n).run w').1 b.db = (Bus.commit (w' b.db) tx n).1) ∧
      (∀ w' ok', ((Op.rollback b (extra ++ c) ok').run w').1 b.db = (Bus.rollback (w' b.db) tx ok').1) := by
  have hg : ∀ tx, c = (b.key, tx) :: ctx → b.getTX (extra ++ c) = some tx := by
    intro tx he
    rw [← getTX_ownPart]
    have : ownPart b (extra ++ c) = (b.key, tx) :: ownPart b ctx := by
      rw [he]; unfold ownPart
      rw [List.filter_append, List.filter_eq_nil_iff.2 (by simpa using hx)]
      simp
    rw [this]; simp [EB.getTX, List.lookup]
  simp only [Op.run, Op.on, Op.bus, dispatchBegin, if_true] at h ⊢
  by_cases he : es = []
  · simp [he] at h
  · cases ok with
    | false => simp [he] at h
    | true =>
      simp only [he, if_false, Bool.not_true, Out.ctx.injEq] at h ⊢
      have := hg _ (by simpa using h.symm)
      refine ⟨⟨(w b.db).nextTx, b.svc, es, now + t⟩, rfl, rfl, by simp, ?_, ?_⟩ <;> intro w' m <;> rw [this]

/-- C100, counterexample 1: Dispatch with the context of an open transaction. It marks its events with the number of the transaction; Commit with that context then finds an event of the transaction, returns nil and publishes
nothing: none of the transaction's own events is stored, by this or any repeated Commit or check-back, as long as one of the dispatched events is there. -/
theorem C100_dispatch_inside {w : Nat → DB} {b : EB} {ctx : Ctx} {tx : TxRow} (hg : b.getTX ctx = some tx) (hopen : eventsOf (w b.db) tx.id = []) {es : List DEv} {n : Nat}
    (hd : ((Op.dispatch b ctx es n).run w).2 = .ok) :
    (∀ m, ((Op.commit b ctx (m + 1)).run ((Op.dispatch b ctx es n).run w).1) = (((Op.dispatch b ctx es n).run w).1, .ok)) ∧
    (eventsOf (((Op.dispatch b ctx es n).run w).1 b.db) tx.id).map (·.ev) = es ∧
    (∀ t, t ∈ (w b.db).txs → t ∈ (((Op.dispatch b ctx es n).run w).1 b.db).txs) ∧
    (∀ ask m, (∃ e ∈ tx.events.head?, ask e ≠ .rollback) → checkTx ask (((Op.dispatch b ctx es n).run w).1 b.db) tx (m + 1) = ((Op.dispatch b ctx es n).run w).1 b.db) := by
  simp only [Op.run, Op.on, Op.bus, hg, Option.map_some, Option.getD_some, if_true] at hd ⊢
  have hok : (Bus.dispatch (w b.db) tx.id es n).2 = true := by
    by_contra hh; simp [hh] at hd
  have hev : eventsOf (Bus.dispatch (w b.db) tx.id es n).1 tx.id = newEvents (w b.db).nextEv tx.id es := by
    unfold Bus.dispatch at hok ⊢
    split at hok
    · simp at hok
    rename_i hes
    match n, hok with
    | 0, hok => simp at hok
    | 1, hok => simp at hok
    | k + 2, _ =>
      simp only
      rw [if_neg hes]
      have hi : ∀ (ps : List EvRow) (ss : List Nat) (d : DB), (insertAllRecs ps ss d).events = d.events := by
        intro ps ss
        induction ss with
        | nil => intro d; rfl
        | cons s ss ih => intro d; rw [insertAllRecs, ih]; rfl
      simp only [eventsOf, hi, insertEvents, List.filter_append]
      have h1 : (w b.db).events.filter (fun e => decide (e.transId = tx.id)) = [] := hopen
      rw [h1, List.nil_append]
      apply List.filter_eq_self.2
      intro p hp
      have : ∀ (es : List DEv) (f : Nat), p ∈ newEvents f tx.id es → p.transId = tx.id := by
        intro es
        induction es with
        | nil => intro f h; simp [newEvents] at h
        | cons e es ih =>
          intro f h
          simp only [newEvents, List.mem_cons] at h
          rcases h with rfl | h
          · rfl
          · exact ih _ h
      simp [this _ _ hp]
  have hmap : (newEvents (w b.db).nextEv tx.id es).map (·.ev) = es := by
    have : ∀ (es : List DEv) (f : Nat), (newEvents f tx.id es).map (·.ev) = es := by
      intro es
      induction es with
      | nil => intro f; rfl
      | cons e es ih => intro f; simp [newEvents, ih]
    exact this _ _
  have hne : es ≠ [] := by rintro rfl; simp [Bus.dispatch] at hok
  have hev' : eventsOf (Bus.dispatch (w b.db) tx.id es n).1 tx.id ≠ [] := by
    rw [hev]; intro h; rw [h] at hmap; exact hne (by simpa using hmap.symm)
  refine ⟨?_, by rw [hev, hmap], ?_, ?_⟩
  · intro m
    have := C38_repeat_is_noop hev' m
    simp only [this, if_true]
    refine Prod.ext ?_ rfl
    funext d
    by_cases hdd : d = b.db
    · subst hdd; simp [this]
    · simp [hdd]
  · intro t ht
    rw [(added_dispatch _ _ _ _).txs]; exact ht
  · rintro ask m ⟨e, he, ha⟩
    have := C38_repeat_is_noop hev' m
    unfold checkTx
    cases htx : tx.events with
    | nil => simp [htx] at he
    | cons e' es' =>
      simp only [htx, List.head?_cons, Option.mem_def, Option.some.injEq] at he
      subst he
      simp only [htx]
      cases hask : ask e' <;> simp_all

/-- two buses with different databases created in the same second, a third one -/
def busA : EB := ⟨0, 7, 100⟩
def busB : EB := ⟨1, 8, 100⟩
def busC : EB := ⟨1, 8, 101⟩
def demoEv (i : Nat) : DEv := ⟨i, 5, .normal, 10, 0⟩
def dbs : Nat → DB := fun d => emptyDB [if d = 0 then 7 else 8]
/-- bus C began a transaction with event 2 in database 1, bus A one with event 1 in database 0 -/
def demoW : Nat → DB := ((Op.begin busA [] 0 60 [demoEv 1] true).run ((Op.begin busC [] 0 60 [demoEv 2] true).run dbs).1).1
/-- the context of A's transaction -/
def demoCtx : Ctx := [(100, ⟨1, 7, [demoEv 1], 60⟩)]

/-- C100, counterexample 2: buses created in the same second. Bus B commits with a context that carries a transaction of bus A only: it returns nil (not ErrNoTransaction), stores A's event in B's database, and deletes there
the row of a transaction of somebody else (C) with the same number, which can no longer be checked back; A's transaction is still open in A's database. -/
theorem C100_same_second : ((Op.begin busA [] 0 60 [demoEv 1] true).run ((Op.begin busC [] 0 60 [demoEv 2] true).run dbs).1).2 = .ctx demoCtx ∧
    (demoW 1).txs.map (·.events) = [[demoEv 2]] ∧
    ((Op.commit busB demoCtx 100).run demoW).2 = .ok ∧
    (((Op.commit busB demoCtx 100).run demoW).1 1).events.map (·.ev) = [demoEv 1] ∧ (((Op.commit busB demoCtx 100).run demoW).1 1).txs = [] ∧
    (((Op.commit busB demoCtx 100).run demoW).1 0).txs.map (·.events) = [[demoEv 1]] ∧
    ((Op.commit busC demoCtx 100).run demoW) = (demoW, .noTransaction) := by
  refine ⟨by decide +kernel, by decide +kernel, by decide +kernel, by decide +kernel, by decide +kernel, by decide +kernel, (C100_none _ _ _ (by decide) 100 true).1⟩

/-- the hypotheses of C100_dispatch_inside can be met -/
theorem inside_demo : busA.getTX demoCtx = some ⟨1, 7, [demoEv 1], 60⟩ ∧ eventsOf (demoW 0) 1 = [] ∧ ((Op.dispatch busA demoCtx [demoEv 3] 100).run demoW).2 = .ok := by
  refine ⟨rfl, by decide +kernel, by decide +kernel⟩

end Ddd.BusCtx
