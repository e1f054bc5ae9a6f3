import Verif.Spec.BusLife
import Verif.Proofs.Bus
import Verif.Props.Pool
import Mathlib.Tactic.Common
/-!
# C90, C91: configuration and life of a MySQL bus
-/
set_option linter.unusedVariables false
set_option linter.unusedSimpArgs false
namespace Ddd.BusLife
open Ddd.Spec Bus

/-! ## C90: options -/

/-- **C90.** Exactly these make `NewEventBus` panic: a name of more than 30 characters, an invalid cleaning schedule, a negative retention time; the options in force are the given ones applied to the defaults in order. -/
theorem C90_accepts_partial (cron : Nat) (parses : Nat → Bool) (runes : Nat) (opts : List (Options → Options)) :
    (∃ b, newBus cron parses runes opts = .bus b) ↔ runes ≤ 30 ∧ parses (inForce cron opts).cleanCron = true ∧ 0 ≤ (inForce cron opts).retention := by
  unfold newBus inForce
  by_cases h1 : 30 < runes
  · simp [h1]
  · simp only [h1, if_false]
    by_cases h2 : parses (opts.foldl (fun o f => f o) (defaults cron)).cleanCron = true
    · by_cases h3 : (opts.foldl (fun o f => f o) (defaults cron)).retention < 0
      · simp [h2, h3]
      · simp [h2, h3]; omega
    · simp [h2]

theorem newBus_eq {cron : Nat} {parses : Nat → Bool} {runes : Nat} {opts : List (Options → Options)} {b : EventBus} (h : newBus cron parses runes opts = .bus b) :
    b = ⟨inForce cron opts, chooseStrategy (inForce cron opts)⟩ := by
  unfold newBus at h
  simp only at h
  split at h
  · simp at h
  · split at h
    · simp at h
    · split at h
      · simp at h
      · injection h with h; exact h.symm

/-- a strategy which only counts up to a bound -/
theorem gives_up_of_bound {st : Strategy} {n : Nat} (h1 : ∀ c t, c < n → ∃ t', st c t = some (c + 1, t')) (h2 : ∀ t, st n t = none) : GivesUpAfter st (n + 1) := by
  refine ⟨Nat.succ_pos _, fun times r hr hs => ?_⟩
  have key : ∀ i ≤ n, (afterFailures st times r i).status = .init ∧ (afterFailures st times r i).retry = i := by
    intro i
    induction i with
    | zero => intro _; exact ⟨hs, hr⟩
    | succ i ih =>
      intro hi
      obtain ⟨a, b⟩ := ih (by omega)
      obtain ⟨t', ht⟩ := h1 i (times i) (by omega)
      simp only [afterFailures, retryStep, b, ht]
      exact ⟨a, trivial⟩
  refine ⟨fun i hi => (key i (by omega)).1, ?_⟩
  simp only [afterFailures, retryStep, (key n (Nat.le_refl _)).2, h2]

theorem interval_gives_up (d : Nat) (L : Int) (hL : -1 ≤ L) : GivesUpAfter (intervalRetry d L) (L + 2).toNat := by
  obtain ⟨n, hn⟩ : ∃ n : Nat, L + 1 = n := ⟨(L + 1).toNat, by omega⟩
  have : (L + 2).toNat = n + 1 := by omega
  rw [this]
  refine gives_up_of_bound (fun c t hc => ⟨t + d, ?_⟩) fun t => ?_
  · simp only [intervalRetry]; rw [if_neg (by omega)]
  · simp only [intervalRetry]; rw [if_pos (by omega)]

theorem custom_gives_up (ds : List Nat) : GivesUpAfter (customRetry ds) (ds.length + 1) := by
  refine gives_up_of_bound (fun c t hc => ⟨t + ds[c], ?_⟩) fun t => ?_
  · simp [customRetry, hc]
  · simp [customRetry]

/-- **C90.** Without any retry option a failing handler is called seven times, with pauses of three seconds. -/
theorem C90_default_retry {cron : Nat} {parses : Nat → Bool} {runes : Nat} {b : EventBus} (h : newBus cron parses runes [] = .bus b) :
    b.strategy = intervalRetry 3000 5 ∧ GivesUpAfter b.strategy 7 := by
  rw [newBus_eq h]
  exact ⟨rfl, interval_gives_up 3000 5 (by decide)⟩

/-- **C90.** A custom strategy has priority over all other retry options. -/
theorem C90_strategy_first {cron : Nat} {parses : Nat → Bool} {runes : Nat} {opts : List (Options → Options)} {b : EventBus} (h : newBus cron parses runes opts = .bus b) {st : Strategy}
    (hs : (inForce cron opts).retryStrategy = some st) : b.strategy = st := by
  rw [newBus_eq h]; simp [chooseStrategy, hs]

/-- **C90.** `RetryInterval` with `RetryLimit = L ≥ -1`: `L + 2` calls (`L + 1` retries), `RetryInterval` apart; a `CustomRetry` given besides is ignored. -/
theorem C90_interval {cron : Nat} {parses : Nat → Bool} {runes : Nat} {opts : List (Options → Options)} {b : EventBus} (h : newBus cron parses runes opts = .bus b)
    (hs : (inForce cron opts).retryStrategy = none) (hi : 0 < (inForce cron opts).retryInterval) (hL : -1 ≤ (inForce cron opts).retryLimit) :
    b.strategy = intervalRetry (inForce cron opts).retryInterval.toNat (inForce cron opts).retryLimit ∧ GivesUpAfter b.strategy ((inForce cron opts).retryLimit + 2).toNat := by
  have : b.strategy = intervalRetry (inForce cron opts).retryInterval.toNat (inForce cron opts).retryLimit := by rw [newBus_eq h]; simp [chooseStrategy, hs, hi]
  exact ⟨this, this ▸ interval_gives_up _ _ hL⟩

/-- **C90.** `CustomRetry` alone: one call and one retry for each interval. -/
theorem C90_custom {cron : Nat} {parses : Nat → Bool} {runes : Nat} {opts : List (Options → Options)} {b : EventBus} (h : newBus cron parses runes opts = .bus b)
    (hs : (inForce cron opts).retryStrategy = none) (hi : (inForce cron opts).retryInterval ≤ 0) (hc : (inForce cron opts).customRetry ≠ []) :
    b.strategy = customRetry (inForce cron opts).customRetry ∧ GivesUpAfter b.strategy ((inForce cron opts).customRetry.length + 1) := by
  have : b.strategy = customRetry (inForce cron opts).customRetry := by
    rw [newBus_eq h]
    have h0 : ¬ 0 < (inForce cron opts).retryInterval := by omega
    simp [chooseStrategy, hs, h0, List.length_pos_iff, hc]
  exact ⟨this, this ▸ custom_gives_up _⟩

/-- **C90, counterexample.** `RetryLimit` without `RetryInterval` is accepted and has no effect at all: whatever the limit, the default of seven calls applies. -/
theorem C90_limit_ignored (cron : Nat) (parses : Nat → Bool) (hp : parses cron = true) (runes : Nat) (hr : runes ≤ 30) (L : Int) :
    ∃ b, newBus cron parses runes [fun o => { o with retryLimit := L }] = .bus b ∧ b.strategy = intervalRetry 3000 5 ∧ GivesUpAfter b.strategy 7 := by
  obtain ⟨b, hb⟩ := (C90_accepts_partial cron parses runes [fun o => { o with retryLimit := L }]).2 ⟨hr, hp, by simp [inForce, defaults]⟩
  refine ⟨b, hb, ?_⟩
  rw [newBus_eq hb]
  exact ⟨rfl, interval_gives_up 3000 5 (by decide)⟩

/-- **C90, counterexample.** `RetryInterval` without `RetryLimit` does not keep the default limit: a failing handler is called twice. -/
theorem C90_interval_alone (cron : Nat) (parses : Nat → Bool) (hp : parses cron = true) (runes : Nat) (hr : runes ≤ 30) (d : Nat) (hd : 0 < d) :
    ∃ b, newBus cron parses runes [fun o => { o with retryInterval := d }] = .bus b ∧ b.strategy = intervalRetry d 0 ∧ GivesUpAfter b.strategy 2 := by
  obtain ⟨b, hb⟩ := (C90_accepts_partial cron parses runes [fun o => { o with retryInterval := d }]).2 ⟨hr, hp, by simp [inForce, defaults]⟩
  obtain ⟨h1, h2⟩ := C90_interval hb rfl (by simpa [inForce] using hd) (by simp [inForce, defaults])
  exact ⟨b, hb, by simpa [inForce, defaults] using h1, h2⟩

/-- **C90, counterexample.** Nothing else is checked: any `RunInterval` and `ConsumeConcurrent` are accepted (see `C91_dead_at_start` and `C89_no_workers` for what they lead to). -/
theorem C90_unchecked (cron : Nat) (parses : Nat → Bool) (hp : parses cron = true) (runes : Nat) (hr : runes ≤ 30) (i c : Int) :
    ∃ b, newBus cron parses runes [fun o => { o with runInterval := i, consumeConcurrent := c }] = .bus b ∧ b.opt.runInterval = i ∧ b.opt.consumeConcurrent = c := by
  obtain ⟨b, hb⟩ := (C90_accepts_partial cron parses runes [fun o => { o with runInterval := i, consumeConcurrent := c }]).2 ⟨hr, hp, by simp [inForce, defaults]⟩
  exact ⟨b, hb, by rw [newBus_eq hb]; exact ⟨rfl, rfl⟩⟩

example : ∃ b, newBus 1 (fun _ => true) 30 [fun o => { o with retryInterval := 5, retryLimit := 2, customRetry := [1] }] = .bus b ∧ GivesUpAfter b.strategy 4 := by
  obtain ⟨b, hb⟩ := (C90_accepts_partial 1 (fun _ => true) 30 [fun o => { o with retryInterval := 5, retryLimit := 2, customRetry := [1] }]).2 ⟨by decide, rfl, by decide⟩
  exact ⟨b, hb, (C90_interval hb rfl (by decide) (by decide)).2⟩

/-! ## C91: the life of a process -/

variable {b : EventBus} {svc : Nat} {cb : Bool} {ask : Nat → DEv → Option TxAns} {mayLock regOk : Bool} {others : Bus.Op → Prop}

/-- **C91.** However often `Start` is called, a process has at most one polling loop and one cleaning task. -/
theorem C91_start_once {db : DB} {s : State} (h : Steps b svc cb ask mayLock regOk others (fresh db) s) : s.loops ≤ 1 ∧ s.crons ≤ 1 ∧ (s.started = false → s.loops = 0 ∧ s.crons = 0) := by
  generalize hs : fresh db = s0 at h
  induction h with
  | refl => subst hs; simp [fresh]
  | snoc _ st ih =>
    obtain ⟨h1, h2, h3⟩ := ih
    cases st with
    | boot => simp [State.boot]
    | start ha =>
      simp only [State.start]
      split
      · exact ⟨h1, h2, h3⟩
      · rename_i hn
        obtain ⟨a, b⟩ := h3 (by simpa using hn)
        split
        · simp [a, b]
        · simp [a, b]
    | _ => exact ⟨h1, h2, h3⟩

theorem txPhase_some {lk : Bool} {ask : DEv → Option TxAns} {svc now : Nat} {ns : Nat → Nat} {db : DB} (hne : ∀ t ∈ db.txs, t.service = svc → t.due < now → ∃ e es a, t.events = e :: es ∧ ask e = some a) :
    ∃ db1, txPhase lk ask svc now ns db = some db1 := by
  unfold txPhase handleTxsP
  split
  · exact ⟨_, rfl⟩
  · have : ∀ (l : List TxRow) (d : DB), (∀ t ∈ l, ∃ e es a, t.events = e :: es ∧ ask e = some a) → ∃ db1, l.foldlM (fun d t => checkTxP ask (ns t.id) d t) d = some db1 := by
      intro l
      induction l with
      | nil => intro d _; exact ⟨d, rfl⟩
      | cons t l ih =>
        intro d hl
        obtain ⟨e, es, a, h1, h2⟩ := hl t (by simp)
        obtain ⟨db1, h⟩ := ih (checkTx (fun _ => a) d t (ns t.id)) fun t ht => hl t (by simp [ht])
        refine ⟨db1, ?_⟩
        rw [List.foldlM_cons]
        have : checkTxP ask (ns t.id) d t = some (checkTx (fun _ => a) d t (ns t.id)) := by simp only [checkTxP, h1, h2, Option.map_some]
        rw [this]
        exact h
    refine this _ _ fun t ht => ?_
    rw [List.mem_filter] at ht
    have h2 : t.service = svc ∧ t.due < now := by simpa using ht.2
    exact hne t ht.1 h2.1 h2.2

/-- **C91.** Nothing a handler does ends the process: only a panic of the transaction checker (or a transaction without events) and a `RunInterval` that is not positive do. -/
theorem C91_only_checker_kills_partial {s s' : State} (st : Step b svc cb ask mayLock regOk others s s') (ha : s.alive = true) (hd : s'.alive = false) :
    b.opt.runInterval ≤ 0 ∨ ∃ t ∈ s.db.txs, t.service = svc ∧ t.due < s.now ∧ ∀ e es, t.events = e :: es → ask s.now e = none := by
  cases st with
  | time => simp [ha] at hd
  | other => simp [ha] at hd
  | boot => simp [State.boot] at hd
  | start =>
    left
    simp only [State.start] at hd
    split at hd
    · simp [ha] at hd
    · split at hd
      · simp [ha] at hd
      · omega
  | clean => simp [ha] at hd
  | @die lk ns _ _ hl hn =>
    right
    by_contra hc
    have hc : ∀ t ∈ s.db.txs, t.service = svc → t.due < s.now → ∃ e es a, t.events = e :: es ∧ ask s.now e = some a := by
      intro t ht h1 h2
      by_contra hx
      refine hc ⟨t, ht, h1, h2, fun e es he => ?_⟩
      cases hq : ask s.now e with
      | none => rfl
      | some a => exact absurd ⟨e, es, a, he, hq⟩ hx
    obtain ⟨db1, h⟩ := txPhase_some (lk := lk) (ns := ns) hc
    rw [h] at hn; simp at hn
  | idle => simp [ha] at hd
  | tick => simp [ha] at hd

/-- **C91, counterexample.** A `RunInterval` that is not positive is accepted by `NewEventBus`; `Start` then ends the process. -/
theorem C91_dead_at_start (hi : b.opt.runInterval ≤ 0) {s : State} (hs : s.started = false) : (s.start b).alive = false := by
  have : ¬ 0 < b.opt.runInterval := by omega
  simp [State.start, hs, this]

theorem foldlM_none {α β : Type} (f : β → α → Option β) (l : List α) (x : α) (hx : x ∈ l) (h : ∀ d, f d x = none) (d : β) : l.foldlM f d = none := by
  induction l generalizing d with
  | nil => simp at hx
  | cons y l ih =>
    rw [List.foldlM_cons]
    rcases List.mem_cons.1 hx with rfl | hx
    · rw [h]; rfl
    · cases f d y with
      | none => rfl
      | some d' => exact ih hx d'

theorem poisoned_dies {tx : TxRow} (hp : Poisoned ask tx) {s : State} (htx : tx ∈ s.db.txs) (hsvc : tx.service = svc) (hdue : tx.due < s.now) (ns : Nat → Nat) :
    txPhase false (ask s.now) svc s.now ns s.db = none := by
  simp only [txPhase, Bool.false_eq_true, if_false, handleTxsP]
  refine foldlM_none _ _ tx (List.mem_filter.2 ⟨htx, by simp [hsvc, hdue]⟩) (fun d => ?_) _
  simp only [checkTxP]
  cases he : tx.events with
  | nil => rfl
  | cons e es => simp [hp s.now hdue e es he]

/-- **C91, counterexample.** One overdue transaction on which the checker panics stops the service for good: as long as the others leave that row alone, every tick ends the process without having handled a single event, the row stays,
and so every new process ends the same way. -/
theorem C91_poison {tx : TxRow} (hp : Poisoned ask tx) (hkeep : ∀ op, others op → ∀ db, tx ∈ db.txs → tx ∈ (op.apply db).txs) {s0 s : State} (htx : tx ∈ s0.db.txs) (hsvc : tx.service = svc)
    (hdue : tx.due < s0.now) (h : Steps b svc cb ask false regOk others s0 s) :
    tx ∈ s.db.txs ∧ tx.due < s.now ∧ s.passes = s0.passes ∧ ∀ ns, txPhase false (ask s.now) svc s.now ns s.db = none := by
  have key : tx ∈ s.db.txs ∧ tx.due < s.now ∧ s.passes = s0.passes := by
    induction h with
    | refl => exact ⟨htx, hdue, rfl⟩
    | @snoc s1 s2 _ st ih =>
      obtain ⟨h1, h2, h3⟩ := ih
      have hd := poisoned_dies (ask := ask) hp h1 hsvc h2
      cases st with
      | time => exact ⟨h1, by simp; omega, h3⟩
      | other ho => exact ⟨hkeep _ ho _ h1, h2, h3⟩
      | boot =>
        refine ⟨?_, h2, h3⟩
        simp only [State.boot]
        split
        · unfold register; split <;> exact h1
        · exact h1
      | start =>
        simp only [State.start]
        split
        · exact ⟨h1, h2, h3⟩
        · split <;> exact ⟨h1, h2, h3⟩
      | clean =>
        refine ⟨?_, h2, h3⟩
        have : ∀ (bs : List (List Nat)) (d : DB), (bs.foldl (cleanBatch svc) d).txs = d.txs := by
          intro bs
          induction bs with
          | nil => intro d; rfl
          | cons x bs ih => intro d; rw [List.foldl_cons, ih]; rfl
        simp only [Bus.clean, this]
        exact h1
      | die => exact ⟨h1, h2, h3⟩
      | @idle lk ns db1 hl _ _ hs =>
        have : lk = false := by cases lk <;> simp_all
        subst this
        rw [hd] at hs; simp at hs
      | @tick lk ns db1 st ans p hl _ _ hs =>
        have : lk = false := by cases lk <;> simp_all
        subst this
        rw [hd] at hs; simp at hs
  exact ⟨key.1, key.2.1, key.2.2, poisoned_dies (ask := ask) hp key.1 hsvc key.2.1⟩

/-! ### A service whose registration failed -/

/-- the service is unknown: neither registered nor does it have a delivery record -/
def Unknown (svc : Nat) (db : DB) : Prop := svc ∉ db.services ∧ ∀ r ∈ db.recs, r.service ≠ svc

theorem unknown_insertAll {ps : List EvRow} (ss : List Nat) (db : DB) (h : Unknown svc db) (hss : svc ∉ ss) : Unknown svc (insertAllRecs ps ss db) := by
  induction ss generalizing db with
  | nil => exact h
  | cons s ss ih =>
    simp only [List.mem_cons, not_or] at hss
    refine ih _ ⟨h.1, fun r hr => ?_⟩ hss.2
    simp only [insertRecs, List.mem_append] at hr
    rcases hr with hr | hr
    · exact h.2 r hr
    · have : ∀ (ps : List EvRow) (f : Nat), ∀ r ∈ newRecs f s ps, r.service = s := by
        intro ps
        induction ps with
        | nil => intro f r hr; simp [newRecs] at hr
        | cons p ps ih =>
          intro f r hr
          simp only [newRecs, List.mem_cons] at hr
          rcases hr with rfl | hr
          · rfl
          · exact ih _ r hr
      rw [this _ _ r hr]; exact fun e => hss.1 e.symm

theorem unknown_dispatch {db : DB} (h : Unknown svc db) (tid : Nat) (es : List DEv) (n : Nat) : Unknown svc (dispatch db tid es n).1 := by
  unfold dispatch
  split
  · exact h
  · split
    · exact h
    · exact h
    · exact unknown_insertAll _ _ h fun hm => h.1 (List.mem_of_mem_take hm)

theorem unknown_commit {db : DB} (h : Unknown svc db) (tx : TxRow) (n : Nat) : Unknown svc (commit db tx n).1 := by
  unfold commit
  split
  · exact h
  · rename_i n
    split
    · exact h
    · unfold commitRest
      have := unknown_dispatch h tx.id tx.events n
      generalize dispatch db tx.id tx.events n = x at this
      obtain ⟨d, ok⟩ := x
      cases ok with
      | false => exact this
      | true => simp only; split <;> exact this

theorem unknown_checkTx {db : DB} (h : Unknown svc db) (ask : DEv → TxAns) (tx : TxRow) (n : Nat) : Unknown svc (checkTx ask db tx n) := by
  unfold checkTx
  split
  · exact h
  · split
    · exact h
    · exact unknown_commit h tx n
    · unfold rollback; split <;> exact h

theorem unknown_txs (ask : DEv → TxAns) (ns : Nat → Nat) (l : List TxRow) {db : DB} (h : Unknown svc db) : Unknown svc (l.foldl (fun d t => checkTx ask d t (ns t.id)) db) := by
  induction l generalizing db with
  | nil => exact h
  | cons t l ih => exact ih (unknown_checkTx h _ _ _)

theorem unknown_txPhase {lk : Bool} {ask : DEv → Option TxAns} {svc' now : Nat} {ns : Nat → Nat} {db db1 : DB} (h : Unknown svc db) (hs : txPhase lk ask svc' now ns db = some db1) : Unknown svc db1 := by
  unfold txPhase handleTxsP at hs
  split at hs
  · simp at hs; exact hs ▸ h
  · generalize db.txs.filter _ = l at hs
    induction l generalizing db with
    | nil => simp at hs; exact hs ▸ h
    | cons t l ih =>
      rw [List.foldlM_cons] at hs
      cases hx : checkTxP ask (ns t.id) db t with
      | none => rw [hx] at hs; simp at hs
      | some d =>
        rw [hx] at hs
        refine ih ?_ hs
        simp only [checkTxP] at hx
        split at hx
        · simp at hx
        · rw [Option.map_eq_some_iff] at hx
          obtain ⟨a, _, rfl⟩ := hx
          exact unknown_checkTx h _ _ _

theorem unknown_saveRec {db : DB} (h : Unknown svc db) {r : Rec} (hr : r.service ≠ svc) : Unknown svc (saveRec db r) := by
  refine ⟨h.1, fun x hx => ?_⟩
  simp only [saveRec, List.mem_map] at hx
  obtain ⟨y, hy, rfl⟩ := hx
  split
  · exact hr
  · exact h.2 y hy

theorem afterCall_service (st : Strategy) (now : Nat) (r : Rec) (a : Ret) : (afterCall st now r a).service = r.service := by
  cases a <;> simp only [afterCall, retryStep] <;> split <;> rfl

theorem unknown_leave {c : Cfg} {svc' start now : Nat} {ans : Nat → DEv → Ret} {ts : List Tuple} {db : DB} (h : Unknown svc db) (hts : ∀ t ∈ ts, t.r.service ≠ svc) (i : Nat) (l : Pool.Seen) :
    Unknown svc ((Pool.busWork c svc' start now ans ts).leave i l db) := by
  simp only [Pool.busWork]
  split
  · rename_i t ht; exact unknown_saveRec h (by rw [afterCall_service]; exact hts _ (List.mem_of_getElem? ht))
  · rename_i t ht; exact unknown_saveRec h (hts _ (List.mem_of_getElem? ht))
  · exact h

theorem unknown_handleAll {c : Cfg} {svc' start now : Nat} {ans : Nat → DEv → Ret} (ts : List Tuple) (hts : ∀ t ∈ ts, t.r.service ≠ svc) (i : Nat) {db : DB} (h : Unknown svc db) :
    Unknown svc (handleAll c svc' start now ans i ts db).1 := by
  induction ts generalizing i db with
  | nil => exact h
  | cons t ts ih =>
    simp only [handleAll]
    refine ih (fun t ht => hts t (by simp [ht])) _ ?_
    have := hts t (by simp)
    unfold handle
    split
    · split
      · exact h
      · split
        · exact unknown_saveRec h (by rw [afterCall_service]; exact this)
        · exact unknown_saveRec h this
    · exact h

theorem unknown_scan {db : DB} (h : Unknown svc db) (svc' limit start now : Nat) : ∀ t ∈ scan db svc' limit start now, t.r.service ≠ svc := fun t ht =>
  h.2 _ (mem_scanRecs (mem_pairUp ht).1).1

theorem unknown_clean {db : DB} (h : Unknown svc db) (c : Cfg) (svc' now : Nat) : Unknown svc (Bus.clean c svc' now db) := by
  unfold Bus.clean
  generalize batches (cleanable c db svc' now) = bs
  induction bs generalizing db with
  | nil => exact h
  | cons x bs ih => exact ih ⟨h.1, fun r hr => h.2 r (List.mem_of_mem_filter hr)⟩

theorem unknown_op {db : DB} (h : Unknown svc db) (op : Bus.Op) (hop : op ≠ .register svc) : Unknown svc (op.apply db) := by
  cases op with
  | dispatch es n => exact unknown_dispatch h _ _ _
  | begin s now tmo es ok => simp only [Op.apply, dispatchBegin]; split; exact h; split <;> exact h
  | commit tx n => simp only [Op.apply]; split; exact unknown_commit h _ _; exact h
  | rollback tx ok => simp only [Op.apply, rollback]; split; split <;> exact h; exact h
  | check ask s now ns => exact unknown_txs _ _ _ h
  | register s =>
    simp only [Op.apply, register]
    split
    · exact h
    · refine ⟨?_, h.2⟩
      simp only [List.mem_append, List.mem_singleton, not_or]
      exact ⟨h.1, fun e => hop (by rw [e])⟩
  | run c s now ans =>
    simp only [Op.apply, handleEvents]
    split
    · exact h
    · exact unknown_handleAll _ (unknown_scan h _ _ _ _) _ h
  | clean c s now => exact unknown_clean h _ _ _

/-- **C91, counterexample.** `NewEventBus` ignores whether its service could be registered, and nothing repairs it later (the error for which `Start` would register again is never returned by anything): if registration fails and
nobody else registers the service, then whatever is dispatched, however long the bus runs: the service is never registered, no delivery record is ever created for it and its handlers are never called. -/
theorem C91_unregistered {s0 s : State} (hu : svc ∉ s0.db.services) (hr : ∀ r ∈ s0.db.recs, r.service ≠ svc) (hp : s0.passes = []) (ho : ∀ op, others op → op ≠ .register svc)
    (h : Steps b svc cb ask mayLock false others s0 s) : svc ∉ s.db.services ∧ (∀ r ∈ s.db.recs, r.service ≠ svc) ∧ ∀ ts ∈ s.passes, ts = [] := by
  have key : Unknown svc s.db ∧ ∀ ts ∈ s.passes, ts = [] := by
    induction h with
    | refl => exact ⟨⟨hu, hr⟩, by simp [hp]⟩
    | @snoc s1 s2 _ st ih =>
      obtain ⟨h1, h2⟩ := ih
      cases st with
      | time => exact ⟨h1, h2⟩
      | other hop => exact ⟨unknown_op h1 _ (ho _ hop), h2⟩
      | @boot ok hok =>
        have : ok = false := by cases ok <;> simp_all
        subst this
        exact ⟨h1, h2⟩
      | start =>
        simp only [State.start]
        split
        · exact ⟨h1, h2⟩
        · split <;> exact ⟨h1, h2⟩
      | clean => exact ⟨unknown_clean h1 _ _ _, h2⟩
      | die => exact ⟨h1, h2⟩
      | idle _ _ _ hs => exact ⟨unknown_txPhase h1 hs, h2⟩
      | @tick lk ns db1 st ans p hl _ _ hs _ _ hpass _ =>
        have hu1 := unknown_txPhase h1 hs
        have hsc : scan db1 svc b.cfg.limit st s1.now = [] := by
          cases hsc : scan db1 svc b.cfg.limit st s1.now with
          | nil => rfl
          | cons t ts =>
            have hm : t ∈ scan db1 svc b.cfg.limit st s1.now := by rw [hsc]; simp
            exact absurd (mem_scanRecs (mem_pairUp hm).1).2.1 (unknown_scan hu1 _ _ _ _ t hm)
        rw [hsc] at hpass
        obtain ⟨m, hx⟩ := hpass
        refine ⟨?_, fun ts hts => ?_⟩
        · show Unknown svc p.data
          rename_i hret
          clear hret
          induction hx with
          | nil => exact hu1
          | snoc _ stp ih =>
            cases stp with
            | @finish a' b' i' l' hw => exact unknown_leave (c := b.cfg) (svc' := svc) (start := st) (now := s1.now) (ans := ans) (ts := []) ih (by simp) i' l'
            | _ => exact ih
        · simp only [List.mem_append, List.mem_singleton, hsc, List.take_nil] at hts
          rcases hts with hts | hts
          · exact h2 ts hts
          · exact hts
  exact ⟨key.1.1, key.1.2, key.2⟩

/-! ### Examples -/

/-- a transaction of service 1 that is overdue at time 5 -/
def exTx : TxRow := ⟨1, 1, [⟨1, 7, .transaction, 1, 0⟩], 3⟩
def exPoison : DB := { events := [], recs := [], services := [1], txs := [exTx], nextEv := 1, nextRec := 1, nextTx := 2 }

/-- the situation of `C91_unregistered` is reached: the registration fails, events are dispatched (one record for the other service, none for service 1) and the loop runs -/
example (b : EventBus) (hb : 0 < b.opt.runInterval) : ∃ s, Steps b 1 true (fun _ _ => none) true false (fun op => ∃ es n, op = .dispatch es n) (fresh { exPoison with services := [2], txs := [] }) s ∧ s.loops = 1 ∧
    s.db.events.length = 1 ∧ s.db.recs.map Rec.service = [2] := by
  refine ⟨_, (((Steps.refl _).snoc (.boot (ok := false) (by simp))).snoc (.start rfl)).snoc (.other (op := .dispatch [⟨1, 7, .normal, 1, 0⟩] 5) ⟨_, _, rfl⟩), ?_⟩
  have h2 : ((fresh { exPoison with services := [2], txs := [] }).boot 1 false).start b = { (fresh { exPoison with services := [2], txs := [] }).boot 1 false with started := true, loops := 1, crons := 1 } := by
    simp only [State.start]; rw [if_neg (by decide), if_pos hb]; rfl
  rw [h2]
  exact ⟨rfl, by decide +kernel, by decide +kernel⟩

/-- the hypotheses of `C91_poison` are met: a checker that panics on every event; meanwhile other clients dispatch events and begin transactions -/
example : Poisoned (fun _ _ => none) exTx ∧ (∀ op, (∃ es n, op = Bus.Op.dispatch es n) → ∀ db, exTx ∈ db.txs → exTx ∈ (op.apply db).txs) ∧ exTx ∈ exPoison.txs ∧ exTx.due < 5 := by
  refine ⟨fun _ _ _ _ _ => rfl, ?_, by decide, by decide⟩
  rintro op ⟨es, n, rfl⟩ db h
  simp only [Op.apply, dispatch]
  split
  · exact h
  · split
    · exact h
    · exact h
    · have : ∀ (ps : List EvRow) (ss : List Nat) (d : DB), (insertAllRecs ps ss d).txs = d.txs := by
        intro ps ss
        induction ss with
        | nil => intro d; rfl
        | cons s ss ih => intro d; rw [insertAllRecs, ih]; rfl
      rw [this]; exact h

/-- and such a process does end: boot, start, tick -/
theorem poison_demo (b : EventBus) (hb : 0 < b.opt.runInterval) : ∃ s, Steps b 1 true (fun _ _ => none) false true (fun _ => False) { fresh exPoison with now := 5 } s ∧ s.alive = false ∧ s.loops = 1 := by
  let s0 : State := { fresh exPoison with now := 5 }
  let s1 := s0.boot 1 true
  have h2 : s1.start b = { s1 with started := true, loops := 1, crons := 1 } := by
    simp only [State.start]; rw [if_neg (by decide), if_pos hb]; rfl
  refine ⟨{ (s1.start b) with alive := false }, (((Steps.refl s0).snoc (.boot (ok := true) (fun _ => rfl))).snoc (.start rfl)).snoc (.die (lk := false) (ns := fun _ => 9) (by simp) (by rw [h2]; rfl) (by rw [h2]; decide) ?_), rfl, by rw [h2]⟩
  rw [h2]
  exact poisoned_dies (ask := fun _ _ => none) (tx := exTx) (s := { s1 with started := true, loops := 1, crons := 1 }) (fun _ _ _ _ _ => rfl) (by decide) rfl (by decide) _

end Ddd.BusLife
