import Verif.Spec.BusMsg
import Verif.Props.BusSeq
import Verif.Props.BusScan
import Verif.Props.BusHandle
import Mathlib.Tactic.FinCases
/-!
# C114, C115: failures whose message can not be stored, strategies that panic
-/
set_option linter.unusedVariables false
set_option linter.unusedSimpArgs false
namespace Ddd.BusMsg
open Bus

/-! ## which messages can be stored -/

/-- **C114** The message of a handler (a string of characters) can be stored exactly if it has at most 65535 bytes or if a character ends at byte 65535. -/
theorem C114_stored_iff (s : String) : TextColumn (cut s.toByteArray) ↔ s.utf8ByteSize ≤ 65535 ∨ ∃ a b : String, s = a ++ b ∧ a.utf8ByteSize = 65535 := by
  have hz : s.toByteArray.size = s.utf8ByteSize := String.size_toByteArray
  unfold cut TextColumn
  by_cases h : 65535 < s.toByteArray.size
  · rw [if_pos h]
    have h1 : ¬ s.utf8ByteSize ≤ 65535 := by omega
    simp only [h1, false_or]
    have h2 := String.Pos.Raw.isValid_iff_exists_append (s := s) (p := ⟨65535⟩)
    have h3 := String.Pos.Raw.isValid_iff_isValidUTF8_extract_zero (s := s) (p := ⟨65535⟩)
    rw [h2] at h3
    constructor
    · rintro ⟨_, hv⟩
      obtain ⟨a, b, e, hp⟩ := h3.2 ⟨by simp [String.Pos.Raw.le_iff]; omega, hv⟩
      exact ⟨a, b, e, by have := congrArg String.Pos.Raw.byteIdx hp; simpa using this.symm⟩
    · rintro ⟨a, b, e, hp⟩
      refine ⟨by simp, (h3.1 ⟨a, b, e, ?_⟩).2⟩
      apply String.Pos.Raw.ext
      simp [hp]
  · rw [if_neg h]
    have h1 : s.utf8ByteSize ≤ 65535 := by omega
    simp only [h1, true_or, iff_true]
    exact ⟨by omega, s.isValidUTF8⟩

theorem size_ofList_a (n : Nat) : (String.ofList (List.replicate n 'a')).utf8ByteSize = n := by
  induction n with
  | zero => simp
  | succ n ih =>
    rw [List.replicate_succ, show ('a' :: List.replicate n 'a') = ['a'] ++ List.replicate n 'a' from rfl, String.ofList_append, String.utf8ByteSize_append, ih]
    have : (String.ofList ['a']).utf8ByteSize = 1 := by decide
    omega

/-- a text of n letters and an é has no character boundary before its last byte -/
theorem no_boundary (n : Nat) (a b : String) (e : String.ofList (List.replicate n 'a' ++ ['é']) = a ++ b) : a.utf8ByteSize ≠ n + 1 := by
  intro ha
  have he : (String.ofList ['é']).utf8ByteSize = 2 := by decide
  have hl : a.toList ++ b.toList = List.replicate n 'a' ++ ['é'] := by
    have := congrArg String.toList e
    rw [String.toList_ofList, String.toList_append] at this
    exact this.symm
  rcases List.append_eq_append_iff.1 hl with ⟨c, h1, h2⟩ | ⟨c, h1, h2⟩
  · have : a.toList = List.replicate a.toList.length 'a' := by
      apply List.eq_replicate_iff.2 ⟨rfl, ?_⟩
      intro x hx
      have : x ∈ List.replicate n 'a' := by rw [h1]; exact List.mem_append_left _ hx
      exact List.eq_of_mem_replicate this
    have hlen : a.toList.length ≤ n := by
      have := congrArg List.length h1
      rw [List.length_replicate, List.length_append] at this
      omega
    have : a.utf8ByteSize = a.toList.length := by
      conv_lhs => rw [← String.ofList_toList (s := a), this, size_ofList_a]
    omega
  · rcases c with _ | ⟨x, c⟩
    · have : a = String.ofList (List.replicate n 'a') := by
        rw [← String.ofList_toList (s := a), h1, List.append_nil]
      rw [this, size_ofList_a] at ha
      omega
    · rw [List.cons_append] at h2
      have h3 := (List.cons.inj h2).2
      have hc := List.append_eq_nil_iff.1 h3.symm
      have hx := (List.cons.inj h2).1
      have h4 : a = String.ofList (List.replicate n 'a' ++ ['é']) := by
        rw [← String.ofList_toList (s := a), h1, hc.1, hx]
      rw [h4, String.ofList_append, String.utf8ByteSize_append, size_ofList_a, he] at ha
      omega

/-- a message of `n + 2` bytes: `n` letters and an é -/
def longMsg (n : Nat) : String := String.ofList (List.replicate n 'a' ++ ['é'])

theorem not_stored (n : Nat) (h : n + 1 = 65535) : ¬ TextColumn (cut (longMsg n).toByteArray) := by
  have he : (String.ofList ['é']).utf8ByteSize = 2 := by decide
  have hs : (longMsg n).utf8ByteSize = n + 2 := by
    rw [longMsg, String.ofList_append, String.utf8ByteSize_append, size_ofList_a, he]
  rw [C114_stored_iff, not_or]
  refine ⟨by omega, ?_⟩
  rintro ⟨a, b, e, ha⟩
  exact no_boundary n a b e (by omega)

/-- **C114** (it is not so for all messages) An ordinary text of 65536 bytes: 65534 letters and an é. -/
theorem C114_not_stored : ¬ TextColumn (cut (longMsg 65534).toByteArray) := not_stored 65534 (by omega)

/-- **C114** (nor for short ones) An error whose text is not UTF-8 (say, bytes of a packet): one byte is enough. -/
theorem C114_binary : ¬ TextColumn (cut ⟨#[0xff]⟩) := by
  unfold TextColumn cut
  rw [if_neg (by decide)]
  rintro ⟨_, h⟩
  revert h
  rw [← ByteArray.validateUTF8_eq_true_iff]
  decide

/-! ## one event -/

theorem retry_key {env : Env} {now : Nat} {r r' : Rec} (h : retry env now r = some r') : r'.key = r.key := by
  unfold retry at h
  split at h
  · exact absurd h (by simp)
  · cases h; rfl
  · cases h; rfl

theorem failure_db {env : Env} {now : Nat} {r : Rec} {ev : DEv} {m : ByteArray} {db : DB} :
    (failure env now r ev m db).db = db ∨ ∃ x, x.key = r.key ∧ (failure env now r ev m db).db = saveRec db x := by
  unfold failure
  split
  · exact .inl rfl
  · rename_i r' h
    split
    · exact .inr ⟨r', retry_key h, rfl⟩
    · exact .inl rfl

theorem handle1_db {env : Env} {svc start now : Nat} {ans : DEv → Reply} {t : Tuple} {db : DB} :
    (handle1 env svc start now ans t db).db = db ∨ ∃ x, x.key = t.r.key ∧ (handle1 env svc start now ans t db).db = saveRec db x := by
  unfold handle1
  split
  · split
    · exact .inl rfl
    · split
      · split
        · exact .inr ⟨{ t.r with status := .success }, rfl, rfl⟩
        · exact failure_db
        · exact failure_db
      · exact .inr ⟨_, rfl, rfl⟩
  · exact .inl rfl

theorem same_handle1 {env : Env} {svc start now : Nat} {ans : DEv → Reply} {t : Tuple} {db : DB} (hn : (db.recs.map Rec.id).Nodup) (h : t.r.key ∈ db.recs.map Rec.key) :
    SameButRecs db (handle1 env svc start now ans t db).db := by
  rcases handle1_db (env := env) (svc := svc) (start := start) (now := now) (ans := ans) (t := t) (db := db) with h1 | ⟨x, hx, h1⟩
  · rw [h1]; exact .refl _
  · rw [h1]; exact same_saveRec hn (by rw [hx]; exact h)

theorem same_handleRest {env : Env} {svc start now : Nat} {ans : DEv → Reply} (ts : List Tuple) : ∀ {db : DB}, (db.recs.map Rec.id).Nodup →
    (∀ t ∈ ts, t.r.key ∈ db.recs.map Rec.key) → SameButRecs db (handleRest env svc start now ans ts db).db := by
  induction ts with
  | nil => intro db _ _; exact .refl _
  | cons t ts ih =>
    intro db hn h
    have h1 := same_handle1 (env := env) (svc := svc) (start := start) (now := now) (ans := ans) hn (h t (by simp))
    unfold handleRest
    split
    · exact h1.trans (ih (by rw [ids_of_keys h1.keys]; exact hn) (fun t' ht => by rw [h1.keys]; exact h t' (by simp [ht])))
    · exact h1

theorem scan_keys {db : DB} {svc limit start now : Nat} : ∀ t ∈ scan db svc limit start now, t.r.key ∈ db.recs.map Rec.key := by
  intro t ht
  exact List.mem_map_of_mem (mem_scanRecs (mem_pairUp ht).1).1

theorem same_pass {env : Env} {svc now : Nat} {ans : DEv → Reply} {db : DB} (hn : (db.recs.map Rec.id).Nodup) : SameButRecs db (pass env svc now ans db).db := by
  unfold pass
  split
  · exact .refl _
  · exact same_handleRest _ hn scan_keys

theorem integrity_same {db db' : DB} (hs : SameButRecs db db') (h : Integrity db) : Integrity db' := by
  intro r hr
  obtain ⟨x, hx, hk⟩ := mem_of_keys hs.keys hr
  obtain ⟨e, he, h1⟩ := h x hx
  exact ⟨e, by rw [hs.events]; exact he, h1.trans (Rec.key_eq.1 hk).2.2⟩

theorem mem_saveRec_other {db : DB} {x r : Rec} (hr : r ∈ db.recs) (h : r.id ≠ x.id) : r ∈ (saveRec db x).recs := by
  simp only [saveRec, List.mem_map]
  exact ⟨r, hr, by rw [if_neg h]⟩

theorem mem_saveRec_self {db : DB} {r : Rec} (hr : r ∈ db.recs) : r ∈ (saveRec db r).recs := by
  simp only [saveRec, List.mem_map]
  exact ⟨r, hr, by simp⟩

/-- a failure that is not counted -/
def Hopeless (env : Env) (r : Rec) (now : Nat) (a : Reply) : Prop := ∃ m, Fails a m ∧ (env.accepts (cut m) = false ∨ env.next r.retry now = none)

theorem failure_hopeless {env : Env} {now : Nat} {r : Rec} {ev : DEv} {m : ByteArray} {db : DB} (h : env.accepts (cut m) = false ∨ env.next r.retry now = none) :
    (failure env now r ev m db).db = db := by
  unfold failure
  split
  · rfl
  · rename_i r' h1
    rcases h with h | h
    · rw [if_neg (by simp [h])]
    · simp [retry, h] at h1

theorem handle1_keeps {env : Env} {svc start now : Nat} {ans : DEv → Reply} {t : Tuple} {db : DB} {r : Rec} {e : EvRow} (hr : r ∈ db.recs)
    (ht : t.r.id = r.id → t.r = r ∧ t.e = e) (hh : Hopeless env r now (ans e.ev)) : r ∈ (handle1 env svc start now ans t db).db.recs := by
  by_cases hid : t.r.id = r.id
  · obtain ⟨h1, h2⟩ := ht hid
    obtain ⟨m, hf, hm⟩ := hh
    unfold handle1
    rw [h1, h2]
    split
    · split
      · exact hr
      · split
        · rcases hf with hf | hf <;> rw [hf] <;> simp only <;> rw [failure_hopeless hm] <;> exact hr
        · exact mem_saveRec_self hr
    · exact hr
  · rcases handle1_db (env := env) (svc := svc) (start := start) (now := now) (ans := ans) (t := t) (db := db) with h1 | ⟨x, hx, h1⟩
    · rw [h1]; exact hr
    · rw [h1]; exact mem_saveRec_other hr (by rw [(Rec.key_eq.1 hx).1]; exact fun h => hid h.symm)

theorem handleRest_keeps {env : Env} {svc start now : Nat} {ans : DEv → Reply} {r : Rec} {e : EvRow} (hh : Hopeless env r now (ans e.ev)) (ts : List Tuple) : ∀ {db : DB}, r ∈ db.recs →
    (∀ t ∈ ts, t.r.id = r.id → t.r = r ∧ t.e = e) → r ∈ (handleRest env svc start now ans ts db).db.recs := by
  induction ts with
  | nil => intro db hr _; exact hr
  | cons t ts ih =>
    intro db hr h
    have h1 := handle1_keeps (env := env) (svc := svc) (start := start) (now := now) hr (h t (by simp)) hh
    unfold handleRest
    split
    · exact ih h1 (fun t' ht => h t' (by simp [ht]))
    · exact h1

theorem scan_pair {db : DB} (hv : Valid db) (hi : Integrity db) {svc limit start now : Nat} {r : Rec} {e : EvRow} (hr : r ∈ db.recs) (he : e ∈ db.events) (hre : e.id = r.eventId) :
    ∀ t ∈ scan db svc limit start now, t.r.id = r.id → t.r = r ∧ t.e = e := by
  intro t ht hid
  have hw := C39_right_work hv hi svc limit start now
  have h1 : t.r = r := List.inj_on_of_nodup_map hv.recIds (hw.due t ht).1 hr hid
  obtain ⟨h2, h3⟩ := hw.own t ht
  exact ⟨h1, List.inj_on_of_nodup_map hv.evIds h2 he (by rw [h3, h1, hre])⟩

theorem pass_keeps {env : Env} {svc now : Nat} {ans : DEv → Reply} {db : DB} (hv : Valid db) (hi : Integrity db) {r : Rec} {e : EvRow} (hr : r ∈ db.recs) (he : e ∈ db.events) (hre : e.id = r.eventId)
    (hh : Hopeless env r now (ans e.ev)) : r ∈ (pass env svc now ans db).db.recs := by
  unfold pass
  split
  · exact hr
  · exact handleRest_keeps hh _ hr (scan_pair hv hi hr he hre)

/-! ## everything else -/

/-- nothing is removed -/
def Grows (db db' : DB) : Prop := (∀ r ∈ db.recs, r ∈ db'.recs) ∧ ∀ e ∈ db.events, e ∈ db'.events

theorem Grows.rfl {db : DB} : Grows db db := ⟨fun _ h => h, fun _ h => h⟩
theorem Grows.trans {a b c : DB} (h : Grows a b) (h' : Grows b c) : Grows a c := ⟨fun r hr => h'.1 r (h.1 r hr), fun e he => h'.2 e (h.2 e he)⟩

theorem grows_added {tid : Nat} {a b : DB} (h : Added tid a b) : Grows a b := by
  obtain ⟨ps, h1, -⟩ := h.events
  obtain ⟨rs, h2, -⟩ := h.recs
  exact ⟨fun r hr => by rw [h2]; exact List.mem_append_left _ hr, fun e he => by rw [h1]; exact List.mem_append_left _ he⟩

theorem grows_commit (db : DB) (tx : TxRow) (n : Nat) : Grows db (commit db tx n).1 := by
  rcases commit_cases db tx n with h | ⟨d, h1, h | h⟩
  · rw [h]; exact .rfl
  · rw [h]; exact grows_added h1
  · rw [h]; exact ⟨(grows_added h1).1, (grows_added h1).2⟩

theorem grows_rollback (db : DB) (tx : TxRow) (ok : Bool) : Grows db (rollback db tx ok).1 := by
  unfold rollback; split <;> exact ⟨fun _ h => h, fun _ h => h⟩

theorem grows_checkTx (ask : DEv → TxAns) (db : DB) (tx : TxRow) (n : Nat) : Grows db (checkTx ask db tx n) := by
  unfold checkTx
  split
  · exact .rfl
  · split
    · exact .rfl
    · exact grows_commit _ _ _
    · exact grows_rollback _ _ _

theorem op_keeps {db : DB} (hv : Valid db) {svc : Nat} {r : Rec} {e : EvRow} (hr : r ∈ db.recs) (he : e ∈ db.events) (hre : e.id = r.eventId) (hs : r.service = svc) (hst : r.status ≠ .success)
    {o : Op} (ho : NotRun svc o) : r ∈ (o.apply db).recs ∧ e ∈ (o.apply db).events := by
  have use : ∀ {d : DB}, Grows db d → r ∈ d.recs ∧ e ∈ d.events := fun h => ⟨h.1 r hr, h.2 e he⟩
  cases o with
  | dispatch es n => exact use (grows_added (added_dispatch db 0 es n))
  | begin s now timeout es ok =>
    show r ∈ (dispatchBegin db s now timeout es ok).1.recs ∧ e ∈ (dispatchBegin db s now timeout es ok).1.events
    unfold dispatchBegin; split
    · exact ⟨hr, he⟩
    · split <;> exact ⟨hr, he⟩
  | commit tx n => dsimp only [Op.apply]; split; exacts [use (grows_commit _ _ _), ⟨hr, he⟩]
  | rollback tx ok => dsimp only [Op.apply]; split; exacts [use (grows_rollback _ _ _), ⟨hr, he⟩]
  | check ask s now ns =>
    apply use
    show Grows db (handleTxs ask s now ns db)
    unfold handleTxs
    have : ∀ (l : List TxRow) (d : DB), Grows d (l.foldl (fun d t => checkTx ask d t (ns t.id)) d) := by
      intro l
      induction l with
      | nil => intro d; exact .rfl
      | cons t l ih => intro d; exact (grows_checkTx _ _ _ _).trans (ih _)
    exact this _ _
  | register s =>
    show r ∈ (register db s).recs ∧ e ∈ (register db s).events
    unfold register; split <;> exact ⟨hr, he⟩
  | run c s now ans =>
    have hne : s ≠ svc := ho
    have h1 := C47_run_isolated (c := c) (svc := s) (now := now) (ans := ans) hv
    refine ⟨(h1.1 r (by rw [hs]; exact fun h => hne h.symm)).2 hr, ?_⟩
    show e ∈ (handleEvents c s now ans db).1.events
    rw [h1.2]; exact he
  | clean c s now =>
    have h1 : r ∈ (clean c s now db).recs := C48_survive hv hr (.inl hst)
    refine ⟨h1, ?_⟩
    show e ∈ (clean c s now db).events
    by_contra hc
    exact (C47_clean_isolated (c := c) (svc := s) (now := now) hv).2 e he hc r h1 hre.symm

/-! ## C114 -/

/-- the kind of answer, without its text -/
def plain : Reply → Ret
  | .ok => .ok
  | .err _ => .err
  | .panic _ => .panic

theorem failure_same {env : Env} {c : Cfg} {now : Nat} {r : Rec} {ev : DEv} {m : ByteArray} {db : DB} (hn : ∀ k t, env.next k t = some (c.strategy k t)) (ha : env.accepts (cut m) = true) :
    failure env now r ev m db = ⟨saveRec db (retryStep c.strategy now r), true, [ev]⟩ := by
  have : retry env now r = some (retryStep c.strategy now r) := by
    unfold retry retryStep
    rw [hn]
    cases c.strategy r.retry now with
    | none => rfl
    | some p => rfl
  simp only [failure, this, ha, if_true]

theorem handle1_same {env : Env} {c : Cfg} {svc start now : Nat} {ans : DEv → Reply} {t : Tuple} {db : DB} (hn : ∀ k t, env.next k t = some (c.strategy k t))
    (ha : ∀ ev m, Fails (ans ev) m → env.accepts (cut m) = true) :
    handle1 env svc start now ans t db = ⟨(handle c db svc start now t fun e => plain (ans e)).1, true, (handle c db svc start now t fun e => plain (ans e)).2.toList⟩ := by
  unfold handle1 handle
  split
  · split
    · rfl
    · split
      · cases h : ans t.e.ev with
        | ok => simp only [h, plain, afterCall]; rfl
        | err m => simp only [h, plain, afterCall]; rw [failure_same hn (ha _ m (.inl h))]; rfl
        | panic m => simp only [h, plain, afterCall]; rw [failure_same hn (ha _ m (.inr h))]; rfl
      · rfl
  · rfl

theorem handleRest_same {env : Env} {c : Cfg} {svc start now : Nat} {ans : DEv → Reply} (hn : ∀ k t, env.next k t = some (c.strategy k t))
    (ha : ∀ ev m, Fails (ans ev) m → env.accepts (cut m) = true) (ts : List Tuple) : ∀ (i : Nat) (db : DB),
    handleRest env svc start now ans ts db = ⟨(handleAll c svc start now (fun _ e => plain (ans e)) i ts db).1, true, (handleAll c svc start now (fun _ e => plain (ans e)) i ts db).2⟩ := by
  induction ts with
  | nil => intro i db; rfl
  | cons t ts ih =>
    intro i db
    unfold handleRest handleAll
    rw [handle1_same hn ha]
    simp only [if_true]
    rw [ih (i + 1)]

/-- **C114** (1) If the strategy does not panic and the database takes the text of every failure, a pass does what `Model/Bus.lean` says: the failure is counted (C41), whatever its text. -/
theorem C114_same_partial {env : Env} {c : Cfg} {svc now : Nat} {ans : DEv → Reply} (db : DB) (hw : env.window = c.window) (hl : env.limit = c.limit) (hn : ∀ k t, env.next k t = some (c.strategy k t))
    (ha : ∀ ev m, Fails (ans ev) m → env.accepts (cut m) = true) :
    pass env svc now ans db = ⟨(handleEvents c svc now (fun _ e => plain (ans e)) db).1, true, (handleEvents c svc now (fun _ e => plain (ans e)) db).2⟩ := by
  unfold pass handleEvents
  rw [hw, hl]
  split
  · rename_i h; simp only [h]
  · rename_i st h; simp only [h]; exact handleRest_same hn ha _ 0 _

/-- **C114** (2) A pending delivery of an event whose handler fails with texts the database does not take (or whose strategy panics) stays exactly as it is through any history: it is never counted as a failure,
never waits, never becomes failed, is never cleaned away. -/
theorem C114_never_counted {env : Env} {svc : Nat} {ans : Nat → DEv → Reply} {r : Rec} {e : EvRow} (hs : r.service = svc) (hst : r.status = .init) (hre : e.id = r.eventId)
    (hh : ∀ now, ∃ m, Fails (ans now e.ev) m ∧ (env.accepts (cut m) = false ∨ env.next r.retry now = none)) (acts : List Act) (hf : ∀ a ∈ acts, a.Fair svc) :
    ∀ {db : DB}, Valid db → Integrity db → r ∈ db.recs → e ∈ db.events →
      r ∈ (play env svc ans db acts).recs ∧ e ∈ (play env svc ans db acts).events ∧ Valid (play env svc ans db acts) ∧ Integrity (play env svc ans db acts) := by
  induction acts with
  | nil => intro db hv hi hr he; exact ⟨hr, he, hv, hi⟩
  | cons a acts ih =>
    intro db hv hi hr he
    have ih' := ih (fun a ha => hf a (by simp [ha])) (db := a.apply env svc ans db)
    show r ∈ (play env svc ans (a.apply env svc ans db) acts).recs ∧ _
    cases a with
    | pass now =>
      have hsame := same_pass (env := env) (svc := svc) (now := now) (ans := ans now) (db := db) hv.recIds
      exact ih' (hsame.valid hv) (integrity_same hsame hi) (pass_keeps hv hi hr he hre (hh now)) (by show e ∈ (pass env svc now (ans now) db).db.events; rw [hsame.events]; exact he)
    | op o =>
      have ho : NotRun svc o := hf (.op o) (by simp)
      obtain ⟨h1, h2⟩ := op_keeps hv hr he hre hs (by rw [hst]; decide) ho
      exact ih' (valid_apply hv o) (integrity_apply hv hi o) h1 h2

theorem failure_alive {env : Env} {now : Nat} {r : Rec} {ev : DEv} {m : ByteArray} {db : DB} (hn : env.next r.retry now ≠ none) : (failure env now r ev m db).alive = true := by
  unfold failure
  split
  · rename_i h
    unfold retry at h
    split at h
    · rename_i h'; exact absurd h' hn
    · exact absurd h (by simp)
    · exact absurd h (by simp)
  · split <;> rfl

theorem handle1_alive {env : Env} {svc start now : Nat} {ans : DEv → Reply} {t : Tuple} {db : DB} (hn : env.next t.r.retry now ≠ none) : (handle1 env svc start now ans t db).alive = true := by
  unfold handle1
  split
  · split
    · rfl
    · split
      · split
        · rfl
        · exact failure_alive hn
        · exact failure_alive hn
      · rfl
  · rfl

theorem handleRest_alive {env : Env} {svc start now : Nat} {ans : DEv → Reply} (ts : List Tuple) (hn : ∀ t ∈ ts, env.next t.r.retry now ≠ none) : ∀ (db : DB),
    (handleRest env svc start now ans ts db).alive = true := by
  induction ts with
  | nil => intro db; rfl
  | cons t ts ih =>
    intro db
    unfold handleRest
    rw [if_pos (handle1_alive (hn t (by simp)))]
    exact ih (fun t' h => hn t' (by simp [h])) _

theorem failure_called {env : Env} {now : Nat} {r : Rec} {ev : DEv} {m : ByteArray} {db : DB} : (failure env now r ev m db).called = [ev] := by
  unfold failure
  split
  · rfl
  · split <;> rfl

theorem handle1_called {env : Env} {svc start now : Nat} {ans : DEv → Reply} {t : Tuple} {db : DB} (hr : ∃ x ∈ db.recs, x.id = t.r.id) (hst : t.r.status = .init)
    (ho : t.e.ev.sendType ≠ .fifo ∧ t.e.ev.sendType ≠ .laxFifo) : (handle1 env svc start now ans t db).called = [t.e.ev] := by
  have h1 : (db.recs.any fun x => x.id == t.r.id) = true := by
    rw [List.any_eq_true]; obtain ⟨x, h, h'⟩ := hr; exact ⟨x, h, by simp [h']⟩
  have h2 : mayCall db svc start t.e = true := by unfold mayCall; rw [if_neg (by rintro (h | h); exacts [ho.1 h, ho.2 h])]
  unfold handle1
  simp only [h1, hst, h2, if_true, ne_eq, not_true_eq_false, if_false]
  split
  · rfl
  · exact failure_called
  · exact failure_called

theorem handle1_dies {env : Env} {svc start now : Nat} {ans : DEv → Reply} {t : Tuple} {db : DB} (hr : ∃ x ∈ db.recs, x.id = t.r.id) (hst : t.r.status = .init)
    (ho : t.e.ev.sendType ≠ .fifo ∧ t.e.ev.sendType ≠ .laxFifo) {m : ByteArray} (hf : Fails (ans t.e.ev) m) (hn : env.next t.r.retry now = none) :
    handle1 env svc start now ans t db = ⟨db, false, [t.e.ev]⟩ := by
  have h1 : (db.recs.any fun x => x.id == t.r.id) = true := by
    rw [List.any_eq_true]; obtain ⟨x, h, h'⟩ := hr; exact ⟨x, h, by simp [h']⟩
  have h2 : mayCall db svc start t.e = true := by unfold mayCall; rw [if_neg (by rintro (h | h); exacts [ho.1 h, ho.2 h])]
  unfold handle1
  simp only [h1, hst, h2, if_true, ne_eq, not_true_eq_false, if_false]
  rcases hf with h | h <;> simp only [h, failure, retry, hn]

theorem keys_ids {db : DB} {t : Tuple} (h : t.r.key ∈ db.recs.map Rec.key) : ∃ x ∈ db.recs, x.id = t.r.id := by
  obtain ⟨x, hx, hk⟩ := List.mem_map.1 h
  exact ⟨x, hx, (Rec.key_eq.1 hk).1⟩

/-- **C114** (3) In every pass whose work contains such a delivery its handler is called again, with no pause. -/
theorem C114_called_again {env : Env} {svc now start : Nat} {ans : DEv → Reply} {db : DB} (hv : Valid db) (hi : Integrity db) (hstart : IsWindowStart db env.window now start) {r : Rec} {e : EvRow}
    (hin : ∀ ts, RightWork db svc start env.limit now ts → r ∈ ts.map Tuple.r) (he : e ∈ db.events) (hre : e.id = r.eventId) (ho : e.ev.sendType ≠ .fifo ∧ e.ev.sendType ≠ .laxFifo)
    (hn : ∀ k t, env.next k t ≠ none) : e.ev ∈ (pass env svc now ans db).called := by
  have hw := C39_right_work hv hi svc env.limit start now
  obtain ⟨t, ht, htr⟩ := List.mem_map.1 (hin _ hw)
  have hd := hw.due t ht
  have hte : t.e = e := (scan_pair hv hi (htr ▸ hd.1) he hre t ht (by rw [htr])).2
  unfold pass
  rw [C39_window_start.2 hstart]
  simp only
  have key : ∀ (ts : List Tuple) (d : DB), (d.recs.map Rec.id).Nodup → (∀ t ∈ ts, t.r.key ∈ d.recs.map Rec.key) → t ∈ ts → e.ev ∈ (handleRest env svc start now ans ts d).called := by
    intro ts
    induction ts with
    | nil => intro d _ _ h; simp at h
    | cons u ts ih =>
      intro d hnd hk h
      have h1 := same_handle1 (env := env) (svc := svc) (start := start) (now := now) (ans := ans) hnd (hk u (by simp))
      unfold handleRest
      rw [if_pos (handle1_alive (hn _ _))]
      rcases List.mem_cons.1 h with rfl | h
      · apply List.mem_append_left
        rw [handle1_called (keys_ids (hk t (by simp))) hd.2.2.1 (by rw [hte]; exact ho), hte]
        simp
      · exact List.mem_append_right _ (ih _ (by rw [ids_of_keys h1.keys]; exact hnd) (fun t' ht => by rw [h1.keys]; exact hk t' (by simp [ht])) h)
  exact key _ _ hv.recIds scan_keys ht

/-! ## C115 -/

/-- **C115** (1) If the strategy does not panic, the process survives every pass, whatever the handlers do. -/
theorem C115_survives_partial {env : Env} {svc now : Nat} {ans : DEv → Reply} (db : DB) (hn : ∀ k t, env.next k t ≠ none) : (pass env svc now ans db).alive = true := by
  unfold pass
  split
  · rfl
  · exact handleRest_alive _ (fun t _ => hn _ _) _

/-- **C115** (2) If the strategy panics for a delivery that is handled in the pass and fails, the process dies. -/
theorem C115_dies {env : Env} {svc now start : Nat} {ans : DEv → Reply} {db : DB} (hv : Valid db) (hi : Integrity db) (hstart : IsWindowStart db env.window now start) {r : Rec} {e : EvRow}
    (hin : ∀ ts, RightWork db svc start env.limit now ts → r ∈ ts.map Tuple.r) (he : e ∈ db.events) (hre : e.id = r.eventId) (ho : e.ev.sendType ≠ .fifo ∧ e.ev.sendType ≠ .laxFifo)
    {m : ByteArray} (hf : Fails (ans e.ev) m) (hn : env.next r.retry now = none) : (pass env svc now ans db).alive = false := by
  have hw := C39_right_work hv hi svc env.limit start now
  obtain ⟨t, ht, htr⟩ := List.mem_map.1 (hin _ hw)
  have hd := hw.due t ht
  have hte : t.e = e := (scan_pair hv hi (htr ▸ hd.1) he hre t ht (by rw [htr])).2
  unfold pass
  rw [C39_window_start.2 hstart]
  simp only
  have key : ∀ (ts : List Tuple) (d : DB), (d.recs.map Rec.id).Nodup → (∀ t ∈ ts, t.r.key ∈ d.recs.map Rec.key) → t ∈ ts → (handleRest env svc start now ans ts d).alive = false := by
    intro ts
    induction ts with
    | nil => intro d _ _ h; simp at h
    | cons u ts ih =>
      intro d hnd hk h
      have h1 := same_handle1 (env := env) (svc := svc) (start := start) (now := now) (ans := ans) hnd (hk u (by simp))
      unfold handleRest
      rcases List.mem_cons.1 h with rfl | h
      · rw [handle1_dies (keys_ids (hk t (by simp))) hd.2.2.1 (by rw [hte]; exact ho) (by rw [hte]; exact hf) (by rw [htr]; exact hn)]
        simp
      · split
        · exact ih _ (by rw [ids_of_keys h1.keys]; exact hnd) (fun t' ht => by rw [h1.keys]; exact hk t' (by simp [ht])) h
        · simp_all
  exact key _ _ hv.recIds scan_keys ht

/-- **C115** (3) If it is the first one that is due, nothing else is handled: the tables stay as they are, so the next pass (after a restart) meets the same event first. -/
theorem C115_blocks {env : Env} {svc now start : Nat} {ans : DEv → Reply} {db : DB} (hv : Valid db) (hi : Integrity db) (hstart : IsWindowStart db env.window now start) (hl : 1 ≤ env.limit) {r : Rec} {e : EvRow}
    (hd : Due db svc start now r) (hfirst : ∀ r', Due db svc start now r' → r.eventId ≤ r'.eventId) (he : e ∈ db.events) (hre : e.id = r.eventId)
    (ho : e.ev.sendType ≠ .fifo ∧ e.ev.sendType ≠ .laxFifo) {m : ByteArray} (hf : Fails (ans e.ev) m) (hn : env.next r.retry now = none) :
    pass env svc now ans db = ⟨db, false, [e.ev]⟩ := by
  have hw := C39_right_work hv hi svc env.limit start now
  unfold pass
  rw [C39_window_start.2 hstart]
  simp only
  have hin : r ∈ (scan db svc env.limit start now).map Tuple.r := by
    by_contra hc
    obtain ⟨h1, h2⟩ := hw.first r hd hc
    rcases hs : scan db svc env.limit start now with _ | ⟨t, ts⟩
    · rw [hs] at h1; simp at h1; omega
    · have ht : t ∈ scan db svc env.limit start now := by rw [hs]; simp
      have := h2 t ht
      have := hfirst t.r (hw.due t ht)
      omega
  rcases hs : scan db svc env.limit start now with _ | ⟨t, ts⟩
  · rw [hs] at hin; simp at hin
  · have ht : t ∈ scan db svc env.limit start now := by rw [hs]; simp
    have htr : t.r = r := by
      rw [hs] at hin
      rcases List.mem_cons.1 hin with h | h
      · exact h.symm
      · obtain ⟨u, hu, hur⟩ := List.mem_map.1 h
        have h1 := hw.ordered
        rw [hs] at h1
        have := (List.pairwise_cons.1 h1).1 u hu
        have := hfirst t.r (hw.due t ht)
        rw [hur] at *
        omega
    have hte : t.e = e := (scan_pair hv hi hd.1 he hre t ht (by rw [htr])).2
    unfold handleRest
    rw [handle1_dies (keys_ids (scan_keys t ht)) (by rw [htr]; exact hd.2.2.1) (by rw [hte]; exact ho) (by rw [hte]; exact hf) (by rw [htr]; exact hn), hte]
    simp

/-- **C115** (4) So the service stops for good: as long as that event is in the window, any number of restarts and passes changes nothing. -/
theorem C115_stuck {env : Env} {svc : Nat} {ans : Nat → DEv → Reply} {db : DB} (hv : Valid db) (hi : Integrity db) (hl : 1 ≤ env.limit) {r : Rec} {e : EvRow} (he : e ∈ db.events) (hre : e.id = r.eventId)
    (ho : e.ev.sendType ≠ .fifo ∧ e.ev.sendType ≠ .laxFifo) (hf : ∀ now, ∃ m, Fails (ans now e.ev) m) (hn : ∀ now, env.next r.retry now = none) (nows : List Nat)
    (hnows : ∀ now ∈ nows, ∃ start, IsWindowStart db env.window now start ∧ Due db svc start now r ∧ ∀ r', Due db svc start now r' → r.eventId ≤ r'.eventId) :
    play env svc ans db (nows.map .pass) = db := by
  induction nows with
  | nil => rfl
  | cons now nows ih =>
    obtain ⟨start, h1, h2, h3⟩ := hnows now (by simp)
    obtain ⟨m, hm⟩ := hf now
    have := C115_blocks (ans := ans now) hv hi h1 hl h2 h3 he hre ho hm (hn now)
    show play env svc ans (pass env svc now (ans now) db).db (nows.map .pass) = db
    rw [this]
    exact ih (fun n h => hnows n (by simp [h]))

/-! ## concrete cases -/
namespace Demo

/-- two deliveries of service 7, the first of them about to fail -/
def ev (i : Nat) : DEv := ⟨10 + i, 5, .normal, 10, i⟩
def db : DB := (dispatch (emptyDB [7]) 0 [ev 1, ev 2] 100).1
/-- the default: `LimitRetry` 10; the column is taken to refuse texts that begin with the byte 255 -/
def env : Env := ⟨1000, 100, fun k t => some (limitRetry 10 k t), fun b => b.toList.head? != some 255⟩
def badNext : Env := ⟨1000, 100, fun _ _ => none, fun _ => true⟩
def ans (a : Reply) : DEv → Reply := fun e => if e.body = 1 then a else .ok

theorem valid : Valid db ∧ Integrity db := ⟨valid_apply (valid_emptyDB (ss := [7]) (by decide)) (.dispatch [ev 1, ev 2] 100), integrity_apply (valid_emptyDB (ss := [7]) (by decide)) (by intro r h; simp [emptyDB] at h) (.dispatch [ev 1, ev 2] 100)⟩

def r1 : Rec := ⟨1, 7, 1, 0, .init, 10, 10⟩
def e1 : EvRow := ⟨1, ev 1, 0⟩

theorem there : r1 ∈ db.recs ∧ e1 ∈ db.events := by decide

/-- a refused text: three passes, the handler is called each time, the record is the same; the other event was handled in the first pass -/
theorem refused : (pass env 7 20 (ans (.err ⟨#[255]⟩)) db).called = [ev 1, ev 2] ∧ r1 ∈ (play env 7 (fun _ => ans (.err ⟨#[255]⟩)) db [.pass 20, .pass 21, .pass 22]).recs ∧
    (pass env 7 23 (ans (.err ⟨#[255]⟩)) (play env 7 (fun _ => ans (.err ⟨#[255]⟩)) db [.pass 20, .pass 21, .pass 22])).called = [ev 1] := by decide +kernel

/-- a taken text: counted -/
theorem counted : ((pass env 7 20 (ans (.err ⟨#[65]⟩)) db).db.recs.map fun r => (r.id, r.retry, r.status)) = [(1, 1, .init), (2, 0, .success)] := by decide +kernel

/-- a strategy that panics: the process dies, the second event is not handled -/
theorem dead : (pass badNext 7 20 (ans (.err ⟨#[65]⟩)) db).alive = false ∧ (pass badNext 7 20 (ans (.err ⟨#[65]⟩)) db).called = [ev 1] ∧ (pass badNext 7 20 (ans (.err ⟨#[65]⟩)) db).db = db := by decide +kernel

/-- the hypotheses of C114_never_counted -/
example : r1 ∈ (play env 7 (fun _ => ans (.err ⟨#[255]⟩)) db [.pass 20, .op (.dispatch [ev 3] 100), .op (.clean ⟨0, 0, 0, limitRetry 1⟩ 7 500), .pass 600]).recs :=
  (C114_never_counted (r := r1) (e := e1) rfl rfl rfl (fun _ => ⟨⟨#[255]⟩, .inl rfl, .inl (by decide +kernel)⟩) _ (by intro a ha; fin_cases ha <;> trivial) valid.1 valid.2 there.1 there.2).1

theorem start (now : Nat) (h : now ≤ 1010) : IsWindowStart db 1000 now 1 := by
  constructor
  · exact ⟨e1, there.2, rfl, by show now ≤ 10 + 1000; omega⟩
  · intro e he _
    have : db.events = [⟨1, ev 1, 0⟩, ⟨2, ev 2, 0⟩] := by decide
    rw [this] at he
    fin_cases he <;> decide

theorem dueRecs (now : Nat) (h : 10 ≤ now) : Due db 7 1 now r1 ∧ ∀ r', Due db 7 1 now r' → r1.eventId ≤ r'.eventId :=
  ⟨⟨there.1, rfl, rfl, h, by decide⟩, fun r' h' => h'.2.2.2.2⟩

/-- the hypotheses of C115_stuck: stuck until the window has passed -/
example (nows : List Nat) (h : ∀ n ∈ nows, 10 ≤ n ∧ n ≤ 1010) : play badNext 7 (fun _ => ans (.err ⟨#[65]⟩)) db (nows.map .pass) = db :=
  C115_stuck (r := r1) (e := e1) valid.1 valid.2 (by decide) there.2 rfl ⟨by decide, by decide⟩ (fun _ => ⟨⟨#[65]⟩, .inl rfl⟩) (fun _ => rfl) nows
    (fun n hn => ⟨1, start n (h n hn).2, dueRecs n (h n hn).1⟩)

/-- the hypotheses of C114_called_again and C115_dies: the record is in the work -/
example : ev 1 ∈ (pass env 7 20 (ans (.err ⟨#[255]⟩)) db).called :=
  C114_called_again (r := r1) (e := e1) valid.1 valid.2 (start 20 (by decide)) (by
    intro ts hw
    by_contra hc
    have h1 := (hw.first r1 (dueRecs 20 (by decide)).1 hc).2
    have h2 := (hw.first r1 (dueRecs 20 (by decide)).1 hc).1
    rcases ts with _ | ⟨t, ts⟩
    · simp [env] at h2
    · have := h1 t (by simp)
      have := (hw.due t (by simp)).2.2.2.2
      simp only [r1] at *
      omega) there.2 rfl ⟨by decide, by decide⟩ (fun k t => by simp [env])

end Demo

end Ddd.BusMsg
