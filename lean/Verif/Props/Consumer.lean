import Verif.Spec.Consumer
import Verif.Proofs.Effect
import Verif.Props.Router
import Verif.Props.CommandDemo
/-!
# C79: commands as event handlers
-/
set_option linter.unusedVariables false
set_option linter.unusedSimpArgs false
namespace Ddd.Consumer
open Spec
open Router (Reg Arg Ret)

/-- **C79** `Engine.RegisterEventHandler` accepts exactly the documented form of `construct` (it panics otherwise) and then adds one handler behind those registered before. -/
theorem C79_registration (w : World) (r : Reg) (t : Nat) (f : CtorFn) :
    (f.Ok → engineRegister w r t f = some { r with handlers := fun x => if x = t then r.handlers t ++ [⟨closureFn w f.ident, w.domainEvent⟩] else r.handlers x }) ∧
    (¬ f.Ok → engineRegister w r t f = none) := by
  unfold CtorFn.Ok engineRegister
  constructor
  · rintro ⟨h1, ⟨a, h2, h3⟩, h4⟩
    simp [h1, h2, h3, h4, Router.registerHandler, closureFn]
  · intro h
    split
    · rfl
    · split
      · split
        · split
          · next h0 _ a ha h1 h2 => exact absurd ⟨by simpa using h0, ⟨a, ha, h2⟩, h1⟩ h
          · rfl
        · rfl
      · rfl

/-- **C79** Registering for one type after another builds up the list of command handlers. -/
theorem C79_registered {w : World} {r : Reg} {t : Nat} {ks : List (Nat × Ctor)} (hk : Commands w r t ks) {f : CtorFn} (hf : f.Ok) {k : Ctor} (hc : w.ctor f.ident = some k) :
    ∃ r', engineRegister w r t f = some r' ∧ Commands w r' t (ks ++ [(f.ident, k)]) ∧ ∀ t', t' ≠ t → r'.handlers t' = r.handlers t' := by
  refine ⟨_, (C79_registration w r t f).1 hf, ⟨?_, ?_⟩, fun t' ht => by simp [ht]⟩
  · simp [hk.1]
  · intro k' hm
    rw [List.mem_append, List.mem_singleton] at hm
    rcases hm with hm | rfl
    · exact hk.2 k' hm
    · exact hc

theorem wants_total {w : World} {k : Ctor} {e : Router.Event} :
    (∃ x, k.ty ≠ w.domainEvent ∧ w.decodeErr k.ty e.payload = some x ∧ wanted w k.ty (.raw e) = .inl x) ∨
    (∃ a, Wants w k e a ∧ wanted w k.ty (.raw e) = .inr a) := by
  unfold wanted Wants
  by_cases h : k.ty = w.domainEvent
  · exact .inr ⟨.raw e, .inl ⟨h, rfl⟩, by simp [h]⟩
  · cases hd : w.decodeErr k.ty e.payload with
    | some x => exact .inl ⟨x, h, rfl, by simp [h, hd]⟩
    | none => exact .inr ⟨.decoded k.ty e.payload, .inr ⟨h, rfl, rfl⟩, by simp [h, hd]⟩

theorem wants_unique {w : World} {k : Ctor} {e : Router.Event} {a a' : Arg} (h : Wants w k e a) (h' : Wants w k e a') : a = a' := by
  rcases h with ⟨h1, rfl⟩ | ⟨h1, _, rfl⟩ <;> rcases h' with ⟨h2, rfl⟩ | ⟨h2, _, rfl⟩
  · rfl
  · exact absurd h1 h2
  · exact absurd h2 h1
  · rfl

/-- one handler: it succeeds or fails, and its answer tells which. -/
theorem handle_cases {w : World} {id : Nat} {k : Ctor} (hc : w.ctor id = some k) (hist : List Done) (e : Router.Event) :
    ((handle w hist ⟨id, .raw e⟩).ret = .nil ∧ Succeeds w k hist e (handle w hist ⟨id, .raw e⟩).trace) ∨
    ((handle w hist ⟨id, .raw e⟩).ret ≠ .nil ∧ Fails w k hist e (handle w hist ⟨id, .raw e⟩).ret (handle w hist ⟨id, .raw e⟩).trace) := by
  simp only [handle, hc, closure]
  rcases wants_total (w := w) (k := k) (e := e) with ⟨x, h1, h2, h3⟩ | ⟨a, h1, h3⟩
  · simp only [h3]
    exact .inr ⟨by simp, .decode h1 h2⟩
  · simp only [h3]
    cases hm : k.construct hist a with
    | panic => exact .inr ⟨by simp, .construct h1 (by simp [hm])⟩
    | notCommand => exact .inr ⟨by simp, .construct h1 (by simp [hm])⟩
    | cmd c =>
      have hr : Runs w k hist e c := ⟨a, h1, hm⟩
      simp only
      cases ho : (run (k.env hist) k.opts c (k.heap hist)).1 with
      | none => exact .inr ⟨by simp [answer], by simpa [answer] using Fails.panic hr ⟨ho, rfl⟩⟩
      | some r =>
        cases he : r.error with
        | none => exact .inl ⟨by simp [answer, he], c, r, hr, ⟨ho, rfl⟩, he⟩
        | some x => exact .inr ⟨by simp [answer, he], by simpa [answer, he] using Fails.error hr ⟨ho, rfl⟩ he⟩

theorem handleAll_append (w : World) (hist : List Done) (a b : List Router.Call) :
    handleAll w hist (a ++ b) = handleAll w (handleAll w hist a) b := by simp [handleAll, List.foldl_append]

theorem handleAll_cons (w : World) (hist : List Done) (a : Router.Call) (b : List Router.Call) :
    handleAll w hist (a :: b) = handleAll w (hist ++ [handle w hist a]) b := by simp [handleAll]

/-- the loop of the router over command handlers. -/
theorem loop_spec {w : World} {e : Router.Event} (hist : List Done) : ∀ (ks : List (Nat × Ctor)) (cs0 : List Router.Call), (∀ k ∈ ks, w.ctor k.1 = some k.2) →
    ∃ ds : List Done,
      handleAll w hist (Router.onEventLoop (routerWorld w hist) e (ks.map fun k => ⟨closureFn w k.1, w.domainEvent⟩) cs0).2 = handleAll w hist cs0 ++ ds ∧
      (((Router.onEventLoop (routerWorld w hist) e (ks.map fun k => ⟨closureFn w k.1, w.domainEvent⟩) cs0).1 = .nil ∧ ds.length = ks.length ∧
          ∀ i k d, ks[i]? = some k → ds[i]? = some d → d.call = ⟨k.1, .raw e⟩ ∧ d.ret = .nil ∧ Succeeds w k.2 (handleAll w hist cs0 ++ ds.take i) e d.trace) ∨
       (∃ n k d, ds.length = n + 1 ∧ ks[n]? = some k ∧ ds[n]? = some d ∧ d.call = ⟨k.1, .raw e⟩ ∧
          (Router.onEventLoop (routerWorld w hist) e (ks.map fun k => ⟨closureFn w k.1, w.domainEvent⟩) cs0).1 ≠ .nil ∧
          d.ret = (Router.onEventLoop (routerWorld w hist) e (ks.map fun k => ⟨closureFn w k.1, w.domainEvent⟩) cs0).1 ∧
          Fails w k.2 (handleAll w hist cs0 ++ ds.take n) e d.ret d.trace ∧
          ∀ i k d, i < n → ks[i]? = some k → ds[i]? = some d → d.call = ⟨k.1, .raw e⟩ ∧ d.ret = .nil ∧ Succeeds w k.2 (handleAll w hist cs0 ++ ds.take i) e d.trace)) := by
  intro ks
  induction ks with
  | nil => intro cs0 _; exact ⟨[], by simp [Router.onEventLoop], .inl (by simp [Router.onEventLoop])⟩
  | cons k ks ih =>
    intro cs0 hk
    have hc := hk k (by simp)
    have hloop : Router.onEventLoop (routerWorld w hist) e ((k :: ks).map fun k => ⟨closureFn w k.1, w.domainEvent⟩) cs0 =
        match (handle w (handleAll w hist cs0) ⟨k.1, .raw e⟩).ret with
        | .panic => (.panic, cs0 ++ [⟨k.1, .raw e⟩])
        | .err x => (.err x, cs0 ++ [⟨k.1, .raw e⟩])
        | .nil => Router.onEventLoop (routerWorld w hist) e (ks.map fun k => ⟨closureFn w k.1, w.domainEvent⟩) (cs0 ++ [⟨k.1, .raw e⟩]) := by
      simp only [List.map_cons, Router.onEventLoop]
      have h1 : Router.arg (routerWorld w hist) w.domainEvent e = .inr (.raw e) := by simp [Router.arg, routerWorld]
      have h2 : (closureFn w k.1).takesCtx = true := rfl
      have h3 : (closureFn w k.1).nilable = true := rfl
      have h4 : (closureFn w k.1).ident = k.1 := rfl
      simp only [h1, h2, h3, h4, Bool.not_true, Bool.false_eq_true, if_false]
      have h5 : (routerWorld w hist).answer cs0 ⟨k.1, .raw e⟩ = (handle w (handleAll w hist cs0) ⟨k.1, .raw e⟩).ret := rfl
      rw [h5]
      cases (handle w (handleAll w hist cs0) ⟨k.1, .raw e⟩).ret <;> rfl
    have hcall : (handle w (handleAll w hist cs0) ⟨k.1, .raw e⟩).call = ⟨k.1, .raw e⟩ := by
      simp only [handle, hc, closure]
      repeat' split
      all_goals rfl
    rw [hloop]
    rcases handle_cases hc (handleAll w hist cs0) e with ⟨hr, hs⟩ | ⟨hr, hf⟩
    · simp only [hr]
      obtain ⟨ds, h1, h2⟩ := ih (cs0 ++ [⟨k.1, .raw e⟩]) fun k' hk' => hk k' (by simp [hk'])
      have hh : handleAll w hist (cs0 ++ [⟨k.1, .raw e⟩]) = handleAll w hist cs0 ++ [handle w (handleAll w hist cs0) ⟨k.1, .raw e⟩] := by
        rw [handleAll_append]; rfl
      rw [hh] at h1 h2
      refine ⟨handle w (handleAll w hist cs0) ⟨k.1, .raw e⟩ :: ds, by simp [h1], ?_⟩
      rcases h2 with ⟨h2, h3, h4⟩ | ⟨n, k', d, h3, h4, h5, h6, h7, h8, h9, h10⟩
      · refine .inl ⟨h2, by simp [h3], ?_⟩
        intro i k' d hi hd
        cases i with
        | zero => simp at hi hd; subst hi hd; exact ⟨hcall, hr, by simpa using hs⟩
        | succ i => simpa using h4 i k' d (by simpa using hi) (by simpa using hd)
      · refine .inr ⟨n + 1, k', d, by simp [h3], by simpa using h4, by simpa using h5, h6, h7, h8, by simpa using h9, ?_⟩
        intro i k'' d' hlt hi hd
        cases i with
        | zero => simp at hi hd; subst hi hd; exact ⟨hcall, hr, by simpa using hs⟩
        | succ i => simpa using h10 i k'' d' (by omega) (by simpa using hi) (by simpa using hd)
    · have hh : handleAll w hist (cs0 ++ [⟨k.1, .raw e⟩]) = handleAll w hist cs0 ++ [handle w (handleAll w hist cs0) ⟨k.1, .raw e⟩] := by
        rw [handleAll_append]; rfl
      refine ⟨[handle w (handleAll w hist cs0) ⟨k.1, .raw e⟩], ?_, .inr ⟨0, k, _, rfl, rfl, rfl, hcall, ?_⟩⟩
      · cases hret : (handle w (handleAll w hist cs0) ⟨k.1, .raw e⟩).ret with
        | nil => exact absurd hret hr
        | err x => simpa using hh
        | panic => simpa using hh
      · cases hret : (handle w (handleAll w hist cs0) ⟨k.1, .raw e⟩).ret with
        | nil => exact absurd hret hr
        | err x => rw [hret] at hf; exact ⟨by simp, rfl, by simpa using hf, by simp⟩
        | panic => rw [hret] at hf; exact ⟨by simp, rfl, by simpa using hf, by simp⟩

theorem succeeds_ends {w : World} {k : Ctor} {hist : List Done} {e : Router.Event} {t : Trace} (h : Succeeds w k hist e t) (out : Ret) (t' : Trace) : ¬ Fails w k hist e out t' := by
  obtain ⟨c, r, ⟨a, h1, h2⟩, h3, h4⟩ := h
  intro hf
  cases hf with
  | decode h5 h6 =>
    rcases h1 with ⟨h1, _⟩ | ⟨_, h1, _⟩
    · exact h5 h1
    · rw [h6] at h1; cases h1
  | construct h5 h6 => rw [wants_unique h5 h1] at h6; exact h6 c h2
  | error h5 h6 h7 =>
    obtain ⟨a', h5, h8⟩ := h5
    rw [wants_unique h5 h1, h2] at h8
    cases h8
    have := h3.1.symm.trans h6.1
    cases this
    rw [h4] at h7; cases h7
  | panic h5 h6 =>
    obtain ⟨a', h5, h8⟩ := h5
    rw [wants_unique h5 h1, h2] at h8
    cases h8
    have := h3.1.symm.trans h6.1
    cases this

/-- **C79** Delivering an event whose handlers are the commands `ks`: they run in registration order; either all of them end without error and the delivery succeeds (the bus will not deliver the event
again), or the handlers before the `n`-th ended without error, the `n`-th fails, its error (or panic) is the outcome of the delivery and no later handler is run. -/
theorem C79_delivery {w : World} {r : Reg} {e : Router.Event} {ks : List (Nat × Ctor)} (hk : Commands w r e.typ ks) (hist : List Done) :
    ∃ ds, (deliver w r hist e).2 = hist ++ ds ∧
      (((deliver w r hist e).1 = .nil ∧ ds.length = ks.length ∧
          ∀ i k d, ks[i]? = some k → ds[i]? = some d → d.call = ⟨k.1, .raw e⟩ ∧ d.ret = .nil ∧ Succeeds w k.2 (hist ++ ds.take i) e d.trace) ∨
       (∃ n k d, ds.length = n + 1 ∧ ks[n]? = some k ∧ ds[n]? = some d ∧ d.call = ⟨k.1, .raw e⟩ ∧ (deliver w r hist e).1 ≠ .nil ∧ d.ret = (deliver w r hist e).1 ∧
          Fails w k.2 (hist ++ ds.take n) e d.ret d.trace ∧
          ∀ i k d, i < n → ks[i]? = some k → ds[i]? = some d → d.call = ⟨k.1, .raw e⟩ ∧ d.ret = .nil ∧ Succeeds w k.2 (hist ++ ds.take i) e d.trace)) := by
  have := loop_spec (w := w) (e := e) hist ks [] hk.2
  simpa [deliver, Router.onEvent, hk.1, handleAll] using this

/-- **C79** The delivery succeeds exactly if every handler, run after the ones before it, does its work. -/
theorem C79_handled_iff {w : World} {r : Reg} {e : Router.Event} {ks : List (Nat × Ctor)} (hk : Commands w r e.typ ks) (hist : List Done) :
    (deliver w r hist e).1 = .nil ↔ ∃ ds : List Done, (deliver w r hist e).2 = hist ++ ds ∧ ds.length = ks.length ∧
      ∀ i k d, ks[i]? = some k → ds[i]? = some d → Succeeds w k.2 (hist ++ ds.take i) e d.trace := by
  obtain ⟨ds, h1, h2⟩ := C79_delivery hk hist
  constructor
  · intro ho
    rcases h2 with ⟨_, h3, h4⟩ | ⟨n, k, d, _, _, _, _, h5, _⟩
    · exact ⟨ds, h1, h3, fun i k d hi hd => (h4 i k d hi hd).2.2⟩
    · exact absurd ho h5
  · rintro ⟨ds', h3, h4, h5⟩
    rw [h1] at h3
    have := List.append_cancel_left h3
    subst this
    rcases h2 with ⟨h, _⟩ | ⟨n, k, d, _, h6, h7, _, _, _, h8, _⟩
    · exact h
    · exact absurd h8 (succeeds_ends (h5 n k d h6 h7) _ _)

/-- the calls of a handler run are those of a command with transactions, or none. -/
def TxDone (d : Done) : Prop := d.trace = [] ∨ ∃ env opts c h, opts.withTransaction = true ∧ d.trace = (run env opts c h).2.trace

theorem txDone_handle {w : World} {hist : List Done} {call : Router.Call} (ht : ∀ i k, w.ctor i = some k → k.opts.withTransaction = true) : TxDone (handle w hist call) := by
  unfold handle
  cases hc : w.ctor call.fn with
  | none => exact .inl rfl
  | some k =>
    simp only [closure]
    repeat' split
    · exact .inl rfl
    · exact .inl rfl
    · exact .inl rfl
    · exact .inr ⟨_, _, _, _, ht _ _ hc, rfl⟩

theorem txDone_handleAll {w : World} (ht : ∀ i k, w.ctor i = some k → k.opts.withTransaction = true) (cs : List Router.Call) : ∀ (hist : List Done),
    (∀ d ∈ hist, TxDone d) → ∀ d ∈ handleAll w hist cs, TxDone d := by
  induction cs with
  | nil => intro hist h; exact h
  | cons c cs ih =>
    intro hist h
    rw [handleAll_cons]
    apply ih
    intro d hd
    rw [List.mem_append, List.mem_singleton] at hd
    rcases hd with hd | rfl
    · exact h d hd
    · exact txDone_handle ht

theorem txDone_deliverAll {w : World} {r : Reg} (ht : ∀ i k, w.ctor i = some k → k.opts.withTransaction = true) (es : List Router.Event) : ∀ (hist : List Done),
    (∀ d ∈ hist, TxDone d) → ∀ d ∈ deliverAll w r hist es, TxDone d := by
  induction es with
  | nil => intro hist h; exact h
  | cons e es ih => intro hist h; exact ih _ (txDone_handleAll ht _ _ h)

theorem effects_of {D : Type} {apply : Action → D → D} {ds : List Done} (h : ∀ d ∈ ds, TxDone d) : ∀ {S0 : D} {db : Db D},
    DbRun apply ⟨S0, none⟩ (traceOf ds) db → db.openTx = none ∧ Effects apply S0 ds db.durable := by
  induction ds with
  | nil => intro S0 db hr; cases hr; exact ⟨rfl, .nil _⟩
  | cons d ds ih =>
    intro S0 db hr
    rw [show traceOf (d :: ds) = d.trace ++ traceOf ds from rfl] at hr
    obtain ⟨db1, r1, r2⟩ := dbRun_append hr
    have ih := @ih fun d' hd' => h d' (by simp [hd'])
    rcases h d (by simp) with h0 | ⟨env, opts, c, hp, hw, ht⟩
    · rw [h0] at r1
      cases r1
      obtain ⟨h1, h2⟩ := ih r2
      exact ⟨h1, .nothing (by simp [h0]) h2⟩
    · rw [ht] at r1
      obtain ⟨h1, h2⟩ := run_effect hw r1
      obtain ⟨S1, o1⟩ := db1
      simp only at h1 h2
      subst h1
      obtain ⟨h3, h4⟩ := ih r2
      refine ⟨h3, ?_⟩
      rw [← ht] at h2
      rcases h2 with ⟨h5, rfl, _⟩ | ⟨h5, _, h6, _⟩ | ⟨h5, h6, h7, _⟩
      · exact .nothing (h5 _) h4
      · exact .committed h5 h6 h4
      · rcases h7 with rfl | h7
        · exact .nothing h6 h4
        · exact .unsure h5 h7 h4

/-- **C79** The durable effect of any sequence of deliveries (handler commands with transactions): exactly the writes of the commands that committed, in the order in which they ran; nothing is left open. -/
theorem C79_effects {D : Type} (apply : Action → D → D) {w : World} {r : Reg} (ht : ∀ i k, w.ctor i = some k → k.opts.withTransaction = true) (es : List Router.Event)
    {S0 : D} {db : Db D} (hr : DbRun apply ⟨S0, none⟩ (traceOf (deliverAll w r [] es)) db) :
    db.openTx = none ∧ Effects apply S0 (deliverAll w r [] es) db.durable :=
  effects_of (txDone_deliverAll ht es [] (by simp)) hr

/-- **C79** A handler that reports an error did not commit, so (with `C79_effects`) it leaves nothing durable unless `Commit` itself reported the failure. -/
theorem C79_failed_not_committed {w : World} {k : Ctor} {hist : List Done} {e : Router.Event} {x : Nat} {t : Trace} (ht : k.opts.withTransaction = true)
    (hf : Fails w k hist e (.err x) t) : Call.commit .ok ∉ t := by
  generalize ho : Ret.err x = out at hf
  cases hf with
  | decode => simp
  | construct => simp
  | error hr he hx =>
    rename_i c r x
    obtain ⟨h1, rfl⟩ := he
    have hd : ∃ db, DbRun (fun (_ : Action) (u : Unit) => u) ⟨(), none⟩ (run (k.env hist) k.opts c (k.heap hist)).2.trace db := dbRun_total _ _ _
    obtain ⟨db, hd⟩ := hd
    rcases (run_effect ht hd).2 with ⟨h2, _⟩ | ⟨_, _, _, h2⟩ | ⟨_, h2, _⟩
    · exact h2 _
    · have := (h2 r h1).1; rw [hx] at this; cases this
    · exact h2
  | panic => cases ho

/-- **C79** A handler that does its work committed, without a failure of `Commit`, or its command broke off with `ErrBreak` and it did not commit. -/
theorem C79_succeeded_committed {w : World} {k : Ctor} {hist : List Done} {e : Router.Event} {t : Trace} (ht : k.opts.withTransaction = true)
    (hs : Succeeds w k hist e t) : (Call.commit .ok ∈ t ∧ ¬ Unsure t) ∨
      (∃ c r, Runs w k hist e c ∧ Ends k hist c (some r) t ∧ r.brk = true ∧ ∀ st, Call.commit st ∉ t) := by
  obtain ⟨c, r, h1, ⟨h2, rfl⟩, h3⟩ := hs
  obtain ⟨db, hd⟩ := dbRun_total (fun (_ : Action) (u : Unit) => u) ⟨(), none⟩ (run (k.env hist) k.opts c (k.heap hist)).2.trace
  rcases (run_effect ht hd).2 with ⟨h4, _, h5⟩ | ⟨h4, h5, _⟩ | ⟨_, _, _, h4⟩
  · refine .inr ⟨c, r, h1, ⟨h2, rfl⟩, ?_, h4⟩
    rcases h5 r h2 with h | h
    · rw [h3] at h; simp at h
    · exact h
  · exact .inl ⟨h4, fun ⟨st, hst, hm⟩ => h5 st hst hm⟩
  · have := (h4 r h2).1
    rw [h3] at this; simp at this

end Ddd.Consumer
