import Verif.Props.Result
import Verif.Props.Changes
import Verif.Props.Snapshots
import Verif.Props.CommandDemo
import Mathlib.Tactic.ByContra
/-!
# C86: `StageAgent.Commit` called in `PostSave`

The hook runs after the command's own transaction and locks (C19). `do` ends with `persist` without taking new snapshots
(`engine.go:1177`), so that the changes of the final save are still considered unsaved.
-/
set_option linter.unusedVariables false
set_option linter.unusedSimpArgs false
namespace Ddd
open Spec
variable {env env' : Env} {opts : Opts} {c : Cmd} {h : Heap}

/-- conversion of an entity into a row. -/
def isConv : Call → Bool
  | .conv .. => true
  | _ => false

/-- only calls happened, and no conversions. -/
def Logged (s s' : St) : Prop := ∃ t, s' = { s with trace := s.trace ++ t } ∧ ∀ x ∈ t, isConv x = false

theorem Logged.refl (s : St) : Logged s s := ⟨[], by simp⟩
theorem Logged.trans {a b d : St} (h1 : Logged a b) (h2 : Logged b d) : Logged a d := by
  obtain ⟨t, rfl, ht⟩ := h1
  obtain ⟨u, rfl, hu⟩ := h2
  refine ⟨t ++ u, by simp, ?_⟩
  intro x hx
  rcases List.mem_append.1 hx with hx | hx
  · exact ht x hx
  · exact hu x hx
theorem Logged.log (s : St) (x : Call) (hx : isConv x = false := by rfl) : Logged s (s.log x) := ⟨[x], rfl, by simpa using hx⟩

/-- a wrapper around the body `f`: a clean outcome is the one of `f`, with calls before and after. -/
def Wraps (pre : St → St) (f g : St → Outcome) : Prop :=
  ∀ s r, (g s).1 = some r → r.clean → (f (pre s)).1 = some r ∧ Logged (f (pre s)).2 (g s).2

theorem Wraps.refl (f : St → Outcome) : Wraps id f f := fun s r hr _ => ⟨hr, .refl _⟩

theorem wraps_tx (f : St → Outcome) : Wraps (fun s => s.log (.begin .ok)) f (runWithTransaction env opts f) := by
  intro s r hr hc
  unfold runWithTransaction callOut at hr ⊢
  cases hb : env.begin_ s.trace with
  | panic => rw [hb] at hr; simp at hr
  | err e => rw [hb] at hr; simp [resultErrors, resultError] at hr; subst hr; simp [Result.clean] at hc
  | ok u =>
    rw [hb] at hr
    simp only [Res.stat] at hr ⊢
    generalize f (s.log (.begin .ok)) = x at hr ⊢
    obtain ⟨o, s2⟩ := x
    cases o with
    | none => simp [recoverRollback] at hr
    | some r0 =>
      simp only at hr ⊢
      by_cases hbad : (r0.error.isSome || r0.brk) = true
      · rw [if_pos hbad] at hr
        exfalso
        have hn := (not_clean_iff r0).1 hbad
        cases hrb : env.rollback s2.trace with
        | panic => rw [hrb] at hr; simp [recoverRollback] at hr
        | ok u =>
          rw [hrb] at hr; simp only at hr
          split at hr
          · cases hbr : env.busRollback (s2.log (.rollback .ok)).trace <;> rw [hbr] at hr <;> simp [recoverRollback] at hr <;> exact hn (hr ▸ hc)
          · simp at hr; exact hn (hr ▸ hc)
        | err u =>
          rw [hrb] at hr; simp only at hr
          split at hr
          · cases hbr : env.busRollback (s2.log (.rollback .err)).trace <;> rw [hbr] at hr <;> simp [recoverRollback] at hr <;> exact hn (hr ▸ hc)
          · simp at hr; exact hn (hr ▸ hc)
      · rw [if_neg hbad] at hr ⊢
        cases hcm : env.commit s2.trace with
        | panic => rw [hcm] at hr; simp [recoverRollback] at hr
        | err e => rw [hcm] at hr; simp at hr; subst hr; simp [Result.clean] at hc
        | ok u =>
          rw [hcm] at hr
          simp only at hr ⊢
          split at hr
          · next hp =>
            rw [if_pos hp]
            cases hbr : env.busCommit (s2.log (.commit .ok)).trace with
            | panic => rw [hbr] at hr; simp [recoverRollback] at hr
            | ok v =>
              rw [hbr] at hr
              exact ⟨hr, (Logged.log s2 _).trans (.log _ _)⟩
            | err v =>
              rw [hbr] at hr
              exact ⟨hr, (Logged.log s2 _).trans (.log _ _)⟩
          · next hp =>
            rw [if_neg hp]
            exact ⟨hr, .log s2 _⟩

theorem acquire_logged (ks : List Nat) : ∀ (got : List Nat) (s : St) (g : List Nat) (s1 : St), acquire env ks got s = (.all, g, s1) →
    s1 = { s with trace := s.trace ++ ks.map fun k => .lock k .ok } := by
  induction ks with
  | nil => intro got s g s1 h; simp [acquire] at h; simp [h.2]
  | cons k ks ih =>
    intro got s g s1 h
    simp only [acquire, callOut] at h
    cases hl : env.lock s.trace k with
    | ok u =>
      rw [hl] at h
      rw [ih _ _ _ _ h]
      simp [St.log, Res.stat]
    | err e => rw [hl] at h; simp at h
    | panic => rw [hl] at h; simp at h

theorem release_logged (ks : List Nat) : ∀ (s : St), Logged s (releaseAll env ks s).2 := by
  induction ks with
  | nil => intro s; exact .refl s
  | cons k ks ih =>
    intro s
    simp only [releaseAll, callOut]
    cases env.unlock s.trace k with
    | ok u => exact (Logged.log s _).trans (ih _)
    | err e => exact (Logged.log s _).trans (ih _)
    | panic => exact .log s _

theorem posts_logged (ks : List Nat) : ∀ (s : St), Logged s (postSaves env ks s).2 := by
  induction ks with
  | nil => intro s; exact .refl s
  | cons k ks ih =>
    intro s
    simp only [postSaves, callOut]
    cases env.postSave s.trace k with
    | ok u => exact (Logged.log s _).trans (ih _)
    | err e => exact (Logged.log s _).trans (ih _)
    | panic => exact .log s _

theorem wraps_lock (keys : List Nat) (f : St → Outcome) :
    Wraps (fun s => { s with trace := s.trace ++ (keys.insertionSort (· ≤ ·)).map fun k => .lock k .ok }) f (runOnLock env keys f) := by
  intro s r hr hc
  unfold runOnLock at hr ⊢
  simp only at hr ⊢
  split at hr
  · simp [resultErrors, resultError] at hr; subst hr; simp [Result.clean] at hc
  · next hd =>
    rw [if_neg hd]
    have ha := acquire_logged (env := env) (keys.insertionSort (· ≤ ·)) [] s
    generalize hx : acquire env (keys.insertionSort (· ≤ ·)) [] s = x at hr ha ⊢
    obtain ⟨l, got, s1⟩ := x
    clear hx
    cases l with
    | panic => simp at hr
    | failed e =>
      simp only at hr
      generalize releaseAll env got s1 = y at hr
      obtain ⟨b, s2⟩ := y
      cases b
      · simp at hr
      · simp [resultErrors, resultError] at hr; subst hr; simp [Result.clean] at hc
    | all =>
      simp only at hr ⊢
      rw [← ha got s1 rfl]
      generalize f s1 = y at hr ⊢
      obtain ⟨o, s2⟩ := y
      simp only at hr ⊢
      have hrel := release_logged (env := env) got s2
      generalize releaseAll env got s2 = z at hr hrel ⊢
      obtain ⟨b, s3⟩ := z
      cases b
      · simp at hr
      · exact ⟨hr, hrel⟩

theorem Wraps.trans {p q : St → St} {f g k : St → Outcome} (h1 : Wraps p f g) (h2 : Wraps q g k) : Wraps (p ∘ q) f k := by
  intro s r hr hc
  obtain ⟨a2, a3⟩ := h2 s r hr hc
  obtain ⟨b2, b3⟩ := h1 (q s) r a2 hc
  exact ⟨b2, b3.trans a3⟩

theorem wraps_save (keys : List Nat) (main : Prog) : Wraps (atMain opts keys) (doStage env opts main) (save env opts keys main) := by
  have core : Wraps (atMain opts keys) (doStage env opts main) (saveCore env opts keys main) := by
    unfold saveCore
    simp only
    by_cases hw : opts.withTransaction = true
    · rw [if_pos hw]
      split
      · next hk =>
        have : keys = [] := by simpa using hk
        subst this
        convert wraps_tx (env := env) (opts := opts) (doStage env opts main) using 1
        funext s
        simp [atMain, hw, St.log]
      · convert (wraps_tx (env := env) (opts := opts) (doStage env opts main)).trans (wraps_lock (env := env) keys _) using 1
        funext s
        simp [atMain, hw, St.log]
    · rw [if_neg hw]
      split
      · next hk =>
        have : keys = [] := by simpa using hk
        subst this
        convert Wraps.refl (doStage env opts main) using 1
        funext s
        simp [atMain, hw]
      · convert (Wraps.refl (doStage env opts main)).trans (wraps_lock (env := env) keys _) using 1
        funext s
        simp [atMain, hw]
  intro s r hr hc
  have hpost : (saveCore env opts keys main s).1 = some r ∧ Logged (saveCore env opts keys main s).2 (save env opts keys main s).2 := by
    unfold save at hr ⊢
    generalize saveCore env opts keys main s = x at hr ⊢
    obtain ⟨o, s1⟩ := x
    cases o with
    | none => simp at hr
    | some r0 =>
      simp only at hr ⊢
      split at hr
      · next he =>
        rw [if_pos he]
        have hp := posts_logged (env := env) opts.hooks s1
        generalize postSaves env opts.hooks s1 = y at hr hp ⊢
        obtain ⟨b, s2⟩ := y
        cases b
        · simp at hr
        · exact ⟨hr, hp⟩
      · next he =>
        rw [if_neg he]
        exact ⟨hr, .refl _⟩
  obtain ⟨b1, b2⟩ := core s r hpost.1 hc
  exact ⟨b1, b2.trans hpost.2⟩

/-- a clean command: `Main` returned nil, the final save succeeded, then only events, the end of the transaction, unlocking and hooks. -/
theorem run_clean_core {r : Result} (hr : (run env opts c h).1 = some r) (hc : r.clean) :
    ∃ keys s1 s2, c.Keys keys ∧ callMain env (c.opts opts) c.main (atMain (c.opts opts) keys (.fresh h)) = (.ok (), s1) ∧ persist env (c.opts opts) s1 = (.ok (), s2) ∧
      (∃ s3, finishEvents env (c.opts opts) s2 = (.ok (), s3) ∧ Logged s3 (run env opts c h).2) := by
  have key : ∀ keys, (run env opts c h) = save env (c.opts opts) keys c.main (.fresh h) → c.Keys keys →
      ∃ keys s1 s2, c.Keys keys ∧ callMain env (c.opts opts) c.main (atMain (c.opts opts) keys (.fresh h)) = (.ok (), s1) ∧ persist env (c.opts opts) s1 = (.ok (), s2) ∧
      (∃ s3, finishEvents env (c.opts opts) s2 = (.ok (), s3) ∧ Logged s3 (run env opts c h).2) := by
    intro keys he hk
    rw [he] at hr ⊢
    obtain ⟨a2, a3⟩ := wraps_save keys c.main _ r hr hc
    unfold doStage at a2 a3
    cases hm : callMain env (c.opts opts) c.main (atMain (c.opts opts) keys (.fresh h)) with
    | mk r0 s1 =>
      rw [hm] at a2 a3
      cases r0 with
      | panic => simp at a2
      | err e => simp only [Option.some.injEq] at a2; exact absurd (a2 ▸ hc) (resultErrOrBreak_not_clean e)
      | ok u =>
        simp only at a2 a3
        cases hj : Err.joinAll s1.errs with
        | some e => rw [hj] at a2; simp [resultError] at a2; subst a2; simp [Result.clean] at hc
        | none =>
          rw [hj] at a2 a3
          simp only at a2 a3
          cases hp : persist env (c.opts opts) s1 with
          | mk r1 s2 =>
            rw [hp] at a2 a3
            cases r1 with
            | panic => simp at a2
            | err e => simp [resultErrors, resultError] at a2; subst a2; simp [Result.clean] at hc
            | ok u =>
              simp only at a2 a3
              cases hf : finishEvents env (c.opts opts) s2 with
              | mk r2 s3 =>
                rw [hf] at a2 a3
                cases r2 with
                | panic => simp at a2
                | err e => simp [resultError] at a2; subst a2; simp [Result.clean] at hc
                | ok u => exact ⟨keys, s1, s2, hk, hm, hp, s3, hf, a3⟩
  cases hi : c.init with
  | none => exact key [] (by unfold run; rw [hi]; rfl) (.inl ⟨hi, rfl⟩)
  | some x =>
    cases x with
    | ok keys => exact key keys (by unfold run; rw [hi]; rfl) (.inr hi)
    | err e =>
      unfold run at hr; rw [hi] at hr
      simp only [Option.some.injEq] at hr
      exact absurd (hr ▸ hc) (resultErrOrBreak_not_clean e)
    | panic => unfold run at hr; rw [hi] at hr; simp at hr

/-- events are about calls and the bus context only. -/
def SameData (s s' : St) : Prop := s'.heap = s.heap ∧ s'.snap = s.snap ∧ s'.roots = s.roots

theorem SameData.pre : PreOrd SameData := ⟨fun _ => ⟨rfl, rfl, rfl⟩, fun h1 h2 => ⟨h2.1.trans h1.1, h2.2.1.trans h1.2.1, h2.2.2.trans h1.2.2⟩⟩

theorem exec_data (as : List Action) : Keeps SameData (exec env opts as) := by
  unfold exec
  split
  · exact Keeps.pure SameData.pre _
  · exact Keeps.bind SameData.pre (Keeps.forEach SameData.pre (f := fun a => M.ext (fun s => env.exec s.trace a) (.exec a)) (fun a s => ⟨rfl, rfl, rfl⟩) as) fun _ s => ⟨rfl, rfl, rfl⟩

theorem SameData.allowed : AllowsE env opts SameData where
  toPreOrd := SameData.pre
  log _ _ _ := ⟨rfl, rfl, rfl⟩
  exec := exec_data
  eventCtx _ _ := ⟨rfl, rfl, rfl⟩

theorem finishEvents_noConv (s : St) : ∃ t, (finishEvents env opts s).2.trace = s.trace ++ t ∧ ∀ x ∈ t, isConv x = false := by
  obtain ⟨tp, ts, h1, h2⟩ := finishEvents_shape env opts s
  refine ⟨tp ++ ts, h1, ?_⟩
  intro x hx
  rcases List.mem_append.1 hx with hx | hx
  · have := h2.isPers x hx
    cases x <;> simp_all [Call.IsEvPersist, isConv]
  · rcases h2.send with ⟨h3, _⟩ | ⟨st', b, _, h3, _⟩
    · rw [h3] at hx; simp at hx
    · have := h3.isSend x hx
      cases x <;> simp_all [Call.IsSend, isConv]

/-- jobs of a save depend on the aggregate, the snapshots and the dirty flags only. -/
theorem asked_perm {s1 s2 s1' s2' : St} (h1 : persist env opts s1 = (.ok (), s1')) (h2 : persist env' opts s2 = (.ok (), s2')) (hr : opts.recursiveDelete = false)
    (hn : s2.now = s1.now) (hk : s2.kidPool = s1.kidPool) (hd : s2.heap.dirtyNode = s1.heap.dirtyNode) :
    ∃ t u, s1'.trace = s1.trace ++ t ∧ s2'.trace = s2.trace ++ u ∧ (asked u).Perm (asked t) := by
  obtain ⟨t, a1, a2, a3, a4, a5⟩ := C01_changes_exact env opts h1 hr
  obtain ⟨u, b1, b2, b3, b4, b5⟩ := C01_changes_exact env' opts h2 hr
  refine ⟨t, u, a1, b1, ?_⟩
  rw [List.perm_ext_iff_of_nodup b2.of_map a2.of_map]
  rintro ⟨n, p, o⟩
  rw [hn, hk] at b3 b4 b5
  rw [hd] at b4
  cases o with
  | insert => rw [a3, b3]
  | update => rw [a4, b4]
  | delete => rw [a5, b5]
  | query =>
    have hno : ∀ t : Trace, (⟨n, p, .query⟩ : Job) ∉ asked t := by
      intro t hx
      unfold asked at hx
      obtain ⟨y, _, hy⟩ := List.mem_filterMap.1 hx
      split at hy <;> simp at hy
    exact ⟨fun hx => absurd hx (hno _), fun hx => absurd hx (hno _)⟩

/-- without entity hooks, a save leaves the aggregate, the snapshots and the dirty flags as they are. -/
theorem persist_keeps {s s' : St} (h : persist env opts s = (.ok (), s')) (hq : ∀ p k, env.hasHook p k = false) :
    s'.now = s.now ∧ s'.kidPool = s.kidPool ∧ s'.heap.dirtyNode = s.heap.dirtyNode := by
  obtain ⟨cs, h1, h2, k, rs, hist, hc, ha, ht, hsnap, hroots, _, _, _, _, _, _, hA, hb, hf⟩ := persist_effect env opts h
  have hno : ∀ b, hookCalls env b cs = [] := by
    intro b
    rw [List.eq_nil_iff_forall_not_mem]
    intro x hx
    obtain ⟨p, ct, _, hh, _⟩ := hookCalls_hook env hx
    rw [hq] at hh
    simp at hh
  have e1 := hb (hno true)
  have e2 := hf (hno false)
  subst e1
  refine ⟨?_, ?_, ?_⟩
  · have hk := hA.kids
    simp only at hk
    funext n
    cases n with
    | none => simp [St.now, St.graph, stageGraph, hroots]
    | some p => simp [St.now, St.graph, stageGraph, e2, hk]
  · funext n
    simp [St.kidPool, hsnap]
  · funext n
    cases n with
    | none => rfl
    | some p =>
      simp only [Heap.dirtyNode, e2]
      by_cases hz : (s.heap.attr p).id ≠ 0 ∨ some p ∉ newNodes cs
      · have := hA.keep p hz
        simp only at this
        rw [this]
      · have hz' : (s.heap.attr p).id = 0 ∧ some p ∈ newNodes cs := by
          constructor
          · by_contra h0; exact hz (.inl h0)
          · by_contra h0; exact hz (.inr h0)
        obtain ⟨_, _, i, _, hi⟩ := hA.gen p hz'.1 hz'.2
        simp only at hi
        rw [hi]

/-- **C86** A successful command without entity hooks and recursive delete, and `StageAgent.Commit` called afterwards, in its `PostSave`: it carries out once more, outside of lock and transaction,
every insert, update and delete of the save that followed `Main`. -/
theorem C86_repeats {r : Result} (hr : (run env opts c h).1 = some r) (hc : r.clean) (hrec : opts.recursiveDelete = false) (hq : ∀ p k, env.hasHook p k = false)
    {s3 : St} (h2 : commitSave env' (c.opts opts) (run env opts c h).2 = (.ok (), s3)) :
    ∃ a t b u, (run env opts c h).2.trace = a ++ .mainRet .ok :: (t ++ b) ∧ (∀ x ∈ b, isConv x = false) ∧
      s3.trace = (run env opts c h).2.trace ++ u ∧ (asked u).Perm (asked t) := by
  obtain ⟨keys, s1, s2, hk, hm, hp, s3', hf, hl2⟩ := run_clean_core hr hc
  obtain ⟨k1, k2, k3⟩ := persist_keeps hp hq
  have hsd : SameData s2 s3' := by
    have := SameData.allowed.finishEvents (env := env) (opts := c.opts opts) s2
    rw [hf] at this
    exact this
  obtain ⟨te, hte, hte2⟩ := finishEvents_noConv (env := env) (opts := c.opts opts) s2
  rw [hf] at hte
  obtain ⟨tl, hfin, htl⟩ := hl2
  rw [commitSave_eq] at h2
  obtain ⟨_, s4, g1, g2⟩ := bind_ok h2
  obtain ⟨_, s5, g3, g4⟩ := bind_ok g2
  have hsame : (run env opts c h).2.now = s1.now ∧ (run env opts c h).2.kidPool = s1.kidPool ∧ (run env opts c h).2.heap.dirtyNode = s1.heap.dirtyNode := by
    obtain ⟨d1, d2, d3⟩ := hsd
    rw [hfin]
    refine ⟨?_, ?_, ?_⟩
    · rw [← k1]
      funext n
      cases n with
      | none => simp [St.now, St.graph, stageGraph, d3]
      | some p => simp [St.now, St.graph, stageGraph, d1]
    · rw [← k2]; funext n; simp [St.kidPool, d2]
    · rw [← k3]; simp only [d1]
  obtain ⟨t, u, ht, hu, hperm⟩ := asked_perm hp g1 (show (c.opts opts).recursiveDelete = false from hrec) hsame.1 hsame.2.1 hsame.2.2
  have hld : Steps IsLoad s4 s3 := by
    have := Does.bind (does_flush_load (env := env')) (fun _ => does_unDirty env' (p := IsLoad)) s4
    rw [g2] at this
    exact this
  obtain ⟨v, hv, hv2⟩ := hld.trace
  have hmr : ∃ a, s1.trace = a ++ [.mainRet .ok] := by
    unfold callMain at hm
    generalize runProg env (c.opts opts) c.main { atMain (c.opts opts) keys (.fresh h) with trace := (atMain (c.opts opts) keys (.fresh h)).trace ++ [.mainStart] } = x at hm
    obtain ⟨r1, sx⟩ := x
    simp only [Prod.mk.injEq] at hm
    obtain ⟨rfl, rfl⟩ := hm
    exact ⟨sx.trace, rfl⟩
  obtain ⟨a, ha⟩ := hmr
  refine ⟨a, t, te ++ tl, u ++ v, ?_, ?_, ?_, ?_⟩
  · rw [hfin]
    simp only
    rw [hte, ht, ha]
    simp
  · intro x hx
    rcases List.mem_append.1 hx with hx | hx
    · exact hte2 x hx
    · exact htl x hx
  · rw [hv, hu]; simp
  · rw [asked_append]
    have : asked v = [] := by
      unfold asked
      rw [List.filterMap_eq_nil_iff]
      intro x hx
      have hx' := hv2 x hx
      unfold IsLoad at hx'
      split at hx'
      · next n q st un => cases q <;> rfl
      · exact absurd hx' id
    rw [this, List.append_nil]
    exact hperm

/-! ## concrete case -/
open Demo

/-- a command adding a root with a child: both are inserted; a `Commit` in `PostSave` inserts both again after commit and unlock. -/
theorem C86_example :
    let c : Cmd := { init := some (.ok [4]), main := .add [7] (.ret none), post := some 5 }
    let s := (run okEnv stdOpts c twoTypes).2
    ((run okEnv stdOpts c twoTypes).1.map fun r => (r.error.isNone, r.brk)) = some (true, false) ∧
    (commitSave okEnv (c.opts stdOpts) s).1.isOk = true ∧
    ((commitSave okEnv (c.opts stdOpts) s).2.trace.filterMap brief) =
      [.lock 4 .ok, .begin .ok, .mainStart, .mainRet .ok, .exec ⟨.insert, [], []⟩ .ok, .exec ⟨.insert, [], []⟩ .ok, .commit .ok, .unlock 4 .ok, .postSave 5 .ok,
       .exec ⟨.insert, [], []⟩ .ok, .exec ⟨.insert, [], []⟩ .ok] := by decide +kernel

end Ddd
