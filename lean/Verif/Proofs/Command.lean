import Verif.Proofs.Save
/-! Shape of the calls of a whole command. -/
set_option linter.unusedVariables false
namespace Ddd

variable (env : Env) (opts : Opts)

/-- a result without error and break. -/
def Result.clean (r : Result) : Prop := r.error = none ∧ r.brk = false

instance (r : Result) : Decidable r.clean := by unfold Result.clean; infer_instance

/-- what finishing the events does; `st` says how it ended. -/
structure FinShape (es : List Event) (ctx ctx' : Bool) (st : Stat) (tp ts : Trace) : Prop where
  isPers : ∀ c ∈ tp, c.IsEvPersist opts.dryRun
  persGood : ts ≠ [] → ∀ c ∈ tp, c.Good
  good : st = .ok → ∀ c ∈ tp ++ ts, c.Good
  bad : st ≠ .ok → (opts.bus = .nil ∧ es ≠ []) ∨ ∃ c ∈ tp ++ ts, ¬ c.Good
  send : ts = [] ∧ ctx' = ctx ∨ ∃ st' b, es ≠ [] ∧ SendRun env opts es ts st' b ∧ ctx' = Option.getD b ctx
  noPers : opts.eventPersist = false → tp = []
  persExact : opts.eventPersist = true → (ts ≠ [] ∨ (st = .ok ∧ es ≠ [])) →
      ∃ ms, List.Forall₂ (fun e m => ∃ t, env.evModel t e = .ok m) es ms ∧
        tp = (es.map fun e => Call.evModel e .ok) ++
          if opts.dryRun then [] else [.exec { op := .insert, models := ms, prev := [] } .ok]
  sendOk : st = .ok → es ≠ [] → ∃ b, SendRun env opts es ts .ok b
  persHalts : ∀ x ∈ tp.dropLast, x.Good

/-- the calls of `do`: main, then (if it returned nil and no misuse was recorded) the final save, then the events. -/
structure DoShape (main : Prog) (s : St) (o : Outcome) where
  tm : Trace
  st : Stat
  tsave : Trace
  tpers : Trace
  tsend : Trace
  eq : o.2.trace = s.trace ++ (.mainStart :: tm ++ .mainRet st :: (tsave ++ (tpers ++ tsend)))
  mainCalls : ∀ c ∈ tm, c.IsMain opts.dryRun
  mainSt : st = (callMain env opts main s).1.stat
  save : Nonempty (SaveShape opts.dryRun tsave)
  pers : ∀ c ∈ tpers, c.IsEvPersist opts.dryRun
  stop : tsave ++ (tpers ++ tsend) ≠ [] → st = .ok ∧ (callMain env opts main s).2.errs = []
  good1 : tpers ++ tsend ≠ [] → ∀ c ∈ tsave, c.Good
  good2 : tsend ≠ [] → ∀ c ∈ tpers, c.Good
  clean : ∀ r, o.1 = some r → r.clean →
    st = .ok ∧ (callMain env opts main s).2.errs = [] ∧ ∀ c ∈ tsave ++ (tpers ++ tsend), c.Good
  brk : ∀ r, o.1 = some r → r.brk = true → st = .err ∧ r.error = none
  cause : (∀ r, o.1 = some r → ¬ r.clean) → st ≠ .ok ∨ (callMain env opts main s).2.errs ≠ [] ∨
    (∃ c ∈ tsave ++ (tpers ++ tsend), ¬ c.Good) ∨
    entityChanges env opts (callMain env opts main s).2 = none ∨
    (∃ cs, entityChanges env opts (callMain env opts main s).2 = some cs ∧ Untracked cs (callMain env opts main s).2.snap) ∨
    (opts.bus = .nil ∧ ∃ s2, persist env opts (callMain env opts main s).2 = (.ok (), s2) ∧ collectEvents env s2 ≠ [])
  panic : o.1 = none → st = .panic ∨ (∃ c ∈ tsave ++ (tpers ++ tsend), ¬ c.Good) ∨
    (∃ cs, entityChanges env opts (callMain env opts main s).2 = some cs ∧ Untracked cs (callMain env opts main s).2.snap)
  send : tsend = [] ∧ o.2.eventCtx = s.eventCtx ∨ ∃ es st b, es ≠ [] ∧ SendRun env opts es tsend st b ∧
    o.2.eventCtx = Option.getD b s.eventCtx
  fin : (tpers ++ tsend ≠ [] ∨ ∃ r, o.1 = some r ∧ r.clean) →
    ∃ s2 st', persist env opts (callMain env opts main s).2 = (.ok (), s2) ∧
      FinShape env opts (collectEvents env s2) s.eventCtx o.2.eventCtx st' tpers tsend ∧
      ((∃ r, o.1 = some r ∧ r.clean) → st' = .ok)
  sendOk : tsend ≠ [] → (∀ c ∈ tsend, c.Good) → ∃ r, o.1 = some r ∧ r.clean

def SaveShape.empty (dry : Bool) : SaveShape dry [] :=
  ⟨[], [], [], [], [], rfl, by simp, by simp, by simp, by simp, by simp, by simp, by simp, by simp, by simp⟩

theorem callMain_shape (main : Prog) (s : St) : ∃ tm,
    (callMain env opts main s).2.trace = s.trace ++ (.mainStart :: tm ++ [.mainRet (callMain env opts main s).1.stat]) ∧
    (∀ c ∈ tm, c.IsMain opts.dryRun) ∧ s.errs <+: (callMain env opts main s).2.errs ∧
    (callMain env opts main s).2.eventCtx = s.eventCtx := by
  unfold callMain
  have h := does_runProg env opts main { s with trace := s.trace ++ [.mainStart] }
  generalize runProg env opts main { s with trace := s.trace ++ [.mainStart] } = x at h
  obtain ⟨r, s1⟩ := x
  obtain ⟨⟨tm, e, q⟩, c, er⟩ := h
  refine ⟨tm, ?_, q, er, c⟩
  simp only at e
  simp [St.log, e]

theorem joinAll_none {l : List Err} : Err.joinAll l = none ↔ l = [] := by
  cases l <;> simp [Err.joinAll]

theorem resultErrOrBreak_not_clean (e : Err) : ¬ (resultErrOrBreak e).clean := by
  unfold resultErrOrBreak resultError Result.clean
  split <;> simp

theorem finishEvents_shape (s : St) : ∃ tp ts, (finishEvents env opts s).2.trace = s.trace ++ (tp ++ ts) ∧
    FinShape env opts (collectEvents env s) s.eventCtx (finishEvents env opts s).2.eventCtx (finishEvents env opts s).1.stat tp ts := by
  unfold finishEvents
  dsimp only
  generalize collectEvents env s = es
  split
  · next he =>
    replace he : es = [] := by simpa using he
    exact ⟨[], [], by simp, by simp, by simp, by simp, by simp [Res.stat], .inl ⟨rfl, rfl⟩, fun _ => rfl,
      by simp [he], by simp [he], by simp⟩
  next he =>
  replace he : es ≠ [] := by simpa using he
  -- the send part from state `s1`
  have send : ∀ s1, ∃ ts st b, SendRun env opts es ts st b ∧ (sendEvents env opts es s1).1.stat = st ∧
      (sendEvents env opts es s1).2 = { s1 with trace := s1.trace ++ ts, eventCtx := Option.getD b s1.eventCtx } :=
    sendEvents_run env opts es
  split
  · next hp =>
    have hd := persistEvents_does env opts es s
    simp only [M.bind_run]
    generalize hx : persistEvents env opts es s = x at hd
    obtain ⟨r, s1⟩ := x
    obtain ⟨⟨tp, e, q⟩, c, er⟩ := hd
    simp only at e c er
    have hh : ∀ x ∈ tp.dropLast, x.Good := by
      obtain ⟨t, e', d', _⟩ := persistEvents_halts env opts es s
      rw [hx] at e'
      have : t = tp := by simp only at e'; rw [e] at e'; simpa using e'.symm
      exact this ▸ d'
    cases r with
    | ok u =>
      dsimp only
      obtain ⟨ts, st, b, hs, h1, h2⟩ := send s1
      obtain ⟨tp', e', g'⟩ := persistEvents_good env opts es s _ _ hx
      have : tp' = tp := by rw [e] at e'; simpa using e'.symm
      subst this
      obtain ⟨ms, hms, hms2⟩ := persistEvents_ok env opts (by simpa using hx)
      refine ⟨tp', ts, ?_, q, fun _ => g', ?_, ?_, .inr ⟨st, b, he, hs, ?_⟩, by simp [hp], ?_, ?_, hh⟩
      · rw [h2, e]; simp
      · rw [h1]; intro hst c hc
        rcases List.mem_append.1 hc with hc | hc
        · exact g' c hc
        · exact hs.good hst c hc
      · rw [h1]; intro hst
        rcases hs.bad hst with h | ⟨c, hc, hb⟩
        · exact .inl ⟨h, he⟩
        · exact .inr ⟨c, by simp [hc], hb⟩
      · rw [h2]; simp [c]
      · intro _ _
        refine ⟨ms, hms, ?_⟩
        rw [e] at hms2
        exact List.append_cancel_left hms2
      · rw [h1]; intro hst _; exact ⟨b, hst ▸ hs⟩
    | err e' =>
      have hb := persistEvents_cause env opts es s (by rw [hx]; simp [Res.stat])
      rw [hx] at hb
      obtain ⟨t', e2, hb⟩ := hb
      have : t' = tp := by simp only at e2; rw [e] at e2; simpa using e2.symm
      subst this
      exact ⟨t', [], by simpa using e, q, by simp, by simp [Res.stat], fun _ => .inr (by simpa using hb), .inl ⟨rfl, c⟩,
        by simp [hp], by simp [Res.stat], by simp [Res.stat], hh⟩
    | panic =>
      have hb := persistEvents_cause env opts es s (by rw [hx]; simp [Res.stat])
      rw [hx] at hb
      obtain ⟨t', e2, hb⟩ := hb
      have : t' = tp := by simp only at e2; rw [e] at e2; simpa using e2.symm
      subst this
      exact ⟨t', [], by simpa using e, q, by simp, by simp [Res.stat], fun _ => .inr (by simpa using hb), .inl ⟨rfl, c⟩,
        by simp [hp], by simp [Res.stat], by simp [Res.stat], hh⟩
  · next hp =>
    simp only [M.bind_run, M.pure]
    obtain ⟨ts, st, b, hs, h1, h2⟩ := send s
    refine ⟨[], ts, ?_, by simp, by simp, ?_, ?_, .inr ⟨st, b, he, hs, ?_⟩, fun _ => rfl, by simp [hp], ?_, by simp⟩
    · rw [h2]; simp
    · rw [h1]; simpa using hs.good
    · rw [h1]; intro hst
      rcases hs.bad hst with h | h
      · exact .inl ⟨h, he⟩
      · exact .inr (by simpa using h)
    · rw [h2]
    · rw [h1]; intro hst _; exact ⟨b, hst ▸ hs⟩


theorem persist_ctx (s : St) : (persist env opts s).2.eventCtx = s.eventCtx := (does_persist env opts s).ctx

theorem sendRun_panic {es : List Event} {t : Trace} {b : Option Bool} {st : Stat} (h : SendRun env opts es t st b) (hs : st = .panic) :
    ∃ c ∈ t, ¬ c.Good := by
  cases h <;> simp_all [Call.Good]

theorem doStage_shape (main : Prog) (s : St) : Nonempty (DoShape env opts main s (doStage env opts main s)) := by
  obtain ⟨tm, e, q, er, cx⟩ := callMain_shape env opts main s
  unfold doStage
  generalize hx : callMain env opts main s = x at e er cx
  obtain ⟨r, s1⟩ := x
  simp only at e er cx
  cases r with
  | panic =>
    exact ⟨⟨tm, .panic, [], [], [], by simpa [Res.stat] using e, q, by rw [hx]; rfl, ⟨.empty _⟩, by simp, by simp, by simp, by simp,
      by simp, by simp, fun _ => .inl (by simp), fun _ => .inl rfl, .inl ⟨rfl, cx⟩, by simp, by simp⟩⟩
  | err e' =>
    refine ⟨⟨tm, .err, [], [], [], by simpa [Res.stat] using e, q, by rw [hx]; rfl, ⟨.empty _⟩, by simp, by simp, by simp, by simp,
      ?_, ?_, fun _ => .inl (by simp), by simp, .inl ⟨rfl, cx⟩, by simp [resultErrOrBreak_not_clean e'], by simp⟩⟩
    · intro r hr hc
      simp only [Option.some.injEq] at hr
      exact absurd (hr ▸ hc) (resultErrOrBreak_not_clean e')
    · intro r hr hb
      simp only [Option.some.injEq] at hr
      subst hr
      refine ⟨rfl, ?_⟩
      unfold resultErrOrBreak at hb ⊢
      split at hb
      · next h => rw [if_pos h]
      · simp [resultError] at hb
  | ok u =>
    dsimp only
    cases hj : Err.joinAll s1.errs with
    | some e' =>
      have hne : s1.errs ≠ [] := by intro h; rw [h] at hj; simp [Err.joinAll] at hj
      exact ⟨⟨tm, .ok, [], [], [], by simpa [Res.stat] using e, q, by rw [hx]; rfl, ⟨.empty _⟩, by simp, by simp, by simp, by simp,
        by simp [Result.clean, resultError], by simp [resultError], fun _ => .inr (.inl (by rw [hx]; exact hne)), by simp, .inl ⟨rfl, cx⟩,
        by simp [Result.clean, resultError], by simp⟩⟩
    | none =>
      have hnil := joinAll_none.1 hj
      dsimp only
      obtain ⟨tsave, es, sh⟩ := persist_shape env opts s1
      have hcause := persist_cause env opts s1
      have hpc := persist_ctx env opts s1
      generalize hy : persist env opts s1 = y at es hcause hpc
      obtain ⟨r2, s2⟩ := y
      simp only at es hpc
      cases r2 with
      | panic =>
        have hc := hcause (by simp [Res.stat])
        have hc2 : (∃ c ∈ tsave, ¬ c.Good) ∨ ∃ cs, entityChanges env opts s1 = some cs ∧ Untracked cs s1.snap := by
          rcases hc with h | ⟨t, h1, h2⟩ | h
          · exfalso
            rw [persist_eq, M.bind_run] at hy
            unfold getEntityChanged at hy
            rw [h] at hy
            simp at hy
          · simp only at h1
            have : t = tsave := by rw [es] at h1; simpa using h1.symm
            exact .inl (this ▸ h2)
          · exact .inr h
        refine ⟨⟨tm, .ok, tsave, [], [], by simp [es, e, Res.stat], q, by rw [hx]; rfl, sh, by simp, ?_, by simp, by simp,
          by simp, by simp, ?_, ?_, .inl ⟨rfl, by rw [hpc, cx]⟩, by simp, by simp⟩⟩
        · intro _; rw [hx]; exact ⟨rfl, hnil⟩
        · intro _; rw [hx]
          rcases hc2 with ⟨c, h1, h2⟩ | h
          · exact .inr (.inr (.inl ⟨c, by simp [h1], h2⟩))
          · exact .inr (.inr (.inr (.inr (.inl h))))
        · intro _; rw [hx]
          rcases hc2 with ⟨c, h1, h2⟩ | h
          · exact .inr (.inl ⟨c, by simp [h1], h2⟩)
          · exact .inr (.inr h)
      | err e2 =>
        have hc := hcause (by simp [Res.stat])
        refine ⟨⟨tm, .ok, tsave, [], [], by simp [es, e, Res.stat], q, by rw [hx]; rfl, sh, by simp, ?_, by simp, by simp,
          by simp [Result.clean, resultErrors, resultError], by simp [resultErrors, resultError], ?_, by simp, .inl ⟨rfl, by rw [hpc, cx]⟩,
          by simp [Result.clean, resultErrors, resultError], by simp⟩⟩
        · intro _; rw [hx]; exact ⟨rfl, hnil⟩
        · intro _; rw [hx]
          rcases hc with h | ⟨t, h1, c, h2, h3⟩ | h
          · exact .inr (.inr (.inr (.inl h)))
          · simp only at h1
            have : t = tsave := by rw [es] at h1; simpa using h1.symm
            subst this
            exact .inr (.inr (.inl ⟨c, by simp [h2], h3⟩))
          · exact .inr (.inr (.inr (.inr (.inl h))))
      | ok u2 =>
        dsimp only
        obtain ⟨t', et', gs⟩ := okGood_persist env opts s1 _ _ hy
        have : t' = tsave := by rw [es] at et'; simpa using et'.symm
        subst this
        obtain ⟨tp, ts, ef, hfin⟩ := finishEvents_shape env opts s2
        have hp := hfin.isPers
        have hg := hfin.persGood
        have hok := hfin.good
        have hbad := hfin.bad
        have hsend := hfin.send
        have hpan : (finishEvents env opts s2).1 = .panic → ∃ c ∈ tp ++ ts, ¬ c.Good := by
          intro hpn
          rcases hbad (by rw [hpn]; simp [Res.stat]) with ⟨hb, hne⟩ | h
          · -- a nil bus gives an error, not a panic; so the panic came from persisting the events
            by_contra hno
            unfold finishEvents at hpn
            dsimp only at hpn
            rw [if_neg (by simpa using hne)] at hpn
            by_cases hpe : opts.eventPersist = true
            · rw [if_pos hpe, M.bind_run] at hpn
              generalize hz : persistEvents env opts (collectEvents env s2) s2 = z at hpn
              obtain ⟨rz, sz⟩ := z
              cases rz with
              | ok u =>
                dsimp only at hpn
                unfold sendEvents at hpn
                rw [if_pos hb] at hpn
                simp at hpn
              | err e => simp at hpn
              | panic =>
                obtain ⟨t3, e3, c, hc, hcb⟩ := persistEvents_cause env opts (collectEvents env s2) s2 (by rw [hz]; simp [Res.stat])
                apply hno
                refine ⟨c, ?_, hcb⟩
                have hfe : (finishEvents env opts s2).2 = sz := by
                  unfold finishEvents
                  dsimp only
                  rw [if_neg (by simpa using hne), if_pos hpe, M.bind_run, hz]
                rw [hfe] at ef
                rw [hz] at e3
                simp only at e3
                rw [e3] at ef
                have := List.append_cancel_left ef
                rw [← this]; exact hc
            · rw [if_neg hpe, M.bind_run] at hpn
              simp only [M.pure] at hpn
              unfold sendEvents at hpn
              rw [if_pos hb] at hpn
              simp at hpn
          · exact h
        generalize hz : finishEvents env opts s2 = z at ef hok hbad hsend hpan hfin
        obtain ⟨r3, s3⟩ := z
        simp only at ef hok hbad hsend hpan
        have hctx : ts = [] ∧ s3.eventCtx = s.eventCtx ∨ ∃ es st b, es ≠ [] ∧ SendRun env opts es ts st b ∧
            s3.eventCtx = Option.getD b s.eventCtx := by
          rcases hsend with ⟨h1, h2⟩ | ⟨st, b, h1, h2, h3⟩
          · exact .inl ⟨h1, by rw [h2, hpc, cx]⟩
          · exact .inr ⟨_, st, b, h1, h2, by rw [h3, hpc, cx]⟩
        rw [hpc, cx] at hfin
        have hsb : r3.stat ≠ .ok → ts ≠ [] → ¬ ∀ c ∈ ts, c.Good := by
          intro h1 h2 h3
          rcases hbad h1 with ⟨hb, _⟩ | ⟨c, hc, hb⟩
          · rcases hsend with ⟨h4, _⟩ | ⟨st, b, _, h4, _⟩
            · exact h2 h4
            · cases h4 <;> simp_all
          · rcases List.mem_append.1 hc with hc | hc
            · exact hb (hg h2 c hc)
            · exact hb (h3 c hc)
        cases r3 with
        | ok u3 =>
          refine ⟨⟨tm, .ok, t', tp, ts, by simp [es, e, ef, Res.stat], q, by rw [hx]; rfl, sh, hp, ?_, fun _ => gs, hg, ?_, by simp, ?_, by simp, hctx, ?_, ?_⟩⟩
          · intro _; rw [hx]; exact ⟨rfl, hnil⟩
          · intro r _ _
            rw [hx]
            refine ⟨rfl, hnil, ?_⟩
            intro c hc
            rcases List.mem_append.1 hc with hc | hc
            · exact gs c hc
            · exact hok rfl c hc
          · intro h; exact absurd ⟨rfl, rfl⟩ (h _ rfl)
          · intro _; rw [hx]; exact ⟨s2, _, hy, hfin, fun _ => rfl⟩
          · intro _ _; exact ⟨_, rfl, rfl, rfl⟩
        | err e3 =>
          refine ⟨⟨tm, .ok, t', tp, ts, by simp [es, e, ef, Res.stat], q, by rw [hx]; rfl, sh, hp, ?_, fun _ => gs, hg,
            by simp [Result.clean, resultError], by simp [resultError], ?_, by simp, hctx, ?_, ?_⟩⟩
          · intro _; rw [hx]; exact ⟨rfl, hnil⟩
          · intro _; rw [hx]
            rcases hbad (by simp [Res.stat]) with ⟨h, h'⟩ | ⟨c, h1, h2⟩
            · exact .inr (.inr (.inr (.inr (.inr ⟨h, s2, hy, h'⟩))))
            · exact .inr (.inr (.inl ⟨c, List.mem_append_right _ h1, h2⟩))
          · intro _; rw [hx]; exact ⟨s2, _, hy, hfin, by simp [Result.clean, resultError]⟩
          · exact fun h1 h2 => absurd h2 (hsb (by simp [Res.stat]) h1)
        | panic =>
          refine ⟨⟨tm, .ok, t', tp, ts, by simp [es, e, ef, Res.stat], q, by rw [hx]; rfl, sh, hp, ?_, fun _ => gs, hg,
            by simp, by simp, ?_, ?_, hctx, ?_, ?_⟩⟩
          · intro _; rw [hx]; exact ⟨rfl, hnil⟩
          · intro _; rw [hx]
            obtain ⟨c, h1, h2⟩ := hpan rfl
            exact .inr (.inr (.inl ⟨c, List.mem_append_right _ h1, h2⟩))
          · intro _; rw [hx]
            obtain ⟨c, h1, h2⟩ := hpan rfl
            exact .inr (.inl ⟨c, List.mem_append_right _ h1, h2⟩)
          · intro _; rw [hx]; exact ⟨s2, _, hy, hfin, by simp⟩
          · exact fun h1 h2 => absurd h2 (hsb (by simp [Res.stat]) h1)

end Ddd
