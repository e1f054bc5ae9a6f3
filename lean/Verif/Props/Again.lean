import Verif.Model.Again
import Verif.Props.PostCommit
/-!
# C109: a stage that is saved again
-/
set_option linter.unusedVariables false
set_option linter.unusedSimpArgs false
namespace Ddd.Again
open Ddd Spec
variable {env env' : Env} {opts : Opts}

/-- more calls happened -/
def Later (s s' : Stage) (t : Trace) : Prop := s'.st.trace = s.st.trace ++ t
/-- only calls happened -/
def Only (s s' : Stage) (t : Trace) : Prop := s' = { s with st := { s.st with trace := s.st.trace ++ t } }

theorem Only.later {s s' : Stage} {t : Trace} (h : Only s s' t) : Later s s' t := by rw [h]; rfl
theorem Only.refl (s : Stage) : Only s s [] := by simp [Only]
theorem Only.trans {a b d : Stage} {t u : Trace} (h1 : Only a b t) (h2 : Only b d u) : Only a d (t ++ u) := by rw [h2, h1]; simp [Only]
theorem Later.trans {a b d : Stage} {t u : Trace} (h1 : Later a b t) (h2 : Later b d u) : Later a d (t ++ u) := by unfold Later at *; rw [h2, h1]; simp
theorem Only.log (s : Stage) (x : Call) : Only s { s with st := s.st.log x } [x] := rfl

/-- calls that neither start `Main` nor commit anything -/
def Plain : Call → Prop
  | .mainStart => False
  | .commit _ => False
  | .busCommit _ => False
  | _ => True

/-- only calls happened, and only plain ones -/
def Idle (s s' : Stage) : Prop := ∃ t, Only s s' t ∧ ∀ x ∈ t, Plain x

theorem Idle.refl (s : Stage) : Idle s s := ⟨[], .refl s, by simp⟩
theorem Idle.trans {a b d : Stage} : Idle a b → Idle b d → Idle a d := by
  rintro ⟨t, h1, h2⟩ ⟨u, h3, h4⟩
  exact ⟨t ++ u, h1.trans h3, fun x hx => (List.mem_append.1 hx).elim (h2 x) (h4 x)⟩
theorem Idle.log (s : Stage) (x : Call) (h : Plain x := by trivial) : Idle s { s with st := s.st.log x } := ⟨[x], .log s x, by simpa using h⟩

theorem idle_acquire (ks : List Nat) : ∀ (got : List Nat) (s : Stage), Idle s { s with st := (acquire env ks got s.st).2.2 } := by
  induction ks with
  | nil => intro got s; exact .refl s
  | cons k ks ih =>
    intro got s
    simp only [acquire, callOut]
    cases env.lock s.st.trace k with
    | ok u => exact (Idle.log s (.lock k .ok)).trans (ih _ { s with st := s.st.log (.lock k .ok) })
    | err e => exact .log s _
    | panic => exact .log s _

theorem idle_release (ks : List Nat) : ∀ (s : Stage), Idle s { s with st := (releaseAll env ks s.st).2 } := by
  induction ks with
  | nil => intro s; exact .refl s
  | cons k ks ih =>
    intro s
    simp only [releaseAll, callOut]
    cases env.unlock s.st.trace k with
    | ok u => exact (Idle.log s (.unlock k .ok)).trans (ih { s with st := s.st.log (.unlock k .ok) })
    | err e => exact (Idle.log s (.unlock k .err)).trans (ih { s with st := s.st.log (.unlock k .err) })
    | panic => exact .log s _

theorem idle_posts (ks : List Nat) : ∀ (s : Stage), Idle s { s with st := (postSaves env ks s.st).2 } := by
  induction ks with
  | nil => intro s; exact .refl s
  | cons k ks ih =>
    intro s
    simp only [postSaves, callOut]
    cases env.postSave s.st.trace k with
    | ok u => exact (Idle.log s (.postSave k .ok)).trans (ih { s with st := s.st.log (.postSave k .ok) })
    | err e => exact (Idle.log s (.postSave k .err)).trans (ih { s with st := s.st.log (.postSave k .err) })
    | panic => exact .log s _

theorem idle_recover (s : Stage) : Idle s (recover env s).2 := .log s _

/-- calls other than commits -/
def NoCommit : Call → Prop
  | .commit _ => False
  | .busCommit _ => False
  | _ => True

theorem Plain.noCommit {x : Call} (h : Plain x) : NoCommit x := by cases x <;> first | exact h | trivial

/-- what a `Save` of stage `s` comes to, seen from outside -/
inductive Kind (s : Stage) : Option Result → Stage → Prop where
  /-- `Main` was not called -/
  | idle {r s'} (h : Idle s s') (hr : ∀ x, r = some x → ¬ x.clean) : Kind s r s'
  /-- `Main` was called, and nothing committed -/
  | undone {r s' a t} (h1 : Idle s a) (h2 : Later a s' (.mainStart :: t)) (h3 : ∀ x ∈ t, NoCommit x) (he : s'.error = s.error) (hr : ∀ x, r = some x → ¬ x.clean) : Kind s r s'
  /-- everything went well, or a panic came after it -/
  | done {r s' a t} (h0 : s.error = none) (h1 : Idle s a) (h2 : Later a s' (.mainStart :: t)) (h3 : .commit .err ∉ t) (he : s'.error = none) : Kind s r s'
  /-- the commit failed -/
  | broken {r s' a t e} (h0 : s.error = none) (h1 : Idle s a) (h2 : Later a s' (.mainStart :: t)) (he : s'.error = some e) (hr : ∀ x, r = some x → x.error = some e) : Kind s r s'

theorem noErr_of_idle {s s' : Stage} {t : Trace} (h : .commit .err ∉ t) : Idle s s' → ∃ u, Only s s' u ∧ .commit .err ∉ t ++ u := by
  rintro ⟨u, h1, h2⟩
  exact ⟨u, h1, fun hx => (List.mem_append.1 hx).elim h fun hx => h2 _ hx⟩

/-- calls after it, the result the same or lost to a panic -/
theorem Kind.after {s a b : Stage} {r r' : Option Result} (h : Kind s r a) (hi : Idle a b) (hr : ∀ x, r' = some x → r = some x) : Kind s r' b := by
  have herr : b.error = a.error := by obtain ⟨t, h1, _⟩ := hi; rw [h1]
  cases h with
  | idle h h2 => exact .idle (h.trans hi) fun x hx => h2 x (hr x hx)
  | undone h1 h2 h3 he h4 =>
    obtain ⟨u, h5, h6⟩ := hi
    exact .undone h1 (h2.trans h5.later) (fun x hx => (List.mem_append.1 hx).elim (h3 x) fun hx => (h6 x hx).noCommit) (herr.trans he) fun x hx => h4 x (hr x hx)
  | done h0 h1 h2 h3 he =>
    obtain ⟨u, h5, h6⟩ := noErr_of_idle h3 hi
    exact .done h0 h1 (h2.trans h5.later) h6 (herr.trans he)
  | broken h0 h1 h2 he h4 =>
    obtain ⟨u, h5, _⟩ := hi
    exact .broken h0 h1 (h2.trans h5.later) (herr.trans he) fun x hx => h4 x (hr x hx)

/-- calls before it -/
theorem Kind.before {s a b : Stage} {r : Option Result} (hi : Idle s a) (h : Kind a r b) : Kind s r b := by
  have herr : a.error = s.error := by obtain ⟨t, h1, _⟩ := hi; rw [h1]
  cases h with
  | idle h h2 => exact .idle (hi.trans h) h2
  | undone h1 h2 h3 he h4 => exact .undone (hi.trans h1) h2 h3 (he.trans herr) h4
  | done h0 h1 h2 h3 he => exact .done (herr ▸ h0) (hi.trans h1) h2 h3 he
  | broken h0 h1 h2 he h4 => exact .broken (herr ▸ h0) (hi.trans h1) h2 he h4

theorem do_kind (main : Prog) (s : Stage) : ∃ t, Later s (doStage env opts main s).2 (.mainStart :: t) ∧ (∀ x ∈ t, NoCommit x) ∧ (doStage env opts main s).2.error = s.error ∧
    ((doStage env opts main s).1 = .panic ∨ (∃ r, (doStage env opts main s).1 = .other r ∧ ¬ r.clean) ∨ ∃ r, (doStage env opts main s).1 = .own r ∧ r.error = s.error ∧ r.brk = false) := by
  have key : ∃ t, (Ddd.doStage env opts main { s.st with errs := [] }).2.trace = s.st.trace ++ .mainStart :: t ∧ ∀ x ∈ t, NoCommit x := by
    obtain ⟨d⟩ := doStage_shape env opts main { s.st with errs := [] }
    have hb := d.isBody
    refine ⟨d.tm ++ .mainRet d.st :: (d.tsave ++ (d.tpers ++ d.tsend)), d.eq, ?_⟩
    intro x hx
    have h1 := hb x (by simp only [List.cons_append, List.mem_cons]; exact .inr hx)
    cases x with
    | commit st => exact h1.elim
    | busCommit st => exact h1.elim
    | _ => trivial
  obtain ⟨t, he, hp⟩ := key
  unfold doStage
  generalize Ddd.doStage env opts main { s.st with errs := [] } = x at he
  obtain ⟨r, s1⟩ := x
  simp only at he
  cases r with
  | none => exact ⟨_, he, hp, rfl, .inl rfl⟩
  | some r =>
    dsimp only
    split
    · next h =>
      refine ⟨_, he, hp, rfl, .inr (.inr ⟨_, rfl, rfl, ?_⟩)⟩
      simpa using (by simpa using h : r.error = none ∧ r.brk = false).2
    · next h =>
      refine ⟨_, he, hp, rfl, .inr (.inl ⟨_, rfl, ?_⟩)⟩
      rintro ⟨h1, h2⟩
      simp [h1, h2] at h

theorem kind_do (main : Prog) (s : Stage) : Kind s (doStage env opts main s).1.result (doStage env opts main s).2 := by
  obtain ⟨t, h1, h2, h3, h4⟩ := do_kind (env := env) (opts := opts) main s
  rcases h4 with h4 | ⟨r, h4, h5⟩ | ⟨r, h4, h5, h6⟩
  · exact .undone (.refl s) h1 h2 h3 (by rw [h4]; intro x hx; cases hx)
  · exact .undone (.refl s) h1 h2 h3 (by rw [h4]; intro x hx; cases hx; exact h5)
  · cases he : s.error with
    | none => exact .done he (.refl s) h1 (fun hx => h2 _ hx) (h3.trans he)
    | some e => exact .undone (.refl s) h1 h2 h3 (by rw [h4]; intro x hx; cases hx; simp [Result.clean, h5, he])

theorem endBus_only (ans : Trace → Res Unit) (mk : Stat → Call) (d : Done) (s : Stage) : ∃ u, Only s (endBus env opts ans mk d s).2 u ∧ (∀ x ∈ u, (∃ st, x = mk st) ∨ ∃ st, x = .rollback st) ∧
    ∀ x, (endBus env opts ans mk d s).1.result = some x → d.result = some x := by
  unfold endBus callOut
  by_cases hp : busPending opts s.st = true
  · simp only [hp, if_true]
    cases ans s.st.trace with
    | panic => exact ⟨[mk .panic, .rollback _], (Only.log s _).trans (.log _ _), by simp, by intro x hx; cases hx⟩
    | ok u => exact ⟨[mk .ok], .log s _, by simp, fun x hx => hx⟩
    | err u => exact ⟨[mk .err], .log s _, by simp, fun x hx => hx⟩
  · simp only [hp, if_false]
    exact ⟨[], .refl s, by simp, fun x hx => hx⟩

theorem kind_tx (main : Prog) (s : Stage) : Kind s (runWithTransaction env opts (doStage env opts main) s).1.result (runWithTransaction env opts (doStage env opts main) s).2 := by
  unfold runWithTransaction callOut
  cases hb : env.begin_ s.st.trace with
  | panic => exact .idle (.log s _) (by intro x hx; cases hx)
  | err e => exact .idle (.log s _) (by intro x hx; cases hx; simp [Result.clean, resultErrors, resultError])
  | ok u =>
    refine Kind.before (.log s (.begin .ok)) ?_
    simp only [Res.stat]
    obtain ⟨t, h1, h2, h3, h4⟩ := do_kind (env := env) (opts := opts) main { s with st := s.st.log (.begin .ok) }
    have hk := kind_do (env := env) (opts := opts) main { s with st := s.st.log (.begin .ok) }
    generalize doStage env opts main { s with st := s.st.log (.begin .ok) } = y at h1 h2 h3 h4 hk
    obtain ⟨d, s2⟩ := y
    simp only at h1 h2 h3 h4 hk ⊢
    generalize hs0 : ({ s with st := s.st.log (.begin .ok) } : Stage) = s0 at h1 h3 h4 hk
    have hs0e : s.error = s0.error := by rw [← hs0]
    clear hs0
    -- the end with a rollback
    have roll : ∀ r, d.result = some r → (r.error.isSome || r.brk) = true → ∀ z, z = (match ((env.rollback s2.st.trace, s2.st.log (.rollback (env.rollback s2.st.trace).stat)) : Res Unit × St) with
          | (.panic, s3) => recover env { s2 with st := s3 }
          | (_, s3) => endBus env opts env.busRollback .busRollback d { s2 with st := s3 }) → Kind s0 z.1.result z.2 := by
      intro r hr hbad z hz
      subst hz
      cases env.rollback s2.st.trace with
      | panic => exact hk.after ((Idle.log s2 (.rollback .panic)).trans (idle_recover _)) (by intro x hx; cases hx)
      | ok u =>
        obtain ⟨v, g1, g2, g3⟩ := endBus_only (env := env) (opts := opts) env.busRollback .busRollback d { s2 with st := s2.st.log (.rollback .ok) }
        exact hk.after ((Idle.log s2 (.rollback .ok)).trans ⟨v, g1, fun x hx => by rcases g2 x hx with ⟨st, rfl⟩ | ⟨st, rfl⟩ <;> trivial⟩) g3
      | err u =>
        obtain ⟨v, g1, g2, g3⟩ := endBus_only (env := env) (opts := opts) env.busRollback .busRollback d { s2 with st := s2.st.log (.rollback .err) }
        exact hk.after ((Idle.log s2 (.rollback .err)).trans ⟨v, g1, fun x hx => by rcases g2 x hx with ⟨st, rfl⟩ | ⟨st, rfl⟩ <;> trivial⟩) g3
    rcases h4 with h4 | ⟨r, h4, h5⟩ | ⟨r, h4, h5, h6⟩
    · subst h4
      exact hk.after (idle_recover s2) (by intro x hx; cases hx)
    · subst h4
      have hbad : (r.error.isSome || r.brk) = true := by
        rw [← Bool.not_eq_false]
        intro h
        apply h5
        simpa [Result.clean] using h
      simp only [Done.result, hbad, if_true]
      exact roll r rfl hbad _ rfl
    · subst h4
      cases he : s0.error with
      | some e =>
        have hbad : (r.error.isSome || r.brk) = true := by simp [h5, hs0e, he]
        simp only [Done.result, hbad, if_true]
        exact roll r rfl hbad _ rfl
      | none =>
        have hgood : (r.error.isSome || r.brk) = false := by simp [h5, hs0e, he, h6]
        simp only [Done.result, hgood]
        have hd : ∀ (u : Trace) (s3 : Stage) (q : Option Result), Only s2 s3 u → (∀ x ∈ u, x ≠ .commit .err) → Kind s0 q s3 := by
          intro u s3 q ho hu
          refine .done he (.refl s0) (h1.trans ho.later) ?_ ?_
          · intro hx
            rcases List.mem_append.1 hx with hx | hx
            · exact h2 _ hx
            · exact hu _ hx rfl
          · rw [ho]; exact h3.trans (hs0e.trans he)
        cases env.commit s2.st.trace with
        | panic => exact hd [.commit .panic, .rollback _] _ _ ((Only.log s2 _).trans (.log _ _)) (by simp)
        | err e => exact .broken he (.refl s0) (h1.trans (Only.log s2 (.commit .err)).later) rfl (by intro x hx; cases hx; rfl)
        | ok u =>
          obtain ⟨v, g1, g2, g3⟩ := endBus_only (env := env) (opts := opts) env.busCommit .busCommit (.own r) { s2 with st := s2.st.log (.commit .ok) }
          refine hd (.commit .ok :: v) _ _ ((Only.log s2 (.commit .ok)).trans g1) ?_
          intro x hx
          rcases List.mem_cons.1 hx with rfl | hx
          · simp
          · rcases g2 x hx with ⟨st, rfl⟩ | ⟨st, rfl⟩ <;> simp

theorem kind_lock {f : Stage → Done × Stage} (hf : ∀ s, Kind s (f s).1.result (f s).2) (keys : List Nat) (s : Stage) :
    Kind s (runOnLock env keys f s).1.result (runOnLock env keys f s).2 := by
  unfold runOnLock
  dsimp only
  split
  · exact .idle (.refl s) (by intro x hx; cases hx; simp [Result.clean, resultErrors, resultError])
  · have ha := idle_acquire (env := env) (keys.insertionSort (· ≤ ·)) [] s
    generalize acquire env (keys.insertionSort (· ≤ ·)) [] s.st = x at ha
    obtain ⟨a, got, s1⟩ := x
    cases a with
    | panic => exact .idle ha (by intro x hx; cases hx)
    | failed e =>
      have hr := idle_release (env := env) got { s with st := s1 }
      dsimp only at hr ⊢
      generalize releaseAll env got s1 = y at hr
      obtain ⟨b, s2⟩ := y
      cases b
      · exact .idle (ha.trans hr) (by intro x hx; cases hx)
      · exact .idle (ha.trans hr) (by intro x hx; cases hx; simp [Result.clean, resultErrors, resultError])
    | all =>
      refine Kind.before ha ?_
      have hk := hf { s with st := s1 }
      dsimp only at hk ⊢
      generalize f { s with st := s1 } = y at hk
      obtain ⟨d, s2⟩ := y
      have hr := idle_release (env := env) got s2
      dsimp only at hr ⊢
      generalize releaseAll env got s2.st = y at hr
      obtain ⟨b, s3⟩ := y
      cases b
      · exact hk.after hr (by intro x hx; cases hx)
      · exact hk.after hr (fun x hx => hx)

theorem kind_save (keys : List Nat) (main : Prog) (s : Stage) : Kind s (save env opts keys main s).1 (save env opts keys main s).2 := by
  have core : Kind s (saveCore env opts keys main s).1.result (saveCore env opts keys main s).2 := by
    unfold saveCore
    have h1 : ∀ s, Kind s ((if opts.withTransaction then runWithTransaction env opts (doStage env opts main) else doStage env opts main) s).1.result
        ((if opts.withTransaction then runWithTransaction env opts (doStage env opts main) else doStage env opts main) s).2 := by
      intro s
      split
      · exact kind_tx main s
      · exact kind_do main s
    split
    · exact h1 s
    · exact kind_lock h1 keys s
  unfold save
  generalize saveCore env opts keys main s = x at core
  obtain ⟨d, s1⟩ := x
  dsimp only at core ⊢
  cases hd : d.result with
  | none => rw [hd] at core; exact core
  | some r =>
    rw [hd] at core
    dsimp only
    split
    · have hr := idle_posts (env := env) opts.hooks s1
      generalize postSaves env opts.hooks s1.st = y at hr
      obtain ⟨b, s2⟩ := y
      cases b
      · exact core.after hr (by intro x hx; cases hx)
      · exact core.after hr (fun x hx => hx)
    · exact core

theorem Idle.noMain {s s' : Stage} (h : Idle s s') : ∃ t, Only s s' t ∧ .mainStart ∉ t ∧ (∀ st, .commit st ∉ t) ∧ ∀ st, .busCommit st ∉ t := by
  obtain ⟨t, h1, h2⟩ := h
  exact ⟨t, h1, fun hx => h2 _ hx, fun st hx => h2 _ hx, fun st hx => h2 _ hx⟩

theorem cut {a t u : Trace} (h : a ++ t = a ++ u) : t = u := List.append_cancel_left h

/-- **C109** A `Save` during which `Main` was not called (a lock was not obtained, `Begin` failed, …) leaves the stage as it was, so that the next `Save` is what this one would have been. -/
theorem C109_not_begun_partial (keys : List Nat) (main : Prog) (s : Stage) : ∃ t, (save env opts keys main s).2.st.trace = s.st.trace ++ t ∧
    (.mainStart ∉ t → (save env opts keys main s).2 = { s with st := { s.st with trace := s.st.trace ++ t } } ∧ ∀ r, (save env opts keys main s).1 = some r → ¬ (r.error = none ∧ r.brk = false)) := by
  have hk := kind_save (env := env) (opts := opts) keys main s
  generalize save env opts keys main s = x at hk
  obtain ⟨r, s'⟩ := x
  simp only at hk ⊢
  have late : ∀ {a : Stage} {t : Trace}, Idle s a → Later a s' (.mainStart :: t) → ∃ t, s'.st.trace = s.st.trace ++ t ∧
      (.mainStart ∉ t → s' = { s with st := { s.st with trace := s.st.trace ++ t } } ∧ ∀ x, r = some x → ¬ (x.error = none ∧ x.brk = false)) := by
    rintro a t ⟨u, h1, _⟩ h2
    exact ⟨u ++ .mainStart :: t, h1.later.trans h2, fun h => absurd (by simp) h⟩
  cases hk with
  | idle h hr =>
    obtain ⟨t, h1, _⟩ := h
    exact ⟨t, h1.later, fun _ => ⟨h1, hr⟩⟩
  | undone h1 h2 h3 he hr => exact late h1 h2
  | done h0 h1 h2 h3 he => exact late h1 h2
  | broken h0 h1 h2 he hr => exact late h1 h2

theorem stuck_save {e : Err} {s : Stage} (he : s.error = some e) (keys : List Nat) (main : Prog) :
    (save env opts keys main s).2.error = some e ∧ (∀ r, (save env opts keys main s).1 = some r → ¬ (r.error = none ∧ r.brk = false)) ∧
    ∃ t, (save env opts keys main s).2.st.trace = s.st.trace ++ t ∧ (∀ st, .commit st ∉ t) ∧ ∀ st, .busCommit st ∉ t := by
  have hk := kind_save (env := env) (opts := opts) keys main s
  generalize save env opts keys main s = x at hk
  obtain ⟨r, s'⟩ := x
  simp only at hk ⊢
  cases hk with
  | idle h hr =>
    obtain ⟨t, h1, h2, h3, h4⟩ := h.noMain
    exact ⟨by rw [h1]; exact he, hr, t, h1.later, h3, h4⟩
  | undone h1 h2 h3 he' hr =>
    obtain ⟨t, g1, g2, g3, g4⟩ := h1.noMain
    refine ⟨he'.trans he, hr, _, g1.later.trans h2, ?_, ?_⟩
    · intro st hx
      rcases List.mem_append.1 hx with hx | hx
      · exact g3 _ hx
      · rcases List.mem_cons.1 hx with hx | hx
        · simp at hx
        · exact h3 _ hx
    · intro st hx
      rcases List.mem_append.1 hx with hx | hx
      · exact g4 _ hx
      · rcases List.mem_cons.1 hx with hx | hx
        · simp at hx
        · exact h3 _ hx
  | done h0 h1 h2 h3 he' => rw [he] at h0; simp at h0
  | broken h0 h1 h2 he' hr => rw [he] at h0; simp at h0

theorem stuck_saves (xs : List Setup) : ∀ {e : Err} {s : Stage}, s.error = some e →
    (∀ r, some r ∈ (saves env xs s).1 → ¬ (r.error = none ∧ r.brk = false)) ∧
    ∃ t, (saves env xs s).2.st.trace = s.st.trace ++ t ∧ (∀ st, .commit st ∉ t) ∧ ∀ st, .busCommit st ∉ t := by
  induction xs with
  | nil => intro e s he; exact ⟨by simp [saves], [], by simp [saves]⟩
  | cons x xs ih =>
    intro e s he
    obtain ⟨h1, h2, t, h3, h4, h5⟩ := stuck_save (env := env) (opts := x.opts) he x.keys x.main
    simp only [saves]
    generalize save env x.opts x.keys x.main s = y at h1 h2 h3
    obtain ⟨r, s1⟩ := y
    simp only at h1 h2 h3 ⊢
    obtain ⟨g1, u, g3, g4, g5⟩ := ih h1
    refine ⟨?_, t ++ u, by rw [g3, h3]; simp, ?_, ?_⟩
    · intro q hq
      rcases List.mem_cons.1 hq with hq | hq
      · exact h2 q hq.symm
      · exact g1 q hq
    · intro st hx; exact (List.mem_append.1 hx).elim (h4 st) (g4 st)
    · intro st hx; exact (List.mem_append.1 hx).elim (h5 st) (g5 st)

/-- **C109** After a `Save` whose `Commit` failed, no later `Save` of the stage succeeds or commits anything, whatever the options, keys, `Main` and the environment: the error stays on the result object. -/
theorem C109_failed_commit {keys : List Nat} {main : Prog} {s : Stage} {t : Trace} (ht : (save env opts keys main s).2.st.trace = s.st.trace ++ t) (hc : .commit .err ∈ t) (xs : List Setup) :
    (∀ r, some r ∈ (saves env xs (save env opts keys main s).2).1 → ¬ (r.error = none ∧ r.brk = false)) ∧
    ∃ u, (saves env xs (save env opts keys main s).2).2.st.trace = (save env opts keys main s).2.st.trace ++ u ∧ (∀ st, .commit st ∉ u) ∧ ∀ st, .busCommit st ∉ u := by
  have hk := kind_save (env := env) (opts := opts) keys main s
  have he : ∃ e, (save env opts keys main s).2.error = some e := by
    generalize save env opts keys main s = x at hk ht
    obtain ⟨r, s'⟩ := x
    simp only at hk ht ⊢
    cases hk with
    | idle h hr =>
      obtain ⟨v, h1, h2, h3, h4⟩ := h.noMain
      have := cut (ht.symm.trans h1.later)
      subst this
      exact absurd hc (h3 _)
    | undone h1 h2 h3 he' hr =>
      obtain ⟨v, g1, g2, g3, g4⟩ := h1.noMain
      have := cut (ht.symm.trans (g1.later.trans h2))
      subst this
      rcases List.mem_append.1 hc with hx | hx
      · exact absurd hx (g3 _)
      · rcases List.mem_cons.1 hx with hx | hx
        · simp at hx
        · exact (h3 _ hx).elim
    | done h0 h1 h2 h3 he' =>
      obtain ⟨v, g1, g2, g3, g4⟩ := h1.noMain
      have := cut (ht.symm.trans (g1.later.trans h2))
      subst this
      rcases List.mem_append.1 hc with hx | hx
      · exact absurd hx (g3 _)
      · rcases List.mem_cons.1 hx with hx | hx
        · simp at hx
        · exact absurd hx h3
    | broken h0 h1 h2 he' hr => exact ⟨_, he'⟩
  obtain ⟨e, he⟩ := he
  exact stuck_saves xs he

/-! ## a first `Save` is that of `Model/Stage` -/

/-- the same but for the errors of an old repository -/
def Same (a b : St) : Prop := ∃ es, a = { b with errs := es }

theorem Same.refl (a : St) : Same a a := ⟨a.errs, rfl⟩
theorem Same.log {a b : St} (h : Same a b) (x : Call) : Same (a.log x) (b.log x) := by obtain ⟨es, rfl⟩ := h; exact ⟨es, rfl⟩
theorem Same.trace {a b : St} (h : Same a b) : a.trace = b.trace := by obtain ⟨es, rfl⟩ := h; rfl

theorem Same.callOut {a b : St} (h : Same a b) (ans : Trace → Res Unit) (mk : Stat → Call) : (callOut ans mk a).1 = (callOut ans mk b).1 ∧ Same (callOut ans mk a).2 (callOut ans mk b).2 := by
  unfold Ddd.callOut
  rw [h.trace]
  exact ⟨rfl, h.log _⟩

/-- seen from outside, `f` does what `g` does -/
def Sim (f : Stage → Done × Stage) (g : St → Outcome) : Prop := ∀ s b, s.error = none → Same s.st b → b.errs = [] → (f s).1.result = (g b).1 ∧ Same (f s).2.st (g b).2

theorem sim_do (main : Prog) : Sim (doStage env opts main) (Ddd.doStage env opts main) := by
  rintro s b he ⟨es, h⟩ hb0
  have hb : ({ s.st with errs := [] } : St) = b := by rw [h, ← hb0]
  unfold doStage
  rw [hb]
  generalize Ddd.doStage env opts main b = x
  obtain ⟨r, s1⟩ := x
  cases r with
  | none => exact ⟨rfl, .refl _⟩
  | some r =>
    dsimp only
    split
    · next hg =>
      have : r.error = none := by simpa using (by simpa using hg : r.error = none ∧ r.brk = false).1
      refine ⟨?_, .refl _⟩
      simp only [Done.result, he, ← this]
    · exact ⟨rfl, .refl _⟩

theorem sim_recover {s : Stage} {b : St} (h : Same s.st b) : (recover env s).1.result = (recoverRollback env b).1 ∧ Same (recover env s).2.st (recoverRollback env b).2 :=
  ⟨rfl, (h.callOut env.rollback .rollback).2⟩

theorem busPending_same {a b : St} (h : Same a b) : busPending opts a = busPending opts b := by obtain ⟨es, rfl⟩ := h; rfl

theorem sim_endBus (ans : Trace → Res Unit) (mk : Stat → Call) {d : Done} {r : Result} (hd : d.result = some r) {s : Stage} {b : St} (h : Same s.st b) :
    (endBus env opts ans mk d s).1.result = (if busPending opts b then match callOut ans mk b with | (.panic, s4) => recoverRollback env s4 | (_, s4) => (some r, s4) else (some r, b)).1 ∧
    Same (endBus env opts ans mk d s).2.st (if busPending opts b then match callOut ans mk b with | (.panic, s4) => recoverRollback env s4 | (_, s4) => (some r, s4) else (some r, b)).2 := by
  unfold endBus
  rw [busPending_same h]
  by_cases hp : busPending opts b = true
  · simp only [hp, if_true]
    obtain ⟨h1, h2⟩ := h.callOut ans mk
    generalize callOut ans mk s.st = x at h1 h2
    generalize callOut ans mk b = y at h1 h2
    obtain ⟨r1, a⟩ := x
    obtain ⟨r2, a'⟩ := y
    simp only at h1 h2
    subst h1
    cases r1 with
    | panic => exact sim_recover (s := { s with st := a }) h2
    | ok u => exact ⟨hd, h2⟩
    | err u => exact ⟨hd, h2⟩
  · simp only [hp]
    exact ⟨hd, h⟩

theorem sim_tx {f : Stage → Done × Stage} {g : St → Outcome} (hf : Sim f g) : Sim (runWithTransaction env opts f) (Ddd.runWithTransaction env opts g) := by
  intro s b he h hb0
  unfold runWithTransaction Ddd.runWithTransaction
  obtain ⟨h1, h2⟩ := h.callOut env.begin_ .begin
  have h3 : (callOut env.begin_ .begin b).2.errs = [] := hb0
  generalize callOut env.begin_ .begin s.st = x at h1 h2
  generalize callOut env.begin_ .begin b = y at h1 h2 h3
  obtain ⟨r1, a⟩ := x
  obtain ⟨r2, a'⟩ := y
  simp only at h1 h2 h3
  subst h1
  cases r1 with
  | panic => exact ⟨rfl, h2⟩
  | err u => exact ⟨rfl, h2⟩
  | ok u =>
    dsimp only
    obtain ⟨g1, g2⟩ := hf { s with st := a } a' he h2 h3
    generalize f { s with st := a } = x at g1 g2
    generalize g a' = y at g1 g2
    obtain ⟨d, s2⟩ := x
    obtain ⟨o, b2⟩ := y
    simp only at g1 g2
    subst g1
    cases hd : d.result with
    | none =>
      exact sim_recover g2
    | some r =>
      dsimp only
      by_cases hbad : (r.error.isSome || r.brk) = true
      · simp only [hbad, if_true]
        obtain ⟨h1, h2⟩ := g2.callOut env.rollback .rollback
        generalize callOut env.rollback .rollback s2.st = x at h1 h2
        generalize callOut env.rollback .rollback b2 = y at h1 h2
        obtain ⟨r1, a⟩ := x
        obtain ⟨r2, a'⟩ := y
        simp only at h1 h2
        subst h1
        cases r1 with
        | panic => exact sim_recover (s := { s2 with st := a }) h2
        | ok u => exact sim_endBus env.busRollback .busRollback hd (s := { s2 with st := a }) h2
        | err u => exact sim_endBus env.busRollback .busRollback hd (s := { s2 with st := a }) h2
      · simp only [hbad]
        obtain ⟨h1, h2⟩ := g2.callOut env.commit .commit
        generalize callOut env.commit .commit s2.st = x at h1 h2
        generalize callOut env.commit .commit b2 = y at h1 h2
        obtain ⟨r1, a⟩ := x
        obtain ⟨r2, a'⟩ := y
        simp only at h1 h2
        subst h1
        cases r1 with
        | panic => exact sim_recover (s := { s2 with st := a }) h2
        | ok u => exact sim_endBus env.busCommit .busCommit hd (s := { s2 with st := a }) h2
        | err e =>
          cases d with
          | panic => simp [Done.result] at hd
          | other q => simp only [Done.result, Option.some.injEq] at hd; subst hd; exact ⟨rfl, h2⟩
          | own q => simp only [Done.result, Option.some.injEq] at hd; subst hd; exact ⟨rfl, h2⟩

theorem same_acquire (ks : List Nat) : ∀ (got : List Nat) (a b : St), Same a b →
    (acquire env ks got a).1 = (acquire env ks got b).1 ∧ (acquire env ks got a).2.1 = (acquire env ks got b).2.1 ∧ Same (acquire env ks got a).2.2 (acquire env ks got b).2.2 := by
  induction ks with
  | nil => intro got a b h; exact ⟨rfl, rfl, h⟩
  | cons k ks ih =>
    intro got a b h
    simp only [acquire, callOut, h.trace]
    cases env.lock b.trace k with
    | ok u => exact ih _ _ _ (h.log _)
    | err e => exact ⟨rfl, rfl, h.log _⟩
    | panic => exact ⟨rfl, rfl, h.log _⟩

theorem acquire_errs (ks : List Nat) : ∀ (got : List Nat) (a : St), (acquire env ks got a).2.2.errs = a.errs := by
  induction ks with
  | nil => intro got a; rfl
  | cons k ks ih =>
    intro got a
    simp only [acquire, callOut]
    cases env.lock a.trace k with
    | ok u => exact ih _ (a.log _)
    | err e => rfl
    | panic => rfl

theorem same_release (ks : List Nat) : ∀ (a b : St), Same a b → (releaseAll env ks a).1 = (releaseAll env ks b).1 ∧ Same (releaseAll env ks a).2 (releaseAll env ks b).2 := by
  induction ks with
  | nil => intro a b h; exact ⟨rfl, h⟩
  | cons k ks ih =>
    intro a b h
    simp only [releaseAll, callOut, h.trace]
    cases env.unlock b.trace k with
    | ok u => exact ih _ _ (h.log _)
    | err e => exact ih _ _ (h.log _)
    | panic => exact ⟨rfl, h.log _⟩

theorem same_posts (ks : List Nat) : ∀ (a b : St), Same a b → (postSaves env ks a).1 = (postSaves env ks b).1 ∧ Same (postSaves env ks a).2 (postSaves env ks b).2 := by
  induction ks with
  | nil => intro a b h; exact ⟨rfl, h⟩
  | cons k ks ih =>
    intro a b h
    simp only [postSaves, callOut, h.trace]
    cases env.postSave b.trace k with
    | ok u => exact ih _ _ (h.log _)
    | err e => exact ih _ _ (h.log _)
    | panic => exact ⟨rfl, h.log _⟩

theorem sim_lock {f : Stage → Done × Stage} {g : St → Outcome} (hf : Sim f g) (keys : List Nat) : Sim (runOnLock env keys f) (Ddd.runOnLock env keys g) := by
  intro s b he h hb0
  unfold runOnLock Ddd.runOnLock
  dsimp only
  split
  · exact ⟨rfl, h⟩
  · have h4 : (acquire env (keys.insertionSort (· ≤ ·)) [] b).2.2.errs = [] := (acquire_errs _ _ _).trans hb0
    obtain ⟨h1, h2, h3⟩ := same_acquire (env := env) (keys.insertionSort (· ≤ ·)) [] s.st b h
    generalize acquire env (keys.insertionSort (· ≤ ·)) [] s.st = x at h1 h2 h3
    generalize acquire env (keys.insertionSort (· ≤ ·)) [] b = y at h1 h2 h3 h4
    obtain ⟨l, got, a⟩ := x
    obtain ⟨l', got', a'⟩ := y
    simp only at h1 h2 h3
    subst h1 h2
    have fin : ∀ (d : Done) (o : Option Result) (s2 : Stage) (b2 : St), d.result = o → Same s2.st b2 →
        (match releaseAll env got s2.st with | (true, s3) => (d, ({ s2 with st := s3 } : Stage)) | (false, s3) => (.panic, { s2 with st := s3 })).1.result =
          (match releaseAll env got b2 with | (true, s3) => (o, s3) | (false, s3) => (none, s3)).1 ∧
        Same (match releaseAll env got s2.st with | (true, s3) => (d, ({ s2 with st := s3 } : Stage)) | (false, s3) => (.panic, { s2 with st := s3 })).2.st
          (match releaseAll env got b2 with | (true, s3) => (o, s3) | (false, s3) => (none, s3)).2 := by
      intro d o s2 b2 hd h
      obtain ⟨h1, h2⟩ := same_release (env := env) got s2.st b2 h
      generalize releaseAll env got s2.st = x at h1 h2
      generalize releaseAll env got b2 = y at h1 h2
      obtain ⟨c, a⟩ := x
      obtain ⟨c', a'⟩ := y
      simp only at h1 h2
      subst h1
      cases c
      · exact ⟨rfl, h2⟩
      · exact ⟨hd, h2⟩
    cases l with
    | panic => exact ⟨rfl, h3⟩
    | failed e => exact fin (.other (resultErrors e)) _ { s with st := a } a' rfl h3
    | all =>
      obtain ⟨g1, g2⟩ := hf { s with st := a } a' he h3 h4
      exact fin _ _ _ _ g1 g2

theorem sim_save (keys : List Nat) (main : Prog) {s : Stage} (he : s.error = none) {b : St} (h : Same s.st b) (hb : b.errs = []) :
    (save env opts keys main s).1 = (Ddd.save env opts keys main b).1 ∧ Same (save env opts keys main s).2.st (Ddd.save env opts keys main b).2 := by
  have core : Sim (saveCore env opts keys main) (Ddd.saveCore env opts keys main) := by
    unfold saveCore Ddd.saveCore
    dsimp only
    have h1 : Sim (if opts.withTransaction then runWithTransaction env opts (doStage env opts main) else doStage env opts main)
        (if opts.withTransaction then Ddd.runWithTransaction env opts (Ddd.doStage env opts main) else Ddd.doStage env opts main) := by
      split
      · exact sim_tx (sim_do main)
      · exact sim_do main
    split
    · exact h1
    · exact sim_lock h1 keys
  obtain ⟨h1, h2⟩ := core s b he h hb
  unfold save Ddd.save
  generalize saveCore env opts keys main s = x at h1 h2
  generalize Ddd.saveCore env opts keys main b = y at h1 h2
  obtain ⟨d, s1⟩ := x
  obtain ⟨o, b1⟩ := y
  simp only at h1 h2
  subst h1
  dsimp only
  generalize d.result = o
  cases o with
  | none => exact ⟨rfl, h2⟩
  | some r =>
    dsimp only
    by_cases hr : r.error.isNone = true
    · simp only [hr, if_true]
      obtain ⟨h3, h4⟩ := same_posts (env := env) opts.hooks s1.st b1 h2
      generalize postSaves env opts.hooks s1.st = x at h3 h4
      generalize postSaves env opts.hooks b1 = y at h3 h4
      obtain ⟨c, a⟩ := x
      obtain ⟨c', a'⟩ := y
      simp only at h3 h4
      subst h3
      cases c
      · exact ⟨rfl, h4⟩
      · exact ⟨rfl, h4⟩
    · simp only [hr]
      exact ⟨rfl, h2⟩

/-- **C109** As long as no `Commit` has failed, a `Save` of a used stage is the `Save` described by the other claims, from the state the stage is in (with a new repository). In particular the first one. -/
theorem C109_like_any (keys : List Nat) (main : Prog) {s : Stage} (he : s.error = none) :
    (save env opts keys main s).1 = (Ddd.save env opts keys main { s.st with errs := [] }).1 ∧
    (save env opts keys main s).2.st.trace = (Ddd.save env opts keys main { s.st with errs := [] }).2.trace ∧ (save env opts keys main s).2.st.heap = (Ddd.save env opts keys main { s.st with errs := [] }).2.heap := by
  obtain ⟨h1, es, h2⟩ := sim_save (env := env) (opts := opts) keys main he (b := { s.st with errs := [] }) ⟨s.st.errs, rfl⟩ rfl
  rw [h2]
  exact ⟨h1, rfl, rfl⟩

/-- a clean `Save`: `Main` returned nil, the final save succeeded, then only events, the end of the transaction, unlocking and hooks. -/
theorem save_clean_core {keys : List Nat} {main : Prog} {s : St} {r : Result} (hr : (Ddd.save env opts keys main s).1 = some r) (hc : r.clean) :
    ∃ s1 s2, callMain env opts main (atMain opts keys s) = (.ok (), s1) ∧ persist env opts s1 = (.ok (), s2) ∧ (∃ s3, finishEvents env opts s2 = (.ok (), s3) ∧ Logged s3 (Ddd.save env opts keys main s).2) := by
  obtain ⟨a2, a3⟩ := wraps_save keys main _ r hr hc
  unfold Ddd.doStage at a2 a3
  cases hm : callMain env opts main (atMain opts keys s) with
  | mk r0 s1 =>
    rw [hm] at a2 a3
    cases r0 with
    | panic => simp at a2
    | err e => simp only [Option.some.injEq] at a2; exact absurd (a2 ▸ hc) (resultErrOrBreak_not_clean e)
    | ok u =>
      simp only at a2 a3
      cases hj : Err.joinAll s1.errs with
      | some e => rw [hj] at a2; simp [resultError] at a2; subst a2; simp [Result.clean] at hc
      | none =>
        rw [hj] at a2 a3
        simp only at a2 a3
        cases hp : persist env opts s1 with
        | mk r1 s2 =>
          rw [hp] at a2 a3
          cases r1 with
          | panic => simp at a2
          | err e => simp [resultErrors, resultError] at a2; subst a2; simp [Result.clean] at hc
          | ok u =>
            simp only at a2 a3
            cases hf : finishEvents env opts s2 with
            | mk r2 s3 =>
              rw [hf] at a2 a3
              cases r2 with
              | panic => simp at a2
              | err e => simp [resultError] at a2; subst a2; simp [Result.clean] at hc
              | ok u => exact ⟨s1, s2, rfl, hp, s3, hf, a3⟩
theorem noErr_of_clean {keys : List Nat} {main : Prog} {s : Stage} {r : Result} (hr : (save env opts keys main s).1 = some r) (hc : r.clean) : s.error = none := by
  cases he : s.error with
  | none => rfl
  | some e => exact absurd hc ((stuck_save (env := env) (opts := opts) he keys main).2.1 r hr)

/-- **C109** A stage without entity hooks and recursive delete that was saved successfully, and is saved successfully once more with nothing done in between: every insert, update and delete of the first
`Save` (those after its `Main`) is carried out once more. -/
theorem C109_repeats {keys keys' : List Nat} {main : Prog} {s : Stage} {r r' : Result} (hr : (save env opts keys main s).1 = some r) (hc : r.error = none ∧ r.brk = false)
    (hr' : (save env' opts keys' (.ret none) (save env opts keys main s).2).1 = some r') (hc' : r'.error = none ∧ r'.brk = false) (hrec : opts.recursiveDelete = false) (hq : ∀ p k, env.hasHook p k = false) :
    ∃ a t b u, (save env opts keys main s).2.st.trace = a ++ .mainRet .ok :: (t ++ b) ∧ (∀ x ∈ b, isConv x = false) ∧
      (save env' opts keys' (.ret none) (save env opts keys main s).2).2.st.trace = (save env opts keys main s).2.st.trace ++ u ∧ (asked u).Perm (asked t) := by
  have he := noErr_of_clean hr hc
  have he' := noErr_of_clean hr' hc'
  obtain ⟨h1, es, h2⟩ := sim_save (env := env) (opts := opts) keys main he (b := { s.st with errs := [] }) ⟨s.st.errs, rfl⟩ rfl
  generalize save env opts keys main s = x at hr hr' he' h1 h2 ⊢
  obtain ⟨o, s1⟩ := x
  simp only at hr hr' he' h1 h2 ⊢
  subst hr
  obtain ⟨p1, p2, g1, g2, p3, g3, hl⟩ := save_clean_core h1.symm hc
  generalize Ddd.save env opts keys main { s.st with errs := [] } = X at h1 h2 hl
  obtain ⟨k1, k2⟩ := sim_save (env := env') (opts := opts) keys' (.ret none) he' (b := { s1.st with errs := [] }) ⟨s1.st.errs, rfl⟩ rfl
  generalize save env' opts keys' (.ret none) s1 = y at hr' k1 k2 ⊢
  obtain ⟨o', s2⟩ := y
  simp only at hr' k1 k2 ⊢
  subst hr'
  obtain ⟨q1, q2, f1, f2, q3, f3, hl'⟩ := save_clean_core k1.symm hc'
  generalize Ddd.save env' opts keys' (.ret none) { s1.st with errs := [] } = Y at k1 k2 hl'
  have hq1 : q1 = { atMain opts keys' { s1.st with errs := [] } with trace := (atMain opts keys' { s1.st with errs := [] }).trace ++ [.mainStart] ++ [.mainRet .ok] } := by
    simp only [callMain, runProg, M.pure, Prod.mk.injEq] at f1
    rw [← f1.2]; rfl
  obtain ⟨kk1, kk2, kk3⟩ := persist_keeps g2 hq
  have hsd : SameData p2 p3 := by
    have := SameData.allowed.finishEvents (env := env) (opts := opts) p2
    rw [g3] at this
    exact this
  obtain ⟨te, hte, hte2⟩ := finishEvents_noConv (env := env) (opts := opts) p2
  rw [g3] at hte
  obtain ⟨tl, hfin, htl⟩ := hl
  obtain ⟨te', hte', hte2'⟩ := finishEvents_noConv (env := env') (opts := opts) q2
  rw [f3] at hte'
  obtain ⟨tl', hfin', htl'⟩ := hl'
  have hs1 : s1.st.heap = p3.heap ∧ s1.st.snap = p3.snap ∧ s1.st.roots = p3.roots ∧ s1.st.trace = p3.trace ++ tl := by rw [h2, hfin]; exact ⟨rfl, rfl, rfl, rfl⟩
  obtain ⟨d1, d2, d3⟩ := hsd
  have hsame : q1.now = p1.now ∧ q1.kidPool = p1.kidPool ∧ q1.heap.dirtyNode = p1.heap.dirtyNode := by
    rw [hq1]
    refine ⟨?_, ?_, ?_⟩
    · rw [← kk1]
      funext n
      cases n with
      | none => simp [St.now, St.graph, stageGraph, d3, atMain, hs1]
      | some p => simp [St.now, St.graph, stageGraph, d1, atMain, hs1]
    · rw [← kk2]; funext n; simp [St.kidPool, d2, atMain, hs1]
    · rw [← kk3]; simp only [d1, atMain, hs1]
  obtain ⟨t, u, ht, hu, hperm⟩ := asked_perm g2 f2 hrec hsame.1 hsame.2.1 hsame.2.2
  have hmr : ∃ a, p1.trace = a ++ [.mainRet .ok] := by
    unfold callMain at g1
    generalize runProg env opts main _ = x at g1
    obtain ⟨r1, sx⟩ := x
    simp only [Prod.mk.injEq] at g1
    obtain ⟨rfl, rfl⟩ := g1
    exact ⟨sx.trace, rfl⟩
  obtain ⟨a, ha⟩ := hmr
  obtain ⟨pre, hpre, hpre2⟩ : ∃ pre, q1.trace = s1.st.trace ++ pre ∧ ∀ x ∈ pre, isConv x = false := by
    refine ⟨((keys'.insertionSort (· ≤ ·)).map (fun k => Call.lock k .ok) ++ if opts.withTransaction then [.begin .ok] else []) ++ [.mainStart] ++ [.mainRet .ok], ?_, ?_⟩
    · rw [hq1]
      simp [atMain]
    · intro x hx
      simp only [List.mem_append, List.mem_map, List.mem_singleton] at hx
      rcases hx with ((⟨k, _, rfl⟩ | hx) | rfl) | rfl
      · rfl
      · split at hx
        · rw [List.mem_singleton.1 hx]; rfl
        · simp at hx
      · rfl
      · rfl
  have none_asked : ∀ v : Trace, (∀ x ∈ v, isConv x = false) → asked v = [] := by
    intro v hv
    unfold asked
    rw [List.filterMap_eq_nil_iff]
    intro x hx
    have := hv x hx
    cases x <;> first | rfl | simp [isConv] at this
  refine ⟨a, t, te ++ tl, pre ++ u ++ (te' ++ tl'), ?_, ?_, ?_, ?_⟩
  · rw [hs1.2.2.2, hte, ht, ha]; simp
  · intro x hx
    rcases List.mem_append.1 hx with hx | hx
    · exact hte2 x hx
    · exact htl x hx
  · rw [k2.trace, hfin']
    simp only
    rw [hte', hu, hpre]; simp
  · rw [asked_append, asked_append, none_asked pre hpre2, none_asked (te' ++ tl') (by
      intro x hx
      rcases List.mem_append.1 hx with hx | hx
      · exact hte2' x hx
      · exact htl' x hx)]
    simpa using hperm
end Ddd.Again
