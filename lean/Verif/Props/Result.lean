import Verif.Spec.Result
import Verif.Proofs.Writes
import Verif.Props.Events
/-!
# C84: what the result of a command tells
-/
set_option linter.unusedVariables false
set_option linter.unusedSimpArgs false
namespace Ddd
open Spec
variable {env : Env} {opts : Opts} {c : Cmd} {h : Heap}

/-! ## actions -/

def Books (s s' : St) : Prop := ∃ ta la, s'.trace = s.trace ++ ta ∧ s'.actions = s.actions ++ la ∧ la.Sublist (performed ta) ∧ (NoWriteFailed ta → la = performed ta)

theorem performed_append (a b : Trace) : performed (a ++ b) = performed a ++ performed b := by simp [performed]

theorem books_same {s s' : St} {ta : Trace} (h1 : s'.trace = s.trace ++ ta) (h2 : s'.actions = s.actions) (h3 : ∀ x ∈ ta, isExec x = false) : Books s s' := by
  have : performed ta = [] := by
    unfold performed
    rw [List.filterMap_eq_nil_iff]
    intro x hx
    have := h3 x hx
    cases x <;> simp_all [isExec]
  exact ⟨ta, [], h1, by simp [h2], by simp, fun _ => this.symm⟩

theorem exec_trace (as : List Action) (s : St) :
    (∃ s', M.forEach as (fun a => M.ext (fun s => env.exec s.trace a) (.exec a)) s = (.ok (), s') ∧ s'.trace = s.trace ++ as.map (fun a => .exec a .ok) ∧ s'.actions = s.actions) ∨
    (∃ r s' ta a st, M.forEach as (fun a => M.ext (fun s => env.exec s.trace a) (.exec a)) s = (r, s') ∧ r ≠ .ok () ∧ s'.trace = s.trace ++ ta ∧ s'.actions = s.actions ∧ Call.exec a st ∈ ta ∧ st ≠ .ok) := by
  induction as generalizing s with
  | nil => exact .inl ⟨s, rfl, by simp, rfl⟩
  | cons a as ih =>
    simp only [M.forEach, M.bind, M.ext]
    cases hx : env.exec s.trace a with
    | ok u =>
      simp only [Res.stat]
      rcases ih (s.log (.exec a .ok)) with ⟨s', h1, h2, h3⟩ | ⟨r, s', ta, b, st, h1, h2, h3, h4, h5, h6⟩
      · exact .inl ⟨s', h1, by rw [h2]; simp [St.log], h3⟩
      · exact .inr ⟨r, s', .exec a .ok :: ta, b, st, h1, h2, by rw [h3]; simp [St.log], h4, by simp [h5], h6⟩
    | err e => exact .inr ⟨_, _, [.exec a .err], a, .err, rfl, by simp, rfl, rfl, by simp, by simp⟩
    | panic => exact .inr ⟨_, _, [.exec a .panic], a, .panic, rfl, by simp, rfl, rfl, by simp, by simp⟩

theorem performed_map (as : List Action) : performed (as.map fun a => .exec a .ok) = as := by
  induction as with
  | nil => rfl
  | cons a as ih => simp [performed] at ih ⊢

theorem books_exec (as : List Action) : Keeps Books (exec env opts as) := by
  intro s
  unfold exec
  split
  · exact books_same (ta := []) (by simp [M.pure]) rfl (by simp)
  · simp only [M.bind]
    rcases exec_trace (env := env) as s with ⟨s', h1, h2, h3⟩ | ⟨r, s', ta, b, st, h1, h2, h3, h4, h5, h6⟩
    · rw [h1]
      refine ⟨as.map fun a => .exec a .ok, as, h2, by simp [M.modify, h3], ?_, ?_⟩
      · rw [performed_map]
      · intro _; rw [performed_map]
    · rw [h1]
      have : Books s s' := ⟨ta, [], h3, by simp [h4], by simp, fun hn => absurd (hn _ _ h5) h6⟩
      cases r with
      | ok u => exact absurd rfl h2
      | err e => exact this
      | panic => exact this

theorem books_pre : PreOrd Books where
  refl s := books_same (ta := []) (by simp) rfl (by simp)
  trans := by
    rintro a b d ⟨t1, l1, h1, h2, h3, h4⟩ ⟨t2, l2, g1, g2, g3, g4⟩
    refine ⟨t1 ++ t2, l1 ++ l2, by rw [g1, h1]; simp, by rw [g2, h2]; simp, ?_, ?_⟩
    · rw [performed_append]; exact h3.append g3
    · intro hn
      rw [performed_append, h4 fun x st hx => hn x st (by simp [hx]), g4 fun x st hx => hn x st (by simp [hx])]

theorem books_allowed : AllowsWP env opts Books where
  toPreOrd := books_pre
  heap _ _ := books_same (ta := []) (by simp) rfl (by simp)
  log s x hx := books_same (ta := [x]) rfl rfl (by simpa using hx)
  exec := books_exec
  deleted _ _ := books_same (ta := []) (by simp) rfl (by simp)
  snap _ _ := books_same (ta := []) (by simp) rfl (by simp)
  eventCtx _ _ := books_same (ta := []) (by simp) rfl (by simp)
  errs _ _ := books_same (ta := []) (by simp) rfl (by simp)
  add _ _ := books_same (ta := []) (by simp) rfl (by simp)
  remove _ _ := books_same (ta := []) (by simp) rfl (by simp)
  enter _ _ := books_same (ta := []) (by simp) rfl (by simp)

theorem books_doStage (main : Prog) (s : St) : Books s (doStage env opts main s).2 :=
  books_allowed.doStage (fun _ _ => books_same (ta := []) (by simp) rfl (by simp)) main s

/-! ## output -/

def SameOut (s s' : St) : Prop := s'.output = s.output

theorem exec_out (as : List Action) : Keeps SameOut (exec env opts as) := by
  have hR : PreOrd SameOut := ⟨fun _ => rfl, fun h1 h2 => Eq.trans h2 h1⟩
  unfold exec
  split
  · exact Keeps.pure hR _
  · exact Keeps.bind hR (Keeps.forEach hR (f := fun a => M.ext (fun s => env.exec s.trace a) (.exec a)) (fun a s => (rfl : (s.log _).output = s.output)) as) fun _ s => (rfl : St.output { s with actions := s.actions ++ as } = s.output)

theorem out_allowed : AllowsWP env opts SameOut where
  refl _ := rfl
  trans h1 h2 := Eq.trans h2 h1
  heap _ _ := rfl
  log _ _ _ := rfl
  exec := exec_out
  deleted _ _ := rfl
  snap _ _ := rfl
  eventCtx _ _ := rfl
  errs _ _ := rfl
  add _ _ := rfl
  remove _ _ := rfl
  enter _ _ := rfl

theorem says_output {p p' : Prog} {s s' : St} {vs : List Nat} (hs : Says env opts p s vs p' s') : s'.output = vs.getLast?.getD s.output := by
  induction hs with
  | here => rfl
  | output hn _ ih =>
    cases hn
    rw [ih]
    simp [List.getLast?_cons]
  | other hne hn _ ih =>
    rw [ih]
    have := out_allowed.next (.inl hne) hn
    rw [this]

theorem attempt_of {m : M Unit} {s s' : St} {r : Res (Option Err)} (h : M.attempt m s = (r, s')) (hp : r ≠ .panic) : ∃ e, r = .ok e := by
  unfold M.attempt at h
  cases hm : m s with
  | mk r1 s1 =>
    rw [hm] at h
    cases r1 with
    | ok u => simp only [Prod.mk.injEq] at h; exact ⟨none, h.1.symm⟩
    | err e => simp only [Prod.mk.injEq] at h; exact ⟨some e, h.1.symm⟩
    | panic => simp only [Prod.mk.injEq] at h; exact absurd h.1.symm hp

theorem unit_bind_ok {α : Type} {m : M α} {f : α → M Unit} {s s' : St} (h : M.bind m f s = (.ok (), s')) : ∃ a s1, m s = (.ok a, s1) ∧ f a s1 = (.ok (), s') := by
  unfold M.bind at h
  cases hm : m s with
  | mk r s1 =>
    rw [hm] at h
    cases r with
    | ok a => exact ⟨a, s1, rfl, h⟩
    | err e => simp at h
    | panic => simp at h

theorem says_of_run (main : Prog) : ∀ {s s' : St}, runProg env opts main s = (.ok (), s') → ∃ vs, Says env opts main s vs (.ret none) s' := by
  induction main with
  | ret r =>
    intro s s' h
    cases r with
    | none => simp only [runProg, M.pure, Prod.mk.injEq, true_and] at h; subst h; exact ⟨[], .here _ _⟩
    | some e => simp [runProg, M.fail] at h
  | panic => intro s s' h; simp [runProg, M.crash] at h
  | mutate f k ih =>
    intro s s' h
    obtain ⟨vs, hv⟩ := ih h
    exact ⟨vs, .other (by simp) (.mutate f k s) hv⟩
  | look k ih =>
    intro s s' h
    obtain ⟨vs, hv⟩ := ih _ h
    exact ⟨vs, .other (by simp) (.look k s) hv⟩
  | output v k ih =>
    intro s s' h
    obtain ⟨vs, hv⟩ := ih h
    exact ⟨v :: vs, .output (.output v k s) hv⟩
  | get r k ih =>
    intro s s' h
    obtain ⟨e, s1, h1, h2⟩ := unit_bind_ok h
    obtain ⟨vs, hv⟩ := ih e h2
    exact ⟨vs, .other (by simp) (.get h1) hv⟩
  | customGet g rs k ih =>
    intro s s' h
    obtain ⟨e, s1, h1, h2⟩ := unit_bind_ok h
    obtain ⟨vs, hv⟩ := ih e h2
    exact ⟨vs, .other (by simp) (.customGet h1) hv⟩
  | add rs k ih =>
    intro s s' h
    obtain ⟨e, s1, h1, h2⟩ := unit_bind_ok h
    obtain ⟨vs, hv⟩ := ih h2
    exact ⟨vs, .other (by simp) (.add h1) hv⟩
  | remove rs k ih =>
    intro s s' h
    obtain ⟨e, s1, h1, h2⟩ := unit_bind_ok h
    obtain ⟨vs, hv⟩ := ih h2
    exact ⟨vs, .other (by simp) (.remove h1) hv⟩
  | save k ih =>
    intro s s' h
    obtain ⟨e, s1, h1, h2⟩ := unit_bind_ok h
    obtain ⟨vs, hv⟩ := ih e h2
    exact ⟨vs, .other (by simp) (.save h1) hv⟩
  | commit k ih =>
    intro s s' h
    obtain ⟨e, s1, h1, h2⟩ := unit_bind_ok h
    obtain ⟨vs, hv⟩ := ih e h2
    exact ⟨vs, .other (by simp) (.commit h1) hv⟩
  | build r k ih =>
    intro s s' h
    obtain ⟨e, s1, h1, h2⟩ := unit_bind_ok h
    obtain ⟨vs, hv⟩ := ih e h2
    exact ⟨vs, .other (by simp) (.build h1) hv⟩
  | enter rs k ih =>
    intro s s' h
    obtain ⟨e, s1, h1, h2⟩ := unit_bind_ok h
    obtain ⟨vs, hv⟩ := ih h2
    exact ⟨vs, .other (by simp) (.enter h1) hv⟩
  | cAdd r k ih =>
    intro s s' h
    obtain ⟨e, s1, h1, h2⟩ := unit_bind_ok h
    obtain ⟨vs, hv⟩ := ih h2
    exact ⟨vs, .other (by simp) (.cAdd h1) hv⟩
  | cRemove r k ih =>
    intro s s' h
    obtain ⟨e, s1, h1, h2⟩ := unit_bind_ok h
    obtain ⟨vs, hv⟩ := ih h2
    exact ⟨vs, .other (by simp) (.cRemove h1) hv⟩

/-! ## results -/

/-- the result `do` makes: on success the bookkeeping of the stage, otherwise an empty one. -/
theorem doStage_tells {main : Prog} {s : St} {r : Result} (hr : (doStage env opts main s).1 = some r) :
    (r.clean ∧ r.actions = (doStage env opts main s).2.actions ∧ r.output = (doStage env opts main s).2.output ∧
      ∃ s1, callMain env opts main s = (.ok (), s1) ∧ (doStage env opts main s).2.output = s1.output) ∨
    (¬ r.clean ∧ r.actions = [] ∧ r.output = 0) := by
  have hbad : ∀ e : Err, ¬ (resultErrOrBreak e).clean ∧ (resultErrOrBreak e).actions = [] ∧ (resultErrOrBreak e).output = 0 := by
    intro e
    refine ⟨resultErrOrBreak_not_clean e, ?_⟩
    unfold resultErrOrBreak resultError
    split <;> simp
  unfold doStage at hr ⊢
  cases hm : callMain env opts main s with
  | mk r0 s1 =>
    rw [hm] at hr
    cases r0 with
    | panic => simp at hr
    | err e =>
      simp only [Option.some.injEq] at hr
      subst hr
      exact .inr (hbad e)
    | ok u =>
      simp only at hr ⊢
      cases hj : Err.joinAll s1.errs with
      | some e =>
        rw [hj] at hr
        simp only [Option.some.injEq] at hr
        subst hr
        exact .inr (by simp [resultError, Result.clean])
      | none =>
        rw [hj] at hr
        simp only at hr ⊢
        have hp := out_allowed.persist (env := env) (opts := opts) s1
        cases hper : persist env opts s1 with
        | mk r1 s2 =>
          rw [hper] at hr hp
          cases r1 with
          | panic => simp at hr
          | err e =>
            simp only [Option.some.injEq] at hr
            subst hr
            exact .inr (by simp [resultErrors, resultError, Result.clean])
          | ok u =>
            simp only at hr ⊢
            have hf := out_allowed.finishEvents (env := env) (opts := opts) s2
            cases hfin : finishEvents env opts s2 with
            | mk r2 s3 =>
              rw [hfin] at hr hf
              cases r2 with
              | panic => simp at hr
              | err e =>
                simp only [Option.some.injEq] at hr
                subst hr
                exact .inr (by simp [resultError, Result.clean])
              | ok u =>
                simp only [Option.some.injEq] at hr
                subst hr
                refine .inl ⟨⟨rfl, rfl⟩, rfl, rfl, s1, rfl, ?_⟩
                exact Eq.trans hf hp

theorem not_exec_mem {t : Trace} (h : ∀ x ∈ t, isExec x = false) : performed t = [] ∧ NoWriteFailed t := by
  constructor
  · unfold performed
    rw [List.filterMap_eq_nil_iff]
    intro x hx
    have := h x hx
    cases x <;> simp_all [isExec]
  · intro a st hx
    have := h _ hx
    simp [isExec] at this

theorem PostPhase.source {opts : Opts} {r : Result} {q : Option Result} {t : Trace} (hp : PostPhase opts q t (some r)) : q = some r ∧ ∀ x ∈ t, isExec x = false := by
  have hx := hp.isPost
  refine ⟨?_, fun x hm => by obtain ⟨k, st, rfl⟩ := hx x hm; rfl⟩
  generalize hz : some r = z at hp
  cases hp with
  | panicked => rfl
  | failed r' _ => rfl
  | posted r' b t _ _ => cases b <;> simp_all

/-- where the result of a command comes from. -/
theorem result_source {r : Result} (hr : (run env opts c h).1 = some r) :
    (¬ r.clean ∧ r.actions = [] ∧ r.output = 0) ∨
    ∃ keys r0 pre body post, c.Keys keys ∧ (doStage env (c.opts opts) c.main (atMain (c.opts opts) keys (.fresh h))).1 = some r0 ∧
      (doStage env (c.opts opts) c.main (atMain (c.opts opts) keys (.fresh h))).2.trace = (atMain (c.opts opts) keys (.fresh h)).trace ++ body ∧
      (run env opts c h).2.trace = pre ++ (body ++ post) ∧ (∀ x ∈ pre, isExec x = false) ∧ (∀ x ∈ post, isExec x = false) ∧
      (r = r0 ∨ r0.clean ∧ (∃ e, r = { r0 with error := some e }) ∧ Call.commit .err ∈ (run env opts c h).2.trace) := by
  rcases run_anatomy env opts c h with ⟨keys, hk, an⟩ | ⟨hi, _⟩
  · have hlk : ∀ x ∈ (keys.insertionSort (· ≤ ·)).map (fun k => Call.lock k .ok), isExec x = false := by
      intro x hx
      obtain ⟨k, _, rfl⟩ := List.mem_map.1 hx
      rfl
    generalize hT : (run env opts c h).2.trace = T at an
    rw [hr] at an
    generalize hR : some r = R at an
    have hun : ∀ {b : Bool} {t : Trace}, Released (keys.insertionSort (· ≤ ·)) b t → ∀ x ∈ t, isExec x = false := by
      intro b t hrel x hx
      obtain ⟨k, st, rfl⟩ := hrel.isUnlock x hx
      rfl
    cases an with
    | early _ _ he hres hemp =>
      have h1 := hres r hR.symm
      have h2 := hemp r hR.symm
      exact .inl ⟨fun hc => by rw [hc.1] at h1; simp at h1, h2⟩
    | plain body un posts _ b hn hw hb hrel hp =>
      subst hR
      obtain ⟨h1, h2⟩ := hp.source
      cases b with
      | false => simp at h1
      | true =>
        simp only [if_true] at h1
        refine .inr ⟨keys, r, _, body, un ++ posts, hk, h1, hb, rfl, hlk, ?_, .inl rfl⟩
        intro x hx
        rcases List.mem_append.1 hx with hx | hx
        · exact hun hrel x hx
        · exact h2 x hx
    | tx body tail un posts rt _ b hn hw hb htail hrel hp =>
      subst hR
      obtain ⟨h1, h2⟩ := hp.source
      cases b with
      | false => simp at h1
      | true =>
        simp only [if_true] at h1
        subst h1
        have hte : ∀ x ∈ tail, isExec x = false := by
          generalize some r = R at htail
          generalize (doStage env (c.opts opts) c.main (atMain (c.opts opts) keys (.fresh h))).1 = D at htail
          cases htail <;> simp [isExec]
        have hall : ∀ x ∈ tail ++ (un ++ posts), isExec x = false := by
          intro x hx
          simp only [List.mem_append] at hx
          rcases hx with hx | hx | hx
          · exact hte x hx
          · exact hun hrel x hx
          · exact h2 x hx
        have hpre : ∀ x ∈ (keys.insertionSort (· ≤ ·)).map (fun k => Call.lock k .ok) ++ [.begin .ok], isExec x = false := by
          intro x hx
          rcases List.mem_append.1 hx with hx | hx
          · exact hlk x hx
          · simp only [List.mem_singleton] at hx; subst hx; rfl
        have key : ∃ r0, (doStage env (c.opts opts) c.main (atMain (c.opts opts) keys (.fresh h))).1 = some r0 ∧
            (r = r0 ∨ r0.clean ∧ (∃ e, r = { r0 with error := some e }) ∧ Call.commit .err ∈ tail) := by
          generalize hz : some r = R at htail
          generalize (doStage env (c.opts opts) c.main (atMain (c.opts opts) keys (.fresh h))).1 = D at htail
          cases htail with
          | commitErr r0 e h0 hc he =>
            simp only [Option.some.injEq] at hz
            exact ⟨r0, rfl, .inr ⟨hc, ⟨e, hz⟩, by simp⟩⟩
          | _ => simp at hz <;> exact ⟨_, rfl, .inl hz⟩
        obtain ⟨r0, h3, h4⟩ := key
        refine .inr ⟨keys, r0, _, body, tail ++ (un ++ posts), hk, h3, hb, ?_, hpre, hall, ?_⟩
        · simp
        · rcases h4 with h4 | ⟨h4, h5, h6⟩
          · exact .inl h4
          · exact .inr ⟨h4, h5, by simp [h6]⟩
  · left
    rcases hi with ⟨e, he⟩ | he
    · unfold run at hr
      rw [he] at hr
      simp only [Option.some.injEq] at hr
      subst hr
      refine ⟨resultErrOrBreak_not_clean e, ?_⟩
      unfold resultErrOrBreak resultError
      split <;> simp
    · unfold run at hr
      rw [he] at hr
      simp at hr

/-- **C84** A command that ends without error and is not broken off: its code came to its end returning nil, and `Result.Output` is
the last value it passed to `Output` (nil, here 0, if there was none). -/
theorem C84_output {r : Result} (hr : (run env opts c h).1 = some r) (he : r.error = none) (hb : r.brk = false) :
    ∃ keys vs s', c.Keys keys ∧ Says env (c.opts opts) c.main (atStart (c.opts opts) keys (.fresh h)) vs (.ret none) s' ∧ r.output = vs.getLast?.getD 0 := by
  rcases result_source hr with ⟨hn, _⟩ | ⟨keys, r0, pre, body, post, hk, h1, _, _, _, _, h2⟩
  · exact absurd ⟨he, hb⟩ hn
  · rcases h2 with rfl | ⟨_, ⟨e, rfl⟩, _⟩
    · rcases doStage_tells h1 with ⟨_, _, h3, s1, h4, h5⟩ | ⟨hn, _⟩
      · rw [callMain_runProg] at h4
        simp only [Prod.mk.injEq] at h4
        obtain ⟨vs, hv⟩ := says_of_run c.main (env := env) (opts := c.opts opts) (s := atStart (c.opts opts) keys (.fresh h)) (Prod.ext h4.1 rfl)
        refine ⟨keys, vs, _, hk, hv, ?_⟩
        have h6 := says_output hv
        rw [h3, h5, ← h4.2]
        simp only [St.log]
        rw [h6]
        rfl
      · exact absurd ⟨he, hb⟩ hn
    · simp at he

/-- **C84** A command that ends with an error or was broken off returns no actions and no output, unless the transaction could not be committed. -/
theorem C84_unclean {r : Result} (hr : (run env opts c h).1 = some r) (hn : r.error ≠ none ∨ r.brk = true)
    (hc : Call.commit .err ∉ (run env opts c h).2.trace) : r.actions = [] ∧ r.output = 0 := by
  have hn' : ¬ r.clean := by
    rintro ⟨h1, h2⟩
    rcases hn with h | h
    · exact h h1
    · rw [h2] at h; simp at h
  rcases result_source hr with ⟨_, h1⟩ | ⟨keys, r0, pre, body, post, hk, h1, _, _, _, _, h2⟩
  · exact h1
  · rcases h2 with rfl | ⟨_, _, h3⟩
    · rcases doStage_tells h1 with ⟨h2, _⟩ | ⟨_, h3⟩
      · exact absurd h2 hn'
      · exact h3
    · exact absurd h3 hc

/-- **C84** `Result.Actions` only lists writes the executor performed without error, in the order in which it performed them. -/
theorem C84_actions_performed {r : Result} (hr : (run env opts c h).1 = some r) : r.actions.Sublist (performed (run env opts c h).2.trace) := by
  rcases result_source hr with ⟨_, h1, _⟩ | ⟨keys, r0, pre, body, post, hk, h1, h2, h3, h4, h5, h6⟩
  · rw [h1]; simp
  · have ha : r.actions = r0.actions := by rcases h6 with rfl | ⟨_, ⟨e, rfl⟩, _⟩ <;> rfl
    rcases doStage_tells h1 with ⟨_, h7, _⟩ | ⟨_, h7, _⟩
    · obtain ⟨ta, la, g1, g2, g3, g4⟩ := books_doStage (env := env) (opts := c.opts opts) c.main (atMain (c.opts opts) keys (.fresh h))
      have : ta = body := by rw [h2] at g1; exact (List.append_cancel_left g1).symm
      subst this
      rw [ha, h7, g2, h3, performed_append, performed_append, (not_exec_mem h4).1, (not_exec_mem h5).1]
      simpa [atMain, St.fresh] using g3
    · rw [ha, h7]; simp

/-- **C84** After a command that succeeded, if no write failed on the way, `Result.Actions`
lists exactly the writes performed. -/
theorem C84_actions_all_partial {r : Result} (hr : (run env opts c h).1 = some r) (he : r.error = none) (hb : r.brk = false)
    (hw : NoWriteFailed (run env opts c h).2.trace) : r.actions = performed (run env opts c h).2.trace := by
  rcases result_source hr with ⟨h0, h1, _⟩ | ⟨keys, r0, pre, body, post, hk, h1, h2, h3, h4, h5, h6⟩
  · exact absurd ⟨he, hb⟩ h0
  · have ha : r.actions = r0.actions := by rcases h6 with rfl | ⟨_, ⟨e, rfl⟩, _⟩ <;> rfl
    have hcl : r0.clean := by
      rcases h6 with rfl | ⟨hc, _, _⟩
      · exact ⟨he, hb⟩
      · exact hc
    rcases doStage_tells h1 with ⟨_, h7, _⟩ | ⟨hn, _, _⟩
    · obtain ⟨ta, la, g1, g2, g3, g4⟩ := books_doStage (env := env) (opts := c.opts opts) c.main (atMain (c.opts opts) keys (.fresh h))
      have : ta = body := by rw [h2] at g1; exact (List.append_cancel_left g1).symm
      subst this
      have g5 := g4 fun a st hx => hw a st (by rw [h3]; simp [hx])
      rw [ha, h7, g2, h3, performed_append, performed_append, (not_exec_mem h4).1, (not_exec_mem h5).1, g5]
      simp [atMain, St.fresh]
    · exact absurd hcl hn

/-- **C84** The one case in which an error comes with actions: the transaction could not be committed. `Result.Actions` then lists the
writes performed although they were not committed. -/
theorem C84_commit_failed {r : Result} (hr : (run env opts c h).1 = some r) (hc : Call.commit .err ∈ (run env opts c h).2.trace)
    (hw : NoWriteFailed (run env opts c h).2.trace) : r.error ≠ none ∧ r.actions = performed (run env opts c h).2.trace := by
  rcases begun_cases env opts c h with ⟨h1, h2⟩ | ⟨keys, body, tail, un, posts, rt, b, hk, hn, hwt, hbody, ht, hrel, hpp, hT⟩
  · have : Call.commit .err ∈ ends (run env opts c h).2.trace := mem_ends.2 ⟨hc, rfl⟩
    rw [h2] at this; simp at this
  · obtain ⟨e1, e2, e3, e4, e5, e6⟩ := outer_ends hbody hrel hpp
    rw [hT] at hc
    have hm := commit_in_tail e1 e2 e3 hc
    rw [hr] at hpp
    obtain ⟨h1, h2⟩ := hpp.source
    have hct : ∃ (r0 : Result) (e : Err), r0.clean ∧ tail = [.commit .err] ∧ rt = some { r0 with error := some e } ∧
        (doStage env (c.opts opts) c.main (atMain (c.opts opts) keys (.fresh h))).1 = some r0 := by
      generalize (doStage env (c.opts opts) c.main (atMain (c.opts opts) keys (.fresh h))).1 = o at ht
      cases ht with
      | commitErr r e h' hcl he => exact ⟨r, e, hcl, rfl, rfl, rfl⟩
      | _ => simp at hm
    obtain ⟨r0, e, hcl, rfl, rfl, h3⟩ := hct
    cases b with
    | false => simp at h1
    | true =>
      simp only [if_true, Option.some.injEq] at h1
      subst h1
      refine ⟨by simp, ?_⟩
      rcases doStage_tells h3 with ⟨_, h7, _⟩ | ⟨hn, _, _⟩
      · obtain ⟨ta, la, g1, g2, g3, g4⟩ := books_doStage (env := env) (opts := c.opts opts) c.main (atMain (c.opts opts) keys (.fresh h))
        have : ta = body := by rw [hbody] at g1; exact (List.append_cancel_left g1).symm
        subst this
        have g5 := g4 fun a st hx => hw a st (by rw [hT]; simp [hx])
        have hp1 : performed ((keys.insertionSort (· ≤ ·)).map fun k => Call.lock k .ok) = [] :=
          (not_exec_mem (by intro x hx; obtain ⟨k, _, rfl⟩ := List.mem_map.1 hx; rfl)).1
        have hp2 : performed (un ++ posts) = [] := by
          refine (not_exec_mem ?_).1
          intro x hx
          rcases List.mem_append.1 hx with hx | hx
          · obtain ⟨k, st, rfl⟩ := hrel.isUnlock x hx; rfl
          · exact h2 x hx
        have hp3 : ∀ t, performed (.begin .ok :: t) = performed t := fun t => rfl
        have hp4 : performed [.commit .err] = [] := rfl
        show r0.actions = _
        rw [h7, g2, hT, performed_append, hp1, hp3, performed_append, performed_append, hp2, hp4, g5]
        simp [atMain, St.fresh]
      · exact absurd hcl hn

/-! ## concrete cases -/
open Demo

/-- entities of different types, so that a save takes several writes. -/
def twoTypes : Heap := heapOf [(7, [(0, [3])])] (fun p => { id := p, typ := p, dirty := false, data := 0, events := [] }) (by decide) (by decide)

/-- `Output` twice, with an intermediate save: the last value is returned, and both writes are listed. `Output` does not end the command:
what follows it is carried out (`command.go:64-71,97-103`, against its comment). -/
example : let c : Cmd := { init := none, main := .add [7] (.output 5 (.save fun _ => .output 6 (.ret none))), post := none }
    (run okEnv stdOpts c twoTypes).1.map (fun r => (r.error.isNone, r.brk, r.output, r.actions.length)) = some (true, false, 6, 2) ∧
    (performed (run okEnv stdOpts c twoTypes).2.trace).length = 2 := by decide +kernel

/-- `Output` before a failing end: nothing is told. -/
example : let c : Cmd := { init := none, main := .add [7] (.output 5 (.save fun _ => .ret (some (.msg 1)))), post := none }
    (run okEnv stdOpts c twoTypes).1.map (fun r => (r.error.isSome, r.brk, r.output, r.actions)) = some (true, false, 0, []) ∧
    Call.commit .err ∉ (run okEnv stdOpts c twoTypes).2.trace ∧ (performed (run okEnv stdOpts c twoTypes).2.trace).length = 2 := by decide +kernel

/-- the commit fails. -/
example : let e : Env := { okEnv with commit := fun _ => .err (.msg 78) }
    let c : Cmd := { init := none, main := .add [7] (.output 5 (.ret none)), post := none }
    (run e stdOpts c twoTypes).1.map (fun r => (r.error.isSome, r.output, r.actions.length)) = some (true, 5, 2) ∧
    Call.commit .err ∈ (run e stdOpts c twoTypes).2.trace := by decide +kernel

/-- the second write made by the first save fails. -/
def secondFails : Env := { okEnv with exec := fun t _ => if (performed t).length = 1 then (if t.any (· matches .exec _ .err) then .ok () else .err (.msg 9)) else .ok () }

/-- **C84** is false of the code in full: if the code of the command ignores the error of a save, the command may succeed although some
writes were performed (and committed) that `Result.Actions` does not list. -/
theorem C84_ignored_error :
    let c : Cmd := { init := none, main := .add [7] (.save fun _ => .ret none), post := none }
    (run secondFails stdOpts c twoTypes).1.map (fun r => (r.error.isNone, r.brk, r.actions.length)) = some (true, false, 2) ∧
    (performed (run secondFails stdOpts c twoTypes).2.trace).length = 3 ∧
    Call.commit .ok ∈ (run secondFails stdOpts c twoTypes).2.trace := by decide +kernel

end Ddd
