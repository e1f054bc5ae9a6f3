import Verif.Proofs.Trace
import Verif.Spec.Trace
/-! Success of a piece of code means all its calls succeeded; order of the calls of a save. -/
set_option linter.unusedVariables false
namespace Ddd

/-- if the code succeeds, the calls it made were all good. -/
def OkGood {α : Type} (m : M α) : Prop :=
  ∀ s a s', m s = (.ok a, s') → ∃ t, s'.trace = s.trace ++ t ∧ ∀ c ∈ t, c.Good

namespace OkGood
variable {α β : Type}

theorem pure (a : α) : OkGood (M.pure a) := by
  intro s a s' h
  simp only [M.pure, Prod.mk.injEq] at h
  exact ⟨[], by simp [← h.2]⟩

theorem bind {m : M α} {f : α → M β} (hm : OkGood m) (hf : ∀ a, OkGood (f a)) : OkGood (M.bind m f) := by
  intro s b s' h
  unfold M.bind at h
  cases hms : m s with
  | mk r s1 =>
    rw [hms] at h
    cases r with
    | ok a =>
      obtain ⟨t1, e1, q1⟩ := hm s a s1 hms
      obtain ⟨t2, e2, q2⟩ := hf a s1 b s' h
      refine ⟨t1 ++ t2, by rw [e2, e1, List.append_assoc], ?_⟩
      intro c hc
      rcases List.mem_append.1 hc with hc | hc
      · exact q1 c hc
      · exact q2 c hc
    | err e => simp at h
    | panic => simp at h

theorem forEach {f : α → M Unit} (hf : ∀ a, OkGood (f a)) (l : List α) : OkGood (M.forEach l f) := by
  induction l with
  | nil => exact pure ()
  | cons a l ih => exact bind (hf a) fun _ => ih

theorem ext {ans : St → Res α} {mk : Stat → Call} (h : (mk .ok).Good) : OkGood (M.ext ans mk) := by
  intro s a s' he
  unfold M.ext at he
  simp only [Prod.mk.injEq] at he
  refine ⟨[mk (ans s).stat], by rw [← he.2]; rfl, ?_⟩
  intro c hc
  simp only [List.mem_singleton] at hc
  rw [hc, he.1]; exact h

theorem extH {ans : St → Heap × Res Unit} {mk : Stat → Call} (h : (mk .ok).Good) : OkGood (M.extH ans mk) := by
  intro s a s' he
  unfold M.extH at he
  simp only [Prod.mk.injEq] at he
  refine ⟨[mk (ans s).2.stat], by rw [← he.2]; rfl, ?_⟩
  intro c hc
  simp only [List.mem_singleton] at hc
  rw [hc, he.1]; exact h

theorem modify {f : St → St} (h : ∀ s, (f s).trace = s.trace) : OkGood (M.modify f) := by
  intro s a s' he
  simp only [M.modify, Prod.mk.injEq] at he
  exact ⟨[], by simp [← he.2, h]⟩

end OkGood

variable (env : Env) (opts : Opts)

theorem okGood_execHook (ct b n) : OkGood (execHook env ct b n) := by
  intro s a s' h
  unfold execHook at h
  split at h
  · exact OkGood.pure () s a s' h
  · split at h
    · exact OkGood.extH (by simp [Call.Good]) s a s' h
    · exact OkGood.pure () s a s' h

theorem okGood_runHooks (b cs) : OkGood (runHooks env b cs) :=
  OkGood.forEach (fun c => OkGood.forEach (fun n => okGood_execHook env _ _ n) _) _

theorem okGood_putNewID (cs) : OkGood (putNewID env cs) := by
  refine OkGood.forEach (fun c => ?_) _
  split
  · refine OkGood.forEach (fun n => ?_) _
    intro s a s' h
    unfold putID at h
    split at h
    · exact OkGood.pure () s a s' h
    · split at h
      · refine OkGood.bind (OkGood.ext ?_) (fun _ => OkGood.modify ?_) s a s' h
        · simp [Call.Good]
        · intro _; rfl
      · exact OkGood.pure () s a s' h
  · exact OkGood.pure ()

theorem convert_good_ok {n par op s m s'} (h : convert env n par op s = (.ok m, s')) :
    ∃ t, s'.trace = s.trace ++ t ∧ ∀ c ∈ t, c.Good := by
  unfold convert at h
  simp only [Prod.mk.injEq] at h
  refine ⟨_, by rw [← h.2]; rfl, ?_⟩
  intro c hc
  simp only [List.mem_singleton] at hc
  rw [hc, h.1]
  exact Or.inl rfl

theorem convert_good_unreg {n par op s e s'} (h : convert env n par op s = (.err e, s')) (he : e.is .notRegister = true) :
    ∃ t, s'.trace = s.trace ++ t ∧ ∀ c ∈ t, c.Good := by
  unfold convert at h
  simp only [Prod.mk.injEq] at h
  refine ⟨_, by rw [← h.2]; rfl, ?_⟩
  intro c hc
  simp only [List.mem_singleton] at hc
  rw [hc, h.1]
  exact Or.inr ⟨rfl, he⟩

theorem okGood_actStep (c n acc) : OkGood (actStep env c n acc) := by
  intro s a s' h
  unfold actStep at h
  split at h
  · simp at h
  · next h' =>
    split at h
    · next he =>
      simp only [Prod.mk.injEq] at h
      rw [← h.2]; exact convert_good_unreg env h' he
    · simp at h
  · next h' =>
    have := convert_good_ok env h'
    split at h
    · split at h
      · simp at h
      · simp only [Prod.mk.injEq] at h; rw [← h.2]; exact this
    · simp only [Prod.mk.injEq] at h; rw [← h.2]; exact this

theorem okGood_actLoop (c ns acc) : OkGood (actLoop env c ns acc) := by
  induction ns generalizing acc with
  | nil => exact OkGood.pure _
  | cons n ns ih => exact OkGood.bind (okGood_actStep env c n acc) fun acc => ih acc

theorem okGood_actLoops (cs acc) : OkGood (actLoops env cs acc) := by
  induction cs generalizing acc with
  | nil => exact OkGood.pure _
  | cons c cs ih => exact OkGood.bind (okGood_actLoop env c _ acc) fun acc => ih acc

theorem okGood_makeActions (cs) : OkGood (makeActions env cs) :=
  OkGood.bind (okGood_actLoops env _ _) fun _ => OkGood.pure _

theorem okGood_exec (as) : OkGood (exec env opts as) := by
  unfold exec
  split
  · exact OkGood.pure ()
  · exact OkGood.bind (OkGood.forEach (fun a => OkGood.ext (by simp [Call.Good])) _)
      fun _ => OkGood.modify fun _ => rfl

theorem okGood_getEntityChanged : OkGood (getEntityChanged env opts) := by
  intro s a s' h
  unfold getEntityChanged at h
  split at h
  · simp only [Prod.mk.injEq] at h; exact ⟨[], by simp [← h.2]⟩
  · simp at h

theorem okGood_persist : OkGood (persist env opts) := by
  unfold persist
  exact OkGood.bind (okGood_getEntityChanged env opts) fun cs =>
    OkGood.bind (okGood_runHooks env _ _) fun _ => OkGood.bind (okGood_putNewID env _) fun _ =>
    OkGood.bind (okGood_makeActions env _) fun as => OkGood.bind (okGood_exec env opts _) fun _ =>
    OkGood.bind (okGood_runHooks env _ _) fun _ => OkGood.modify fun _ => rfl

/-- the calls of one save, in order. -/
structure SaveShape (dry : Bool) (t : Trace) where
  tb : Trace
  ti : Trace
  tc : Trace
  te : Trace
  ta : Trace
  eq : t = tb ++ (ti ++ (tc ++ (te ++ ta)))
  hb : ∀ c ∈ tb, Call.IsHook true c
  hi : ∀ c ∈ ti, Call.IsNewID c
  hc : ∀ c ∈ tc, Call.IsConv c
  he : ∀ c ∈ te, Call.IsExec dry c
  ha : ∀ c ∈ ta, Call.IsHook false c
  gb : ti ++ (tc ++ (te ++ ta)) ≠ [] → ∀ c ∈ tb, c.Good
  gi : tc ++ (te ++ ta) ≠ [] → ∀ c ∈ ti, c.Good
  gc : te ++ ta ≠ [] → ∀ c ∈ tc, c.Good
  ge : ta ≠ [] → ∀ c ∈ te, c.Good

/-- one link of a chain of code pieces: calls of `m` first, then (only if `m` succeeded) calls of the rest. -/
theorem bind_chain {α β : Type} {p : Call → Prop} {m : M α} {f : α → M β} (hm : Does p m) (hg : OkGood m) (s : St)
    (Q : Trace → Prop) (hQ0 : Q []) (hQ : ∀ a s1, m s = (.ok a, s1) → ∃ t, (f a s1).2.trace = s1.trace ++ t ∧ Q t) :
    ∃ t1 t2, (M.bind m f s).2.trace = s.trace ++ (t1 ++ t2) ∧ (∀ c ∈ t1, p c) ∧ Q t2 ∧
      (t2 ≠ [] → ∀ c ∈ t1, c.Good) := by
  unfold M.bind
  obtain ⟨t1, e1, q1⟩ := (hm s).trace
  cases h : m s with
  | mk r s1 =>
    rw [h] at e1
    cases r with
    | ok a =>
      obtain ⟨t2, e2, q2⟩ := hQ a s1 h
      obtain ⟨t1', e1', q1'⟩ := hg s a s1 h
      have : t1' = t1 := by
        rw [e1] at e1'; simpa using e1'.symm
      subst this
      exact ⟨t1', t2, by rw [e2, e1, List.append_assoc], q1, q2, fun _ => q1'⟩
    | err e => exact ⟨t1, [], by simpa using e1, q1, hQ0, by simp⟩
    | panic => exact ⟨t1, [], by simpa using e1, q1, hQ0, by simp⟩

theorem persist_shape (s : St) : ∃ t, (persist env opts s).2.trace = s.trace ++ t ∧ Nonempty (SaveShape opts.dryRun t) := by
  unfold persist
  change ∃ t, (M.bind (getEntityChanged env opts) _ s).2.trace = s.trace ++ t ∧ _
  have h0 := bind_chain (p := fun _ => False) (f := fun cs => (do
      runHooks env true cs
      putNewID env cs
      let as ← makeActions env cs
      exec env opts as
      runHooks env false cs
      recycle cs)) (does_getEntityChanged env opts) (okGood_getEntityChanged env opts) s
    (fun t => Nonempty (SaveShape opts.dryRun t))
    ⟨⟨[], [], [], [], [], rfl, by simp, by simp, by simp, by simp, by simp, by simp, by simp, by simp, by simp⟩⟩ ?_
  · obtain ⟨t1, t2, e, h1, h2, _⟩ := h0
    have : t1 = [] := List.eq_nil_iff_forall_not_mem.2 h1
    subst this
    exact ⟨t2, by simpa using e, h2⟩
  intro cs s1 _
  obtain ⟨tb, r1, e1, hb, ⟨ti, r2, hr1, hi, ⟨tc, r3, hr2, hc, ⟨te, ta, hr3, he, ha, ge⟩, gc⟩, gi⟩, gb⟩ :=
    bind_chain (f := fun _ => M.bind (putNewID env cs) fun _ => M.bind (makeActions env cs) fun as =>
      M.bind (exec env opts as) fun _ => M.bind (runHooks env false cs) fun _ => recycle cs)
      (does_runHooks env true cs) (okGood_runHooks env true cs) s1
    (fun t => ∃ ti r2, t = ti ++ r2 ∧ (∀ c ∈ ti, Call.IsNewID c) ∧
      (∃ tc r3, r2 = tc ++ r3 ∧ (∀ c ∈ tc, Call.IsConv c) ∧
        (∃ te ta, r3 = te ++ ta ∧ (∀ c ∈ te, Call.IsExec opts.dryRun c) ∧ (∀ c ∈ ta, Call.IsHook false c) ∧
          (ta ≠ [] → ∀ c ∈ te, c.Good)) ∧
        (r3 ≠ [] → ∀ c ∈ tc, c.Good)) ∧
      (r2 ≠ [] → ∀ c ∈ ti, c.Good))
    ⟨[], [], rfl, by simp, ⟨[], [], rfl, by simp, ⟨[], [], rfl, by simp, by simp, by simp⟩, by simp⟩, by simp⟩
    (by
      intro _ s2 _
      obtain ⟨ti, r2, e2, hi, h2, gi⟩ := bind_chain (f := fun _ => M.bind (makeActions env cs) fun as =>
          M.bind (exec env opts as) fun _ => M.bind (runHooks env false cs) fun _ => recycle cs)
          (does_putNewID env cs) (okGood_putNewID env cs) s2
        (fun t => ∃ tc r3, t = tc ++ r3 ∧ (∀ c ∈ tc, Call.IsConv c) ∧
          (∃ te ta, r3 = te ++ ta ∧ (∀ c ∈ te, Call.IsExec opts.dryRun c) ∧ (∀ c ∈ ta, Call.IsHook false c) ∧
            (ta ≠ [] → ∀ c ∈ te, c.Good)) ∧
          (r3 ≠ [] → ∀ c ∈ tc, c.Good))
        ⟨[], [], rfl, by simp, ⟨[], [], rfl, by simp, by simp, by simp⟩, by simp⟩
        (by
          intro _ s3 _
          obtain ⟨tc, r3, e3, hc, h3, gc⟩ := bind_chain (f := fun as =>
              M.bind (exec env opts as) fun _ => M.bind (runHooks env false cs) fun _ => recycle cs)
              (does_makeActions env cs) (okGood_makeActions env cs) s3
            (fun t => ∃ te ta, t = te ++ ta ∧ (∀ c ∈ te, Call.IsExec opts.dryRun c) ∧
              (∀ c ∈ ta, Call.IsHook false c) ∧ (ta ≠ [] → ∀ c ∈ te, c.Good))
            ⟨[], [], rfl, by simp, by simp, by simp⟩
            (by
              intro as s4 _
              obtain ⟨te, ta, e4, he, h4, ge⟩ := bind_chain (f := fun _ =>
                  M.bind (runHooks env false cs) fun _ => recycle cs)
                  (does_exec env opts as) (okGood_exec env opts as) s4
                (fun t => ∀ c ∈ t, Call.IsHook false c) (by simp)
                (by
                  intro _ s5 _
                  have := (Does.bind (does_runHooks env false cs) (fun _ => does_recycle cs)) s5
                  exact this.trace)
              exact ⟨te ++ ta, e4, te, ta, rfl, he, h4, ge⟩)
          exact ⟨tc ++ r3, e3, tc, r3, rfl, hc, h3, gc⟩)
      exact ⟨ti ++ r2, e2, ti, r2, rfl, hi, h2, gi⟩)
  subst hr1 hr2 hr3
  exact ⟨_, e1, ⟨⟨tb, ti, tc, te, ta, rfl, hb, hi, hc, he, ha, gb, gi, gc, ge⟩⟩⟩

end Ddd
