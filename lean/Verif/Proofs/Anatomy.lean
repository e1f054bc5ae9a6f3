import Verif.Proofs.Runs
import Verif.Spec.Trace
/-! The two shapes of a command: it ends before `Main` is called, or it is locks, begin, body, end, unlocks, hooks. -/
set_option linter.unusedVariables false
namespace Ddd
open Spec

variable (env : Env) (opts : Opts)

/-- the PostSave phase: what was decided before it, the calls, the final outcome. -/
inductive PostPhase : Option Result → Trace → Option Result → Prop
  | panicked : PostPhase none [] none
  | failed (r : Result) : r.error.isSome → PostPhase (some r) [] (some r)
  | posted (r : Result) (b : Bool) (t : Trace) : r.error = none → Posted opts.hooks b t →
      PostPhase (some r) t (if b then some r else none)

/-- the calls before `Main` when it is never reached. -/
inductive Early (keys : List Nat) : Trace → Option Result → Prop
  | dup : ¬ keys.Nodup → Early keys [] (some (resultErrors errLockRepeated))
  | refused (pre post : List Nat) (k : Nat) (e : Err) (h t : Trace) (b : Bool) : keys.Nodup →
      keys.insertionSort (· ≤ ·) = pre ++ k :: post → env.lock h k = .err e → Released pre b t →
      Early keys ((pre.map fun k => .lock k .ok) ++ .lock k .err :: t) (if b then some (resultErrors (.wrap e)) else none)
  | lockPanic (pre post : List Nat) (k : Nat) : keys.Nodup → keys.insertionSort (· ≤ ·) = pre ++ k :: post →
      Early keys ((pre.map fun k => .lock k .ok) ++ [.lock k .panic]) none
  | noBegin (st : Stat) (t : Trace) (b : Bool) (r : Option Result) : keys.Nodup → opts.withTransaction = true → st ≠ .ok →
      Released (keys.insertionSort (· ≤ ·)) b t → (b = false → r = none) →
      Early keys (((keys.insertionSort (· ≤ ·)).map fun k => .lock k .ok) ++ .begin st :: t) r

inductive Anatomy (keys : List Nat) (main : Prog) (s : St) : Trace → Option Result → Prop
  | early (t : Trace) (r : Option Result) : Early env opts keys t r → (∀ x, r = some x → x.error.isSome ∧ x.brk = false) →
      (∀ x, r = some x → x.actions = [] ∧ x.output = 0) → Anatomy keys main s t r
  | plain (body un posts : Trace) (r : Option Result) (b : Bool) : keys.Nodup → opts.withTransaction = false →
      (doStage env opts main (atMain opts keys s)).2.trace = (atMain opts keys s).trace ++ body →
      Released (keys.insertionSort (· ≤ ·)) b un →
      PostPhase opts (if b then (doStage env opts main (atMain opts keys s)).1 else none) posts r →
      Anatomy keys main s (((keys.insertionSort (· ≤ ·)).map fun k => Call.lock k .ok) ++ (body ++ (un ++ posts))) r
  | tx (body tail un posts : Trace) (rt r : Option Result) (b : Bool) : keys.Nodup → opts.withTransaction = true →
      (doStage env opts main (atMain opts keys s)).2.trace = (atMain opts keys s).trace ++ body →
      TxTail env (busPending opts (doStage env opts main (atMain opts keys s)).2) (doStage env opts main (atMain opts keys s)).1 tail rt →
      Released (keys.insertionSort (· ≤ ·)) b un →
      PostPhase opts (if b then rt else none) posts r →
      Anatomy keys main s (((keys.insertionSort (· ≤ ·)).map fun k => Call.lock k .ok) ++
        (.begin .ok :: (body ++ (tail ++ (un ++ posts))))) r

theorem body_anatomy {keys : List Nat} {main : Prog} {s : St} {o : Outcome} (hn : keys.Nodup) (hs : s.trace = [])
    (h : BodyRun env opts main { s with trace := (keys.insertionSort (· ≤ ·)).map fun k => .lock k .ok } o)
    {b : Bool} {un : Trace} (hr : Released (keys.insertionSort (· ≤ ·)) b un) {posts : Trace} {r : Option Result}
    (hp : PostPhase opts (if b then o.1 else none) posts r) :
    Anatomy env opts keys main s (o.2.trace ++ (un ++ posts)) r := by
  cases h with
  | plain hw =>
    have e : ({ s with trace := (keys.insertionSort (· ≤ ·)).map fun k => Call.lock k .ok } : St) = atMain opts keys s := by
      simp [atMain, hs, hw]
    rw [e] at hp ⊢
    obtain ⟨d⟩ := doStage_shape env opts main (atMain opts keys s)
    have := Anatomy.plain (env := env) (opts := opts) (s := s) _ un posts r b hn hw d.eq hr hp
    convert this using 1
    rw [d.eq]
    simp [atMain, hs, hw]
  | noBegin st _ hw hst ho hres hemp =>
    have hpe : ∀ x, r = some x → x.actions = [] ∧ x.output = 0 := by
      intro x hx
      generalize hz : (if b then o.1 else none) = z at hp
      have hz' : ∀ y, z = some y → o.1 = some y := by intro y hy; subst hy; cases b <;> simp_all
      cases hp with
      | panicked => simp at hx
      | failed r hr => simp only [Option.some.injEq] at hx; subst hx; exact hemp _ (hz' _ rfl)
      | posted r b t hr =>
        have := hres r (hz' _ rfl)
        rw [hr] at this; simp at this
    have hpo : posts = [] ∧ (∀ x, r = some x → x.error.isSome ∧ x.brk = false) ∧ (b = false → r = none) := by
      cases b with
      | false => simp only [Bool.false_eq_true, if_false] at hp; cases hp; simp
      | true =>
        simp only [if_true] at hp
        refine (fun (h : posts = [] ∧ (∀ x, r = some x → x.error.isSome ∧ x.brk = false)) => ⟨h.1, h.2, by simp⟩) ?_
        obtain ⟨o1, o2⟩ := o
        cases o1 with
        | none => cases hp; simp
        | some x =>
          have hx := hres x rfl
          cases hp with
          | failed r hr => exact ⟨rfl, by intro y hy; simp only [Option.some.injEq] at hy; exact hy ▸ hx⟩
          | posted r b t hr => rw [hr] at hx; simp at hx
    rw [hpo.1]
    have := Early.noBegin (env := env) (opts := opts) (keys := keys) st un b r hn hw hst hr hpo.2.2
    have := Anatomy.early (main := main) (s := s) _ r this hpo.2.1 hpe
    convert this using 1
    rw [ho]
    simp [St.log]
  | tx _ tail hw ht ho =>
    have e : ({ s with trace := (keys.insertionSort (· ≤ ·)).map fun k => Call.lock k .ok } : St).log (.begin .ok) = atMain opts keys s := by
      simp [atMain, hs, hw, St.log]
    rw [e] at ht ho
    obtain ⟨d⟩ := doStage_shape env opts main (atMain opts keys s)
    have := Anatomy.tx (env := env) (opts := opts) (s := s) _ tail un posts _ r b hn hw d.eq ht hr hp
    convert this using 1
    rw [ho, d.eq]
    simp [atMain, hs, hw]

theorem save_anatomy (keys : List Nat) (main : Prog) (s : St) (hs : s.trace = []) :
    Anatomy env opts keys main s (save env opts keys main s).2.trace (save env opts keys main s).1 := by
  have core : ∀ (o : Outcome), CoreRun env opts keys main s o → ∀ posts r, PostPhase opts o.1 posts r →
      Anatomy env opts keys main s (o.2.trace ++ posts) r := by
    intro o ho posts r hp
    cases ho with
    | free _ hk hb =>
      subst hk
      refine body_anatomy env opts List.nodup_nil hs (b := true) ?_ Released.nil hp
      convert hb
      simp [← hs]
    | dup hd =>
      cases hp with
      | failed _ _ => simpa [hs] using Anatomy.early (main := main) (s := s) _ _ (Early.dup (env := env) (opts := opts) hd) (by simp [resultErrors, resultError]) (by simp [resultErrors, resultError])
      | posted _ b t h1 h2 => simp [resultErrors, resultError] at h1
    | refused pre post k e h t b _ hn hk he hr ho2 ho1 =>
      have hpo : posts = [] ∧ r = (if b then some (resultErrors (.wrap e)) else none) ∧ ∀ x, r = some x → x.error.isSome ∧ x.brk = false := by
        rw [ho1] at hp
        cases b with
        | false => simp only [Bool.false_eq_true, if_false] at hp; cases hp; simp
        | true =>
          simp only [if_true] at hp
          cases hp with
          | failed _ _ => simp [resultErrors, resultError]
          | posted _ b t h1 h2 => simp [resultErrors, resultError] at h1
      have := Anatomy.early (main := main) (s := s) _ r (hpo.2.1 ▸ Early.refused (env := env) (opts := opts) pre post k e h t b hn hk he hr) hpo.2.2 (by rw [hpo.2.1]; cases b <;> simp [resultErrors, resultError])
      rw [hpo.1, ho2]
      simpa [hs] using this
    | lockPanic pre post k _ hn hk ho2 =>
      subst ho2
      cases hp
      have := Anatomy.early (main := main) (s := s) _ none (Early.lockPanic (env := env) (opts := opts) pre post k hn hk) (by simp) (by simp)
      simpa [hs] using this
    | held o' t b _ hn hne hb hr ho2 ho1 =>
      rw [ho1] at hp
      rw [ho2]
      have := body_anatomy env opts hn hs (by simpa [hs] using hb) hr hp
      simpa using this
  have h := save_run env opts keys main s
  generalize save env opts keys main s = o at h
  cases h with
  | panicked _ hc h1 =>
    have := core o hc [] none (by rw [h1]; exact .panicked)
    rw [h1]; simpa using this
  | failed _ r hc h1 h2 =>
    have := core o hc [] (some r) (by rw [h1]; exact .failed r h2)
    rw [h1]; simpa using this
  | posted o' r t b _ hc h1 h2 h3 h4 h5 =>
    have := core o' hc t (if b then some r else none) (by rw [h1]; exact .posted r b t h2 h3)
    rw [h4, h5]; exact this

theorem insertionSort_nodup {keys : List Nat} (h : keys.Nodup) : (keys.insertionSort (· ≤ ·)).Pairwise (· < ·) := by
  have hs : (keys.insertionSort (· ≤ ·)).Pairwise (· ≤ ·) := List.pairwise_insertionSort _ _
  have hn : (keys.insertionSort (· ≤ ·)).Nodup := (List.perm_insertionSort _ _).nodup_iff.2 h
  exact hs.imp₂ (fun a b h1 h2 => lt_of_le_of_ne h1 h2) hn

theorem Released.isUnlock {ks b t} (h : Released ks b t) : ∀ c ∈ t, ∃ k st, c = .unlock k st := by
  induction h with
  | nil => simp
  | cons k ks st b t hst hr ih => intro c hc; rcases List.mem_cons.1 hc with rfl | hc; exacts [⟨_, _, rfl⟩, ih c hc]
  | panic k ks => intro c hc; simp only [List.mem_singleton] at hc; exact ⟨_, _, hc⟩

theorem Posted.isPost {ks b t} (h : Posted ks b t) : ∀ c ∈ t, ∃ k st, c = .postSave k st := by
  induction h with
  | nil => simp
  | cons k ks st b t hst hr ih => intro c hc; rcases List.mem_cons.1 hc with rfl | hc; exacts [⟨_, _, rfl⟩, ih c hc]
  | panic k ks => intro c hc; simp only [List.mem_singleton] at hc; exact ⟨_, _, hc⟩

theorem PostPhase.isPost {opts r t r'} (h : PostPhase opts r t r') : ∀ c ∈ t, ∃ k st, c = .postSave k st := by
  cases h with
  | panicked => simp
  | failed => simp
  | posted r b t h1 h2 => exact h2.isPost

/-- calls made between begin and end are of the body class. -/
theorem DoShape.isBody {env opts main s o} (d : DoShape env opts main s o) :
    ∀ c ∈ (.mainStart :: d.tm ++ .mainRet d.st :: (d.tsave ++ (d.tpers ++ d.tsend)) : Trace), c.IsBody opts.dryRun := by
  intro c hc
  simp only [List.cons_append, List.mem_cons, List.mem_append] at hc
  rcases hc with rfl | h | rfl | h | h | h
  · trivial
  · have := d.mainCalls c h; cases c <;> simp_all [Call.IsMain, Call.IsSave, Call.IsBody]
  · trivial
  · obtain ⟨sh⟩ := d.save
    have hh := sh.eq ▸ h
    simp only [List.mem_append] at hh
    rcases hh with h | h | h | h | h
    · have := sh.hb c h; cases c <;> simp_all [Call.IsHook, Call.IsBody]
    · have := sh.hi c h; cases c <;> simp_all [Call.IsNewID, Call.IsBody]
    · have := sh.hc c h; cases c <;> simp_all [Call.IsConv, Call.IsBody]
    · have := sh.he c h; cases c <;> simp_all [Call.IsExec, Call.IsBody]
    · have := sh.ha c h; cases c <;> simp_all [Call.IsHook, Call.IsBody]
  · have := d.pers c h; cases c <;> simp_all [Call.IsEvPersist, Call.IsBody]
  · rcases d.send with ⟨h1, _⟩ | ⟨es, st, b, _, h1, _⟩
    · rw [h1] at h; simp at h
    · have := h1.isSend c h; cases c <;> simp_all [Call.IsSend, Call.IsBody]

theorem Early.noBody {env opts keys t r} (h : Early env opts keys t r) :
    ∀ c ∈ t, (∃ k st, c = .lock k st) ∨ (∃ k st, c = .unlock k st) ∨ ∃ st, st ≠ .ok ∧ c = .begin st := by
  intro c hc
  cases h with
  | dup => simp at hc
  | refused pre post k e h t b hn hk he hr =>
    simp only [List.mem_append, List.mem_map, List.mem_cons] at hc
    rcases hc with ⟨k, _, rfl⟩ | rfl | h
    · exact .inl ⟨_, _, rfl⟩
    · exact .inl ⟨_, _, rfl⟩
    · exact .inr (.inl (hr.isUnlock c h))
  | lockPanic pre post k hn hk =>
    simp only [List.mem_append, List.mem_map, List.mem_singleton] at hc
    rcases hc with ⟨k, _, rfl⟩ | rfl
    · exact .inl ⟨_, _, rfl⟩
    · exact .inl ⟨_, _, rfl⟩
  | noBegin st t b r hn hw hst hr hbr =>
    simp only [List.mem_append, List.mem_map, List.mem_cons] at hc
    rcases hc with ⟨k, _, rfl⟩ | rfl | h
    · exact .inl ⟨_, _, rfl⟩
    · exact .inr (.inr ⟨st, hst, rfl⟩)
    · exact .inr (.inl (hr.isUnlock c h))

end Ddd
