import Verif.Proofs.Good
import Verif.Spec.Save
/-! The exact effect of a successful `persist`. -/
set_option linter.unusedVariables false
namespace Ddd
open Spec

variable (env : Env) (opts : Opts)

theorem bind_ok {α β : Type} {m : M α} {f : α → M β} {s : St} {b : β} {s' : St} (h : M.bind m f s = (.ok b, s')) :
    ∃ a s1, m s = (.ok a, s1) ∧ f a s1 = (.ok b, s') := by
  unfold M.bind at h
  cases hm : m s with
  | mk r s1 =>
    rw [hm] at h
    cases r with
    | ok a => exact ⟨a, s1, rfl, h⟩
    | err e => simp at h
    | panic => simp at h

/-- the pieces of a successful save. -/
structure PersistOk (s s' : St) where
  cs : List (Change Node)
  as : List Action
  s1 : St
  s2 : St
  s3 : St
  s4 : St
  s5 : St
  changes : entityChanges env opts s = some cs
  before : runHooks env true cs s = (.ok (), s1)
  ids : putNewID env cs s1 = (.ok (), s2)
  acts : makeActions env cs s2 = (.ok as, s3)
  execd : exec env opts as s3 = (.ok (), s4)
  after : runHooks env false cs s4 = (.ok (), s5)
  fin : recycle cs s5 = (.ok (), s')

theorem persist_ok {s s' : St} (h : persist env opts s = (.ok (), s')) : Nonempty (PersistOk env opts s s') := by
  unfold persist at h
  obtain ⟨cs, s0, h0, g0⟩ := bind_ok h
  have h00 : entityChanges env opts s = some cs ∧ s0 = s := by
    unfold getEntityChanged at h0
    split at h0
    · next c hc => simp only [Prod.mk.injEq, Res.ok.injEq] at h0; rw [hc, h0.1]; exact ⟨rfl, h0.2.symm⟩
    · simp at h0
  obtain ⟨h00, h01⟩ := h00
  rw [h01] at g0
  obtain ⟨_, s1, h1, g1⟩ := bind_ok g0
  obtain ⟨_, s2, h2, g2⟩ := bind_ok g1
  obtain ⟨as, s3, h3, g3⟩ := bind_ok g2
  obtain ⟨_, s4, h4, g4⟩ := bind_ok g3
  obtain ⟨_, s5, h5, g5⟩ := bind_ok g4
  exact ⟨⟨cs, as, s1, s2, s3, s4, s5, h00, h1, h2, h3, h4, h5, g5⟩⟩

/-! ### hooks -/

/-- the hook call for one node. -/
def hookCallOf (ct : ChangeType) (b : Bool) : Node → Option Call
  | none => none
  | some p => if ct ≠ .clear ∧ env.hasHook p ⟨ct, b⟩ = true then some (.hook (some p) ⟨ct, b⟩ .ok) else none

theorem execHook_ok {ct b n} {s s' : St} (h : execHook env ct b n s = (.ok (), s')) :
    s' = { s with heap := s'.heap, trace := s'.trace } ∧
    s'.trace = s.trace ++ (hookCallOf env ct b n).toList := by
  unfold execHook at h
  cases n with
  | none => simp only [Prod.mk.injEq] at h; obtain ⟨_, rfl⟩ := h; simp [hookCallOf]
  | some p =>
    dsimp only [hookCallOf] at h ⊢
    by_cases hc : ct ≠ .clear ∧ env.hasHook p ⟨ct, b⟩ = true
    · rw [if_pos hc] at h
      unfold M.extH at h
      simp only [Prod.mk.injEq] at h
      obtain ⟨h1, rfl⟩ := h
      rw [if_pos hc]
      simp [St.log, h1, Res.stat]
    · rw [if_neg hc] at h
      simp only [Prod.mk.injEq] at h; obtain ⟨_, rfl⟩ := h; simp [hc]

theorem forEach_frame {α : Type} {f : α → M Unit} {g : α → Trace}
    (hf : ∀ a s s', f a s = (.ok (), s') →
      s' = { s with heap := s'.heap, trace := s'.trace } ∧ s'.trace = s.trace ++ g a) :
    ∀ (l : List α) (s s' : St), M.forEach l f s = (.ok (), s') →
      s' = { s with heap := s'.heap, trace := s'.trace } ∧ s'.trace = s.trace ++ l.flatMap g := by
  intro l
  induction l with
  | nil => intro s s' h; simp only [M.forEach, M.pure, Prod.mk.injEq] at h; obtain ⟨_, rfl⟩ := h; simp
  | cons a l ih =>
    intro s s' h
    obtain ⟨_, s1, h1, h2⟩ := bind_ok h
    obtain ⟨e1, t1⟩ := hf a s s1 h1
    obtain ⟨e2, t2⟩ := ih s1 s' h2
    refine ⟨?_, by rw [t2, t1]; simp⟩
    rw [e2, e1]

theorem flatMap_singleton_filterMap {α β : Type} (l : List α) (f : α → Option β) :
    l.flatMap (fun a => (f a).toList) = l.filterMap f := by
  induction l with
  | nil => rfl
  | cons a l ih => cases h : f a <;> simp [h, ih]

theorem runHooks_ok {b cs} {s s' : St} (h : runHooks env b cs s = (.ok (), s')) :
    s' = { s with heap := s'.heap, trace := s'.trace } ∧ s'.trace = s.trace ++ hookCalls env b cs := by
  unfold hookCalls
  refine forEach_frame ?_ cs s s' h
  intro c s s' h
  have := forEach_frame (g := fun n => (hookCallOf env c.ctype b n).toList) (fun n s s' h => execHook_ok env h) c.children s s' h
  refine ⟨this.1, this.2.trans ?_⟩
  congr 1
  rw [← flatMap_singleton_filterMap]
  congr 1

theorem execHook_nil {ct b n} {s : St} (h : hookCallOf env ct b n = none) : execHook env ct b n s = (.ok (), s) := by
  unfold execHook
  cases n with
  | none => rfl
  | some p =>
    dsimp only [hookCallOf] at h ⊢
    split at h
    · simp at h
    · next hc => rw [if_neg hc]

theorem forEach_skip {α : Type} {f : α → M Unit} {l : List α} {s : St} (h : ∀ a ∈ l, f a s = (.ok (), s)) :
    M.forEach l f s = (.ok (), s) := by
  induction l with
  | nil => rfl
  | cons a l ih =>
    simp only [M.forEach, M.bind]
    rw [h a (by simp)]
    exact ih fun b hb => h b (by simp [hb])

theorem runHooks_skip {b cs} {s : St} (h : hookCalls env b cs = []) : runHooks env b cs s = (.ok (), s) := by
  refine forEach_skip fun c hc => forEach_skip fun n hn => execHook_nil env ?_
  unfold hookCalls at h
  rw [List.flatMap_eq_nil_iff] at h
  have := List.filterMap_eq_nil_iff.1 (h c hc) n hn
  cases n with
  | none => rfl
  | some p => exact this

theorem hooks_nil {b cs} {s s' : St} (hr : runHooks env b cs s = (.ok (), s')) (h : hookCalls env b cs = []) :
    s'.heap = s.heap := by
  rw [runHooks_skip env h] at hr
  simp only [Prod.mk.injEq, true_and] at hr
  rw [hr]

/-! ### identifiers -/

/-- result of assigning identifiers to `ns`. -/
structure Assigned (ns : List Node) (s s' : St) (hist : Ptr → Trace) : Prop where
  frame : s' = { s with heap := s'.heap, trace := s'.trace }
  kids : s'.heap.kids = s.heap.kids
  trace : ∃ k, s'.trace = s.trace ++ List.replicate k (.newID .ok)
  keep : ∀ p, (s.heap.attr p).id ≠ 0 ∨ some p ∉ ns → s'.heap.attr p = s.heap.attr p
  gen : ∀ p, (s.heap.attr p).id = 0 → some p ∈ ns →
    s.trace.length ≤ (hist p).length ∧ (hist p).length < s'.trace.length ∧
    ∃ i, env.newID (hist p) = .ok i ∧ s'.heap.attr p = { s.heap.attr p with id := i }
  inj : ∀ p q, p ≠ q → (s.heap.attr p).id = 0 → some p ∈ ns → (s.heap.attr q).id = 0 → some q ∈ ns → hist p ≠ hist q

theorem putID_ok {n} {s s' : St} (h : putID env n s = (.ok (), s')) :
    Assigned env [n] s s' (fun _ => s.trace) := by
  unfold putID at h
  split at h
  · simp only [Prod.mk.injEq] at h; obtain ⟨_, rfl⟩ := h
    exact ⟨rfl, rfl, ⟨0, by simp⟩, fun _ _ => rfl, by simp, by simp⟩
  · next p =>
    split at h
    · next hz =>
      obtain ⟨i, s1, h1, h2⟩ := bind_ok h
      unfold M.ext at h1
      simp only [Prod.mk.injEq] at h1
      obtain ⟨h1, rfl⟩ := h1
      simp only [M.modify, Prod.mk.injEq, true_and] at h2
      subst h2
      rw [h1]
      refine ⟨rfl, rfl, ⟨1, rfl⟩, ?_, ?_, ?_⟩
      · intro q hq
        simp only [St.log, Heap.setAttr]
        split
        · next h => subst h; rcases hq with h | h
                    · exact absurd hz h
                    · simp at h
        · rfl
      · intro q _ hq
        simp only [List.mem_singleton, Option.some.injEq] at hq
        subst hq
        exact ⟨Nat.le_refl _, by simp [St.log], i, h1, by simp [St.log, Heap.setAttr]⟩
      · intro a b hab _ ha _ hb
        simp only [List.mem_singleton, Option.some.injEq] at ha hb
        exact absurd (ha.trans hb.symm) hab
    · next hz =>
      simp only [Prod.mk.injEq] at h; obtain ⟨_, rfl⟩ := h
      refine ⟨rfl, rfl, ⟨0, by simp⟩, fun _ _ => rfl, ?_, ?_⟩
      · intro q hq0 hq
        simp only [List.mem_singleton, Option.some.injEq] at hq
        subst hq
        exact absurd hq0 hz
      · intro a b hab _ ha _ hb
        simp only [List.mem_singleton, Option.some.injEq] at ha hb
        exact absurd (ha.trans hb.symm) hab

theorem Assigned.trans {n : Node} {ns : List Node} {s s1 s' : St} {h2 : Ptr → Trace}
    (a : Assigned env [n] s s1 (fun _ => s.trace)) (b : Assigned env ns s1 s' h2) :
    ∃ hist, Assigned env (n :: ns) s s' hist := by
  classical
  obtain ⟨k1, t1⟩ := a.trace
  obtain ⟨k2, t2⟩ := b.trace
  have hz1 : ∀ p, (s.heap.attr p).id = 0 → some p ∈ n :: ns → ¬ (some p ∈ ns ∧ (s1.heap.attr p).id = 0) → some p = n := by
    intro p hz hp hc
    by_contra hpn
    have hm : some p ∈ ns := by
      rcases List.mem_cons.1 hp with h | h
      · exact absurd h hpn
      · exact h
    refine hc ⟨hm, ?_⟩
    rw [a.keep p (Or.inr (by simpa using hpn))]; exact hz
  refine ⟨fun p => if some p ∈ ns ∧ (s1.heap.attr p).id = 0 then h2 p else s.trace, ?_, b.kids.trans a.kids,
    ⟨k1 + k2, by rw [t2, t1, List.append_assoc, List.replicate_append_replicate]⟩, ?_, ?_, ?_⟩
  · rw [b.frame, a.frame]
  · intro p hp
    have e1 : s1.heap.attr p = s.heap.attr p := a.keep p (by
      rcases hp with h | h
      · exact Or.inl h
      · exact Or.inr (by simp only [List.mem_cons, not_or] at h; simpa using h.1))
    rw [← e1]
    refine b.keep p ?_
    rcases hp with h | h
    · exact Or.inl (by rw [e1]; exact h)
    · exact Or.inr (by simp only [List.mem_cons, not_or] at h; exact h.2)
  · intro p hz hp
    by_cases hc : some p ∈ ns ∧ (s1.heap.attr p).id = 0
    · rw [if_pos hc]
      obtain ⟨g1, g2, i, g3, g4⟩ := b.gen p hc.2 hc.1
      refine ⟨?_, g2, i, g3, ?_⟩
      · have : s1.trace.length = s.trace.length + k1 := by rw [t1]; simp
        omega
      · rw [g4]
        by_cases hpn : some p = n
        · obtain ⟨_, _, j, _, g5⟩ := a.gen p hz (by simp [hpn])
          rw [g5]
        · rw [a.keep p (Or.inr (by simpa using hpn))]
    · rw [if_neg hc]
      have hkeep : s'.heap.attr p = s1.heap.attr p := b.keep p (by
        by_cases hm : some p ∈ ns
        · exact Or.inl (fun h => hc ⟨hm, h⟩)
        · exact Or.inr hm)
      have hpn := hz1 p hz hp hc
      obtain ⟨g1, g2, i, g3, g4⟩ := a.gen p hz (by simp [hpn])
      refine ⟨g1, ?_, i, g3, by rw [hkeep, g4]⟩
      have : s'.trace.length = s1.trace.length + k2 := by rw [t2]; simp
      omega
  · intro p q hpq hpz hp hqz hq
    have head : ∀ x, (s.heap.attr x).id = 0 → some x = n → s.trace.length < s1.trace.length := by
      intro x hx hxn
      exact (a.gen x hx (by simp [hxn])).2.1
    by_cases hc : some p ∈ ns ∧ (s1.heap.attr p).id = 0 <;> by_cases hc' : some q ∈ ns ∧ (s1.heap.attr q).id = 0
    · rw [if_pos hc, if_pos hc']
      exact b.inj p q hpq hc.2 hc.1 hc'.2 hc'.1
    · rw [if_pos hc, if_neg hc']
      have g := (b.gen p hc.2 hc.1).1
      have := head q hqz (hz1 q hqz hq hc')
      intro h; rw [h] at g; omega
    · rw [if_neg hc, if_pos hc']
      have g := (b.gen q hc'.2 hc'.1).1
      have := head p hpz (hz1 p hpz hp hc)
      intro h; rw [← h] at g; omega
    · have := (hz1 p hpz hp hc).trans (hz1 q hqz hq hc').symm
      exact absurd (by simpa using this) hpq

theorem putIDs_ok : ∀ (ns : List Node) (s s' : St), M.forEach ns (putID env) s = (.ok (), s') →
    ∃ hist, Assigned env ns s s' hist := by
  intro ns
  induction ns with
  | nil =>
    intro s s' h
    simp only [M.forEach, M.pure, Prod.mk.injEq] at h; obtain ⟨_, rfl⟩ := h
    exact ⟨fun _ => s.trace, rfl, rfl, ⟨0, by simp⟩, fun _ _ => rfl, by simp, by simp⟩
  | cons n ns ih =>
    intro s s' h
    obtain ⟨_, s1, h1, h2⟩ := bind_ok h
    obtain ⟨hist, h3⟩ := ih s1 s' h2
    exact Assigned.trans env (putID_ok env h1) h3

theorem forEach_append {α : Type} (f : α → M Unit) (l1 l2 : List α) (s : St) :
    M.forEach (l1 ++ l2) f s = M.bind (M.forEach l1 f) (fun _ => M.forEach l2 f) s := by
  induction l1 generalizing s with
  | nil => rfl
  | cons a l ih =>
    simp only [List.cons_append, M.forEach, M.bind]
    cases f a s with
    | mk r s1 =>
      cases r with
      | ok _ => exact ih s1
      | err _ => rfl
      | panic => rfl

theorem putNewID_eq (cs) (s : St) : putNewID env cs s = M.forEach (newNodes cs) (putID env) s := by
  unfold putNewID newNodes
  induction cs generalizing s with
  | nil => rfl
  | cons c cs ih =>
    simp only [M.forEach]
    by_cases hc : c.ctype = .new
    · simp only [hc, if_true, decide_true, List.filter_cons, List.flatMap_cons, forEach_append, M.bind]
      cases M.forEach c.children (putID env) s with
      | mk r s1 =>
        cases r with
        | ok _ => exact ih s1
        | err _ => rfl
        | panic => rfl
    · simp only [hc, if_false, decide_false, List.filter_cons, M.bind, M.pure]
      exact ih s

theorem putNewID_ok {cs} {s s' : St} (h : putNewID env cs s = (.ok (), s')) :
    ∃ hist, Assigned env (newNodes cs) s s' hist := by
  rw [putNewID_eq] at h
  exact putIDs_ok env _ s s' h

/-! ### conversions -/

def ActAcc.addEntry (acc : ActAcc) (e : Entry) : ActAcc := acc.add e.op e.model e.prev

theorem actStep_ok {c : Change Node} {n acc acc'} {s s' : St} (h : actStep env c n acc s = (.ok acc', s')) :
    ∃ r, Answered env s.heap ⟨n, c.parent, c.ctype.op⟩ r ∧
      s' = s.log (convCall ⟨n, c.parent, c.ctype.op⟩ r) ∧
      acc' = (entryOf s.snap ⟨n, c.parent, c.ctype.op⟩ r).toList.foldl ActAcc.addEntry acc ∧
      (r.isSome → c.ctype.op = .update → (s.snap n).isSome) := by
  unfold actStep at h
  split at h
  · simp at h
  · next e s1 hcv =>
    split at h
    · next he =>
      unfold convert at hcv
      simp only [Prod.mk.injEq] at hcv h
      obtain ⟨hr, rfl⟩ := hcv
      simp only [Res.ok.injEq] at h
      obtain ⟨rfl, rfl⟩ := h
      refine ⟨none, ⟨s.trace, e, hr, he⟩, ?_, by simp [entryOf], by simp⟩
      simp [hr, convCall, Res.stat, he]
    · simp at h
  · next m s1 hcv =>
    unfold convert at hcv
    simp only [Prod.mk.injEq] at hcv
    obtain ⟨hr, rfl⟩ := hcv
    refine ⟨some m, ⟨s.trace, hr⟩, ?_, ?_, ?_⟩
    · split at h
      · split at h
        · simp at h
        · simp only [Prod.mk.injEq] at h; rw [← h.2]; simp [hr, convCall, Res.stat]
      · simp only [Prod.mk.injEq] at h; rw [← h.2]; simp [hr, convCall, Res.stat]
    · split at h
      · next hu =>
        split at h
        · simp at h
        · next sn hsn =>
          simp only [Prod.mk.injEq, Res.ok.injEq] at h
          simp only [St.log] at hsn
          rw [← h.1]; simp [entryOf, hu, hsn, ActAcc.addEntry]
      · next hu =>
        simp only [Prod.mk.injEq, Res.ok.injEq] at h
        rw [← h.1]; simp [entryOf, hu, ActAcc.addEntry]
    · intro _ hu
      rw [if_pos hu] at h
      split at h
      · simp at h
      · next sn hsn => simp only [St.log] at hsn; simp [hsn]

/-- the calls of the converter for a list of jobs. -/
def convCalls (js : List Job) (rs : List (Option Model)) : Trace := List.zipWith convCall js rs

/-- result of converting the jobs `js`. -/
structure Converted (js : List Job) (rs : List (Option Model)) (acc acc' : ActAcc) (s s' : St) : Prop where
  ans : List.Forall₂ (Answered env s.heap) js rs
  st : s' = { s with trace := s.trace ++ convCalls js rs }
  acc : acc' = (entries s.snap js rs).foldl ActAcc.addEntry acc
  snap : ∀ j r, (j, r) ∈ js.zip rs → r.isSome → j.op = .update → (s.snap j.node).isSome

theorem Converted.append {js js' rs rs' acc acc1 acc'} {s s1 s' : St} (a : Converted env js rs acc acc1 s s1)
    (b : Converted env js' rs' acc1 acc' s1 s') : Converted env (js ++ js') (rs ++ rs') acc acc' s s' := by
  have hl := a.ans.length_eq
  have hz : (js ++ js').zip (rs ++ rs') = js.zip rs ++ js'.zip rs' := List.zip_append hl
  have hb := b.ans
  have hs := b.snap
  rw [a.st] at hb hs
  refine ⟨List.rel_append a.ans hb, ?_, ?_, ?_⟩
  · rw [b.st, a.st]
    simp only [convCalls]
    rw [List.zipWith_append hl]
    simp
  · rw [b.acc, a.acc, a.st]
    simp only [entries, hz, List.filterMap_append, List.foldl_append]
  · intro j r hjr
    rw [hz, List.mem_append] at hjr
    rcases hjr with h | h
    · exact a.snap j r h
    · exact hs j r h

theorem Converted.nil (acc : ActAcc) (s : St) : Converted env [] [] acc acc s s :=
  ⟨.nil, by simp [convCalls], by simp [entries], by simp⟩

theorem actLoop_ok {c : Change Node} : ∀ (ns : List Node) (acc acc' : ActAcc) (s s' : St),
    actLoop env c ns acc s = (.ok acc', s') →
    ∃ rs, Converted env (ns.map fun n => ⟨n, c.parent, c.ctype.op⟩) rs acc acc' s s' := by
  intro ns
  induction ns with
  | nil =>
    intro acc acc' s s' h
    simp only [actLoop, M.pure, Prod.mk.injEq, Res.ok.injEq] at h; obtain ⟨rfl, rfl⟩ := h
    exact ⟨[], .nil env _ _⟩
  | cons n ns ih =>
    intro acc acc' s s' h
    obtain ⟨acc1, s1, h1, h2⟩ := bind_ok h
    obtain ⟨r, a1, a2, a3, a4⟩ := actStep_ok env h1
    obtain ⟨rs, hrs⟩ := ih acc1 acc' s1 s' h2
    refine ⟨[r] ++ rs, Converted.append env (js := [_]) ⟨.cons a1 .nil, a2, ?_, ?_⟩ hrs⟩
    · rw [a3]
      cases h : entryOf s.snap ⟨n, c.parent, c.ctype.op⟩ r <;> simp [entries, h]
    · intro j r' hj
      simp only [List.zip_cons_cons, List.zip_nil_left, List.mem_singleton, Prod.mk.injEq] at hj
      obtain ⟨rfl, rfl⟩ := hj
      exact a4

theorem actLoops_ok : ∀ (cs : List (Change Node)) (acc acc' : ActAcc) (s s' : St),
    actLoops env cs acc s = (.ok acc', s') → ∃ rs, Converted env (jobs cs) rs acc acc' s s' := by
  intro cs
  induction cs with
  | nil =>
    intro acc acc' s s' h
    simp only [actLoops, M.pure, Prod.mk.injEq, Res.ok.injEq] at h; obtain ⟨rfl, rfl⟩ := h
    exact ⟨[], .nil env _ _⟩
  | cons c cs ih =>
    intro acc acc' s s' h
    obtain ⟨acc1, s1, h1, h2⟩ := bind_ok h
    obtain ⟨rs, a⟩ := actLoop_ok env _ _ _ _ _ h1
    obtain ⟨rs', b⟩ := ih acc1 acc' s1 s' h2
    exact ⟨rs ++ rs', by
      have := Converted.append env a b
      simpa [jobs] using this⟩

theorem makeActions_ok {cs as} {s s' : St} (h : makeActions env cs s = (.ok as, s')) :
    ∃ rs acc, Converted env (jobs cs) rs { acts := [], types := [] } acc s s' ∧ as = acc.actions := by
  obtain ⟨acc, s1, h1, h2⟩ := bind_ok h
  simp only [M.pure, Prod.mk.injEq, Res.ok.injEq] at h2
  obtain ⟨rfl, rfl⟩ := h2
  obtain ⟨rs, a⟩ := actLoops_ok env _ _ _ _ _ h1
  exact ⟨rs, acc, a, rfl⟩

/-! ### execution -/

theorem execAll_ok : ∀ (as : List Action) (s s' : St),
    M.forEach as (fun a => M.ext (fun s => env.exec s.trace a) (.exec a)) s = (.ok (), s') →
    s' = { s with trace := s.trace ++ as.map fun a => .exec a .ok } := by
  intro as
  induction as with
  | nil => intro s s' h; simp only [M.forEach, M.pure, Prod.mk.injEq] at h; obtain ⟨_, rfl⟩ := h; simp
  | cons a as ih =>
    intro s s' h
    obtain ⟨_, s1, h1, h2⟩ := bind_ok h
    unfold M.ext at h1
    simp only [Prod.mk.injEq] at h1
    obtain ⟨h1, rfl⟩ := h1
    rw [ih _ _ h2]
    simp [St.log, h1, Res.stat]

theorem exec_ok {as} {s s' : St} (h : exec env opts as s = (.ok (), s')) :
    s' = if opts.dryRun then s else
      { s with trace := s.trace ++ as.map (fun a => .exec a .ok), actions := s.actions ++ as } := by
  unfold exec at h
  split at h
  · next hd => simp only [M.pure, Prod.mk.injEq] at h; obtain ⟨_, rfl⟩ := h; simp [hd]
  · next hd =>
    obtain ⟨_, s1, h1, h2⟩ := bind_ok h
    simp only [M.modify, Prod.mk.injEq, true_and] at h2
    rw [if_neg hd, ← h2, execAll_ok env _ _ _ h1]

end Ddd
