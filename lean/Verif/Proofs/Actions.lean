import Verif.Proofs.Persist
/-! `makeActions` groups the rows into batches. -/
set_option linter.unusedVariables false
namespace Ddd
open Spec

/-- the loop state of `makeActions` after the rows `es`. -/
structure AccInv (es : List Entry) (acc : ActAcc) : Prop where
  types : acc.types = es.map fun e => e.model.typ
  keys : (acc.acts.map Prod.fst).Nodup
  acts : ∀ op t a, ((op, t), a) ∈ acc.acts ↔
    (∃ e ∈ es, e.op = op ∧ e.model.typ = t) ∧ a = batch es op t

theorem AccInv.empty : AccInv [] { acts := [], types := [] } := ⟨rfl, by simp, by simp⟩

theorem AccInv.add {es acc} (h : AccInv es acc) (e : Entry) : AccInv (es ++ [e]) (acc.addEntry e) := by
  have hany : (acc.acts.any fun x => x.1 = (e.op, e.model.typ)) = true ↔
      ∃ e' ∈ es, e'.op = e.op ∧ e'.model.typ = e.model.typ := by
    rw [List.any_eq_true]
    constructor
    · rintro ⟨⟨⟨op, t⟩, a⟩, hx, hk⟩
      simp only [decide_eq_true_eq, Prod.mk.injEq] at hk
      obtain ⟨rfl, rfl⟩ := hk
      exact ((h.acts _ _ _).1 hx).1
    · intro he
      exact ⟨((e.op, e.model.typ), batch es e.op e.model.typ), (h.acts _ _ _).2 ⟨he, rfl⟩, by simp⟩
  have hbatch : ∀ op t, batch (es ++ [e]) op t =
      if e.op = op ∧ e.model.typ = t then
        { op := op, models := (batch es op t).models ++ [e.model], prev := (batch es op t).prev ++ e.prev }
      else batch es op t := by
    intro op t
    unfold batch
    by_cases hc : e.op = op ∧ e.model.typ = t
    · simp [hc]
    · have : ¬ (e.op = op ∧ e.model.typ = t) := hc
      simp [List.filter_append, hc]
  unfold ActAcc.addEntry ActAcc.add
  by_cases ha : (acc.acts.any fun x => x.1 = (e.op, e.model.typ)) = true
  · rw [if_pos ha]
    refine ⟨by simp [h.types], ?_, ?_⟩
    · have : (List.map (fun x : (Op × Nat) × Action => if x.1 = (e.op, e.model.typ)
          then (x.1, { x.2 with models := x.2.models ++ [e.model], prev := x.2.prev ++ e.prev }) else x) acc.acts).map
            Prod.fst = acc.acts.map Prod.fst := by
        rw [List.map_map]
        apply List.map_congr_left
        intro x _
        simp only [Function.comp_def]
        split <;> rfl
      rw [this]; exact h.keys
    · intro op t a
      simp only [List.mem_map]
      rw [hbatch]
      constructor
      · rintro ⟨⟨⟨op', t'⟩, a'⟩, hx, he⟩
        have hx' := (h.acts _ _ _).1 hx
        by_cases hk : (op', t') = (e.op, e.model.typ)
        · simp only [hk, if_true, Prod.mk.injEq] at he
          simp only [Prod.mk.injEq] at hk
          obtain ⟨⟨rfl, rfl⟩, rfl⟩ := he
          obtain ⟨rfl, rfl⟩ := hk
          refine ⟨⟨e, by simp, rfl, rfl⟩, ?_⟩
          simp only [and_self, if_true]
          rw [hx'.2]
          rfl
        · simp only [hk, if_false, Prod.mk.injEq] at he
          obtain ⟨⟨rfl, rfl⟩, rfl⟩ := he
          obtain ⟨⟨e', h1, h2⟩, h3⟩ := hx'
          refine ⟨⟨e', by simp [h1], h2⟩, ?_⟩
          rw [if_neg (by rintro ⟨rfl, rfl⟩; exact hk rfl)]
          exact h3
      · rintro ⟨⟨e', h1, h2, h3⟩, ha'⟩
        by_cases hk : e.op = op ∧ e.model.typ = t
        · obtain ⟨rfl, rfl⟩ := hk
          simp only [and_self, if_true] at ha'
          refine ⟨((e.op, e.model.typ), batch es e.op e.model.typ), (h.acts _ _ _).2 ⟨hany.1 ha, rfl⟩, ?_⟩
          simp only [if_true, ha']
          rfl
        · rw [if_neg hk] at ha'
          rw [List.mem_append, List.mem_singleton] at h1
          have h1' : e' ∈ es := by
            rcases h1 with h1 | h1
            · exact h1
            · subst h1; exact absurd ⟨h2, h3⟩ hk
          refine ⟨((op, t), a), (h.acts _ _ _).2 ⟨⟨e', h1', h2, h3⟩, ha'⟩, ?_⟩
          rw [if_neg]
          simp only [Prod.mk.injEq]
          rintro ⟨rfl, rfl⟩; exact hk ⟨rfl, rfl⟩
  · rw [if_neg ha]
    have hno : ¬ ∃ e' ∈ es, e'.op = e.op ∧ e'.model.typ = e.model.typ := fun h => ha (hany.2 h)
    refine ⟨by simp [h.types], ?_, ?_⟩
    · rw [List.map_append, List.nodup_append]
      refine ⟨h.keys, by simp, ?_⟩
      intro a hm b hb
      simp only [List.map_cons, List.map_nil, List.mem_singleton] at hb
      rw [List.mem_map] at hm
      obtain ⟨⟨⟨op, t⟩, x⟩, hx, rfl⟩ := hm
      subst hb
      intro heq
      simp only [Prod.mk.injEq] at heq
      obtain ⟨rfl, rfl⟩ := heq
      exact hno ((h.acts _ _ _).1 hx).1
    · intro op t a
      rw [hbatch]
      simp only [List.mem_append, List.mem_singleton, Prod.mk.injEq]
      constructor
      · rintro (hx | ⟨⟨rfl, rfl⟩, rfl⟩)
        · obtain ⟨⟨e', h1, h2, h3⟩, h4⟩ := (h.acts _ _ _).1 hx
          refine ⟨⟨e', Or.inl h1, h2, h3⟩, ?_⟩
          rw [if_neg]
          · exact h4
          · rintro ⟨rfl, rfl⟩; exact hno ⟨e', h1, h2, h3⟩
        · refine ⟨⟨e, Or.inr rfl, rfl, rfl⟩, ?_⟩
          have hf : es.filter (fun e' => decide (e'.op = e.op ∧ e'.model.typ = e.model.typ)) = [] := by
            rw [List.filter_eq_nil_iff]
            intro x hx hd
            exact hno ⟨x, hx, by simpa using hd⟩
          simp only [batch, hf, and_self, if_true, List.map_nil, List.flatMap_nil, List.nil_append]
      · rintro ⟨⟨e', h1, h2, h3⟩, h4⟩
        by_cases hk : e.op = op ∧ e.model.typ = t
        · right
          obtain ⟨rfl, rfl⟩ := hk
          refine ⟨⟨rfl, rfl⟩, ?_⟩
          have hf : es.filter (fun e' => decide (e'.op = e.op ∧ e'.model.typ = e.model.typ)) = [] := by
            rw [List.filter_eq_nil_iff]
            intro x hx hd
            exact hno ⟨x, hx, by simpa using hd⟩
          simpa only [batch, hf, and_self, if_true, List.map_nil, List.flatMap_nil, List.nil_append] using h4
        · left
          rw [if_neg hk] at h4
          refine (h.acts _ _ _).2 ⟨⟨e', ?_, h2, h3⟩, h4⟩
          rcases h1 with h1 | h1
          · exact h1
          · subst h1; exact absurd ⟨h2, h3⟩ hk

theorem AccInv.fold (es : List Entry) : ∀ (pre : List Entry) (acc : ActAcc), AccInv pre acc →
    AccInv (pre ++ es) (es.foldl ActAcc.addEntry acc) := by
  induction es with
  | nil => intro pre acc h; simpa using h
  | cons e es ih =>
    intro pre acc h
    have := ih (pre ++ [e]) _ (h.add e)
    simpa using this

/-- the last loop of `makeActions` for one operation. -/
theorem collectOp_eq (op : Op) (F : Nat → Action) : ∀ (types : List Nat) (acts : List ((Op × Nat) × Action))
    (P : Nat → Bool), (∀ t a, ((op, t), a) ∈ acts ↔ P t = true ∧ a = F t) →
    collectOp op types acts = ((firsts types).filter P).map F := by
  intro types
  induction types with
  | nil => intro acts P h; rfl
  | cons t ts ih =>
    intro acts P h
    unfold collectOp firsts
    have hrest : ∀ (l : List Nat) (Q : Nat → Bool), (l.filter fun x => decide (x ≠ t)).filter Q =
        l.filter fun x => Q x && decide (x ≠ t) := by
      intro l Q; rw [List.filter_filter]
    cases hf : acts.find? (fun x => x.1 = (op, t)) with
    | none =>
      have hP : P t = false := by
        by_contra hP
        have hP : P t = true := by simpa using hP
        have := (h t (F t)).2 ⟨hP, rfl⟩
        have := List.find?_eq_none.1 hf _ this
        simp at this
      rw [ih acts P h]
      simp only [List.filter_cons, hP, Bool.false_eq_true, if_false, hrest]
      congr 1
      apply List.filter_congr
      intro x _
      by_cases hx : x = t
      · subst hx; simp [hP]
      · simp [hx]
    | some x =>
      obtain ⟨⟨op', t'⟩, a⟩ := x
      have h1 := List.find?_some hf
      have h2 := List.mem_of_find?_eq_some hf
      simp only [decide_eq_true_eq, Prod.mk.injEq] at h1
      obtain ⟨rfl, rfl⟩ := h1
      obtain ⟨hP, rfl⟩ := (h _ _).1 h2
      dsimp only
      rw [ih _ (fun x => P x && decide (x ≠ t'))]
      · simp only [List.filter_cons, hP, if_true, List.map_cons, hrest]
      · intro u a
        simp only [List.mem_filter, h, decide_eq_true_eq, Bool.and_eq_true, ne_eq, Prod.mk.injEq, true_and]
        constructor
        · rintro ⟨⟨h1, h2⟩, h3⟩; exact ⟨⟨h1, h3⟩, h2⟩
        · rintro ⟨⟨h1, h3⟩, h2⟩; exact ⟨⟨h1, h2⟩, h3⟩

theorem actions_eq (es : List Entry) : (es.foldl ActAcc.addEntry { acts := [], types := [] }).actions = batches es := by
  have h := AccInv.fold es [] _ AccInv.empty
  rw [List.nil_append] at h
  unfold ActAcc.actions batches
  congr 1
  funext op
  rw [collectOp_eq op (batch es op) _ _ (fun t => es.any fun e => decide (e.op = op ∧ e.model.typ = t)), h.types]
  intro t a
  rw [h.acts]
  simp

variable (env : Env) (opts : Opts)

/-- complete description of a successful save. -/
theorem persist_effect {s s' : St} (h : persist env opts s = (.ok (), s')) :
    ∃ (cs : List (Change Node)) (h1 h2 : Heap) (k : Nat) (rs : List (Option Model)) (hist : Ptr → Trace),
      entityChanges env opts s = some cs ∧
      List.Forall₂ (Answered env h2) (jobs cs) rs ∧
      s'.trace = s.trace ++ hookCalls env true cs ++ List.replicate k (.newID .ok) ++ convCalls (jobs cs) rs ++
        (if opts.dryRun then [] else (batches (entries s.snap (jobs cs) rs)).map fun a => .exec a .ok) ++
        hookCalls env false cs ∧
      s'.snap = s.snap ∧ s'.roots = s.roots ∧ s'.errs = s.errs ∧ s'.output = s.output ∧ s'.eventCtx = s.eventCtx ∧
      s'.actions = (if opts.dryRun then s.actions else s.actions ++ batches (entries s.snap (jobs cs) rs)) ∧
      s'.deleted = s.deleted ++ (cs.filter fun c => decide (c.ctype = .delete)).flatMap Change.children ∧
      (∀ j r, (j, r) ∈ (jobs cs).zip rs → r.isSome → j.op = .update → (s.snap j.node).isSome) ∧
      Assigned env (newNodes cs) { s with heap := h1, trace := s.trace ++ hookCalls env true cs }
        { s with heap := h2, trace := s.trace ++ hookCalls env true cs ++ List.replicate k (.newID .ok) } hist ∧
      (hookCalls env true cs = [] → h1 = s.heap) ∧ (hookCalls env false cs = [] → s'.heap = h2) := by
  obtain ⟨cs, as, s1, s2, s3, s4, s5, hch, hbefore, hids, hacts, hexec, hafter, hfin⟩ := persist_ok env opts h
  obtain ⟨f1, t1⟩ := runHooks_ok env hbefore
  obtain ⟨hist, A⟩ := putNewID_ok env hids
  obtain ⟨rs, acc, C, has⟩ := makeActions_ok env hacts
  have e4 := exec_ok env opts hexec
  obtain ⟨f5, t5⟩ := runHooks_ok env hafter
  simp only [recycle, M.modify, Prod.mk.injEq, true_and] at hfin
  obtain ⟨k, hk⟩ := A.trace
  have f2 := A.frame
  have hs1 : s1 = { s with heap := s1.heap, trace := s.trace ++ hookCalls env true cs } := by
    rw [← t1]; exact f1
  have hs2 : s2 = { s with heap := s2.heap, trace := s.trace ++ hookCalls env true cs ++ List.replicate k (.newID .ok) } := by
    rw [← t1, ← hk, f2, f1]
  have hsnap2 : s2.snap = s.snap := by rw [hs2]
  have hact : as = batches (entries s.snap (jobs cs) rs) := by
    rw [has, C.acc, hsnap2, actions_eq]
  have hs3 := C.st
  have hA1 := hooks_nil env hbefore
  have hA2 := hooks_nil env hafter
  have hCs := C.snap
  have hCa := C.ans
  clear C has hacts hexec hids hbefore hafter f1 t1 hk f2
  rw [hs1, hs2] at A
  generalize s1.heap = h1 at *
  generalize s2.heap = h2 at *
  generalize s5.heap = h5 at *
  have hh4 : s4.heap = h2 := by rw [e4, hs3, hs2]; split <;> rfl
  refine ⟨cs, h1, h2, k, rs, hist, hch, hCa, ?_⟩
  subst hfin
  rw [hsnap2] at hCs
  rw [hh4] at hA2
  have q1 : s4.snap = s.snap := by rw [e4, hs3, hs2]; split <;> rfl
  have q2 : s4.roots = s.roots := by rw [e4, hs3, hs2]; split <;> rfl
  have q3 : s4.errs = s.errs := by rw [e4, hs3, hs2]; split <;> rfl
  have q4 : s4.output = s.output := by rw [e4, hs3, hs2]; split <;> rfl
  have q5 : s4.eventCtx = s.eventCtx := by rw [e4, hs3, hs2]; split <;> rfl
  have q6 : s4.deleted = s.deleted := by rw [e4, hs3, hs2]; split <;> rfl
  have q7 : s4.actions = if opts.dryRun then s.actions else s.actions ++ batches (entries s.snap (jobs cs) rs) := by
    rw [e4, hs3, hs2, ← hact]; split <;> rfl
  have q8 : s4.trace = s.trace ++ hookCalls env true cs ++ List.replicate k (.newID .ok) ++ convCalls (jobs cs) rs ++
        (if opts.dryRun then [] else (batches (entries s.snap (jobs cs) rs)).map fun a => .exec a .ok) := by
    rw [e4, hs3, hs2, ← hact]; split <;> simp
  have p1 : s5.snap = s4.snap := by rw [f5]
  have p2 : s5.roots = s4.roots := by rw [f5]
  have p3 : s5.errs = s4.errs := by rw [f5]
  have p4 : s5.output = s4.output := by rw [f5]
  have p5 : s5.eventCtx = s4.eventCtx := by rw [f5]
  have p6 : s5.deleted = s4.deleted := by rw [f5]
  have p7 : s5.actions = s4.actions := by rw [f5]
  exact ⟨by rw [t5, q8], p1.trans q1, p2.trans q2, p3.trans q3, p4.trans q4, p5.trans q5, p7.trans q7,
    by simp only [p6, q6], hCs, A, hA1, hA2⟩

end Ddd
