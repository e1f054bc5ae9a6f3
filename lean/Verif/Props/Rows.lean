import Verif.Props.Changes
/-!
# C06, C07, C60: identifiers, write batches and hooks of a save
-/
set_option linter.unusedVariables false
namespace Ddd
open Spec

variable (env : Env) (opts : Opts)

/-! ## Facts about batches -/

theorem firsts_mem {l : List Nat} {x : Nat} : x ∈ firsts l ↔ x ∈ l := by
  induction l with
  | nil => simp [firsts]
  | cons a l ih =>
    simp only [firsts, List.mem_cons, List.mem_filter, ih, decide_eq_true_eq]
    constructor
    · rintro (h | ⟨h, _⟩)
      · exact Or.inl h
      · exact Or.inr h
    · rintro (h | h)
      · exact Or.inl h
      · by_cases hx : x = a
        · exact Or.inl hx
        · exact Or.inr ⟨h, hx⟩

theorem firsts_nodup (l : List Nat) : (firsts l).Nodup := by
  induction l with
  | nil => simp [firsts]
  | cons a l ih =>
    simp only [firsts, List.nodup_cons, List.mem_filter, decide_eq_true_eq]
    exact ⟨fun h => h.2 rfl, ih.filter _⟩

theorem mem_batches {es : List Entry} {a : Action} : a ∈ batches es ↔
    ∃ op t, op ∈ [Op.insert, .update, .delete] ∧ (∃ e ∈ es, e.op = op ∧ e.model.typ = t) ∧ a = batch es op t := by
  simp only [batches, List.mem_flatMap, List.mem_map, List.mem_filter, firsts_mem, List.any_eq_true, decide_eq_true_eq]
  constructor
  · rintro ⟨op, hop, t, ⟨_, he⟩, rfl⟩; exact ⟨op, t, hop, he, rfl⟩
  · rintro ⟨op, t, hop, ⟨e, he, h1, h2⟩, rfl⟩; exact ⟨op, hop, t, ⟨⟨e, he, h2⟩, e, he, h1, h2⟩, rfl⟩

/-- splitting a list by a classification. -/
theorem count_classify {α : Type} (es : List Entry) (ts : List Nat) (hts : ts.Nodup) (op : Op) (f : Entry → Bool) :
    (ts.map fun t => (es.filter fun e => decide (e.op = op ∧ e.model.typ = t)).countP f).sum =
      (es.filter fun e => decide (e.op = op ∧ e.model.typ ∈ ts)).countP f := by
  induction es with
  | nil => simp
  | cons e es ih =>
    simp only [List.countP_filter] at ih ⊢
    simp only [List.countP_cons]
    have : ∀ l : List Nat, l.Nodup → (l.map fun t => (List.countP (fun e => f e && decide (e.op = op ∧ e.model.typ = t)) es +
        if (f e && decide (e.op = op ∧ e.model.typ = t)) = true then 1 else 0)).sum =
        (l.map fun t => List.countP (fun e => f e && decide (e.op = op ∧ e.model.typ = t)) es).sum +
        if (f e && decide (e.op = op ∧ e.model.typ ∈ l)) = true then 1 else 0 := by
      intro l
      induction l with
      | nil => intro _; simp
      | cons t l ihl =>
        intro hnd
        rw [List.nodup_cons] at hnd
        simp only [List.map_cons, List.sum_cons]
        rw [ihl hnd.2]
        by_cases hf : f e = true
        · by_cases ho : e.op = op
          · by_cases ht : e.model.typ = t
            · have : e.model.typ ∉ l := by rw [ht]; exact hnd.1
              simp [hf, ho, ht, hnd.1]; omega
            · by_cases hm : e.model.typ ∈ l
              · simp [hf, ho, ht, hm]; omega
              · simp [hf, ho, ht, hm]
          · simp [hf, ho]
        · simp [hf]
    rw [this ts hts, ih]

/-- **C07** (spec-level facts) For rows `es`, the batches have these properties. -/
structure WellBatched (es : List Entry) (as : List Action) : Prop where
  /-- every row is in exactly one batch, and nothing else is -/
  complete : ∀ op ∈ [Op.insert, .update, .delete], ∀ m : Model,
    ((as.filter fun a => decide (a.op = op)).map fun a => a.models.count m).sum =
      es.countP fun e => decide (e.op = op ∧ e.model = m)
  /-- no empty batch -/
  nonempty : ∀ a ∈ as, a.models ≠ []
  /-- all rows of a batch have one type, and rows keep their order -/
  uniform : ∀ a ∈ as, ∃ t, a.models = (es.filter fun e => decide (e.op = a.op ∧ e.model.typ = t)).map Entry.model
  /-- one batch per operation and type -/
  distinct : as.Pairwise fun a b => a.op = b.op → ∀ m ∈ a.models, ∀ m' ∈ b.models, m.typ ≠ m'.typ
  /-- inserts before updates before deletes -/
  ordered : as.Pairwise fun a b => ¬ (a.op = .delete ∧ b.op ≠ .delete) ∧ ¬ (a.op = .update ∧ b.op = .insert)

theorem batch_op (es : List Entry) (op : Op) (t : Nat) : (batch es op t).op = op := rfl

theorem wellBatched (es : List Entry) : WellBatched es (batches es) where
  complete := by
    intro op hop m
    have hfilter : (batches es).filter (fun a => decide (a.op = op)) =
        ((firsts (es.map fun e => e.model.typ)).filter fun t => es.any fun e => decide (e.op = op ∧ e.model.typ = t)).map
          (batch es op) := by
      unfold batches
      rw [List.filter_flatMap]
      have : ∀ o, ((List.map (batch es o) ((firsts (es.map fun e => e.model.typ)).filter fun t =>
          es.any fun e => decide (e.op = o ∧ e.model.typ = t))).filter fun a => decide (a.op = op)) =
          if o = op then (List.map (batch es o) ((firsts (es.map fun e => e.model.typ)).filter fun t =>
          es.any fun e => decide (e.op = o ∧ e.model.typ = t))) else [] := by
        intro o
        by_cases ho : o = op
        · rw [if_pos ho, List.filter_eq_self]
          intro a ha
          rw [List.mem_map] at ha
          obtain ⟨t, _, rfl⟩ := ha
          simp [batch_op, ho]
        · rw [if_neg ho, List.filter_eq_nil_iff]
          intro a ha
          rw [List.mem_map] at ha
          obtain ⟨t, _, rfl⟩ := ha
          simp [batch_op, ho]
      simp only [this]
      simp only [List.mem_cons, List.not_mem_nil, or_false] at hop
      rcases hop with rfl | rfl | rfl <;> simp
    rw [hfilter, List.map_map]
    have hts : ((firsts (es.map fun e => e.model.typ)).filter fun t =>
        es.any fun e => decide (e.op = op ∧ e.model.typ = t)).Nodup := (firsts_nodup _).filter _
    have := count_classify (α := Unit) es _ hts op (fun e => e.model == m)
    have hc : ∀ t, (batch es op t).models.count m =
        (es.filter fun e => decide (e.op = op ∧ e.model.typ = t)).countP fun e => e.model == m := by
      intro t
      simp only [batch, List.count, List.countP_map, Function.comp_def]
    simp only [Function.comp_def, hc]
    rw [this, List.countP_filter]
    apply List.countP_congr
    intro e he
    simp only [Bool.and_eq_true, beq_iff_eq, decide_eq_true_eq, List.mem_filter, firsts_mem, List.mem_map, List.any_eq_true]
    constructor
    · rintro ⟨h1, h2, _⟩; exact ⟨h2, h1⟩
    · rintro ⟨h1, h2⟩; exact ⟨h2, h1, ⟨e, he, rfl⟩, e, he, h1, rfl⟩
  nonempty := by
    intro a ha
    obtain ⟨op, t, _, ⟨e, he, h1, h2⟩, rfl⟩ := mem_batches.1 ha
    have : e ∈ es.filter fun e => decide (e.op = op ∧ e.model.typ = t) := by simp [he, h1, h2]
    simp only [batch, ne_eq, List.map_eq_nil_iff]
    exact List.ne_nil_of_mem this
  uniform := by
    intro a ha
    obtain ⟨op, t, _, _, rfl⟩ := mem_batches.1 ha
    exact ⟨t, rfl⟩
  distinct := by
    have typ_of : ∀ op t m, m ∈ (batch es op t).models → m.typ = t := by
      intro op t m hm
      simp only [batch, List.mem_map, List.mem_filter, decide_eq_true_eq] at hm
      obtain ⟨e, ⟨_, _, h⟩, rfl⟩ := hm
      exact h
    unfold batches
    rw [List.pairwise_flatMap]
    refine ⟨?_, ?_⟩
    · intro op _
      rw [List.pairwise_map]
      refine ((firsts_nodup _).filter _).imp ?_
      intro t t' hne _ m hm m' hm' heq
      exact hne ((typ_of op t m hm).symm.trans (heq.trans (typ_of op t' m' hm')))
    · have : [Op.insert, .update, .delete].Pairwise (· ≠ ·) := by decide
      refine this.imp ?_
      intro o o' hne a ha b hb heq
      rw [List.mem_map] at ha hb
      obtain ⟨t, _, rfl⟩ := ha
      obtain ⟨t', _, rfl⟩ := hb
      exact absurd heq hne
  ordered := by
    unfold batches
    rw [List.pairwise_flatMap]
    refine ⟨?_, ?_⟩
    · intro op _
      rw [List.pairwise_map]
      apply List.pairwise_of_forall
      intro t t'
      simp only [batch_op]
      cases op <;> simp
    · have : [Op.insert, .update, .delete].Pairwise fun o o' => ¬ (o = .delete ∧ o' ≠ .delete) ∧ ¬ (o = .update ∧ o' = .insert) := by
        decide
      refine this.imp ?_
      intro o o' h a ha b hb
      rw [List.mem_map] at ha hb
      obtain ⟨t, _, rfl⟩ := ha
      obtain ⟨t', _, rfl⟩ := hb
      exact h

/-- every row of a save comes from a job, and updates carry the snapshot. -/
theorem entries_spec (snap : Node → Option Snap) (js : List Job) (rs : List (Option Model)) {e : Entry} (he : e ∈ entries snap js rs) :
    ∃ j m, (j, some m) ∈ js.zip rs ∧ e.op = j.op ∧ e.model = m ∧
      e.prev = if j.op = .update then [(snap j.node).bind Snap.po] else [] := by
  simp only [entries, List.mem_filterMap] at he
  obtain ⟨⟨j, r⟩, hm, h⟩ := he
  cases r with
  | none => simp [entryOf] at h
  | some m =>
    simp only [entryOf, Option.map_some, Option.some.injEq] at h
    subst h
    exact ⟨j, m, hm, rfl, rfl, rfl⟩

theorem batch_prev (snap : Node → Option Snap) (js : List Job) (rs : List (Option Model)) {a : Action}
    (ha : a ∈ batches (entries snap js rs)) :
    (a.op = .update → ∃ es' : List Entry, (∀ e ∈ es', e ∈ entries snap js rs ∧ e.op = .update) ∧ a.models = es'.map Entry.model ∧
      a.prev = es'.flatMap Entry.prev ∧ a.prev.length = a.models.length) ∧ (a.op ≠ .update → a.prev = []) := by
  obtain ⟨op, t, _, _, rfl⟩ := mem_batches.1 ha
  refine ⟨?_, ?_⟩
  · intro hop
    have hop : op = .update := hop
    subst hop
    refine ⟨(entries snap js rs).filter fun e => decide (e.op = .update ∧ e.model.typ = t), ?_, rfl, rfl, ?_⟩
    · intro e he
      simp only [List.mem_filter, decide_eq_true_eq] at he
      exact ⟨he.1, he.2.1⟩
    · simp only [batch, List.length_map, List.length_flatMap]
      have : ∀ l : List Entry, (∀ e ∈ l, e ∈ entries snap js rs ∧ e.op = .update) →
          (l.map fun e => e.prev.length).sum = l.length := by
        intro l
        induction l with
        | nil => intro _; rfl
        | cons e l ih =>
          intro h
          obtain ⟨j, m, _, h1, _, h3⟩ := entries_spec snap js rs (h e (by simp)).1
          have : e.prev.length = 1 := by
            rw [h3, if_pos]
            · rfl
            · rw [← h1]; exact (h e (by simp)).2
          simp only [List.map_cons, List.sum_cons, this, List.length_cons]
          rw [ih fun x hx => h x (by simp [hx])]
          omega
      apply this
      intro e he
      simp only [List.mem_filter, decide_eq_true_eq] at he
      exact ⟨he.1, he.2.1⟩
  · intro hop
    have hop : op ≠ .update := hop
    simp only [batch, List.flatMap_eq_nil_iff, List.mem_filter, decide_eq_true_eq]
    rintro e ⟨he, h1, _⟩
    obtain ⟨j, m, _, h2, _, h3⟩ := entries_spec snap js rs he
    rw [h3, if_neg]
    rw [← h2, h1]; exact hop

theorem written_convCalls (js : List Job) (rs : List (Option Model)) : written (convCalls js rs) = [] := by
  apply written_none
  intro a st h
  obtain ⟨_, _, _, h⟩ := mem_zipWith' h
  simp [convCall] at h

theorem written_hookCalls (b : Bool) (cs : List (Change Node)) : written (hookCalls env b cs) = [] := by
  apply written_none
  intro a st h
  obtain ⟨_, _, h, _⟩ := hookCalls_hook env h
  cases h

theorem written_exec (as : List Action) : written (as.map fun a => Call.exec a .ok) = as := by
  induction as with
  | nil => rfl
  | cons a as ih => simp [written]

theorem written_zip (as : List Action) (sts : List Stat) (h : sts.length = as.length) :
    written (List.zipWith Call.exec as sts) = as := by
  induction as generalizing sts with
  | nil => simp [written]
  | cons a as ih =>
    cases sts with
    | nil => simp at h
    | cons st sts =>
      have := ih sts (by simpa using h)
      simpa [written] using this

/-- **C07** A successful save (not in dry-run mode): each requested entity was answered by the converter with a model or as
unregistered (`rs`); the writes handed to the executor are exactly the resulting rows, batched by operation and type
(`WellBatched`), updates with aligned previous models from the snapshot, inserts and deletes without. -/
theorem C07_every_row_written {s s' : St} (h : persist env opts s = (.ok (), s')) (hd : opts.dryRun = false) :
    ∃ (t : Trace) (rs : List (Option Model)) (h2 : Heap), s'.trace = s.trace ++ t ∧
      List.Forall₂ (Answered env h2) (asked t) rs ∧
      WellBatched (entries s.snap (asked t) rs) (written t) ∧
      (∀ a ∈ written t, a.op = .update → ∃ es' : List Entry,
        (∀ e ∈ es', e ∈ entries s.snap (asked t) rs ∧ e.op = .update) ∧ a.models = es'.map Entry.model ∧
        a.prev = es'.flatMap Entry.prev ∧ a.prev.length = a.models.length) ∧
      (∀ a ∈ written t, a.op ≠ .update → a.prev = []) ∧
      s'.actions = s.actions ++ written t := by
  obtain ⟨cs, h1, h2, k, rs, hist, hc, ha, ht, hsn, _, _, _, _, hact, _⟩ := persist_effect env opts h
  obtain ⟨cs', t, hc', ht', hask⟩ := save_calls env opts h
  rw [hc] at hc'
  simp only [Option.some.injEq] at hc'
  subst hc'
  have hw : written t = batches (entries s.snap (jobs cs) rs) := by
    have : t = hookCalls env true cs ++ List.replicate k (.newID .ok) ++ convCalls (jobs cs) rs ++
        ((batches (entries s.snap (jobs cs) rs)).map fun a => .exec a .ok) ++ hookCalls env false cs := by
      rw [ht'] at ht
      simp only [hd, Bool.false_eq_true, if_false, List.append_assoc, List.append_cancel_left_eq] at ht
      simp only [List.append_assoc]; exact ht
    rw [this]
    simp only [written_append, written_hookCalls, written_convCalls, written_exec]
    rw [written_none (t := List.replicate k (.newID .ok))]
    · simp
    · intro a st h; have := List.eq_of_mem_replicate h; cases this
  refine ⟨t, rs, h2, ht', by rw [hask]; exact ha, ?_, ?_, ?_, ?_⟩
  · rw [hask, hw]; exact wellBatched _
  · intro a ham hop
    rw [hw] at ham
    rw [hask]
    exact (batch_prev _ _ _ ham).1 hop
  · intro a ham hop
    rw [hw] at ham
    exact (batch_prev _ _ _ ham).2 hop
  · rw [hact, hd, hw]; rfl

/-- the writes of any save, successful or not, are a prefix of the batches of its rows. -/
theorem C07_failing_save_writes_prefix (s : St) :
    ∃ t, (persist env opts s).2.trace = s.trace ++ t ∧
      (written t = [] ∨ ∃ (rs : List (Option Model)) (h2 : Heap),
        List.Forall₂ (Answered env h2) (asked t) rs ∧ written t <+: batches (entries s.snap (asked t) rs)) := by
  rcases persist_writes env opts s with ⟨t, ht, hno⟩ | ⟨cs, h1, h2, k, m, rs, hist, sts, ta, hd, hc, ha, ht, hl, _, hta, _⟩
  · exact ⟨t, ht, Or.inl (written_none hno)⟩
  · refine ⟨_, by rw [ht]; simp only [List.append_assoc]; rfl, Or.inr ⟨rs, h2, ?_, ?_⟩⟩
    all_goals
      simp only [asked_append, written_append, written_hookCalls, written_convCalls, List.nil_append]
      rw [asked_none (t := hookCalls env true cs), asked_none (t := List.replicate k (.newID .ok)),
        asked_none (t := ta), asked_convCalls _ _ ha.length_eq (fun j hj => jobs_op hj),
        asked_none (t := List.zipWith Call.exec _ sts)]
    · simpa using ha
    · intro c hc; obtain ⟨_, _, _, rfl⟩ := mem_zipWith' hc; simp [Call.IsConv]
    · intro c hc; have := hta c hc; intro h; cases c <;> simp_all [Call.IsHook, Call.IsConv]
    · intro c hc; rw [List.eq_of_mem_replicate hc]; simp [Call.IsConv]
    · intro c hc; obtain ⟨p, ct, rfl, _⟩ := hookCalls_hook env hc; simp [Call.IsConv]
    · simp only [List.nil_append, List.append_nil]
      rw [written_none (t := List.replicate k (.newID .ok)), written_zip _ _ hl, written_none (t := ta)]
      · simpa using List.take_prefix _ _
      · intro a st h; have := hta _ h; simp [Call.IsHook] at this
      · intro a st h; have := List.eq_of_mem_replicate h; cases this
    · intro c hc; obtain ⟨_, _, _, rfl⟩ := mem_zipWith' hc; simp [Call.IsConv]
    · intro c hc; have := hta c hc; intro h; cases c <;> simp_all [Call.IsHook, Call.IsConv]
    · intro c hc; rw [List.eq_of_mem_replicate hc]; simp [Call.IsConv]
    · intro c hc; obtain ⟨p, ct, rfl, _⟩ := hookCalls_hook env hc; simp [Call.IsConv]

/-! ## C06 -/

theorem mem_newNodes {cs : List (Change Node)} {n : Node} : n ∈ newNodes cs ↔ ∃ p, (⟨n, p, .insert⟩ : Job) ∈ jobs cs := by
  simp only [newNodes, List.mem_flatMap, List.mem_filter, decide_eq_true_eq, mem_jobs]
  constructor
  · rintro ⟨c, ⟨h1, h2⟩, h3⟩; exact ⟨c.parent, c, h1, by rw [h2]; rfl, rfl, h3⟩
  · rintro ⟨p, c, h1, h2, _, h3⟩
    refine ⟨c, ⟨h1, ?_⟩, h3⟩
    cases hc : c.ctype <;> simp_all [ChangeType.op]

/-- **C06** In every save that reaches the executor (also one that fails later): `h1` being the objects after the Before hooks and
`h2` the objects when the models are built, entities keep the identifiers they had and get nothing else changed; only
inserted entities without identifier get one; with a generator that never returns the empty identifier every
inserted entity has one when any model is built (all models are built from `h2`); and with a generator that never repeats
itself, generated identifiers are pairwise distinct. -/
theorem C06_identifiers (s : St) :
    ∃ t, (persist env opts s).2.trace = s.trace ++ t ∧ (written t ≠ [] →
      ∃ (h1 h2 : Heap) (rs : List (Option Model)),
        List.Forall₂ (Answered env h2) (asked t) rs ∧
        (∀ p, (h1.attr p).id ≠ 0 → h2.attr p = h1.attr p) ∧
        (∀ p, (∀ par, (⟨some p, par, .insert⟩ : Job) ∉ asked t) → h2.attr p = h1.attr p) ∧
        (∀ p, (h2.attr p) = { h1.attr p with id := (h2.attr p).id }) ∧
        h2.kids = h1.kids ∧
        ((∀ tr, env.newID tr ≠ .ok 0) → ∀ p par, (⟨some p, par, .insert⟩ : Job) ∈ asked t → (h2.attr p).id ≠ 0) ∧
        ((∀ tr tr' i, tr ≠ tr' → env.newID tr = .ok i → env.newID tr' ≠ .ok i) →
          ∀ p q, p ≠ q → (h1.attr p).id = 0 → (h1.attr q).id = 0 →
            (∃ par, (⟨some p, par, .insert⟩ : Job) ∈ asked t) → (∃ par, (⟨some q, par, .insert⟩ : Job) ∈ asked t) →
            (h2.attr p).id ≠ (h2.attr q).id)) := by
  rcases persist_writes env opts s with ⟨t, ht, hno⟩ | ⟨cs, h1, h2, k, m, rs, hist, sts, ta, hd, hc, ha, ht, hl, _, hta, A, _⟩
  · exact ⟨t, ht, fun h => absurd (written_none hno) h⟩
  · refine ⟨_, by rw [ht]; simp only [List.append_assoc]; rfl, fun _ => ⟨h1, h2, rs, ?_⟩⟩
    have hask : asked (hookCalls env true cs ++ (List.replicate k (.newID .ok) ++ (convCalls (jobs cs) rs ++
        (List.zipWith Call.exec ((batches (entries s.snap (jobs cs) rs)).take m) sts ++ ta)))) = jobs cs := by
      simp only [asked_append]
      rw [asked_none (t := hookCalls env true cs), asked_none (t := List.replicate k (.newID .ok)),
        asked_none (t := ta), asked_convCalls _ _ ha.length_eq (fun j hj => jobs_op hj),
        asked_none (t := List.zipWith Call.exec _ sts)]
      · simp
      · intro c hc; obtain ⟨_, _, _, rfl⟩ := mem_zipWith' hc; simp [Call.IsConv]
      · intro c hc; have := hta c hc; intro h; cases c <;> simp_all [Call.IsHook, Call.IsConv]
      · intro c hc; rw [List.eq_of_mem_replicate hc]; simp [Call.IsConv]
      · intro c hc; obtain ⟨p, ct, rfl, _⟩ := hookCalls_hook env hc; simp [Call.IsConv]
    rw [hask]
    have hkeep := A.keep
    have hgen := A.gen
    have hinj := A.inj
    simp only at hkeep hgen hinj
    refine ⟨ha, fun p hp => hkeep p (Or.inl hp), ?_, ?_, A.kids, ?_, ?_⟩
    · intro p hp
      refine hkeep p (Or.inr ?_)
      rw [mem_newNodes]
      rintro ⟨par, h⟩
      exact hp par h
    · intro p
      by_cases h0 : (h1.attr p).id = 0 ∧ some p ∈ newNodes cs
      · obtain ⟨_, _, i, _, h⟩ := hgen p h0.1 h0.2
        rw [h]
      · rw [hkeep p]
        by_contra hcon
        rw [not_or] at hcon
        exact h0 ⟨by simpa using hcon.1, by simpa using hcon.2⟩
    · intro hz p par hp
      by_cases h0 : (h1.attr p).id = 0
      · obtain ⟨_, _, i, hi, h⟩ := hgen p h0 (mem_newNodes.2 ⟨par, hp⟩)
        rw [h]
        simp only
        rintro rfl
        exact hz _ hi
      · rw [hkeep p (Or.inl h0)]; exact h0
    · intro hrep p q hpq hp0 hq0 hp hq
      obtain ⟨_, _, i, hi, h⟩ := hgen p hp0 (mem_newNodes.2 hp)
      obtain ⟨_, _, j, hj, h'⟩ := hgen q hq0 (mem_newNodes.2 hq)
      rw [h, h']
      simp only
      rintro rfl
      exact hrep _ _ i (hinj p q hpq hp0 (mem_newNodes.2 hp) hq0 (mem_newNodes.2 hq)) hi hj

/-! ## C60 -/

/-- **C60** A successful save calls, for every changed entity, the hook of the matching kind its type implements exactly once
before and once after the writes, and no other hook: `t = before hooks ++ middle ++ after hooks`, with all writes in the
middle and no hook there. -/
theorem C60_hooks_exact {s s' : St} (h : persist env opts s = (.ok (), s')) :
    ∃ cs mid, entityChanges env opts s = some cs ∧
      s'.trace = s.trace ++ hookCalls env true cs ++ mid ++ hookCalls env false cs ∧
      (∀ c ∈ mid, ∀ n kind st, c ≠ .hook n kind st) ∧
      (opts.recursiveDelete = false → ∀ b p ct, (hookCalls env b cs).count (.hook (some p) ⟨ct, b⟩ .ok) =
        if env.hasHook p ⟨ct, b⟩ = true ∧ ct ≠ .clear ∧ (∃ ch ∈ cs, ch.ctype = ct ∧ some p ∈ ch.children) then 1 else 0) := by
  obtain ⟨cs, h1, h2, k, rs, hist, hc, ha, ht, _⟩ := persist_effect env opts h
  refine ⟨cs, List.replicate k (.newID .ok) ++ convCalls (jobs cs) rs ++
      (if opts.dryRun then [] else (batches (entries s.snap (jobs cs) rs)).map fun a => .exec a .ok), hc, ?_, ?_, ?_⟩
  · rw [ht]; simp only [List.append_assoc]
  · intro c hcm n kind st
    rcases List.mem_append.1 hcm with hcm | hcm
    · rcases List.mem_append.1 hcm with hcm | hcm
      · rw [List.eq_of_mem_replicate hcm]; simp
      · obtain ⟨_, _, _, rfl⟩ := mem_zipWith' hcm; simp [convCall]
    · split at hcm
      · simp at hcm
      · rw [List.mem_map] at hcm; obtain ⟨a, _, rfl⟩ := hcm; simp
  · intro hr b p ct
    have hnd := changes_nodup env opts hc hr
    rw [jobs_nodes] at hnd
    -- counting in one flatMap
    have key : ∀ cs : List (Change Node), (cs.flatMap Change.children).Nodup →
        (hookCalls env b cs).count (.hook (some p) ⟨ct, b⟩ .ok) ≤ 1 := by
      intro cs hnd
      have hn : (hookCalls env b cs).Nodup := by
        unfold hookCalls
        rw [List.nodup_flatMap] at hnd ⊢
        refine ⟨?_, ?_⟩
        · intro c hc
          refine List.Nodup.filterMap ?_ (hnd.1 c hc)
          intro x y z hx hy
          cases x with
          | none => simp at hx
          | some x =>
            cases y with
            | none => simp at hy
            | some y =>
              simp only [Option.mem_def] at hx hy
              split at hx
              · split at hy
                · simp only [Option.some.injEq] at hx hy
                  rw [← hx] at hy
                  simp only [Call.hook.injEq] at hy
                  exact hy.1.symm
                · simp at hy
              · simp at hx
        · refine hnd.2.imp ?_
          intro a c hac x hx hy
          simp only [List.mem_filterMap] at hx hy
          obtain ⟨n, hn, hx⟩ := hx
          obtain ⟨m, hm, hy⟩ := hy
          cases n with
          | none => simp at hx
          | some n =>
            cases m with
            | none => simp at hy
            | some m =>
              dsimp only at hx hy
              split at hx
              · split at hy
                · simp only [Option.some.injEq] at hx hy
                  rw [← hx] at hy
                  simp only [Call.hook.injEq] at hy
                  rw [hy.1] at hm
                  exact hac hn hm
                · simp at hy
              · simp at hx
      exact List.nodup_iff_count_le_one.1 hn _
    by_cases hcond : env.hasHook p ⟨ct, b⟩ = true ∧ ct ≠ .clear ∧ (∃ ch ∈ cs, ch.ctype = ct ∧ some p ∈ ch.children)
    · rw [if_pos hcond]
      obtain ⟨h1, h2, ch, h3, h4, h5⟩ := hcond
      have hmem : Call.hook (some p) ⟨ct, b⟩ .ok ∈ hookCalls env b cs := by
        unfold hookCalls
        simp only [List.mem_flatMap, List.mem_filterMap]
        refine ⟨ch, h3, some p, h5, ?_⟩
        subst h4
        simp [h1, h2]
      have := key cs hnd
      have := List.count_pos_iff.2 hmem
      omega
    · rw [if_neg hcond, List.count_eq_zero]
      intro hm
      obtain ⟨q, ct', heq, g1, g2, g3⟩ := hookCalls_hook env hm
      simp only [Call.hook.injEq, Option.some.injEq, HookKind.mk.injEq, and_true] at heq
      obtain ⟨rfl, rfl⟩ := heq
      exact hcond ⟨g1, g2, g3⟩

/-- **C60** A failing Before hook prevents all writes; any failing hook fails the save. -/
theorem C60_failing_hook (s : St) :
    ∃ t, (persist env opts s).2.trace = s.trace ++ t ∧
      (∀ n ct st, Call.hook n ⟨ct, true⟩ st ∈ t → st ≠ .ok → ∀ a st', Call.exec a st' ∉ t) ∧
      (∀ n kind st, Call.hook n kind st ∈ t → st ≠ .ok → (persist env opts s).1 ≠ .ok ()) := by
  obtain ⟨t, ht, ⟨sh⟩⟩ := persist_shape env opts s
  refine ⟨t, ht, ?_, ?_⟩
  · intro n ct st hm hne a st' hx
    rw [sh.eq] at hm hx
    have hin : Call.hook n ⟨ct, true⟩ st ∈ sh.tb := by
      simp only [List.mem_append] at hm
      rcases hm with h | h | h | h | h
      · exact h
      · exact absurd (sh.hi _ h) (by simp [Call.IsNewID])
      · exact absurd (sh.hc _ h) (by simp [Call.IsConv])
      · exact absurd (sh.he _ h) (by simp [Call.IsExec])
      · exact absurd (sh.ha _ h) (by simp [Call.IsHook])
    have hne' : sh.ti ++ (sh.tc ++ (sh.te ++ sh.ta)) ≠ [] := by
      rcases List.mem_append.1 hx with h | h
      · exact absurd (sh.hb _ h) (by simp [Call.IsHook])
      · exact List.ne_nil_of_mem h
    exact hne (sh.gb hne' _ hin)
  · intro n kind st hm hne hok
    obtain ⟨t', ht', hg⟩ := okGood_persist env opts s () (persist env opts s).2 (by rw [← hok])
    have : t' = t := by rw [ht] at ht'; simpa using ht'.symm
    subst this
    exact hne (hg _ hm)

/-! ## Concrete cases -/
namespace Demo

/-- `mixed` of `Changes.lean` is a successful save with rows of all kinds (C06, C07). -/
example : ((persist okEnv stdOpts mixed).1.isOk, (written ((persist okEnv stdOpts mixed).2.trace)).map fun a =>
    (a.op, a.models.length, a.prev.length)) = (true, [(.insert, 1, 0), (.update, 2, 2), (.delete, 1, 0)]) := by decide +kernel

/-- all entities implement all hooks. -/
def hookEnv : Env := { okEnv with hasHook := fun _ _ => true }

example : (((persist hookEnv stdOpts mixed).2.trace).filterMap fun
    | .hook (some p) k st => some (p, k.ctype, k.before, st)
    | _ => none) =
    [(5, .new, true, .ok), (1, .dirty, true, .ok), (3, .delete, true, .ok), (2, .dirty, true, .ok),
     (5, .new, false, .ok), (1, .dirty, false, .ok), (3, .delete, false, .ok), (2, .dirty, false, .ok)] := by decide +kernel

/-- new entities without identifier. -/
def fresh2 : St :=
  orderSt { orderHeap [1, 2, 3, 5] [4, 6] [] (by decide) (by decide) with
    attr := fun p => { stdAttr p with id := if p = 5 ∨ p = 6 then 0 else p } }

/-- C06: two identifiers are generated, and differ. -/
example : (((persist okEnv stdOpts fresh2).2.heap.attr 5).id, ((persist okEnv stdOpts fresh2).2.heap.attr 6).id,
    ((persist okEnv stdOpts fresh2).2.heap.attr 4).id) = (1000, 1001, 4) := by decide +kernel

/-- the hypotheses on the generator hold for `okEnv`. -/
example : ∀ tr, okEnv.newID tr ≠ .ok 0 := by intro tr; simp [okEnv]

end Demo
end Ddd
