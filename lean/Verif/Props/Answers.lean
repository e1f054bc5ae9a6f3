import Verif.Spec.Answers
/-!
# C105: a command depends on nothing but the answers to its calls
-/
set_option linter.unusedVariables false
set_option linter.unusedSimpArgs false
namespace Ddd
open Spec

theorem along_nil {P : Trace → Call → Prop} {tr : Trace} : Along P tr [] := fun pre c post h => by simp at h

theorem along_single {P : Trace → Call → Prop} {tr : Trace} {c : Call} : Along P tr [c] ↔ P tr c := by
  constructor
  · intro h; simpa using h [] c [] rfl
  · intro h pre c' post he
    cases pre with
    | nil => simp only [List.nil_append, List.cons.injEq] at he; rw [← he.1]; simpa using h
    | cons x xs => simp at he

theorem along_append {P : Trace → Call → Prop} {tr t1 t2 : Trace} : Along P tr (t1 ++ t2) ↔ Along P tr t1 ∧ Along P (tr ++ t1) t2 := by
  constructor
  · intro h
    refine ⟨fun pre c post he => h pre c (post ++ t2) (by simp [he]), fun pre c post he => ?_⟩
    have := h (t1 ++ pre) c post (by simp [he])
    simpa using this
  · rintro ⟨h1, h2⟩ pre c post he
    rcases List.append_eq_append_iff.1 he with ⟨x, hx1, hx2⟩ | ⟨x, hx1, hx2⟩
    · have := h2 x c post hx2
      rw [hx1]; simpa using this
    · cases x with
      | nil =>
        simp only [List.append_nil, List.nil_append] at hx1 hx2
        have := h2 [] c post (by simpa using hx2.symm)
        rw [← hx1]; simpa using this
      | cons y ys =>
        simp only [List.cons_append, List.cons.injEq] at hx2
        exact h1 pre c ys (by rw [hx1, hx2.1])

/-- `m1` appends genuine calls to the trace and `m2` does the same, if its environment answers these calls equally. -/
def Sync (a b : Env) {α : Type} (m1 m2 : St → α × St) : Prop := ∀ s, ∃ t, (m1 s).2.trace = s.trace ++ t ∧ Along (Genuine a) s.trace t ∧ (Along (SameAnswer a b) s.trace t → m2 s = m1 s)

namespace Sync
variable {a b : Env} {α β : Type}

theorem still {m : St → α × St} (h : ∀ s, (m s).2.trace = s.trace) : Sync a b m m := fun s => ⟨[], by rw [h s]; simp, along_nil, fun _ => rfl⟩

theorem here {m1 m2 : St → α × St} {s : St} (c : Call) (h : (m1 s).2.trace = s.trace ++ [c]) (hg : Genuine a s.trace c) (he : SameAnswer a b s.trace c → m2 s = m1 s) :
    ∃ t, (m1 s).2.trace = s.trace ++ t ∧ Along (Genuine a) s.trace t ∧ (Along (SameAnswer a b) s.trace t → m2 s = m1 s) :=
  ⟨[c], h, along_single.2 hg, fun hs => he (along_single.1 hs)⟩

theorem stay {m1 m2 : St → α × St} {s : St} (h : (m1 s).2.trace = s.trace) (he : m2 s = m1 s) :
    ∃ t, (m1 s).2.trace = s.trace ++ t ∧ Along (Genuine a) s.trace t ∧ (Along (SameAnswer a b) s.trace t → m2 s = m1 s) := ⟨[], by rw [h]; simp, along_nil, fun _ => he⟩

/-- Running `m` and continuing with something that depends on its outcome. -/
theorem seq {m1 m2 : St → α × St} {f1 f2 : α → St → β × St} (hm : Sync a b m1 m2) (hf : ∀ x, Sync a b (f1 x) (f2 x)) : Sync a b (fun s => f1 (m1 s).1 (m1 s).2) (fun s => f2 (m2 s).1 (m2 s).2) := by
  intro s
  obtain ⟨t1, e1, g1, k1⟩ := hm s
  obtain ⟨t2, e2, g2, k2⟩ := hf (m1 s).1 (m1 s).2
  refine ⟨t1 ++ t2, by rw [e2, e1, List.append_assoc], along_append.2 ⟨g1, e1 ▸ g2⟩, fun h => ?_⟩
  obtain ⟨h1, h2⟩ := along_append.1 h
  simp only [k1 h1]
  exact k2 (e1 ▸ h2)

theorem congr {m1 m2 n1 n2 : St → α × St} (h : Sync a b m1 m2) (h1 : n1 = m1) (h2 : n2 = m2) : Sync a b n1 n2 := by subst h1 h2; exact h

theorem pure (x : α) : Sync a b (M.pure x) (M.pure x) := still fun s => rfl

theorem bind {m1 m2 : M α} {f1 f2 : α → M β} (hm : Sync a b m1 m2) (hf : ∀ x, Sync a b (f1 x) (f2 x)) : Sync a b (M.bind m1 f1) (M.bind m2 f2) := by
  refine (seq hm (f1 := fun r s => match r with | .ok x => f1 x s | .err e => (.err e, s) | .panic => (.panic, s)) (f2 := fun r s => match r with | .ok x => f2 x s | .err e => (.err e, s) | .panic => (.panic, s)) ?_).congr ?_ ?_
  · intro r
    cases r with
    | ok x => exact hf x
    | err e => exact still fun s => rfl
    | panic => exact still fun s => rfl
  all_goals
    funext s
    unfold M.bind
    split <;> simp_all

theorem attempt {m1 m2 : M Unit} (hm : Sync a b m1 m2) : Sync a b (M.attempt m1) (M.attempt m2) := by
  refine (seq hm (f1 := fun r s => match r with | .ok x => (.ok none, s) | .err e => (.ok (some e), s) | .panic => (.panic, s)) (f2 := fun r s => match r with | .ok x => (.ok none, s) | .err e => (.ok (some e), s) | .panic => (.panic, s)) ?_).congr ?_ ?_
  · intro r; cases r <;> exact still fun s => rfl
  all_goals
    funext s
    unfold M.attempt
    split <;> simp_all

theorem forEach {f1 f2 : α → M Unit} (hf : ∀ x, Sync a b (f1 x) (f2 x)) (l : List α) : Sync a b (M.forEach l f1) (M.forEach l f2) := by
  induction l with
  | nil => exact pure ()
  | cons x l ih => exact bind (hf x) fun _ => ih

/-- state-dependent code -/
theorem dep {f1 f2 : St → St → α × St} (h : ∀ x, Sync a b (f1 x) (f2 x)) : Sync a b (fun s => f1 s s) (fun s => f2 s s) := fun s => h s s

theorem modify (f : St → St) (h : ∀ s, (f s).trace = s.trace) : Sync a b (M.modify f) (M.modify f) := still h

theorem before {m1 m2 : St → α × St} (f : St → St) (h : ∀ s, (f s).trace = s.trace) (hm : Sync a b m1 m2) : Sync a b (fun s => m1 (f s)) (fun s => m2 (f s)) := by
  intro s
  obtain ⟨t, e, g, k⟩ := hm (f s)
  exact ⟨t, by rw [e, h], by rw [← h s]; exact g, fun hs => k (by rw [h]; exact hs)⟩

end Sync
open Sync

variable {a b : Env} {opts : Opts}

theorem sync_callOut {f1 f2 : Trace → Res Unit} {mk : Stat → Call} (hg : ∀ tr, Genuine a tr (mk (f1 tr).stat)) (hs : ∀ tr st, SameAnswer a b tr (mk st) → f1 tr = f2 tr) :
    Sync a b (callOut f1 mk) (callOut f2 mk) := fun s => Sync.here _ rfl (hg _) fun h => by simp only [callOut, hs _ _ h]

theorem sync_ext {α : Type} {f1 f2 : Trace → Res α} {mk : Stat → Call} (hg : ∀ tr, Genuine a tr (mk (f1 tr).stat)) (hs : ∀ tr st, SameAnswer a b tr (mk st) → f1 tr = f2 tr) :
    Sync a b (M.ext (fun s => f1 s.trace) mk) (M.ext (fun s => f2 s.trace) mk) := fun s => Sync.here _ rfl (hg _) fun h => by simp only [M.ext, hs _ _ h]

theorem sync_convert (n p op) : Sync a b (convert a n p op) (convert b n p op) := fun s => Sync.here _ rfl ⟨s.heap, rfl⟩ fun h => by simp only [convert, h s.heap]

theorem sync_snapshotVisit (v : Visit Node) : Sync a b (snapshotVisit a v) (snapshotVisit b v) := by
  intro s
  obtain ⟨n, p⟩ := v
  have key : (∀ p q, s.snap n = some p → n = some q → False) → ∃ t, (snapshotVisit a ⟨n, p⟩ s).2.trace = s.trace ++ t ∧ Along (Genuine a) s.trace t ∧ (Along (SameAnswer a b) s.trace t → snapshotVisit b ⟨n, p⟩ s = snapshotVisit a ⟨n, p⟩ s) := by
    intro hn
    refine Sync.here (.conv n p .query (a.conv s.trace s.heap n p .query).stat (match a.conv s.trace s.heap n p .query with | .err e => e.is .notRegister | _ => false)) ?_ ⟨s.heap, rfl⟩ ?_
    · cases hc : a.conv s.trace s.heap n p .query with
      | err e =>
        simp only [snapshotVisit, convert, hc]
        split <;> rfl
      | ok m => simp only [snapshotVisit, convert, hc]; rfl
      | panic => simp only [snapshotVisit, convert, hc]; rfl
    · intro hs
      simp only [snapshotVisit, convert, ← hs s.heap]
  cases n with
  | none => exact key (by simp)
  | some q =>
    cases h : s.snap (some q) with
    | some x => exact stay (by simp [snapshotVisit, h]) (by simp [snapshotVisit, h])
    | none => exact key (by simp [h])

theorem sync_updateSnapshot (ho : a.ord = b.ord) : Sync a b (updateSnapshot a) (updateSnapshot b) := by
  unfold updateSnapshot; rw [← ho]
  exact dep (f1 := fun x s => M.forEach (walk x.graph (a.ord x.trace 1) none none) (snapshotVisit a) s) (f2 := fun x s => M.forEach (walk x.graph (a.ord x.trace 1) none none) (snapshotVisit b) s)
    fun x => Sync.forEach sync_snapshotVisit _

theorem sync_flush (ho : a.ord = b.ord) : Sync a b (flush a) (flush b) := Sync.before (fun s => { s with snap := fun _ => none }) (fun _ => rfl) (sync_updateSnapshot ho)

theorem trace_unDirty (s : St) : (unDirty a s).2.trace = s.trace := by
  unfold unDirty
  have : ∀ (l : List (Visit Node)) (s : St), (M.forEach l (fun v => M.modify fun s => match v.entity with
      | none => s
      | some p => { s with heap := s.heap.setAttr p fun a => { a with dirty := false } }) s).2.trace = s.trace := by
    intro l
    induction l with
    | nil => intro s; rfl
    | cons v l ih =>
      intro s
      refine (ih _).trans ?_
      split <;> rfl
  exact this _ s

theorem sync_unDirty (ho : a.ord = b.ord) : Sync a b (unDirty a) (unDirty b) := by
  have : unDirty b = unDirty a := by unfold unDirty; rw [ho]
  rw [this]; exact still trace_unDirty

theorem sync_getEntityChanged (ho : a.ord = b.ord) : Sync a b (getEntityChanged a opts) (getEntityChanged b opts) := by
  have : getEntityChanged b opts = getEntityChanged a opts := by unfold getEntityChanged entityChanges; rw [ho]
  rw [this]; refine still fun s => ?_
  unfold getEntityChanged; split <;> rfl

theorem sync_execHook (hh : a.hasHook = b.hasHook) (ct : ChangeType) (before : Bool) (n : Node) : Sync a b (execHook a ct before n) (execHook b ct before n) := by
  intro s
  unfold execHook
  rw [← hh]
  cases n with
  | none => exact stay rfl rfl
  | some p =>
    dsimp only
    by_cases h : ct ≠ .clear ∧ a.hasHook p ⟨ct, before⟩ = true
    · rw [if_pos h]
      refine Sync.here (m1 := M.extH (fun s => a.hook s.trace s.heap (some p) ⟨ct, before⟩) fun st => .hook (some p) ⟨ct, before⟩ st) (m2 := fun s => if ct ≠ .clear ∧ a.hasHook p ⟨ct, before⟩ = true then M.extH (fun s => b.hook s.trace s.heap (some p) ⟨ct, before⟩) (fun st => .hook (some p) ⟨ct, before⟩ st) s else (.ok (), s)) _ rfl ⟨⟨p, rfl, h.2⟩, s.heap, rfl⟩ ?_
      intro hs
      have hs := hs s.heap
      simp only [if_pos h, M.extH, hs]
    · rw [if_neg h]
      exact stay (m1 := fun s => (.ok (), s)) (m2 := fun s => if ct ≠ .clear ∧ a.hasHook p ⟨ct, before⟩ = true then M.extH (fun s => b.hook s.trace s.heap (some p) ⟨ct, before⟩) (fun st => .hook (some p) ⟨ct, before⟩ st) s else (.ok (), s)) rfl (by rw [if_neg h])

theorem sync_runHooks (hh : a.hasHook = b.hasHook) (before : Bool) (cs : List (Change Node)) : Sync a b (runHooks a before cs) (runHooks b before cs) :=
  Sync.forEach (fun (c : Change Node) => Sync.forEach (fun n => sync_execHook hh c.ctype before n) _) _

theorem sync_putNewID (cs : List (Change Node)) : Sync a b (putNewID a cs) (putNewID b cs) := by
  refine Sync.forEach (fun c => ?_) _
  split
  · refine Sync.forEach (fun n => ?_) _
    cases n with
    | none => exact still fun s => rfl
    | some p =>
      intro s
      unfold putID
      dsimp only
      by_cases h : (s.heap.attr p).id = 0
      · rw [if_pos h]
        have := Sync.bind (sync_ext (a := a) (b := b) (f1 := fun t => a.newID t) (f2 := fun t => b.newID t) (mk := .newID) (fun _ => rfl) fun _ _ h => h)
          (f1 := fun id => M.modify fun s => { s with heap := s.heap.setAttr p fun a => { a with id := id } }) (f2 := fun id => M.modify fun s => { s with heap := s.heap.setAttr p fun a => { a with id := id } })
          (fun id => Sync.modify _ fun s => rfl) s
        obtain ⟨t, e, g, k⟩ := this
        exact ⟨t, e, g, fun hs => by rw [if_pos h]; exact k hs⟩
      · rw [if_neg h]
        exact ⟨[], by simp, along_nil, fun _ => by rw [if_neg h]⟩
  · exact Sync.pure ()

theorem sync_actStep (c : Change Node) (n : Node) (acc : ActAcc) : Sync a b (actStep a c n acc) (actStep b c n acc) := by
  intro s
  refine Sync.here (.conv n (some c.parent) c.ctype.op (a.conv s.trace s.heap n (some c.parent) c.ctype.op).stat (match a.conv s.trace s.heap n (some c.parent) c.ctype.op with | .err e => e.is .notRegister | _ => false)) ?_ ⟨s.heap, rfl⟩ ?_
  · unfold actStep convert
    dsimp only
    cases a.conv s.trace s.heap n (some c.parent) c.ctype.op with
    | panic => rfl
    | err e => dsimp only; split <;> rfl
    | ok m =>
      dsimp only
      split
      · split <;> rfl
      · rfl
  · intro hs
    simp only [actStep, convert, ← hs s.heap]

theorem sync_makeActions (cs : List (Change Node)) : Sync a b (makeActions a cs) (makeActions b cs) := by
  have h1 : ∀ (c : Change Node) (ns : List Node) (acc : ActAcc), Sync a b (actLoop a c ns acc) (actLoop b c ns acc) := by
    intro c ns
    induction ns with
    | nil => exact fun acc => Sync.pure acc
    | cons n ns ih => exact fun acc => Sync.bind (sync_actStep c n acc) fun acc => ih acc
  have h2 : ∀ acc, Sync a b (actLoops a cs acc) (actLoops b cs acc) := by
    induction cs with
    | nil => exact fun acc => Sync.pure acc
    | cons c cs ih => exact fun acc => Sync.bind (h1 c _ acc) fun acc => ih acc
  exact Sync.bind (h2 _) fun acc => Sync.pure _

theorem sync_exec (as : List Action) : Sync a b (exec a opts as) (exec b opts as) := by
  unfold exec
  split
  · exact Sync.pure ()
  · exact Sync.bind (Sync.forEach (fun x => sync_ext (f1 := fun t => a.exec t x) (f2 := fun t => b.exec t x) (mk := .exec x) (fun _ => rfl) fun _ _ h => h) _) fun _ => Sync.modify _ fun _ => rfl

theorem sync_persist (ho : a.ord = b.ord) (hh : a.hasHook = b.hasHook) : Sync a b (persist a opts) (persist b opts) :=
  Sync.bind (sync_getEntityChanged ho) fun cs => Sync.bind (sync_runHooks hh true cs) fun _ => Sync.bind (sync_putNewID cs) fun _ => Sync.bind (sync_makeActions cs) fun as =>
    Sync.bind (sync_exec as) fun _ => Sync.bind (sync_runHooks hh false cs) fun _ => Sync.modify (fun s => { s with deleted := s.deleted ++ (cs.filter fun c => decide (c.ctype = .delete)).flatMap Change.children }) fun _ => rfl

theorem sync_commitSave (ho : a.ord = b.ord) (hh : a.hasHook = b.hasHook) : Sync a b (commitSave a opts) (commitSave b opts) := by
  have h2 : Sync a b (M.bind (flush a) fun _ => unDirty a) (M.bind (flush b) fun _ => unDirty b) := Sync.bind (sync_flush ho) fun _ => sync_unDirty ho
  have h1 : Sync a b (M.bind (persist a opts) fun _ => M.bind (flush a) fun _ => unDirty a) (M.bind (persist b opts) fun _ => M.bind (flush b) fun _ => unDirty b) := Sync.bind (sync_persist ho hh) fun _ => h2
  exact h1

theorem trace_containerAdd (r : Ptr) (s : St) : (containerAdd r s).2.trace = s.trace := by unfold containerAdd; split <;> rfl

theorem trace_containerRemove (r : Ptr) (s : St) : (containerRemove r s).2.trace = s.trace := by unfold containerRemove; split <;> rfl

theorem trace_repoAdd (rs : List Ptr) : ∀ s : St, (repoAdd rs s).2.trace = s.trace := by
  induction rs with
  | nil => exact fun s => rfl
  | cons r rs ih =>
    intro s
    unfold repoAdd
    split
    · rfl
    · have h := trace_containerAdd r s
      split
      · next h' => rw [h'] at h; exact h
      · next h' => rw [h'] at h; exact (ih _).trans h

theorem trace_repoRemoveLoop (rs : List Ptr) : ∀ s : St, (repoRemoveLoop rs s).2.trace = s.trace := by
  induction rs with
  | nil => exact fun s => rfl
  | cons r rs ih =>
    intro s
    unfold repoRemoveLoop
    have h := trace_containerRemove r s
    split
    · next h' => rw [h'] at h; exact h
    · next h' => rw [h'] at h; exact (ih _).trans h

theorem sync_buildEntity (r : Ptr) : Sync a b (buildEntity a r) (buildEntity b r) := by
  intro s
  by_cases h : (s.heap.attr r).id = 0
  · exact stay (by unfold buildEntity; rw [if_pos h]) (by unfold buildEntity; rw [if_pos h, if_pos h])
  · refine Sync.here (.query r (a.query s.trace s.heap r).2.stat) (by unfold buildEntity; rw [if_neg h]; rfl) ⟨s.heap, rfl⟩ fun hs => ?_
    have hs := hs s.heap
    simp only [buildEntity, if_neg h, M.extH, hs]

theorem sync_repoGet (ho : a.ord = b.ord) (r : Ptr) : Sync a b (repoGet a r) (repoGet b r) := by
  intro s
  by_cases h : s.hasSnapshot r = true
  · exact stay (by unfold repoGet; rw [if_pos h]) (by unfold repoGet; rw [if_pos h, if_pos h])
  · obtain ⟨t, e, g, k⟩ := Sync.bind (sync_buildEntity (a := a) (b := b) r) (fun _ => Sync.bind (Sync.still (trace_containerAdd r)) fun _ => sync_updateSnapshot ho) s
    refine ⟨t, ?_, g, fun hs => ?_⟩
    · unfold repoGet; rw [if_neg h]; exact e
    · unfold repoGet; rw [if_neg h, if_neg h]; exact k hs

theorem sync_repoCustomGet (ho : a.ord = b.ord) (gt : Heap → Heap) (rs : List Ptr) : Sync a b (repoCustomGet a gt rs) (repoCustomGet b gt rs) := by
  refine Sync.bind (m1 := M.modify fun s => { s with heap := gt s.heap }) (m2 := M.modify fun s => { s with heap := gt s.heap }) (Sync.modify _ fun _ => rfl) fun _ =>
    Sync.bind (m1 := M.forEach rs customAdd) (m2 := M.forEach rs customAdd) (Sync.forEach (fun r => Sync.still fun s => ?_) _) fun _ => sync_updateSnapshot ho
  unfold customAdd; split
  · rfl
  · exact trace_containerAdd r s

theorem sync_repoRemove (ho : a.ord = b.ord) (rs : List Ptr) : Sync a b (repoRemove a rs) (repoRemove b rs) := by
  intro s
  by_cases h : (rs.filter fun r => decide (r ∉ s.roots)).isEmpty = true
  · exact stay (by unfold repoRemove; dsimp only; rw [if_pos h]; exact trace_repoRemoveLoop rs s) (by unfold repoRemove; dsimp only; rw [if_pos h, if_pos h])
  · have hu : Sync a b
        (fun s => match updateSnapshot a s with
          | (.panic, s2) => ((.panic, s2) : Res Unit × St)
          | (.err e, s2) => appendErr e s2
          | (.ok _, s2) => repoRemoveLoop rs s2)
        (fun s => match updateSnapshot b s with
          | (.panic, s2) => ((.panic, s2) : Res Unit × St)
          | (.err e, s2) => appendErr e s2
          | (.ok _, s2) => repoRemoveLoop rs s2) := by
      refine (Sync.seq (sync_updateSnapshot ho) (f1 := fun r s2 => match r with | .panic => (.panic, s2) | .err e => appendErr e s2 | .ok _ => repoRemoveLoop rs s2)
        (f2 := fun r s2 => match r with | .panic => (.panic, s2) | .err e => appendErr e s2 | .ok _ => repoRemoveLoop rs s2) ?_).congr ?_ ?_
      · intro r
        refine still fun s => ?_
        cases r with
        | panic => rfl
        | err e => rfl
        | ok x => exact trace_repoRemoveLoop rs s
      all_goals
        funext s
        split <;> simp_all
    have ha := trace_repoAdd (rs.filter fun r => decide (r ∉ s.roots)) s
    cases hr : repoAdd (rs.filter fun r => decide (r ∉ s.roots)) s with
    | mk r s1 =>
      rw [hr] at ha
      dsimp only at ha
      by_cases hp : r = .panic
      · subst hp
        exact stay (by unfold repoRemove; dsimp only; rw [if_neg h, hr]; exact ha) (by unfold repoRemove; dsimp only; rw [if_neg h, if_neg h, hr])
      · have heq : ∀ e : Env, repoRemove e rs s = match updateSnapshot e s1 with
          | (.panic, s2) => ((.panic, s2) : Res Unit × St)
          | (.err e, s2) => appendErr e s2
          | (.ok _, s2) => repoRemoveLoop rs s2 := by
          intro e
          unfold repoRemove; dsimp only; rw [if_neg h, hr]
          cases r with
          | panic => exact absurd rfl hp
          | ok x => rfl
          | err x => rfl
        obtain ⟨t, e, g, k⟩ := hu s1
        refine ⟨t, ?_, ?_, fun hs => ?_⟩
        · rw [heq]; rw [← ha]; exact e
        · rw [← ha]; exact g
        · rw [heq, heq]; exact k (by rw [ha]; exact hs)

theorem sync_repoSave (ho : a.ord = b.ord) (hh : a.hasHook = b.hasHook) : Sync a b (repoSave a opts) (repoSave b opts) := by
  intro s
  cases h : Err.joinAll s.errs with
  | some e => exact stay (by unfold repoSave; simp only [h]) (by unfold repoSave; simp only [h])
  | none =>
    obtain ⟨t, e, g, k⟩ := sync_commitSave (opts := opts) ho hh s
    exact ⟨t, by unfold repoSave; simp only [h]; exact e, g, fun hs => by unfold repoSave; simp only [h]; exact k hs⟩

theorem sync_enterRoots (ho : a.ord = b.ord) (rs : List Ptr) : Sync a b (enterRoots a rs) (enterRoots b rs) := by
  intro s
  by_cases h : (rs.any fun r => (s.heap.attr r).id = 0) = true
  · exact stay (by unfold enterRoots; rw [if_pos h]) (by unfold enterRoots; rw [if_pos h, if_pos h])
  · obtain ⟨t, e, g, k⟩ := Sync.before (fun s => { s with roots := rs }) (fun _ => rfl) (sync_flush ho) s
    exact ⟨t, by unfold enterRoots; rw [if_neg h]; exact e, g, fun hs => by unfold enterRoots; rw [if_neg h, if_neg h]; exact k hs⟩

theorem sync_runProg (ho : a.ord = b.ord) (hh : a.hasHook = b.hasHook) (main : Prog) : Sync a b (runProg a opts main) (runProg b opts main) := by
  induction main with
  | ret r => cases r <;> exact still fun s => rfl
  | panic => exact still fun s => rfl
  | mutate f k ih => exact Sync.before (fun s => { s with heap := f s.heap }) (fun _ => rfl) ih
  | look k ih => exact Sync.dep (f1 := fun x s => runProg a opts (k x.heap) s) (f2 := fun x s => runProg b opts (k x.heap) s) fun x => ih x.heap
  | get r k ih => exact Sync.bind (Sync.attempt (sync_repoGet ho r)) fun e => ih e
  | customGet g rs k ih => exact Sync.bind (Sync.attempt (sync_repoCustomGet ho g rs)) fun e => ih e
  | add rs k ih => exact Sync.bind (Sync.still (trace_repoAdd rs)) fun _ => ih
  | remove rs k ih => exact Sync.bind (sync_repoRemove ho rs) fun _ => ih
  | save k ih => exact Sync.bind (Sync.attempt (sync_repoSave ho hh)) fun e => ih e
  | commit k ih => exact Sync.bind (Sync.attempt (sync_commitSave ho hh)) fun e => ih e
  | output v k ih => exact Sync.before (fun s => { s with output := v }) (fun _ => rfl) ih
  | build r k ih => exact Sync.bind (Sync.attempt (sync_buildEntity r)) fun e => ih e
  | enter rs k ih => exact Sync.bind (sync_enterRoots ho rs) fun _ => ih
  | cAdd r k ih => exact Sync.bind (Sync.attempt (Sync.still (trace_containerAdd r))) fun _ => ih
  | cRemove r k ih => exact Sync.bind (Sync.attempt (Sync.still (trace_containerRemove r))) fun _ => ih


/-! ## events -/

theorem sync_eventModels (es : List Event) : Sync a b (eventModels a es) (eventModels b es) := by
  induction es with
  | nil => exact Sync.pure []
  | cons e es ih =>
    exact Sync.bind (sync_ext (f1 := fun t => a.evModel t e) (f2 := fun t => b.evModel t e) (mk := .evModel e) (fun _ => rfl) fun _ _ h => h) fun m => Sync.bind ih fun ms => Sync.pure _

theorem sync_persistEvents (es : List Event) : Sync a b (persistEvents a opts es) (persistEvents b opts es) := by
  refine (Sync.seq (sync_eventModels es) (f1 := fun r s1 => match r with | .ok ms => exec a opts [{ op := .insert, models := ms, prev := [] }] s1 | .err e => (.err (.errList [e]), s1) | .panic => (.panic, s1))
    (f2 := fun r s1 => match r with | .ok ms => exec b opts [{ op := .insert, models := ms, prev := [] }] s1 | .err e => (.err (.errList [e]), s1) | .panic => (.panic, s1)) ?_).congr ?_ ?_
  · intro r
    cases r with
    | ok ms => exact sync_exec _
    | err e => exact still fun s => rfl
    | panic => exact still fun s => rfl
  all_goals
    funext s
    unfold persistEvents
    split <;> simp_all

theorem sync_busDispatch (es : List Event) : Sync a b (busDispatch a es) (busDispatch b es) :=
  sync_ext (f1 := fun t => a.dispatch t es) (f2 := fun t => b.dispatch t es) (mk := .dispatch es) (fun _ => rfl) fun _ _ h => h

theorem sync_busBegin (es : List Event) : Sync a b (busBegin a es) (busBegin b es) := by
  intro s
  refine Sync.here (.dispatchBegin es (a.dispatchBegin s.trace es).2.stat) ?_ rfl ?_
  · unfold busBegin
    cases h : (a.dispatchBegin s.trace es).2 <;> rfl
  · intro hs
    have hs : a.dispatchBegin s.trace es = b.dispatchBegin s.trace es := hs
    unfold busBegin
    rw [hs]

theorem sync_dispatchEvents (es : List Event) : Sync a b (dispatchEvents a opts es) (dispatchEvents b opts es) := by
  unfold dispatchEvents
  split
  · exact Sync.pure ()
  · split
    · exact sync_busDispatch es
    · refine Sync.bind ?_ fun _ => ?_
      · split
        · exact sync_busBegin _
        · exact Sync.pure ()
      · split
        · exact sync_busDispatch _
        · exact Sync.pure ()

theorem sync_sendEvents (es : List Event) : Sync a b (sendEvents a opts es) (sendEvents b opts es) := by
  unfold sendEvents
  by_cases h : opts.bus = .nil
  · simp only [h, if_true]; exact still fun s => rfl
  · simp only [if_neg h]
    refine (Sync.seq (sync_dispatchEvents es) (f1 := fun r s => inErrList (r, s)) (f2 := fun r s => inErrList (r, s)) fun r => still fun s => ?_).congr rfl rfl
    cases r <;> rfl

theorem sync_finishEvents (ho : a.ord = b.ord) : Sync a b (finishEvents a opts) (finishEvents b opts) := by
  have hc : collectEvents b = collectEvents a := by unfold collectEvents eventNodes; rw [ho]
  intro s
  by_cases h : (collectEvents a s).isEmpty = true
  · exact stay (by unfold finishEvents; simp only [if_pos h]) (by unfold finishEvents; simp only [hc, if_pos h])
  · have hb : Sync a b (M.bind (if opts.eventPersist then persistEvents a opts (collectEvents a s) else M.pure ()) fun _ => sendEvents a opts (collectEvents a s))
        (M.bind (if opts.eventPersist then persistEvents b opts (collectEvents a s) else M.pure ()) fun _ => sendEvents b opts (collectEvents a s)) := by
      refine Sync.bind ?_ fun _ => sync_sendEvents _
      split
      · exact sync_persistEvents _
      · exact Sync.pure ()
    obtain ⟨t, e, g, k⟩ := hb s
    refine ⟨t, ?_, g, fun hs => ?_⟩
    · unfold finishEvents; simp only [if_neg h]; exact e
    · unfold finishEvents; simp only [hc, if_neg h]; exact k hs

/-! ## the whole run -/

theorem sync_callMain (ho : a.ord = b.ord) (hh : a.hasHook = b.hasHook) (main : Prog) : Sync a b (callMain a opts main) (callMain b opts main) := by
  intro s
  obtain ⟨t, e, g, k⟩ := sync_runProg (opts := opts) ho hh main { s with trace := s.trace ++ [.mainStart] }
  refine ⟨.mainStart :: (t ++ [.mainRet (runProg a opts main { s with trace := s.trace ++ [.mainStart] }).1.stat]), ?_, ?_, fun h => ?_⟩
  · show (runProg a opts main { s with trace := s.trace ++ [.mainStart] }).2.trace ++ _ = _
    rw [e]; simp
  · rw [← List.singleton_append, along_append, along_append]
    exact ⟨along_single.2 trivial, g, along_single.2 trivial⟩
  · rw [← List.singleton_append, along_append, along_append] at h
    unfold callMain
    rw [k h.2.1]

/-- `do` in three parts: what follows `finishEvents`, … -/
def doneEvents (r : Res Unit) (s : St) : Outcome :=
  match r with
  | .panic => (none, s)
  | .err e => (some (resultError e), s)
  | .ok _ => (some { error := none, brk := false, actions := s.actions, output := s.output }, s)

/-- … what follows `persist`, … -/
def donePersist (env : Env) (opts : Opts) (r : Res Unit) (s : St) : Outcome :=
  match r with
  | .panic => (none, s)
  | .err e => (some (resultErrors e), s)
  | .ok _ => doneEvents (finishEvents env opts s).1 (finishEvents env opts s).2

/-- … what follows the user's code. -/
def doneMain (env : Env) (opts : Opts) (r : Res Unit) (s : St) : Outcome :=
  match r with
  | .panic => (none, s)
  | .err e => (some (resultErrOrBreak e), s)
  | .ok _ =>
    match Err.joinAll s.errs with
    | some e => (some (resultError e), s)
    | none => donePersist env opts (persist env opts s).1 (persist env opts s).2

theorem doStage_parts (env : Env) (main : Prog) : doStage env opts main = fun s => doneMain env opts (callMain env opts main s).1 (callMain env opts main s).2 := by
  funext s
  unfold doStage
  cases h1 : callMain env opts main s with
  | mk r s1 =>
    cases r with
    | panic => rfl
    | err e => rfl
    | ok x =>
      simp only [doneMain]
      cases h2 : Err.joinAll s1.errs with
      | some e => rfl
      | none =>
        dsimp only
        cases h3 : persist env opts s1 with
        | mk r s2 =>
          cases r with
          | panic => rfl
          | err e => rfl
          | ok x =>
            simp only [donePersist]
            cases h4 : finishEvents env opts s2 with
            | mk r s3 => cases r <;> rfl

theorem sync_doStage (ho : a.ord = b.ord) (hh : a.hasHook = b.hasHook) (main : Prog) : Sync a b (doStage a opts main) (doStage b opts main) := by
  rw [doStage_parts, doStage_parts]
  refine Sync.seq (m1 := callMain a opts main) (m2 := callMain b opts main) (f1 := doneMain a opts) (f2 := doneMain b opts) (sync_callMain ho hh main) fun r => ?_
  cases r with
  | panic => exact still fun s => rfl
  | err e => exact still fun s => rfl
  | ok x =>
    intro s
    cases h : Err.joinAll s.errs with
    | some e =>
      have hd : ∀ env : Env, doneMain env opts (.ok x) s = (some (resultError e), s) := fun env => by rw [doneMain]; rw [h]
      exact ⟨[], by rw [hd]; simp, along_nil, fun _ => by rw [hd, hd]⟩
    | none =>
      have hp : Sync a b (fun s => donePersist a opts (persist a opts s).1 (persist a opts s).2) (fun s => donePersist b opts (persist b opts s).1 (persist b opts s).2) := by
        refine Sync.seq (m1 := persist a opts) (m2 := persist b opts) (f1 := donePersist a opts) (f2 := donePersist b opts) (sync_persist ho hh) fun r => ?_
        cases r with
        | panic => exact still fun s => rfl
        | err e => exact still fun s => rfl
        | ok x =>
          exact Sync.seq (m1 := finishEvents a opts) (m2 := finishEvents b opts) (f1 := doneEvents) (f2 := doneEvents) (sync_finishEvents ho) fun r => still fun s => by cases r <;> rfl
      obtain ⟨t, e, g, k⟩ := hp s
      have hd : ∀ env : Env, doneMain env opts (.ok x) s = donePersist env opts (persist env opts s).1 (persist env opts s).2 := fun env => by rw [doneMain]; rw [h]
      beta_reduce at e k
      refine ⟨t, (congrArg (fun o : Outcome => o.2.trace) (hd a)).trans e, g, fun hs => ?_⟩
      exact (hd b).trans ((k hs).trans (hd a).symm)

theorem sync_recoverRollback : Sync a b (recoverRollback a) (recoverRollback b) := by
  refine (Sync.seq (sync_callOut (a := a) (b := b) (f1 := a.rollback) (f2 := b.rollback) (mk := .rollback) (fun _ => rfl) fun _ _ h => h) (f1 := fun _ s => ((none, s) : Outcome)) (f2 := fun _ s => ((none, s) : Outcome))
    fun _ => still fun s => rfl).congr rfl rfl

/-- the end of a transaction: the call, and the bus -/
def endTx (env : Env) (opts : Opts) (bus : Trace → Res Unit) (mk : Stat → Call) (r : Result) (s : St) : Outcome :=
  if busPending opts s then
    (match (callOut bus mk s).1 with | .panic => recoverRollback env (callOut bus mk s).2 | _ => (some r, (callOut bus mk s).2))
  else (some r, s)

theorem sync_endTx {f1 f2 : Trace → Res Unit} {mk : Stat → Call} (hg : ∀ tr, Genuine a tr (mk (f1 tr).stat)) (hs : ∀ tr st, SameAnswer a b tr (mk st) → f1 tr = f2 tr) (r : Result) :
    Sync a b (endTx a opts f1 mk r) (endTx b opts f2 mk r) := by
  intro s
  by_cases h : busPending opts s = true
  · have hp : Sync a b (fun s => match (callOut f1 mk s).1 with | .panic => recoverRollback a (callOut f1 mk s).2 | _ => ((some r, (callOut f1 mk s).2) : Outcome))
        (fun s => match (callOut f2 mk s).1 with | .panic => recoverRollback b (callOut f2 mk s).2 | _ => ((some r, (callOut f2 mk s).2) : Outcome)) := by
      refine Sync.seq (f1 := fun x s => match x with | .panic => recoverRollback a s | _ => ((some r, s) : Outcome)) (f2 := fun x s => match x with | .panic => recoverRollback b s | _ => ((some r, s) : Outcome))
        (sync_callOut (a := a) (b := b) hg hs) fun x => ?_
      cases x with
      | panic => exact sync_recoverRollback
      | _ => exact still fun s => rfl
    obtain ⟨t, e, g, k⟩ := hp s
    exact ⟨t, by unfold endTx; rw [if_pos h]; exact e, g, fun hs => by unfold endTx; rw [if_pos h, if_pos h]; exact k hs⟩
  · exact stay (by unfold endTx; rw [if_neg h]) (by unfold endTx; rw [if_neg h, if_neg h])

/-- what follows `f` in a transaction -/
def afterBody (env : Env) (opts : Opts) (x : Option Result) (s2 : St) : Outcome :=
  match x with
  | none => recoverRollback env s2
  | some r =>
    if r.error.isSome || r.brk then
      (match (callOut env.rollback .rollback s2).1 with
        | .panic => recoverRollback env (callOut env.rollback .rollback s2).2
        | _ => endTx env opts env.busRollback .busRollback r (callOut env.rollback .rollback s2).2)
    else
      (match (callOut env.commit .commit s2).1 with
        | .panic => recoverRollback env (callOut env.commit .commit s2).2
        | .err e => (some { r with error := some e }, (callOut env.commit .commit s2).2)
        | .ok _ => endTx env opts env.busCommit .busCommit r (callOut env.commit .commit s2).2)

theorem sync_afterBody (x : Option Result) : Sync a b (afterBody a opts x) (afterBody b opts x) := by
  unfold afterBody
  cases x with
  | none => exact sync_recoverRollback
  | some r =>
    dsimp only
    split
    · refine Sync.seq (f1 := fun x s => match x with | .panic => recoverRollback a s | _ => endTx a opts a.busRollback .busRollback r s) (f2 := fun x s => match x with | .panic => recoverRollback b s | _ => endTx b opts b.busRollback .busRollback r s)
        (sync_callOut (a := a) (b := b) (f1 := a.rollback) (f2 := b.rollback) (mk := .rollback) (fun _ => rfl) fun _ _ h => h) fun x => ?_
      cases x with
      | panic => exact sync_recoverRollback
      | _ => exact sync_endTx (f1 := a.busRollback) (f2 := b.busRollback) (mk := .busRollback) (fun _ => rfl) (fun _ _ h => h) r
    · refine Sync.seq (f1 := fun x s => match x with | .panic => recoverRollback a s | .err e => (some { r with error := some e }, s) | .ok _ => endTx a opts a.busCommit .busCommit r s)
        (f2 := fun x s => match x with | .panic => recoverRollback b s | .err e => (some { r with error := some e }, s) | .ok _ => endTx b opts b.busCommit .busCommit r s)
        (sync_callOut (a := a) (b := b) (f1 := a.commit) (f2 := b.commit) (mk := .commit) (fun _ => rfl) fun _ _ h => h) fun x => ?_
      cases x with
      | panic => exact sync_recoverRollback
      | err e => exact still fun s => rfl
      | ok x => exact sync_endTx (f1 := a.busCommit) (f2 := b.busCommit) (mk := .busCommit) (fun _ => rfl) (fun _ _ h => h) r

theorem runWithTransaction_parts (env : Env) (f : St → Outcome) : runWithTransaction env opts f = fun s =>
    match (callOut env.begin_ .begin s).1 with
    | .panic => (none, (callOut env.begin_ .begin s).2)
    | .err e => (some (resultErrors e), (callOut env.begin_ .begin s).2)
    | .ok _ => afterBody env opts (f (callOut env.begin_ .begin s).2).1 (f (callOut env.begin_ .begin s).2).2 := by
  funext s
  unfold runWithTransaction
  cases h1 : callOut env.begin_ .begin s with
  | mk r s1 =>
    cases r with
    | panic => rfl
    | err e => rfl
    | ok x =>
      dsimp only
      cases h2 : f s1 with
      | mk o s2 =>
        cases o with
        | none => rfl
        | some r =>
          dsimp only [afterBody]
          split
          · cases h3 : callOut env.rollback .rollback s2 with
            | mk q s3 =>
              cases q <;> dsimp only [endTx] <;> first | rfl | (split <;> first | rfl | (cases h4 : callOut env.busRollback .busRollback s3 with | mk q s4 => cases q <;> rfl))
          · cases h3 : callOut env.commit .commit s2 with
            | mk q s3 =>
              cases q <;> dsimp only [endTx] <;> first | rfl | (split <;> first | rfl | (cases h4 : callOut env.busCommit .busCommit s3 with | mk q s4 => cases q <;> rfl))

theorem sync_runWithTransaction {f1 f2 : St → Outcome} (hf : Sync a b f1 f2) : Sync a b (runWithTransaction a opts f1) (runWithTransaction b opts f2) := by
  rw [runWithTransaction_parts, runWithTransaction_parts]
  refine Sync.seq (f1 := fun x s => match x with | .panic => (none, s) | .err e => (some (resultErrors e), s) | .ok _ => afterBody a opts (f1 s).1 (f1 s).2)
    (f2 := fun x s => match x with | .panic => (none, s) | .err e => (some (resultErrors e), s) | .ok _ => afterBody b opts (f2 s).1 (f2 s).2)
    (sync_callOut (a := a) (b := b) (f1 := a.begin_) (f2 := b.begin_) (mk := .begin) (fun _ => rfl) fun _ _ h => h) fun x => ?_
  cases x with
  | panic => exact still fun s => rfl
  | err e => exact still fun s => rfl
  | ok x => exact Sync.seq (f1 := afterBody a opts) (f2 := afterBody b opts) hf fun o => sync_afterBody o

/-- `acquire` with its value and state separated -/
def acq (env : Env) (ks got : List Nat) (s : St) : (LockRes × List Nat) × St := (((acquire env ks got s).1, (acquire env ks got s).2.1), (acquire env ks got s).2.2)

theorem acq_cons (env : Env) (k : Nat) (ks got : List Nat) : acq env (k :: ks) got = fun s =>
    match (callOut (fun t => env.lock t k) (.lock k) s).1 with
    | .ok _ => acq env ks (got ++ [k]) (callOut (fun t => env.lock t k) (.lock k) s).2
    | .err e => ((.failed (.wrap e), got), (callOut (fun t => env.lock t k) (.lock k) s).2)
    | .panic => ((.panic, got), (callOut (fun t => env.lock t k) (.lock k) s).2) := by
  funext s
  rw [acq, acquire]
  cases h : callOut (fun t => env.lock t k) (.lock k) s with
  | mk r s1 => cases r <;> rfl

theorem sync_acquire (ks : List Nat) : ∀ got : List Nat, Sync a b (acq a ks got) (acq b ks got) := by
  induction ks with
  | nil => exact fun got => still fun s => rfl
  | cons k ks ih =>
    intro got
    rw [acq_cons, acq_cons]
    refine Sync.seq (sync_callOut (a := a) (b := b) (f1 := fun t => a.lock t k) (f2 := fun t => b.lock t k) (mk := .lock k) (fun _ => rfl) fun _ _ h => h)
      (f1 := fun x s => match x with | .ok _ => acq a ks (got ++ [k]) s | .err e => ((.failed (.wrap e), got), s) | .panic => ((.panic, got), s))
      (f2 := fun x s => match x with | .ok _ => acq b ks (got ++ [k]) s | .err e => ((.failed (.wrap e), got), s) | .panic => ((.panic, got), s)) fun x => ?_
    cases x with
    | ok u => exact ih _
    | err e => exact still fun s => rfl
    | panic => exact still fun s => rfl

theorem sync_releaseAll (ks : List Nat) : Sync a b (releaseAll a ks) (releaseAll b ks) := by
  induction ks with
  | nil => exact still fun s => rfl
  | cons k ks ih =>
    refine (Sync.seq (sync_callOut (a := a) (b := b) (f1 := fun t => a.unlock t k) (f2 := fun t => b.unlock t k) (mk := .unlock k) (fun _ => rfl) fun _ _ h => h)
      (f1 := fun x s => match x with | .panic => (false, s) | _ => releaseAll a ks s) (f2 := fun x s => match x with | .panic => (false, s) | _ => releaseAll b ks s) fun x => ?_).congr ?_ ?_
    · cases x with
      | panic => exact still fun s => rfl
      | _ => exact ih
    · funext s
      rw [releaseAll]
      cases h : callOut (fun t => a.unlock t k) (.unlock k) s with
      | mk r s1 => cases r <;> rfl
    · funext s
      rw [releaseAll]
      cases h : callOut (fun t => b.unlock t k) (.unlock k) s with
      | mk r s1 => cases r <;> rfl

theorem sync_postSaves (hs : List Nat) : Sync a b (postSaves a hs) (postSaves b hs) := by
  induction hs with
  | nil => exact still fun s => rfl
  | cons k ks ih =>
    refine (Sync.seq (sync_callOut (a := a) (b := b) (f1 := fun t => a.postSave t k) (f2 := fun t => b.postSave t k) (mk := .postSave k) (fun _ => rfl) fun _ _ h => h)
      (f1 := fun x s => match x with | .panic => (false, s) | _ => postSaves a ks s) (f2 := fun x s => match x with | .panic => (false, s) | _ => postSaves b ks s) fun x => ?_).congr ?_ ?_
    · cases x with
      | panic => exact still fun s => rfl
      | _ => exact ih
    · funext s
      rw [postSaves]
      cases h : callOut (fun t => a.postSave t k) (.postSave k) s with
      | mk r s1 => cases r <;> rfl
    · funext s
      rw [postSaves]
      cases h : callOut (fun t => b.postSave t k) (.postSave k) s with
      | mk r s1 => cases r <;> rfl

/-- what follows the acquisition of the locks -/
def afterLocks (env : Env) (f : St → Outcome) (x : LockRes × List Nat) (s : St) : Outcome :=
  match x.1 with
  | .panic => (none, s)
  | .failed e => (if (releaseAll env x.2 s).1 then some (resultErrors e) else none, (releaseAll env x.2 s).2)
  | .all => (if (releaseAll env x.2 (f s).2).1 then (f s).1 else none, (releaseAll env x.2 (f s).2).2)

theorem runOnLock_parts (env : Env) (keys : List Nat) (f : St → Outcome) (s : St) : runOnLock env keys f s =
    if hasAdjacentDup (keys.insertionSort (· ≤ ·)) then (some (resultErrors errLockRepeated), s)
    else afterLocks env f (acq env (keys.insertionSort (· ≤ ·)) [] s).1 (acq env (keys.insertionSort (· ≤ ·)) [] s).2 := by
  unfold runOnLock acq
  dsimp only
  split
  · rfl
  · cases h : acquire env (keys.insertionSort (· ≤ ·)) [] s with
    | mk r p =>
      obtain ⟨got, s1⟩ := p
      cases r with
      | panic => rfl
      | failed e =>
        dsimp only [afterLocks]
        cases h2 : releaseAll env got s1 with
        | mk ok s2 => cases ok <;> rfl
      | all =>
        dsimp only [afterLocks]
        cases h2 : releaseAll env got (f s1).2 with
        | mk ok s2 => cases ok <;> rfl

theorem sync_runOnLock {f1 f2 : St → Outcome} (hf : Sync a b f1 f2) (keys : List Nat) : Sync a b (runOnLock a keys f1) (runOnLock b keys f2) := by
  refine Sync.congr ?_ (funext fun s => runOnLock_parts a keys f1 s) (funext fun s => runOnLock_parts b keys f2 s)
  split
  · exact still fun s => rfl
  · refine Sync.seq (f1 := afterLocks a f1) (f2 := afterLocks b f2) (sync_acquire _ []) fun x => ?_
    obtain ⟨r, got⟩ := x
    cases r with
    | panic => exact still fun s => rfl
    | failed e =>
      exact Sync.seq (f1 := fun ok s => ((if ok then some (resultErrors e) else none, s) : Outcome)) (f2 := fun ok s => ((if ok then some (resultErrors e) else none, s) : Outcome)) (sync_releaseAll got) fun ok => still fun s => rfl
    | all =>
      refine Sync.seq (f1 := fun o s => ((if (releaseAll a got s).1 then o else none, (releaseAll a got s).2) : Outcome)) (f2 := fun o s => ((if (releaseAll b got s).1 then o else none, (releaseAll b got s).2) : Outcome)) hf fun o => ?_
      exact Sync.seq (f1 := fun ok s => ((if ok then o else none, s) : Outcome)) (f2 := fun ok s => ((if ok then o else none, s) : Outcome)) (sync_releaseAll got) fun ok => still fun s => rfl

theorem sync_save (ho : a.ord = b.ord) (hh : a.hasHook = b.hasHook) (keys : List Nat) (main : Prog) : Sync a b (save a opts keys main) (save b opts keys main) := by
  have hc : Sync a b (saveCore a opts keys main) (saveCore b opts keys main) := by
    have h1 : Sync a b (if opts.withTransaction then runWithTransaction a opts (doStage a opts main) else doStage a opts main) (if opts.withTransaction then runWithTransaction b opts (doStage b opts main) else doStage b opts main) := by
      split
      · exact sync_runWithTransaction (sync_doStage ho hh main)
      · exact sync_doStage ho hh main
    unfold saveCore
    dsimp only
    split
    · exact h1
    · exact sync_runOnLock h1 keys
  refine (Sync.seq hc
    (f1 := fun o s1 => match o with
      | none => ((none, s1) : Outcome)
      | some r => if r.error.isNone then (if (postSaves a opts.hooks s1).1 then some r else none, (postSaves a opts.hooks s1).2) else (some r, s1))
    (f2 := fun o s1 => match o with
      | none => ((none, s1) : Outcome)
      | some r => if r.error.isNone then (if (postSaves b opts.hooks s1).1 then some r else none, (postSaves b opts.hooks s1).2) else (some r, s1)) fun o => ?_).congr ?_ ?_
  · cases o with
    | none => exact still fun s => rfl
    | some r =>
      dsimp only
      split
      · exact Sync.seq (f1 := fun ok s => ((if ok then some r else none, s) : Outcome)) (f2 := fun ok s => ((if ok then some r else none, s) : Outcome)) (sync_postSaves _) fun ok => still fun s => rfl
      · exact still fun s => rfl
  · funext s
    unfold save
    cases h : saveCore a opts keys main s with
    | mk o s1 =>
      cases o with
      | none => rfl
      | some r =>
        dsimp only
        split
        · cases h2 : postSaves a opts.hooks s1 with
          | mk ok s2 => cases ok <;> rfl
        · rfl
  · funext s
    unfold save
    cases h : saveCore b opts keys main s with
    | mk o s1 =>
      cases o with
      | none => rfl
      | some r =>
        dsimp only
        split
        · cases h2 : postSaves b opts.hooks s1 with
          | mk ok s2 => cases ok <;> rfl
        · rfl

theorem sync_run (ho : a.ord = b.ord) (hh : a.hasHook = b.hasHook) (opts : Opts) (c : Cmd) (h : Heap) :
    Along (Genuine a) [] (run a opts c h).2.trace ∧ (Along (SameAnswer a b) [] (run a opts c h).2.trace → run b opts c h = run a opts c h) := by
  unfold run
  cases hi : c.init with
  | none =>
    obtain ⟨t, e, g, k⟩ := sync_save (opts := { opts with hooks := opts.hooks ++ c.post.toList }) ho hh [] c.main (.fresh h)
    dsimp only
    rw [e]
    exact ⟨g, k⟩
  | some r =>
    cases r with
    | ok keys =>
      obtain ⟨t, e, g, k⟩ := sync_save (opts := { opts with hooks := opts.hooks ++ c.post.toList }) ho hh keys c.main (.fresh h)
      dsimp only
      rw [e]
      exact ⟨g, k⟩
    | err e => exact ⟨along_nil, fun _ => rfl⟩
    | panic => exact ⟨along_nil, fun _ => rfl⟩

/-! ## the theorems -/

/-- **C105** Nothing is made up: the outcome shown for a call is the environment's answer to exactly this call after exactly the calls before it; a hook is called only of an entity that has it. -/
theorem C105_genuine (env : Env) (opts : Opts) (c : Cmd) (h : Heap) (pre post : Trace) (x : Call) (hx : (run env opts c h).2.trace = pre ++ x :: post) : Genuine env pre x := by
  have := (sync_run (a := env) (b := env) rfl rfl opts c h).1 pre x post hx
  simpa using this

/-- **C105** Nothing else matters: an environment that gives the same answers to the calls the command makes leads to the same calls, result, writes and state of the objects. -/
theorem C105_determined {a b : Env} (ho : a.ord = b.ord) (hh : a.hasHook = b.hasHook) (opts : Opts) (c : Cmd) (h : Heap)
    (hs : ∀ pre x post, (run a opts c h).2.trace = pre ++ x :: post → SameAnswer a b pre x) : run b opts c h = run a opts c h :=
  (sync_run ho hh opts c h).2 fun pre x post e => by simpa using hs pre x post e

end Ddd
