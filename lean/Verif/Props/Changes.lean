import Verif.Proofs.Jobs
import Verif.Props.Demo
/-!
# C01, C04, C05, C08, C09: what a save writes

`persist` (`engine.go:1065-1104`) is the save behind `Repository.Save`, `StageAgent.Commit` and the end of every command.
The theorems hold for every stage state `s`, every environment and every option set; `s.now` is the aggregate when the save
starts (children per parent and field, root `none` = the container), `s.kidPool` the children recorded when each
entity was loaded or last saved.
-/
set_option linter.unusedVariables false
namespace Ddd
open Spec

variable (env : Env) (opts : Opts)

theorem asked_append (a b : Trace) : asked (a ++ b) = asked a ++ asked b := by simp [asked]
theorem written_append (a b : Trace) : written (a ++ b) = written a ++ written b := by simp [written]

theorem asked_none {t : Trace} (h : ∀ c ∈ t, ¬ c.IsConv) : asked t = [] := by
  unfold asked
  rw [List.filterMap_eq_nil_iff]
  intro c hc
  have := h c hc
  cases c <;> simp_all [Call.IsConv]

theorem written_none {t : Trace} (h : ∀ a st, Call.exec a st ∉ t) : written t = [] := by
  unfold written
  rw [List.filterMap_eq_nil_iff]
  intro c hc
  cases c <;> simp
  exact h _ _ hc

theorem jobs_op {cs : List (Change Node)} {j : Job} (h : j ∈ jobs cs) : j.op ≠ .query := by
  obtain ⟨n, p, op⟩ := j
  rw [mem_jobs] at h
  obtain ⟨ch, _, h, _⟩ := h
  rw [← h]
  cases ch.ctype <;> simp [ChangeType.op]

theorem asked_convCalls : ∀ (js : List Job) (rs : List (Option Model)), js.length = rs.length → (∀ j ∈ js, j.op ≠ .query) →
    asked (convCalls js rs) = js := by
  intro js
  induction js with
  | nil => intro rs _ _; simp [convCalls, asked]
  | cons j js ih =>
    intro rs hl hq
    cases rs with
    | nil => simp at hl
    | cons r rs =>
      have ih := ih rs (by simpa using hl) (fun x hx => hq x (by simp [hx]))
      have hj := hq j (by simp)
      have : asked (convCalls (j :: js) (r :: rs)) = asked [convCall j r] ++ asked (convCalls js rs) := by
        rw [← asked_append]; rfl
      rw [this, ih]
      obtain ⟨n, p, op⟩ := j
      cases op <;> simp_all [asked, convCall]

theorem hookCalls_hook {b : Bool} {cs : List (Change Node)} {c : Call} (h : c ∈ hookCalls env b cs) :
    ∃ p ct, c = .hook (some p) ⟨ct, b⟩ .ok ∧ env.hasHook p ⟨ct, b⟩ = true ∧ ct ≠ .clear ∧
      ∃ ch ∈ cs, ch.ctype = ct ∧ some p ∈ ch.children := by
  unfold hookCalls at h
  simp only [List.mem_flatMap, List.mem_filterMap] at h
  obtain ⟨ch, hch, n, hn, h⟩ := h
  cases n with
  | none => simp at h
  | some p =>
    dsimp only at h
    split at h
    · next hc =>
      simp only [Option.some.injEq] at h
      exact ⟨p, ch.ctype, h.symm, hc.2, hc.1, ch, hch, rfl, hn⟩
    · simp at h

/-- the calls of a successful save: conversions and writes. -/
theorem save_calls {s s' : St} (h : persist env opts s = (.ok (), s')) :
    ∃ cs t, entityChanges env opts s = some cs ∧ s'.trace = s.trace ++ t ∧ asked t = jobs cs := by
  obtain ⟨cs, h1, h2, k, rs, hist, hc, ha, ht, _⟩ := persist_effect env opts h
  refine ⟨cs, _, hc, by rw [ht]; simp only [List.append_assoc]; rfl, ?_⟩
  simp only [asked_append]
  rw [asked_none (t := hookCalls env true cs), asked_none (t := List.replicate k (.newID .ok)),
    asked_none (t := hookCalls env false cs), asked_convCalls _ _ ha.length_eq (fun j hj => jobs_op hj)]
  · rw [asked_none]
    · simp
    · intro c hc
      split at hc
      · simp at hc
      · simp only [List.mem_map] at hc; obtain ⟨a, _, rfl⟩ := hc; simp [Call.IsConv]
  · intro c hc; obtain ⟨p, ct, rfl, _⟩ := hookCalls_hook env hc; simp [Call.IsConv]
  · intro c hc; rw [List.eq_of_mem_replicate hc]; simp [Call.IsConv]
  · intro c hc; obtain ⟨p, ct, rfl, _⟩ := hookCalls_hook env hc; simp [Call.IsConv]

/-- **C01** Change detection is sound and complete: a successful save asks for an insert / update / delete of `n` below `p`
exactly when the aggregate differs from the recorded one in that way, and for every entity at most once.
(`C07_every_row_written` says that what is asked for is what is handed to the executor.) -/
theorem C01_changes_exact {s s' : St} (h : persist env opts s = (.ok (), s')) (hr : opts.recursiveDelete = false) :
    ∃ t, s'.trace = s.trace ++ t ∧ ((asked t).map Job.node).Nodup ∧
      (∀ n p, (⟨n, p, .insert⟩ : Job) ∈ asked t ↔
        (∃ k, Added s.now s.kidPool none p k n) ∧ ¬ ∃ p' k', Gone s.now s.kidPool none p' k' n) ∧
      (∀ n p, (⟨n, p, .update⟩ : Job) ∈ asked t ↔
        (∃ k, Touched s.now s.kidPool s.heap.dirtyNode none p k n) ∨
        (∃ k, Added s.now s.kidPool none p k n) ∧ ∃ p' k', Gone s.now s.kidPool none p' k' n) ∧
      (∀ n p, (⟨n, p, .delete⟩ : Job) ∈ asked t ↔
        (∃ k, Gone s.now s.kidPool none p k n) ∧ ¬ ∃ p' k', Added s.now s.kidPool none p' k' n) := by
  obtain ⟨cs, t, hc, ht, ha⟩ := save_calls env opts h
  refine ⟨t, ht, ?_, ?_, ?_, ?_⟩ <;> rw [ha]
  · exact changes_nodup env opts hc hr
  · exact fun n p => changes_jobs env opts hc .insert p n
  · exact fun n p => changes_jobs env opts hc .update p n
  · intro n p
    have := changes_jobs env opts hc .delete p n
    simpa [hr] using this

/-- **C04** (success case) An entity removed from one parent of the aggregate and added under another is written by exactly one
update, below the new parent. -/
theorem C04_move_is_one_update_partial {s s' : St} (h : persist env opts s = (.ok (), s')) (hr : opts.recursiveDelete = false)
    {n p q : Node} {k k' : Key} (hadd : Added s.now s.kidPool none p k n) (hgone : Gone s.now s.kidPool none q k' n) :
    ∃ t, s'.trace = s.trace ++ t ∧ (asked t).filter (fun j => decide (j.node = n)) = [⟨n, p, .update⟩] := by
  obtain ⟨t, ht, hnd, hi, hu, hd⟩ := C01_changes_exact env opts h hr
  refine ⟨t, ht, ?_⟩
  have hmem : (⟨n, p, .update⟩ : Job) ∈ asked t := (hu n p).2 (Or.inr ⟨⟨k, hadd⟩, q, k', hgone⟩)
  generalize asked t = l at hnd hmem
  clear hi hu hd ht
  induction l with
  | nil => simp at hmem
  | cons a l ih =>
    simp only [List.map_cons, List.nodup_cons] at hnd
    rcases List.mem_cons.1 hmem with rfl | hm
    · rw [List.filter_cons_of_pos (by simp)]
      congr 1
      rw [List.filter_eq_nil_iff]
      intro x hx hxn
      exact hnd.1 (List.mem_map.2 ⟨x, hx, by simpa using hxn⟩)
    · have hne : a.node ≠ n := by
        rintro rfl
        exact hnd.1 (List.mem_map.2 ⟨_, hm, rfl⟩)
      rw [List.filter_cons_of_neg (by simpa using hne)]
      exact ih hnd.2 hm

/-- **C04** (when the computation of changes goes through): entities sit in one place, no conflict, and every group a moved
entity leaves loses at most two entities. What is missing for the full property: the code rejects some saves moving an entity
out of a group that loses three or more (`C04_three_moves_rejected`), and reports an insert when the old parent was
itself removed (`C04_old_parent_removed`). -/
theorem C04_moves_accepted_partial (s : St) (hone : OnePlace s.now none)
    (hno : ∀ c, ¬ Conflict s.now s.kidPool s.heap.dirtyNode none c)
    (hsmall : ∀ p k x a b c, Gone s.now s.kidPool none p k x → (∃ p' k', Added s.now s.kidPool none p' k' x) →
      Gone s.now s.kidPool none p k a → Gone s.now s.kidPool none p k b → Gone s.now s.kidPool none p k c →
      a = b ∨ b = c ∨ a = c) :
    ∃ cs, getEntityChanged env opts s = (.ok cs, s) := by
  have := plan_succeeds s.graph s.heap.dirtyNode s.kidPool s.kidPool_keys none hone hno hsmall
  unfold getEntityChanged entityChanges
  cases h : handleEntityMove (entityDiff s.graph s.heap.dirtyNode s.kidPool none) with
  | none => rw [h] at this; simp at this
  | some res => exact ⟨_, rfl⟩

/-- **C04** exactly: an aggregate where every entity sits in one place and none is changed in conflicting ways is accepted if and only if, for every field with
recorded children, behind (the last occurrence of) a child that was moved elsewhere at most one further recorded child is gone from the field. So moving children out
of a field works for the last two of the children removed from it, and fails for any other. -/
theorem C04_accepted_iff (s : St) (hone : OnePlace s.now none)
    (hno : ∀ c, ¬ Conflict s.now s.kidPool s.heap.dirtyNode none c) :
    (∃ cs, getEntityChanged env opts s = (.ok cs, s)) ↔
      ∀ p k fs a x b, s.kidPool p = some fs → (k, a ++ x :: b) ∈ fs → x ∉ b →
        Gone s.now s.kidPool none p k x → (∃ p' k', Added s.now s.kidPool none p' k' x) →
        ∀ y ∈ b, ∀ z ∈ b, Gone s.now s.kidPool none p k y → Gone s.now s.kidPool none p k z → y = z := by
  have := plan_iff s.graph s.heap.dirtyNode s.kidPool s.kidPool_keys none hone hno
  unfold getEntityChanged entityChanges
  show _ ↔ _
  rw [show (∀ p k fs a x b, s.kidPool p = some fs → (k, a ++ x :: b) ∈ fs → x ∉ b →
        Gone s.now s.kidPool none p k x → (∃ p' k', Added s.now s.kidPool none p' k' x) →
        ∀ y ∈ b, ∀ z ∈ b, Gone s.now s.kidPool none p k y → Gone s.now s.kidPool none p k z → y = z) ↔ _ from this.symm]
  cases h : handleEntityMove (entityDiff s.graph s.heap.dirtyNode s.kidPool none) with
  | none => simp
  | some res => simp

/-- … and otherwise the save fails before anything is called. -/
theorem C04_rejected_untouched (s : St) (hn : ¬ ∃ cs, getEntityChanged env opts s = (.ok cs, s)) : persist env opts s = (.err errEntityRepeated, s) := by
  rw [persist_eq]
  unfold M.bind
  unfold getEntityChanged at hn ⊢
  cases h : entityChanges env opts s with
  | none => rfl
  | some cs => rw [h] at hn; exact absurd ⟨cs, rfl⟩ hn

/-- **C05** An entity changed in two places (other than removed here and added there) makes the save fail before anything
is called: the state, including the history of external calls, is unchanged. -/
theorem C05_conflict_rejected (s : St) (n : Node) (h : Conflict s.now s.kidPool s.heap.dirtyNode none n) :
    persist env opts s = (.err errEntityRepeated, s) := by
  have hm := plan_conflict s.graph s.heap.dirtyNode s.kidPool s.kidPool_keys none n h
  rw [persist_eq]
  unfold M.bind getEntityChanged entityChanges
  rw [hm]
  rfl

/-- **C08** (entities still attached) With recursive delete, a successful save deletes a removed entity and every entity still
reachable below it, whatever the map iteration order; nothing else is deleted. Missing for the full property: descendants
detached from the removed entity in the same session (`C08_detached_descendant_survives`). -/
theorem C08_recursive_delete_partial {s s' : St} (h : persist env opts s = (.ok (), s')) (hr : opts.recursiveDelete = true) :
    ∃ t, s'.trace = s.trace ++ t ∧
      ∀ n, (∃ p, (⟨n, p, .delete⟩ : Job) ∈ asked t) ↔
        ∃ r, ((∃ q k, Gone s.now s.kidPool none q k r) ∧ ¬ ∃ p' k', Added s.now s.kidPool none p' k' r) ∧ Reach s.now r n := by
  obtain ⟨cs, t, hc, ht, ha⟩ := save_calls env opts h
  refine ⟨t, ht, ?_⟩
  rw [ha]
  intro n
  have hj := fun p => changes_jobs env opts hc .delete p n
  simp only [hr, true_and] at hj
  constructor
  · rintro ⟨p, hp⟩
    rcases (hj p).1 hp with ⟨⟨k, h1⟩, h2⟩ | ⟨r, h1, h2, h3⟩
    · exact ⟨n, ⟨⟨p, k, h1⟩, h2⟩, .root⟩
    · exact ⟨r, h1, .step h2 h3⟩
  · rintro ⟨r, hr1, hreach⟩
    cases hreach with
    | root =>
      obtain ⟨⟨q, k, hq⟩, hno⟩ := hr1
      exact ⟨q, (hj q).2 (Or.inl ⟨⟨k, hq⟩, hno⟩)⟩
    | step hp hch => exact ⟨_, (hj _).2 (Or.inr ⟨r, hr1, hp, hch⟩)⟩

/-- **C09** Without recursive delete an entity is deleted only if it was itself taken out of a parent that is still in the
aggregate; entities that merely are below a removed entity are not. -/
theorem C09_delete_only_removed {s s' : St} (h : persist env opts s = (.ok (), s')) (hr : opts.recursiveDelete = false) :
    ∃ t, s'.trace = s.trace ++ t ∧
      (∀ n p, (⟨n, p, .delete⟩ : Job) ∈ asked t → ∃ k, Gone s.now s.kidPool none p k n) ∧
      (∀ r d, Reach s.now r d → (∀ q k, ¬ Gone s.now s.kidPool none q k d) → ∀ p, (⟨d, p, .delete⟩ : Job) ∉ asked t) ∧
      (∀ r q k, Gone s.now s.kidPool none q k r → (∀ p' k', ¬ Added s.now s.kidPool none p' k' r) →
        (⟨r, q, .delete⟩ : Job) ∈ asked t) := by
  obtain ⟨t, ht, _, _, _, hd⟩ := C01_changes_exact env opts h hr
  refine ⟨t, ht, fun n p hm => ((hd n p).1 hm).1, ?_, ?_⟩
  · intro r d _ hno p hm
    obtain ⟨⟨k, hk⟩, _⟩ := (hd d p).1 hm
    exact hno p k hk
  · intro r q k hg hno
    exact (hd r q).2 ⟨⟨k, hg⟩, fun ⟨p', k', h⟩ => hno p' k' h⟩

/-! ## Concrete cases -/

namespace Demo

/-- what a save did: success, requested rows, writes. -/
def view (env : Env) (opts : Opts) (s : St) : Bool × List Job × List (Op × List Nat) :=
  ((persist env opts s).1.isOk, asked ((persist env opts s).2.trace.drop s.trace.length),
   (written ((persist env opts s).2.trace.drop s.trace.length)).map fun a => (a.op, a.models.map Model.id))

/-- order 10 with two lists (fields 1 and 2); in field 1 there were 1, 2, 3, in field 2 there was 4. -/
def orderHeap (f1 f2 : List Ptr) (dirty : List Ptr) (h1 : ∀ c ∈ f1, c < 10) (h2 : ∀ c ∈ f2, c < 10) : Heap :=
  heapOf [(10, [(1, f1), (2, f2)])] (fun p => { stdAttr p with dirty := decide (p ∈ dirty) })
    (by
      intro x hx g hg c hc
      simp only [List.mem_singleton] at hx
      subst hx
      simp only [List.mem_cons, List.not_mem_nil, or_false] at hg
      rcases hg with rfl | rfl
      · exact h1 c hc
      · exact h2 c hc) (by simp)

def recorded (n : Node) : Option Snap :=
  match n with
  | none => some ⟨none, [(0, [some 10])], by simp⟩
  | some 10 => some ⟨some ⟨1, 10, 0, 0⟩, [(1, [some 1, some 2, some 3]), (2, [some 4])], by simp⟩
  | some p => some ⟨some ⟨1, p, 10, 0⟩, [], by simp⟩

def orderSt (h : Heap) : St :=
  { heap := h, roots := [10], deleted := [], snap := recorded, errs := [], actions := [], output := 0,
    eventCtx := false, trace := [] }

/-- 1 stays and is dirty, 2 is moved to field 2, 3 is removed, 5 is new. -/
def mixed : St := orderSt (orderHeap [1, 5] [4, 2] [1] (by decide) (by decide))

/-- C01, C09: all kinds of change at once. -/
example : view okEnv stdOpts mixed =
    (true, [⟨some 5, some 10, .insert⟩, ⟨some 1, some 10, .update⟩, ⟨some 3, some 10, .delete⟩, ⟨some 2, some 10, .update⟩],
      [(.insert, [5]), (.update, [1, 2]), (.delete, [3])]) := by decide +kernel

/-- C04: entity 2 of `mixed` meets the hypotheses. -/
example : Added mixed.now mixed.kidPool none (some 10) 2 (some 2) ∧ Gone mixed.now mixed.kidPool none (some 10) 1 (some 2) := by
  have hr : Reach mixed.now none (some 10) :=
    .step .root ⟨0, [some 10], by decide, by decide⟩
  refine ⟨⟨hr, ⟨[some 4, some 2], by decide, by decide⟩, ?_⟩, hr, ⟨[some 1, some 5], by decide⟩,
    ⟨_, [some 1, some 2, some 3], rfl, by decide, by decide⟩, ?_⟩
  · rintro ⟨f, cs, h1, h2, h3⟩
    simp only [mixed, orderSt, St.kidPool, recorded, Option.map_some, Option.some.injEq] at h1
    subst h1
    simp only [List.mem_cons, Prod.mk.injEq, List.not_mem_nil, or_false] at h2
    rcases h2 with ⟨h, _⟩ | ⟨_, rfl⟩
    · exact absurd h (by decide)
    · simp at h3
  · rintro ⟨cs, h2, h3⟩
    have h2 : ((1 : Key), cs) ∈ [((1 : Key), [some (1 : Ptr), some 5]), (2, [some 4, some 2])] := h2
    simp only [List.mem_cons, Prod.mk.injEq, List.not_mem_nil, or_false] at h2
    rcases h2 with ⟨_, rfl⟩ | ⟨h, _⟩
    · simp at h3
    · exact absurd h (by decide)

/-- 1 is put into the second list as well: added there while dirty in the first. -/
def doubled : St := orderSt (orderHeap [1, 2, 3] [4, 1] [1] (by decide) (by decide))

/-- C05: the hypothesis is met. -/
example : Conflict doubled.now doubled.kidPool doubled.heap.dirtyNode none (some 1) := by
  have hr : Reach doubled.now none (some 10) :=
    .step .root ⟨0, [some 10], by decide, by decide⟩
  refine ⟨.touched, some 10, 1, .added, some 10, 2, ⟨hr, ⟨[some 1, some 2, some 3], by decide, by decide⟩,
    ⟨_, [some 1, some 2, some 3], rfl, by decide, by decide⟩, by decide⟩,
    ⟨hr, ⟨[some 4, some 1], by decide, by decide⟩, ?_⟩, by decide, by decide, by decide⟩
  rintro ⟨f, cs, h1, h2, h3⟩
  simp only [doubled, orderSt, St.kidPool, recorded, Option.map_some, Option.some.injEq] at h1
  subst h1
  simp only [List.mem_cons, Prod.mk.injEq, List.not_mem_nil, or_false] at h2
  rcases h2 with ⟨h, _⟩ | ⟨_, rfl⟩
  · exact absurd h (by decide)
  · simp at h3

example : view okEnv stdOpts doubled = (false, [], []) := by decide +kernel

/-- all of 1, 2, 3 are moved from the first to the second list. -/
def threeMoved : St := orderSt (orderHeap [] [4, 1, 2, 3] [] (by decide) (by decide))

/-- only 1 is moved; 2 and 3 are removed. -/
def firstMoved : St := orderSt (orderHeap [] [4, 1] [] (by decide) (by decide))

/-- two are moved. -/
def twoMoved : St := orderSt (orderHeap [3] [4, 1, 2] [] (by decide) (by decide))

example : view okEnv stdOpts twoMoved =
    (true, [⟨some 1, some 10, .update⟩, ⟨some 2, some 10, .update⟩], [(.update, [1, 2])]) := by decide +kernel

end Demo

open Demo in
/-- **C04 is false in general**: moving three children of one list to another list of the same parent at once is rejected
(so is moving one while two others leave the list). -/
theorem C04_three_moves_rejected :
    (threeMoved.kidPool (some 10) = some [(1, [some 1, some 2, some 3]), (2, [some 4])] ∧
      threeMoved.now (some 10) = [(1, []), (2, [some 4, some 1, some 2, some 3])] ∧
      persist okEnv stdOpts threeMoved = (.err errEntityRepeated, threeMoved)) ∧
    (firstMoved.now (some 10) = [(1, []), (2, [some 4, some 1])] ∧
      persist okEnv stdOpts firstMoved = (.err errEntityRepeated, firstMoved)) := by
  refine ⟨⟨rfl, rfl, ?_⟩, rfl, ?_⟩
  · have : entityChanges okEnv stdOpts threeMoved = none := by decide +kernel
    rw [persist_eq]; unfold M.bind getEntityChanged; rw [this]
  · have : entityChanges okEnv stdOpts firstMoved = none := by decide +kernel
    rw [persist_eq]; unfold M.bind getEntityChanged; rw [this]

namespace Demo
/-- root 20 held 10 and 11; 10 held 1. -/
def deepRecorded (n : Node) : Option Snap :=
  match n with
  | none => some ⟨none, [(0, [some 20])], by simp⟩
  | some 20 => some ⟨some ⟨1, 20, 0, 0⟩, [(1, [some 10, some 11])], by simp⟩
  | some 10 => some ⟨some ⟨1, 10, 20, 0⟩, [(1, [some 1])], by simp⟩
  | some 11 => some ⟨some ⟨1, 11, 20, 0⟩, [(1, [])], by simp⟩
  | some p => some ⟨some ⟨1, p, 10, 0⟩, [], by simp⟩

def deepSt (f20 f10 f11 : List Ptr) (h20 : ∀ c ∈ f20, c < 20) (h10 : ∀ c ∈ f10, c < 10) (h11 : ∀ c ∈ f11, c < 11) : St :=
  { heap := heapOf [(20, [(1, f20)]), (10, [(1, f10)]), (11, [(1, f11)])] stdAttr
      (by
        intro x hx g hg c hc
        simp only [List.mem_cons, List.not_mem_nil, or_false] at hx
        rcases hx with rfl | rfl | rfl <;>
          (simp only [List.mem_singleton] at hg; subst hg; first | exact h20 c hc | exact h10 c hc | exact h11 c hc))
      (by simp),
    roots := [20], deleted := [], snap := deepRecorded, errs := [], actions := [], output := 0,
    eventCtx := false, trace := [] }

/-- 10 is removed from 20, and 1 goes from 10 to 11. -/
def parentRemoved : St := deepSt [11] [] [1] (by decide) (by decide) (by decide)
/-- 10 is removed from 20, still holding 1. -/
def subtreeRemoved : St := deepSt [11] [1] [] (by decide) (by decide) (by decide)
/-- 1 is detached from 10, and 10 is removed from 20. -/
def emptiedThenRemoved : St := deepSt [11] [] [] (by decide) (by decide) (by decide)
end Demo

open Demo in
/-- **C04 is false** when the old parent is removed in the same save: the moved entity 1 (persisted, recorded below 10) is
inserted again instead of updated. -/
theorem C04_old_parent_removed :
    parentRemoved.kidPool (some 10) = some [(1, [some 1])] ∧
    view okEnv stdOpts parentRemoved =
      (true, [⟨some 1, some 11, .insert⟩, ⟨some 10, some 20, .delete⟩], [(.insert, [1]), (.delete, [10])]) :=
  ⟨rfl, by decide +kernel⟩

/-- C08, C09: removing a subtree with and without recursive delete. -/
example : Demo.view Demo.okEnv { Demo.stdOpts with recursiveDelete := true } Demo.subtreeRemoved =
    (true, [⟨some 10, some 20, .delete⟩, ⟨some 1, some 10, .delete⟩], [(.delete, [10, 1])]) := by decide +kernel
example : Demo.view Demo.okEnv Demo.stdOpts Demo.subtreeRemoved =
    (true, [⟨some 10, some 20, .delete⟩], [(.delete, [10])]) := by decide +kernel

open Demo in
/-- **C08 is false** for descendants detached in the same session: entity 1 was stored below 10, the program emptied the list of
10 and removed 10; with recursive delete only 10 is deleted. -/
theorem C08_detached_descendant_survives :
    emptiedThenRemoved.kidPool (some 10) = some [(1, [some 1])] ∧
    view okEnv { stdOpts with recursiveDelete := true } emptiedThenRemoved =
      (true, [⟨some 10, some 20, .delete⟩], [(.delete, [10])]) :=
  ⟨rfl, by decide +kernel⟩

end Ddd
