import Verif.Proofs.Reuse
import Verif.Props.PostCommit
import Verif.Props.Events
/-!
# C85: the objects of a command, afterwards
-/
set_option linter.unusedVariables false
set_option linter.unusedSimpArgs false
namespace Ddd
open Spec
variable {env : Env} {opts : Opts} {c : Cmd} {h : Heap}

/-- relations between heaps that contain what the framework and the environment do. -/
structure HeapRel (env : Env) (G : Heap → Heap → Prop) : Prop where
  refl : ∀ h, G h h
  trans : ∀ {a b d}, G a b → G b d → G a d
  ids : ∀ {a b}, OnlyIDs a b → G a b
  env : env.Within G

theorem OnlyIDs.refl (h : Heap) : OnlyIDs h h := ⟨rfl, fun _ => rfl, fun _ => rfl, fun _ => rfl, fun _ _ => rfl, fun _ h => h⟩

theorem OnlyIDs.trans {a b d : Heap} (h1 : OnlyIDs a b) (h2 : OnlyIDs b d) : OnlyIDs a d where
  kids := h2.kids.trans h1.kids
  typ p := (h2.typ p).trans (h1.typ p)
  data p := (h2.data p).trans (h1.data p)
  events p := (h2.events p).trans (h1.events p)
  id p h0 := by
    have e := h1.id p h0
    rw [← e]
    exact h2.id p (by rw [e]; exact h0)
  dirty p hd := h1.dirty p (h2.dirty p hd)

namespace HeapRel
variable {G : Heap → Heap → Prop} (A : HeapRel env G)
include A

theorem allows : AllowsH env (fun a b => G a.heap b.heap) where
  refl s := A.refl _
  trans h1 h2 := A.trans h1 h2
  touch s h hh := A.ids hh
  hook s n k := A.env.hook _ _ _ _
  query s p := A.env.query _ _ _
  log s c := A.refl _
  actions s as := A.refl _
  deleted s l := A.refl _
  snap s f := A.refl _
  errs s e := A.refl _
  output s v := A.refl _
  add s r := A.refl _
  remove s r := A.refl _
  enter s rs := A.refl _

theorem allowsE : AllowsE env opts (fun a b => G a.heap b.heap) where
  toPreOrd := A.allows.toPreOrd
  log s c _ := A.refl _
  exec as := A.allows.exec as
  eventCtx s b := A.refl _

theorem callMain (main : Prog) (hm : main.Within G) : Keeps (fun a b => G a.heap b.heap) (callMain env opts main) := by
  intro s
  have := A.allows.runProg (opts := opts) (G := G) (fun s h hh => hh) main hm { s with trace := s.trace ++ [.mainStart] }
  unfold Ddd.callMain
  exact this

theorem doStage (main : Prog) (hm : main.Within G) (s : St) : G s.heap (doStage env opts main s).2.heap := by
  have h1 := A.callMain (opts := opts) main hm s
  unfold Ddd.doStage
  split
  · next h' => rw [h'] at h1; exact h1
  · next h' => rw [h'] at h1; exact h1
  · next u s1 h' =>
    rw [h'] at h1
    split
    · exact h1
    · next _ =>
      have h2 := A.allows.persist (opts := opts) s1
      split
      · next h'' => rw [h''] at h2; exact A.trans h1 h2
      · next h'' => rw [h''] at h2; exact A.trans h1 h2
      · next u s2 h'' =>
        rw [h''] at h2
        have h3 := A.allowsE.finishEvents (opts := opts) s2
        split
        · next h3' => rw [h3'] at h3; exact A.trans (A.trans h1 h2) h3
        · next h3' => rw [h3'] at h3; exact A.trans (A.trans h1 h2) h3
        · next h3' => rw [h3'] at h3; exact A.trans (A.trans h1 h2) h3

end HeapRel

theorem tx_heap (f : St → Outcome) (s : St) : (runWithTransaction env opts f s).2.heap = s.heap ∨ (runWithTransaction env opts f s).2.heap = (f (s.log (.begin .ok))).2.heap := by
  unfold runWithTransaction callOut
  cases hb : env.begin_ s.trace with
  | panic => left; rfl
  | err e => left; rfl
  | ok u =>
    right
    simp only [Res.stat]
    generalize f (s.log (.begin .ok)) = x
    obtain ⟨o, s2⟩ := x
    cases o with
    | none => rfl
    | some r =>
      simp only
      split
      · cases env.rollback s2.trace with
        | panic => rfl
        | ok u =>
          simp only
          split
          · cases env.busRollback (s2.log (.rollback .ok)).trace <;> rfl
          · rfl
        | err u =>
          simp only
          split
          · cases env.busRollback (s2.log (.rollback .err)).trace <;> rfl
          · rfl
      · cases env.commit s2.trace with
        | panic => rfl
        | ok u =>
          simp only
          split
          · cases env.busCommit (s2.log (.commit .ok)).trace <;> rfl
          · rfl
        | err u => rfl

theorem Logged.heap {s s' : St} (h : Logged s s') : s'.heap = s.heap := by
  obtain ⟨t, rfl, _⟩ := h; rfl

theorem acquire_heap (ks : List Nat) : ∀ (got : List Nat) (s : St), (acquire env ks got s).2.2.heap = s.heap := by
  induction ks with
  | nil => intro got s; rfl
  | cons k ks ih =>
    intro got s
    simp only [acquire, callOut]
    cases env.lock s.trace k with
    | ok u => simp only; rw [ih]; rfl
    | err e => rfl
    | panic => rfl

theorem lock_heap (keys : List Nat) (f : St → Outcome) (s : St) :
    (runOnLock env keys f s).2.heap = s.heap ∨ ∃ s0 : St, s0.heap = s.heap ∧ (runOnLock env keys f s).2.heap = (f s0).2.heap := by
  unfold runOnLock
  simp only
  split
  · left; rfl
  · have ha := acquire_heap (env := env) (keys.insertionSort (· ≤ ·)) [] s
    generalize acquire env (keys.insertionSort (· ≤ ·)) [] s = x at ha ⊢
    obtain ⟨l, got, s1⟩ := x
    simp only at ha
    cases l with
    | panic => left; exact ha
    | failed e =>
      left
      have := (release_logged (env := env) got s1).heap
      simp only
      generalize releaseAll env got s1 = y at this ⊢
      obtain ⟨b, s2⟩ := y
      cases b <;> exact this.trans ha
    | all =>
      right
      refine ⟨s1, ha, ?_⟩
      simp only
      generalize f s1 = y
      obtain ⟨o, s2⟩ := y
      have := (release_logged (env := env) got s2).heap
      simp only
      generalize releaseAll env got s2 = z at this ⊢
      obtain ⟨b, s3⟩ := z
      cases b <;> exact this

theorem HeapRel.save {G : Heap → Heap → Prop} (A : HeapRel env G) (keys : List Nat) (main : Prog) (hm : main.Within G) (s : St) :
    G s.heap (save env opts keys main s).2.heap := by
  have htx : ∀ s : St, G s.heap ((if opts.withTransaction = true then runWithTransaction env opts (Ddd.doStage env opts main) else Ddd.doStage env opts main) s).2.heap := by
    intro s
    split
    · rcases tx_heap (env := env) (opts := opts) (Ddd.doStage env opts main) s with he | he
      · rw [he]; exact A.refl _
      · rw [he]; exact A.doStage main hm (s.log _)
    · exact A.doStage main hm s
  have hcore : G s.heap (saveCore env opts keys main s).2.heap := by
    unfold saveCore
    split
    · exact htx s
    · rcases lock_heap (env := env) keys _ s with he | ⟨s0, h0, he⟩
      · rw [he]; exact A.refl _
      · rw [he, ← h0]; exact htx s0
  unfold Ddd.save
  generalize saveCore env opts keys main s = x at hcore ⊢
  obtain ⟨o, s1⟩ := x
  cases o with
  | none => exact hcore
  | some r =>
    dsimp only
    split
    · have := (posts_logged (env := env) opts.hooks s1).heap
      generalize postSaves env opts.hooks s1 = y at this ⊢
      obtain ⟨b, s2⟩ := y
      cases b <;> (simp only at this ⊢; rw [this]; exact hcore)
    · exact hcore

/-- **C85** Whatever happens (success, error, panic), the objects of the user differ after a command from before only by filled IDs, cleared dirty flags and
the changes of user code: of the command, the entity hooks, and loading. -/
theorem C85_untouched_partial {G : Heap → Heap → Prop} (hrefl : ∀ h, G h h) (htrans : ∀ a b d, G a b → G b d → G a d) (hids : ∀ a b, OnlyIDs a b → G a b)
    (henv : env.Within G) (hm : c.main.Within G) : G h (run env opts c h).2.heap := by
  have A : HeapRel env G := ⟨hrefl, fun h1 h2 => htrans _ _ _ h1 h2, fun hh => hids _ _ hh, henv⟩
  unfold run
  simp only
  cases c.init with
  | none => exact A.save [] c.main hm (.fresh h)
  | some x =>
    cases x with
    | ok keys => exact A.save keys c.main hm (.fresh h)
    | err e => exact A.refl _
    | panic => exact A.refl _

theorem onlyIDs_keepsEvents {a b : Heap} (h : OnlyIDs a b) : KeepsEvents a b := fun p e he => by rw [h.events]; exact he

theorem Keys.unique {k k' : List Nat} (h1 : c.Keys k) (h2 : c.Keys k') : k = k' := by
  rcases h1 with ⟨a, rfl⟩ | a <;> rcases h2 with ⟨b, rfl⟩ | b <;> simp_all

theorem finishEvents_deleted : Keeps (fun a b : St => b.deleted = a.deleted) (finishEvents env opts) := by
  refine AllowsE.finishEvents (R := fun a b => b.deleted = a.deleted) ⟨⟨fun _ => rfl, fun h1 h2 => h2.trans h1⟩, fun _ _ _ => rfl, ?_, fun _ _ => rfl⟩
  intro as s
  unfold exec
  split
  · rfl
  · exact Keeps.bind (R := fun a b : St => b.deleted = a.deleted) ⟨fun _ => rfl, fun h1 h2 => h2.trans h1⟩ (Keeps.forEach (R := fun a b : St => b.deleted = a.deleted) ⟨fun _ => rfl, fun h1 h2 => h2.trans h1⟩ (f := fun a => M.ext (fun s => env.exec s.trace a) (.exec a)) (fun a s => rfl) as) (fun _ s => rfl) s

/-- the events of the entities a successful command ends with are handed over. -/
theorem held_handed {r : Result} (hr : (run env opts c h).1 = some r) (hc : r.clean) (hd : opts.dryRun = false) {x : Node} (hx : Held (run env opts c h).2 x) {e : Event}
    (he : e ∈ (run env opts c h).2.heap.eventsOf x) : ∃ e' ∈ handed (run env opts c h).2.trace, e'.id = e.id := by
  obtain ⟨keys, s2, hk, hp, _, hall, _⟩ := C29_dispatched hr hc hd
  obtain ⟨keys', s1, s2', hk', hm, hp', s3, hf, hl⟩ := run_clean_core hr hc
  obtain rfl := Keys.unique hk hk'
  rw [hm, hp'] at hp
  simp only [Prod.mk.injEq, true_and] at hp
  obtain rfl := hp
  apply hall
  have hsd : SameData s2' s3 := by
    have := SameData.allowed.finishEvents (env := env) (opts := c.opts opts) s2'
    rw [hf] at this
    exact this
  have hdel : s3.deleted = s2'.deleted := by
    have := finishEvents_deleted (env := env) (opts := c.opts opts) s2'
    rw [hf] at this
    exact this
  obtain ⟨tl, hfin, _⟩ := hl
  rw [hfin] at hx he
  obtain ⟨d1, d2, d3⟩ := hsd
  refine ⟨x, ?_, ?_⟩
  · unfold Held at hx
    simpa only [St.graph, d1, d3, hdel] using hx
  · simpa only [d1] using he

/-- **C85** An entity object that two successful commands end with, the second run on the objects the first left: its events are handed to the bus by both, unless user
code takes them off (the framework never does). -/
theorem C85_again {env1 env2 : Env} {opts1 opts2 : Opts} {c1 c2 : Cmd} {r1 r2 : Result}
    (hr1 : (run env1 opts1 c1 h).1 = some r1) (hc1 : r1.clean) (hd1 : opts1.dryRun = false)
    (hr2 : (run env2 opts2 c2 (run env1 opts1 c1 h).2.heap).1 = some r2) (hc2 : r2.clean) (hd2 : opts2.dryRun = false)
    (henv : env2.Within KeepsEvents) (hmain : c2.main.Within KeepsEvents)
    {x : Node} (hx1 : Held (run env1 opts1 c1 h).2 x) (hx2 : Held (run env2 opts2 c2 (run env1 opts1 c1 h).2.heap).2 x)
    {e : Event} (he : e ∈ (run env1 opts1 c1 h).2.heap.eventsOf x) :
    (∃ e' ∈ handed (run env1 opts1 c1 h).2.trace, e'.id = e.id) ∧
    (∃ e' ∈ handed (run env2 opts2 c2 (run env1 opts1 c1 h).2.heap).2.trace, e'.id = e.id) := by
  refine ⟨held_handed hr1 hc1 hd1 hx1 he, held_handed hr2 hc2 hd2 hx2 ?_⟩
  have hk : KeepsEvents (run env1 opts1 c1 h).2.heap (run env2 opts2 c2 (run env1 opts1 c1 h).2.heap).2.heap :=
    C85_untouched_partial (fun h p e he => he) (fun a b d h1 h2 p e he => h2 p e (h1 p e he)) (fun a b => onlyIDs_keepsEvents) henv hmain
  cases x with
  | none => simp [Heap.eventsOf] at he
  | some p => exact hk p e he

/-! ## concrete case -/
open Demo

/-- a root with a child; the child holds an event. -/
def withEvent : Heap := heapOf [(7, [(0, [3])])] (fun p => { id := p, typ := p, dirty := false, data := 0, events := if p = 3 then [⟨5, 1, false, 0⟩] else [] }) (by decide) (by decide)

/-- `Create(root)`, then `Delete(root)` with the same object: the event is dispatched by both. -/
theorem C85_create_delete :
    let create : Cmd := { init := none, main := .add [7] (.ret none), post := none }
    let delete : Cmd := { init := none, main := .remove [7] (.ret none), post := none }
    let o1 := run okEnv stdOpts create withEvent
    let o2 := run okEnv stdOpts delete o1.2.heap
    (o1.1.map fun r => (r.error.isNone, r.brk)) = some (true, false) ∧ (o2.1.map fun r => (r.error.isNone, r.brk)) = some (true, false) ∧
    handed o1.2.trace = [⟨5, 1, false, 0⟩] ∧ handed o2.2.trace = [⟨5, 1, false, 0⟩] := by decide +kernel

/-- the hypotheses of `C85_again` are met there. -/
example : okEnv.Within KeepsEvents ∧ (Prog.remove [7] (.ret none)).Within KeepsEvents := by
  refine ⟨⟨fun t h n k p e he => he, fun t h p q e he => he⟩, trivial⟩

example : Held (run okEnv stdOpts { init := none, main := .add [7] (.ret none), post := none } withEvent).2 (some 3) := by
  have hroots : (run okEnv stdOpts { init := none, main := .add [7] (.ret none), post := none } withEvent).2.roots = [7] := by decide +kernel
  have hkids : (run okEnv stdOpts { init := none, main := .add [7] (.ret none), post := none } withEvent).2.heap.kids 7 = [(0, [3])] := by decide +kernel
  left
  refine .step (p := some 7) (.step .root ⟨0, [some 7], ?_, by simp⟩) ⟨0, [some 3], ?_, by simp⟩
  · simp [St.graph, stageGraph, hroots]
  · simp [St.graph, stageGraph, hkids]

end Ddd
