import Verif.Spec.Serial
import Verif.Props.CommandDemo
/-!
# C69: commands sharing a lock key run one after the other
-/
set_option linter.unusedVariables false
set_option linter.unusedSimpArgs false
namespace Ddd
open Spec

namespace Serial

theorem holds_snoc {g : World} {x : Nat × Call} {i k : Nat} (h : HoldsKey (g ++ [x]) i k) : x = (i, Call.lock k .ok) ∨ HoldsKey g i k := by
  obtain ⟨a, b, hab, hb⟩ := h
  rcases List.eq_nil_or_concat b with rfl | ⟨b', y, rfl⟩
  · have := List.append_inj' hab rfl
    simp at this
    exact .inl this.2
  · right
    have h1 : g ++ [x] = (a ++ (i, Call.lock k .ok) :: b') ++ [y] := by simpa using hab
    have := List.append_inj' h1 rfl
    refine ⟨a, b', this.1, fun st hm => hb st ?_⟩
    simp [hm]

theorem Exclusive.prefix {g g' : World} (h : Exclusive (g ++ g')) : Exclusive g := by
  intro a b i j k hg hk
  exact h a (b ++ g') i j k (by simp [hg]) hk

/-- an exclusive locker has at most one holder per key. -/
theorem one_holder {g : World} (hx : Exclusive g) {i j k : Nat} (hi : HoldsKey g i k) (hj : HoldsKey g j k) : i = j := by
  induction g using List.reverseRecOn with
  | nil => obtain ⟨a, b, h, _⟩ := hi; simp at h
  | append_singleton g x ih =>
    rcases holds_snoc hi with h1 | h1 <;> rcases holds_snoc hj with h2 | h2
    · rw [h1] at h2; simpa using h2
    · subst h1; exact hx g [] i j k rfl h2
    · subst h2; exact (hx g [] j i k rfl h1).symm
    · exact ih (Exclusive.prefix hx) h1 h2

theorem of_append (a b : World) (i : Nat) : World.of (a ++ b) i = World.of a i ++ World.of b i := by simp [World.of]
theorem mem_of {g : World} {i : Nat} {x : Call} : x ∈ World.of g i ↔ (i, x) ∈ g := by
  simp [World.of]

/-- a command holds its keys whenever it does something that matters. -/
theorem holds_at {g a b : World} {i k : Nat} {x : Call} {env : Env} {opts : Opts} {c : Cmd} {h : Heap} {rest : Trace}
    (hrun : (run env opts c h).2.trace = World.of g i ++ rest) {keys : List Nat} (hk : c.Keys keys) (hkk : k ∈ keys)
    (hg : g = a ++ (i, x) :: b) (hx : matters x = true) : (∃ a1 a2, a = a1 ++ (i, Call.lock k .ok) :: a2) ∧ ∀ k st, (i, Call.unlock k st) ∉ a := by
  have hT : (run env opts c h).2.trace = World.of a i ++ x :: (World.of b i ++ rest) := by
    rw [hrun, hg, of_append]
    simp [World.of]
  have := C23_held hk hT (by intro k st; cases x <;> simp [matters] at hx <;> simp)
  refine ⟨?_, fun k st hm => this.2 k st (mem_of.2 hm)⟩
  have h1 := mem_of.1 (this.1 k hkk)
  obtain ⟨a1, a2, h2⟩ := List.append_of_mem h1
  exact ⟨a1, a2, h2⟩

/-- If between two entries of one owner there is never an entry of another, the list is a concatenation of blocks. -/
theorem blocks {α : Type} (g : List (Nat × α))
    (h : ∀ a b c d i j x y z, g = a ++ (i, x) :: b ++ (j, y) :: c ++ (i, z) :: d → j = i) :
    ∃ order : List Nat, order.Nodup ∧ (∀ i ∈ order, ∃ x, (i, x) ∈ g) ∧ g = order.flatMap fun i => g.filter (·.1 = i) := by
  induction g with
  | nil => exact ⟨[], by simp, by simp, by simp⟩
  | cons e g ih =>
    obtain ⟨i, x⟩ := e
    obtain ⟨order, hn, hmem, hg⟩ := ih fun a b c d i j x y z hg => h ((_, _) :: a) b c d i j x y z (by rw [hg]; simp; exact ⟨rfl, rfl⟩)
    by_cases hi : i ∈ order
    · -- the first block belongs to `i`
      cases order with
      | nil => simp at hi
      | cons j order =>
        by_cases hij : j = i
        · subst hij
          refine ⟨j :: order, hn, ?_, ?_⟩
          · intro l hl; obtain ⟨y, hy⟩ := hmem l hl; exact ⟨y, List.mem_cons_of_mem _ hy⟩
          · have h1 : ∀ l ∈ order, List.filter (fun e => decide (e.1 = l)) ((j, x) :: g) = List.filter (fun e => decide (e.1 = l)) g := by
              intro l hl
              have : j ≠ l := by rintro rfl; exact (List.nodup_cons.1 hn).1 hl
              simp [this]
            rw [List.flatMap_cons, List.flatMap_congr h1]
            simp only [List.filter_cons, decide_true, ↓reduceIte, List.cons_append]
            rw [List.cons.injEq]
            exact ⟨rfl, by rw [List.flatMap_cons] at hg; exact hg⟩
        · exfalso
          obtain ⟨y, hy⟩ := hmem j (by simp)
          -- g starts with the block of j
          have hne : (g.filter fun e => decide (e.1 = j)) ≠ [] := by
            intro h0
            have : (j, y) ∈ g.filter fun e => decide (e.1 = j) := List.mem_filter.2 ⟨hy, by simp⟩
            rw [h0] at this; simp at this
          obtain ⟨e, t, het⟩ := List.exists_cons_of_ne_nil hne
          have hej : e.1 = j := by
            have : e ∈ g.filter fun e => decide (e.1 = j) := by rw [het]; simp
            simpa using (List.mem_filter.1 this).2
          have hgs : ∃ t', g = e :: t' := by
            rw [List.flatMap_cons, het] at hg
            exact ⟨_, hg⟩
          obtain ⟨t', hg'⟩ := hgs
          obtain ⟨z, hz⟩ := hmem i hi
          have hz' : (i, z) ∈ t' := by
            rw [hg'] at hz
            rcases List.mem_cons.1 hz with h1 | h1
            · exfalso; apply hij; rw [← hej, ← h1]
            · exact h1
          obtain ⟨c, d, hcd⟩ := List.append_of_mem hz'
          exact hij (h [] [] c d i j x e.2 z (by rw [hg', hcd]; simp [← hej]))
    · refine ⟨i :: order, List.nodup_cons.2 ⟨hi, hn⟩, ?_, ?_⟩
      · intro l hl
        rcases List.mem_cons.1 hl with rfl | hl
        · exact ⟨x, by simp⟩
        · obtain ⟨y, hy⟩ := hmem l hl; exact ⟨y, List.mem_cons_of_mem _ hy⟩
      · have h1 : ∀ l ∈ order, List.filter (fun e => decide (e.1 = l)) ((i, x) :: g) = List.filter (fun e => decide (e.1 = l)) g := by
          intro l hl
          have : i ≠ l := by rintro rfl; exact hi hl
          simp [this]
        rw [List.flatMap_cons, List.flatMap_congr h1, ← hg]
        have h2 : g.filter (fun e => decide (e.1 = i)) = [] := by
          rw [List.filter_eq_nil_iff]
          intro e he hei
          apply hi
          rw [hg] at he
          obtain ⟨l, hl, hm⟩ := List.mem_flatMap.1 he
          have := (List.mem_filter.1 hm).2
          simp at this hei
          rw [← hei, this]; exact hl
        simp [h2]

end Serial

/-- **C69** Whatever several commands do, in every interleaving and at every moment: if the locker is exclusive and two commands ask for the same key, no call of
one that matters (`Begin`, `Main`, reads, writes, event dispatch, `Commit`, `RollBack`) happens between two such calls of the other. -/
theorem C69_not_in_between {g : World} (hx : Exclusive g) {cmd : Nat → Cmd} {env : Nat → Env} {opts : Nat → Opts} {h : Nat → Heap}
    (hrun : ∀ i, World.of g i <+: (run (env i) (opts i) (cmd i) (h i)).2.trace)
    {i j k : Nat} {ki kj : List Nat} (hi : (cmd i).Keys ki) (hj : (cmd j).Keys kj) (hki : k ∈ ki) (hkj : k ∈ kj)
    {a b c d : World} {x y z : Call} (hg : g = a ++ (i, x) :: b ++ (j, y) :: c ++ (i, z) :: d)
    (hxm : matters x = true) (hym : matters y = true) (hzm : matters z = true) : j = i := by
  obtain ⟨ri, hri⟩ := hrun i
  obtain ⟨rj, hrj⟩ := hrun j
  obtain ⟨⟨a1, a2, ha⟩, _⟩ := Serial.holds_at hri.symm hi hki (a := a) (b := b ++ (j, y) :: c ++ (i, z) :: d) (by rw [hg]; simp) hxm
  obtain ⟨_, hz⟩ := Serial.holds_at hri.symm hi hki (a := a ++ (i, x) :: b ++ (j, y) :: c) (b := d) hg hzm
  obtain ⟨⟨b1, b2, hb⟩, hy⟩ := Serial.holds_at hrj.symm hj hkj (a := a ++ (i, x) :: b) (b := c ++ (i, z) :: d) (by rw [hg]; simp) hym
  have hP : Exclusive (a ++ (i, x) :: b) := by
    apply Serial.Exclusive.prefix (g' := (j, y) :: c ++ (i, z) :: d)
    rw [hg] at hx; simpa using hx
  refine (Serial.one_holder hP (i := i) (j := j) (k := k) ⟨a1, a2 ++ (i, x) :: b, by rw [ha]; simp, fun st hm => hz k st ?_⟩ ⟨b1, b2, hb, fun st hm => hy k st ?_⟩).symm
  · rw [ha]; simp only [List.mem_append, List.mem_cons] at hm ⊢; tauto
  · rw [hb]; simp [hm]

/-- **C69** If all commands ask for one common key (and any others) and the locker is exclusive, everything that matters happens as if the commands were run one after
the other. -/
theorem C69_one_after_the_other {g : World} (hx : Exclusive g) {cmd : Nat → Cmd} {env : Nat → Env} {opts : Nat → Opts} {h : Nat → Heap}
    (hrun : ∀ i, World.of g i <+: (run (env i) (opts i) (cmd i) (h i)).2.trace)
    {k : Nat} (hk : ∀ i, ∃ keys, (cmd i).Keys keys ∧ k ∈ keys) : OneAfterTheOther g := by
  suffices hs : ∀ a b c d i j x y z, g.work = a ++ (i, x) :: b ++ (j, y) :: c ++ (i, z) :: d → j = i by
    obtain ⟨order, hn, _, ho⟩ := Serial.blocks g.work hs
    exact ⟨order, hn, ho⟩
  · intro a b c d i j x y z hw
    obtain ⟨ki, hi, hki⟩ := hk i
    obtain ⟨kj, hj, hkj⟩ := hk j
    have h1 : g.filter (fun x => matters x.2) = a ++ (i, x) :: (b ++ (j, y) :: (c ++ (i, z) :: d)) := by
      rw [World.work] at hw; rw [hw]; simp
    obtain ⟨A, R, rfl, hA, h2⟩ := List.filter_eq_append_iff.1 h1
    obtain ⟨A', B, rfl, hA', hxm, h3⟩ := List.filter_eq_cons_iff.1 h2
    obtain ⟨B1, R2, rfl, hB, h4⟩ := List.filter_eq_append_iff.1 h3
    obtain ⟨B', C, rfl, hB', hym, h5⟩ := List.filter_eq_cons_iff.1 h4
    obtain ⟨C1, R3, rfl, hC, h6⟩ := List.filter_eq_append_iff.1 h5
    obtain ⟨C', D, rfl, hC', hzm, h7⟩ := List.filter_eq_cons_iff.1 h6
    exact C69_not_in_between hx hrun hi hj hki hkj (a := A ++ A') (b := B1 ++ B') (c := C1 ++ C') (d := D) (by simp) hxm hym hzm

namespace Serial

/-- checks exclusiveness, `hold` being the keys held. -/
def exclB : List (Nat × Nat) → World → Bool
  | _, [] => true
  | hold, (i, .lock k .ok) :: g => hold.all (fun p => p.2 ≠ k || p.1 == i) && exclB ((i, k) :: hold) g
  | hold, (i, .unlock k _) :: g => exclB (hold.filter fun p => p ≠ (i, k)) g
  | hold, _ :: g => exclB hold g

theorem exclB_sound {g : World} : ∀ {hold : List (Nat × Nat)} {p : World}, (∀ i k, HoldsKey p i k → (i, k) ∈ hold) → exclB hold g = true →
    ∀ a b i j k, g = a ++ (i, Call.lock k .ok) :: b → HoldsKey (p ++ a) j k → i = j := by
  induction g with
  | nil => intro hold p _ _ a b i j k h; simp at h
  | cons e g ih =>
    intro hold p hp hb a b i j k hg hh
    cases a with
    | nil =>
      simp only [List.nil_append, List.cons.injEq] at hg
      obtain ⟨rfl, rfl⟩ := hg
      rw [List.append_nil] at hh
      simp only [exclB, Bool.and_eq_true, List.all_eq_true] at hb
      have := hb.1 _ (hp _ _ hh)
      exact Eq.symm (by simpa using this)
    | cons e' a =>
      simp only [List.cons_append, List.cons.injEq] at hg
      obtain ⟨rfl, rfl⟩ := hg
      have hh' : HoldsKey ((p ++ [e]) ++ a) j k := by simpa using hh
      obtain ⟨l, x⟩ := e
      have other : (∀ k st, x ≠ .unlock k st) → (∀ k, x ≠ .lock k .ok) → exclB hold (a ++ (i, Call.lock k .ok) :: b) = true → i = j := by
        intro h1 h2 hb
        refine ih (p := p ++ [(l, x)]) (fun i k hk => ?_) hb a b i j k rfl hh'
        rcases holds_snoc hk with h | h
        · exact absurd (Prod.mk.inj h).2 (h2 k)
        · exact hp _ _ h
      cases x with
      | lock k' st =>
        cases st with
        | ok =>
          simp only [exclB, Bool.and_eq_true] at hb
          refine ih (p := p ++ [(l, _)]) (fun i k hk => ?_) hb.2 a b i j k rfl hh'
          rcases holds_snoc hk with h | h
          · simp only [Prod.mk.injEq, Call.lock.injEq, and_true] at h; simp [h]
          · exact List.mem_cons_of_mem _ (hp _ _ h)
        | err => exact other (by simp) (by simp) hb
        | panic => exact other (by simp) (by simp) hb
      | unlock k' st =>
        simp only [exclB] at hb
        refine ih (p := p ++ [(l, _)]) (fun i k hk => ?_) hb a b i j k rfl hh'
        rcases holds_snoc hk with h | h
        · simp at h
        · refine List.mem_filter.2 ⟨hp _ _ h, ?_⟩
          simp only [ne_eq, decide_not, Bool.not_eq_true', decide_eq_false_iff_not]
          rintro h3
          obtain ⟨rfl, rfl⟩ := Prod.mk.inj h3
          obtain ⟨c, d, hcd, hd⟩ := hk
          rcases List.eq_nil_or_concat d with rfl | ⟨d', y, rfl⟩
          · have := (List.append_inj' hcd rfl).2; simp at this
          · have h1 : p ++ [(i, Call.unlock k st)] = (c ++ (i, Call.lock k .ok) :: d') ++ [y] := by simpa using hcd
            have := (List.append_inj' h1 rfl).2
            simp only [List.cons.injEq, and_true] at this
            exact hd st (by rw [← this]; simp)
      | _ => exact other (by simp) (by simp) hb

theorem exclusive_of {g : World} (h : exclB [] g = true) : Exclusive g := by
  intro a b i j k hg hh
  refine exclB_sound (p := []) (hold := []) (fun i k hk => ?_) h a b i j k hg hh
  obtain ⟨a, b, h, _⟩ := hk
  simp at h

open Demo

def fail9 : Env := { okEnv with exec := fun _ _ => .err (.msg 77) }

/-- three commands at work, keys 4 and 9 each; command 1 is refused once command 0 holds key 4, command 2 takes key 4 as soon as command 0 has released it, and works while
command 0's hooks run. -/
def busy : World :=
  let t := (run okEnv txOpts addCmd evHeap).2.trace
  let u := (run fail9 txOpts addCmd evHeap).2.trace
  ((t.take 5).map fun x => (0, x)) ++ [(1, .lock 4 .err)] ++ ((t.drop 5).dropLast.dropLast.dropLast.map fun x => (0, x)) ++ ((u.take 1).map fun x => (2, x)) ++
    (((t.reverse.take 3).reverse.take 1).map fun x => (0, x)) ++ ((u.drop 1).take 3 |>.map fun x => (2, x)) ++ ((t.reverse.take 2).reverse.map fun x => (0, x)) ++
    ((u.drop 4).map fun x => (2, x))

def refused : Env := { okEnv with lock := fun _ _ => .err (.msg 5) }

def envs : Nat → Env := fun i => if i = 1 then refused else if i = 2 then fail9 else okEnv

def worked (g : World) : List (Nat × Option Call) := (g.filter fun x => x.2 matches .begin _ | .commit _ | .rollback _ | .lock .. | .unlock .. | .postSave ..).map fun x => (x.1, some x.2)

end Serial

open Serial Demo in
/-- not vacuous: the hypotheses hold of the three commands of `busy`. -/
example : Exclusive busy ∧ (∀ i ∈ [0, 1, 2], World.of busy i <+: (run (envs i) txOpts addCmd evHeap).2.trace) ∧ (∀ i ∉ [0, 1, 2], World.of busy i = []) ∧
    worked busy = [(0, some (.lock 4 .ok)), (0, some (.lock 9 .ok)), (0, some (.begin .ok)), (1, some (.lock 4 .err)), (0, some (.commit .ok)), (0, some (.unlock 4 .ok)),
      (2, some (.lock 4 .ok)), (0, some (.unlock 9 .ok)), (2, some (.lock 9 .ok)), (2, some (.begin .ok)), (0, some (.postSave 8 .ok)), (0, some (.postSave 5 .ok)),
      (2, some (.rollback .ok)), (2, some (.unlock 4 .ok)), (2, some (.unlock 9 .ok))] := by
  refine ⟨exclusive_of (by decide +kernel), by decide +kernel, ?_, by decide +kernel⟩
  intro i hi
  have h : ∀ x ∈ busy, x.1 ∈ [0, 1, 2] := by decide +kernel
  simp only [World.of, List.map_eq_nil_iff, List.filter_eq_nil_iff, decide_eq_true_eq]
  rintro x hx rfl
  exact hi (h x hx)

open Serial Demo in
/-- PostSave hooks are not protected: a hook of command 0 runs in the middle of the work of command 2, although both ask for the same keys. -/
theorem C69_hooks_overlap : ∃ a b c : World, busy = a ++ (2, .begin .ok) :: b ++ (0, .postSave 8 .ok) :: c ∧ (2, Call.rollback .ok) ∈ c := by
  refine ⟨busy.take (busy.idxOf (2, .begin .ok)), (busy.drop (busy.idxOf (2, .begin .ok) + 1)).takeWhile (· ≠ (0, .postSave 8 .ok)),
    busy.drop (busy.idxOf (0, .postSave 8 .ok) + 1), ?_, ?_⟩ <;> decide +kernel

open Serial Demo in
/-- With a locker that is not exclusive (a lease that ran out, C25) commands asking for the same keys do overlap. -/
theorem C69_needs_exclusive : let t := (run okEnv txOpts addCmd evHeap).2.trace
    let g : World := (t.take 5).map (fun x => (0, x)) ++ t.map (fun x => (1, x)) ++ (t.drop 5).map (fun x => (0, x))
    (∀ i ∈ [0, 1], World.of g i = t) ∧ ¬ OneAfterTheOther g := by
  intro t g
  refine ⟨by decide +kernel, ?_⟩
  rintro ⟨order, hn, ho⟩
  have h0 : g.work.head? = some (0, Call.begin .ok) := by decide +kernel
  have h1 : (1, Call.begin .ok) ∈ (g.work.dropWhile fun x => x.1 = 0) ∧ (0, Call.commit .ok) ∈ (g.work.dropWhile fun x => x.1 = 0) := by decide +kernel
  -- the first non-empty block is that of command 0, and takes all of its work
  have key : ∀ (order : List Nat) (w rest : World), order.Nodup → rest = order.flatMap (fun i => w.filter (·.1 = i)) → rest.head? = some (0, Call.begin .ok) →
      ∀ x ∈ rest.dropWhile (fun x => x.1 = 0), x.1 ≠ 0 := by
    intro order
    induction order with
    | nil => intro w rest _ hr hh; simp at hr; subst hr; simp at hh
    | cons i order ih =>
      intro w rest hn hr hh x hx
      rw [List.flatMap_cons] at hr
      by_cases hi : w.filter (fun e => decide (e.1 = i)) = []
      · rw [hi, List.nil_append] at hr
        exact ih w rest (List.nodup_cons.1 hn).2 hr hh x hx
      · have hi0 : i = 0 := by
          obtain ⟨e, t, het⟩ := List.exists_cons_of_ne_nil hi
          have he : e.1 = i := by
            have : e ∈ w.filter fun e => decide (e.1 = i) := by rw [het]; simp
            simpa using (List.mem_filter.1 this).2
          rw [hr, het] at hh
          simp at hh
          rw [← he, hh]
        subst hi0
        rw [hr, List.dropWhile_append_of_pos (by intro e he; simpa using (List.mem_filter.1 he).2)] at hx
        have hx' := (List.dropWhile_sublist _).subset hx
        obtain ⟨l, hl, hm⟩ := List.mem_flatMap.1 hx'
        have := (List.mem_filter.1 hm).2
        simp at this
        rintro h0
        exact (List.nodup_cons.1 hn).1 (by rw [← h0, this]; exact hl)
  exact key order g.work g.work hn ho h0 _ h1.2 rfl

end Ddd
