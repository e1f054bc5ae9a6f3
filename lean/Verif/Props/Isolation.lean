import Verif.Props.TxCommands
import Verif.Props.Lockers
/-!
# C78: a command works on unchanging data
-/
set_option linter.unusedVariables false
set_option linter.unusedSimpArgs false
namespace Ddd
open Spec

namespace Isolation

/-- a command releases nothing before its transaction has ended. -/
theorem no_unlock_before_end {env : Env} {opts : Opts} {c : Cmd} {h : Heap} {keys : List Nat} (hk : c.Keys keys) {a b rest : Trace}
    (hT : (run env opts c h).2.trace = a ++ .begin .ok :: b ++ rest) (hb : ends b = []) (k : Nat) (st : Stat) : Call.unlock k st ∉ a ++ .begin .ok :: b := by
  have hA := C14_always_ended (env := env) (opts := opts) (c := c) (h := h)
  obtain ⟨p, q, h1, h2, h3, _⟩ := hA.1 (by rw [hT]; simp)
  obtain ⟨x, xs, hx⟩ := List.exists_cons_of_ne_nil h3
  have hxe : x ∈ ends (run env opts c h).2.trace := by
    rw [h1, ends_append]
    have : ends (Call.begin .ok :: q) = ends q := by simp [ends, isEnd]
    rw [this, hx]; simp
  obtain ⟨hxm, hxe⟩ := mem_ends.1 hxe
  have hT' : (run env opts c h).2.trace = a ++ .begin .ok :: (b ++ rest) := by rw [hT]; simp
  rw [hT] at hxm
  rcases List.mem_append.1 hxm with hm | hm
  · exfalso
    rcases List.mem_append.1 hm with hm | hm
    · obtain ⟨a1, a2, rfl⟩ := List.append_of_mem hm
      have := (TxCmd.end_facts (a := a1) (b := a2 ++ .begin .ok :: (b ++ rest)) hxe (by rw [hT']; simp)).1
      exact TxCmd.begin_once hT' (by simp [this])
    · rcases List.mem_cons.1 hm with rfl | hm
      · simp [isEnd] at hxe
      · have : x ∈ ends b := mem_ends.2 ⟨hm, hxe⟩
        rw [hb] at this; simp at this
  · obtain ⟨r1, r2, rfl⟩ := List.append_of_mem hm
    have := (C23_held (a := a ++ .begin .ok :: b ++ r1) (x := x) (b := r2) hk (by rw [hT]; simp) (by intro k st; cases x <;> simp [isEnd] at hxe <;> simp)).2 k st
    intro hmm
    exact this (List.mem_append.2 (.inl hmm))

theorem ends_of_world {b : World} {i : Nat} (h : ∀ x, (i, x) ∈ b → isEnd x = false) : ends (World.of b i) = [] := by
  by_contra hne
  obtain ⟨x, xs, hx⟩ := List.exists_cons_of_ne_nil hne
  have : x ∈ ends (World.of b i) := by rw [hx]; simp
  obtain ⟨h1, h2⟩ := mem_ends.1 this
  rw [h x (Serial.mem_of.1 h1)] at h2
  simp at h2

end Isolation

/-- **C78** (nobody else commits) While a command is at work — from its `Begin` until it calls `Commit` or `RollBack` — no other command that asks for one of its keys calls `Begin`, works, or commits. -/
theorem C78_alone {g : World} (hx : Exclusive g) {cmd : Nat → Cmd} {env : Nat → Env} {opts : Nat → Opts} {h : Nat → Heap}
    (hrun : ∀ i, World.of g i <+: (run (env i) (opts i) (cmd i) (h i)).2.trace) {a b : World} {i : Nat} (hg : g = a ++ (i, .begin .ok) :: b) (hlive : ∀ x, (i, x) ∈ b → isEnd x = false)
    {j k : Nat} {ki kj : List Nat} (hi : (cmd i).Keys ki) (hj : (cmd j).Keys kj) (hki : k ∈ ki) (hkj : k ∈ kj) {y : Call} (hy : (j, y) ∈ b) (hym : matters y = true) : j = i := by
  obtain ⟨b1, b2, rfl⟩ := List.append_of_mem hy
  obtain ⟨ri, hri⟩ := hrun i
  obtain ⟨rj, hrj⟩ := hrun j
  obtain ⟨⟨a1, a2, ha⟩, _⟩ := Serial.holds_at hri.symm hi hki hg rfl
  obtain ⟨⟨c1, c2, hc⟩, hcu⟩ := Serial.holds_at hrj.symm hj hkj (a := a ++ (i, .begin .ok) :: b1) (b := b2) (by rw [hg]; simp) hym
  have hP : Exclusive (a ++ (i, .begin .ok) :: b1) := by
    apply Serial.Exclusive.prefix (g' := (j, y) :: b2)
    rw [hg] at hx; simpa using hx
  have hw : World.of g i = World.of a i ++ .begin .ok :: World.of (b1 ++ (j, y) :: b2) i := by
    rw [hg, Serial.of_append]; simp [World.of]
  have hno : ∀ st, (i, Call.unlock k st) ∉ a ++ (i, .begin .ok) :: b1 := by
    intro st hm
    refine Isolation.no_unlock_before_end hi (a := World.of a i) (b := World.of (b1 ++ (j, y) :: b2) i) (rest := ri) (by rw [← hri, hw]) (Isolation.ends_of_world hlive) k st ?_
    have : (i, Call.unlock k st) ∈ g := by rw [hg]; simp only [List.mem_append, List.mem_cons] at hm ⊢; tauto
    rw [← hw]; exact Serial.mem_of.2 this
  refine (Serial.one_holder hP (i := i) (j := j) (k := k) ⟨a1, a2 ++ (i, .begin .ok) :: b1, by rw [ha]; simp, fun st hm => hno st ?_⟩ ⟨c1, c2, hc, fun st hm => hcu k st ?_⟩).symm
  · rw [ha]; simp only [List.mem_append, List.mem_cons] at hm ⊢; tauto
  · rw [hc]; simp [hm]

namespace Isolation
variable {W : Type}

theorem published_append (c : Setting W) (d : Nat) (past g g' : World) : published c d past (g ++ g') = published c d past g ++ published c d (past ++ g) g' := by
  induction g generalizing past with
  | nil => simp [published]
  | cons y g ih =>
    obtain ⟨j, y⟩ := y
    simp only [List.cons_append, published, ih, List.append_assoc, List.nil_append]

theorem published_nil (c : Setting W) (d : Nat) {g : World} (h : ∀ i st, (i, Call.commit st) ∈ g → (c.exe i).db ≠ some d) (past : World) : published c d past g = [] := by
  induction g generalizing past with
  | nil => rfl
  | cons y g ih =>
    obtain ⟨j, y⟩ := y
    rw [published, ih (fun i st hm => h i st (by simp [hm]))]
    cases y with
    | commit st =>
      have := h j st (by simp)
      simp [publishedBy, this]
    | _ => rfl

end Isolation

/-- **C78** (unchanging data) Commands on the MySQL executor with an exclusive locker: if every command that commits on database `d` asks for key `k`, the content of `d` does not change while command `i`, which
also asks for `k`, is at work. -/
theorem C78_unchanging {W : Type} {c : Setting W} (hdb : ∀ i, (c.exe i).db.isSome) {g : World} (hx : Exclusive g) {cmd : Nat → Cmd} {env : Nat → Env} {opts : Nat → Opts} {h : Nat → Heap}
    (hw : ∀ i, (opts i).withTransaction = true) (hrun : ∀ i, World.of g i <+: (run (env i) (opts i) (cmd i) (h i)).2.trace)
    {a b : World} {i : Nat} (hg : g = a ++ (i, .begin .ok) :: b) (hlive : ∀ x, (i, x) ∈ b → isEnd x = false)
    {k d : Nat} (hi : ∃ keys, (cmd i).Keys keys ∧ k ∈ keys) (hk : ∀ j, (c.exe j).db = some d → ∃ keys, (cmd j).Keys keys ∧ k ∈ keys) :
    (play c [] g (Tx.init, c.base)).1.log d = (play c [] a (Tx.init, c.base)).1.log d := by
  have hruna : ∀ j, World.of a j <+: (run (env j) (opts j) (cmd j) (h j)).2.trace := by
    intro j
    refine List.IsPrefix.trans ?_ (hrun j)
    rw [hg, Serial.of_append]
    exact List.prefix_append _ _
  rw [C73_committed_commands_only hdb hw hrun d, C73_committed_commands_only hdb hw hruna d, hg, Isolation.published_append]
  rw [Isolation.published_nil c d (g := (i, Call.begin .ok) :: b) ?_, List.append_nil]
  intro j st hm hd
  obtain ⟨ki, hki, hk1⟩ := hi
  obtain ⟨kj, hkj, hk2⟩ := hk j hd
  have hm' : (j, Call.commit st) ∈ b := by simpa using hm
  obtain rfl := C78_alone hx hrun hg hlive hki hkj hk1 hk2 hm' rfl
  have := hlive _ hm'
  simp [isEnd] at this

/-- **C78** (reads) Then every query the command makes with its context returns what the database contained when it began, followed by its own writes — whether the database shows it the data committed up to the
query (`n` beyond the end) or a snapshot taken at any moment since its `Begin`. So what a command computes from what it read is based on current data when it commits: no update is lost. -/
theorem C78_reads {W : Type} {c : Setting W} (hdb : ∀ i, (c.exe i).db.isSome) {g : World} (hx : Exclusive g) {cmd : Nat → Cmd} {env : Nat → Env} {opts : Nat → Opts} {h : Nat → Heap}
    (hw : ∀ i, (opts i).withTransaction = true) (hrun : ∀ i, World.of g i <+: (run (env i) (opts i) (cmd i) (h i)).2.trace)
    {a b : World} {i : Nat} (hg : g = a ++ (i, .begin .ok) :: b) (hlive : ∀ x, (i, x) ∈ b → isEnd x = false)
    {k d : Nat} (hd : (c.exe i).db = some d) (hk : ∀ j, (c.exe j).db = some d → ∃ keys, (cmd j).Keys keys ∧ k ∈ keys)
    {n : Nat} (hn : ((play c [] a (Tx.init, c.base)).1.log d).length ≤ n) :
    let s := play c [] g (Tx.init, c.base)
    (Tx.step s.1 (.query (c.exe i) (s.2 i) n)).2 = .rows ((play c [] a (Tx.init, c.base)).1.log d ++ wrote c i [] (World.of g i)) := by
  intro s
  have hu := C78_unchanging (d := d) hdb hx hw hrun hg hlive (hk i hd) hk
  obtain ⟨tx, hI⟩ := TxCmd.inv_play hdb hw hrun
  have hb : Call.begin .ok ∈ World.of g i := Serial.mem_of.2 (by rw [hg]; simp)
  have hend : ends (World.of g i) = [] := by
    rw [hg, Serial.of_append]
    have : World.of ((i, Call.begin .ok) :: b) i = .begin .ok :: World.of b i := by simp [World.of]
    rw [this, ends_append]
    have h2 : ends (Call.begin .ok :: World.of b i) = ends (World.of b i) := by simp [ends, isEnd]
    rw [h2, Isolation.ends_of_world hlive, List.append_nil]
    by_contra hne
    obtain ⟨x, xs, hx'⟩ := List.exists_cons_of_ne_nil hne
    obtain ⟨m1, m2⟩ := mem_ends.1 (show x ∈ ends (World.of a i) by rw [hx']; simp)
    obtain ⟨a1, a2, ha⟩ := List.append_of_mem m1
    obtain ⟨ri, hri⟩ := hrun i
    have hT : (run (env i) (opts i) (cmd i) (h i)).2.trace = World.of a i ++ .begin .ok :: (World.of b i ++ ri) := by
      rw [← hri, hg, Serial.of_append, this]; simp
    have := (TxCmd.end_facts (a := a1) (b := a2 ++ .begin .ok :: (World.of b i ++ ri)) m2 (by rw [hT, ha]; simp)).1
    exact TxCmd.begin_once hT (by rw [ha]; simp [this])
  obtain ⟨d', hd', hl⟩ := hI.live i hb hend
  obtain rfl : d' = d := by rw [hd] at hd'; simpa using hd'.symm
  have hv := (hI.here i hb).1
  show (Tx.step (play c [] g (Tx.init, c.base)).1 _).2 = _
  simp only [Tx.step, s, hv, hl, if_true]
  rw [hu, List.take_of_length_le hn]

open Serial Demo in
/-- not vacuous: command 2 of `busy` at work in its transaction, after command 0 has committed something; the query shows it that and its own writes. -/
example : let c : Setting (Op × Nat) :=
      { exe := fun _ => Tx.newExecutor (some 0) 100, base := fun _ => [], stmts := fun a => a.models.map (fun m => (a.op, m.id)),
        part := fun _ _ => 1, lands := fun _ _ => false }
    let n := busy.idxOf (2, Call.begin .ok)
    let m := busy.idxOf (2, Call.rollback .ok)
    busy.take m = busy.take n ++ (2, .begin .ok) :: (busy.take m).drop (n + 1) ∧ (∀ x ∈ (busy.take m).drop (n + 1), x.1 = 2 → isEnd x.2 = false) ∧
    (play c [] (busy.take n) (Tx.init, c.base)).1.log 0 ≠ [] ∧ wrote c 2 [] (World.of (busy.take m) 2) ≠ [] := by
  refine ⟨by decide +kernel, by decide +kernel, by decide +kernel, by decide +kernel⟩

end Ddd
