import Verif.Spec.Lockers
import Verif.Props.Redis
import Verif.Props.DBLock
/-!
# C77: commands with a real locker
-/
set_option linter.unusedVariables false
set_option linter.unusedSimpArgs false
namespace Ddd
open Spec

namespace Lockers

theorem locking_append (a b : World) : World.locking (a ++ b) = World.locking a ++ World.locking b := by simp [World.locking]

/-- exclusion is a matter of the calls to the locker. -/
theorem exclusive_of_locking {g : World} (h : Exclusive g.locking) : Exclusive g := by
  intro a b i j k hg hh
  refine h (World.locking a) (World.locking b) i j k ?_ ?_
  · rw [hg, locking_append]
    rfl
  · obtain ⟨c, d, rfl, hd⟩ := hh
    refine ⟨World.locking c, World.locking d, ?_, fun st hm => hd st ?_⟩
    · rw [locking_append]; rfl
    · exact List.mem_of_mem_filter hm

end Lockers

namespace Lock

theorem Timed.exec {ttl : Nat} {pol : Policy} {s0 s : State} {es : List Ev} (h : Timed ttl pol s0 es s) : Exec ttl pol s0 es s ∧ InTime ttl s := by
  induction h with
  | nil h => exact ⟨.nil _, h⟩
  | snoc _ hs h ih => exact ⟨ih.1.snoc hs, h⟩

theorem exec_append {ttl : Nat} {pol : Policy} {s0 s : State} {a b : List Ev} (h : Timed ttl pol s0 (a ++ b) s) :
    ∃ s1, Timed ttl pol s0 a s1 ∧ (b = [] → s1 = s) ∧ (∀ e b', b = e :: b' → ∃ s2, Step ttl pol s1 e s2) := by
  induction b using List.reverseRecOn generalizing s with
  | nil => exact ⟨s, by simpa using h, fun _ => rfl, by simp⟩
  | append_singleton b e ih =>
    rw [← List.append_assoc] at h
    generalize hg : a ++ b ++ [e] = g at h
    cases h with
    | nil => simp at hg
    | snoc h1 h2 _ =>
      have := List.append_inj' hg rfl
      obtain ⟨rfl, he⟩ := this
      simp at he
      subst he
      obtain ⟨s1, x1, x2, x3⟩ := ih h1
      refine ⟨s1, x1, by simp, ?_⟩
      intro e' b' hb
      cases b with
      | nil =>
        simp at hb
        obtain ⟨rfl, _⟩ := hb
        have := x2 rfl
        subst this
        exact ⟨_, h2⟩
      | cons y ys =>
        simp at hb
        obtain ⟨rfl, _⟩ := hb
        exact x3 y ys rfl

theorem key_exec {ttl : Nat} {pol : Policy} {s0 s : State} {es : List Ev} (hx : Exec ttl pol s0 es s) (l : Nat) : (s.pc l).key = (s0.pc l).key := by
  induction hx with
  | nil => rfl
  | snoc _ hs ih => rw [key_step hs, ih]

/-- an event of a client that begins or goes on holding. -/
theorem obtained_holds {ttl : Nat} {pol : Policy} {s s' : State} {l : Nat} (st : Step ttl pol s (.obtained l) s') : ∃ k u, s'.pc l = .held k u := by
  generalize he : Ev.obtained l = e at st
  cases st
  case create l0 k u hp =>
    by_cases hb : (insertRow s.tab k ⟨l0, u⟩).2 = true
    · rw [if_pos hb] at he
      obtain rfl : l = l0 := by simpa using he
      exact ⟨k, u, by simp [State.at, hb]⟩
    · rw [if_neg hb] at he; simp at he
  case steal l0 k v u hp =>
    by_cases hb : (casRow s.tab k v ⟨l0, u⟩).2 = 0
    · rw [if_pos hb] at he; simp at he
    · rw [if_neg hb] at he
      obtain rfl : l = l0 := by simpa using he
      exact ⟨k, u, by simp [State.at, hb]⟩
  all_goals (simp only [State.at, State.renAt] at * <;> grind)

theorem one_call (owner key : Nat → Nat) (last : Nat → Bool) (e : Ev) : calls owner key last e = [] ∨ ∃ y, calls owner key last e = [y] := by
  cases e <;> simp [calls]
  rename_i l
  cases last l <;> simp

theorem obtained_of_call {owner key : Nat → Nat} {last : Nat → Bool} {e : Ev} {i k : Nat} (h : calls owner key last e = [(i, .lock k .ok)]) : ∃ l, e = .obtained l ∧ owner l = i ∧ key l = k := by
  cases e <;> simp [calls] at h
  · rename_i l; exact ⟨l, rfl, h⟩
  · rename_i l; cases hl : last l <;> simp [hl] at h

theorem holds_on {ttl : Nat} {pol : Policy} {s s' : State} {e : Ev} {l k u : Nat} (st : Step ttl pol s e s') (hh : Holds s l k u)
    (h1 : e ≠ .released l) (h2 : e ≠ .releaseRefused l) (h3 : e ≠ .unlockFailed l) : ∃ u', Holds s' l k u' := by
  have : (s'.pc l).holdsFrom k 0 := by
    unfold Holds at hh
    have hf : (s.pc l).holdsFrom k 0 := by rw [hh]; exact ⟨rfl, Nat.zero_le _⟩
    cases st <;> simp only [State.at, State.renAt] at * <;> grind [Pc.holdsFrom, holdsFrom_restamp]
  rw [holdsFrom_iff] at this
  obtain ⟨u', _, h⟩ := this
  exact ⟨u', h⟩

/-- holding in the sense of the engine (C69) is holding in the sense of the lock. -/
theorem holds_of_world {ttl : Nat} {pol : Policy} {s0 s : State} {es : List Ev} {owner key : Nat → Nat} {last : Nat → Bool} (hkey : ∀ l, (s0.pc l).key = key l)
    (hx : Exec ttl pol s0 es s) : ∀ i k, HoldsKey (es.flatMap (calls owner key last)) i k → ∃ l u, owner l = i ∧ key l = k ∧ Holds s l k u := by
  induction hx with
  | nil => exact fun i k ⟨a, b, h, _⟩ => by simp at h
  | snoc hx hs ih =>
    rename_i s1 s2 es e
    intro i k hh
    rw [List.flatMap_append, List.flatMap_cons, List.flatMap_nil, List.append_nil] at hh
    have keep : (∀ l, owner l = i → key l = k → e ≠ .released l ∧ e ≠ .releaseRefused l ∧ e ≠ .unlockFailed l) → HoldsKey (es.flatMap (calls owner key last)) i k →
        ∃ l u, owner l = i ∧ key l = k ∧ Holds s2 l k u := by
      intro hne h1
      obtain ⟨l, u, a, b, c⟩ := ih i k h1
      obtain ⟨n1, n2, n3⟩ := hne l a b
      obtain ⟨u', hu'⟩ := holds_on hs c n1 n2 n3
      exact ⟨l, u', a, b, hu'⟩
    have hun : ∀ l st, calls owner key last e = [(owner l, .unlock (key l) st)] → ¬ (owner l = i ∧ key l = k) := by
      rintro l st hc ⟨rfl, rfl⟩
      rw [hc] at hh
      obtain ⟨a, b, hab, hb⟩ := hh
      rcases List.eq_nil_or_concat b with rfl | ⟨b', y, rfl⟩
      · have := (List.append_inj' hab rfl).2; simp at this
      · have h1 : List.flatMap (calls owner key last) es ++ [(owner l, Call.unlock (key l) st)] = (a ++ (owner l, Call.lock (key l) .ok) :: b') ++ [y] := by simpa using hab
        have := (List.append_inj' h1 rfl).2
        simp only [List.cons.injEq, and_true] at this
        exact hb st (by rw [← this]; simp)
    have one := one_call owner key last e
    have hne : ∀ l, owner l = i → key l = k → e ≠ .released l ∧ e ≠ .releaseRefused l ∧ e ≠ .unlockFailed l := by
      intro l a b
      refine ⟨?_, ?_, ?_⟩ <;> rintro rfl <;> exact hun l _ rfl ⟨a, b⟩
    rcases one with h1 | ⟨y, h1⟩
    · rw [h1, List.append_nil] at hh
      exact keep hne hh
    · rw [h1] at hh
      rcases Serial.holds_snoc hh with h2 | h2
      · subst h2
        obtain ⟨l, rfl, rfl, rfl⟩ := obtained_of_call h1
        obtain ⟨k', u, hk⟩ := obtained_holds hs
        have : k' = key l := by
          have := key_exec (hx.snoc hs) l
          rw [hk, hkey] at this
          exact this
        subst this
        exact ⟨l, u, rfl, rfl, hk⟩
      · exact keep hne h2

/-- a key is granted only when no other client holds it within its lease. -/
theorem granted_when_free {ttl : Nat} {pol : Policy} (ht : Timely ttl pol) {s s' : State} (h : Reachable ttl pol s) {l : Nat} (st : Step ttl pol s (.obtained l) s') {l' : Nat} (hne : l' ≠ l) :
    ¬ Within ttl s l' (s.pc l).key := by
  rintro ⟨u, hu, hlt⟩
  have hi := inv_step ht (inv_reachable ht h) st
  have h1 := obtained_tab st
  obtain ⟨u', hle, hu'⟩ := holds_step (inv_reachable ht h) st hu (by simp) (by simp) (by simp)
  have hnow : s'.now = s.now := by
    generalize he : Ev.obtained l = e at st
    cases st <;> simp only [State.at, State.renAt] at * <;> grind
  have h2 : (s'.tab (s.pc l).key).map Row.locker = some l' := hi.held _ _ _ hu' (by omega)
  rw [h1] at h2
  simp at h2
  exact hne h2.symm

/-- **C77** (the database lock) With renewals that are timely or not made at all (as the engine uses it): if no command still holds a lock when its lease runs out, the database lock is exclusive in
the sense of C69. -/
theorem C77_database_lock_exclusive {ttl : Nat} {pol : Policy} (ht : Timely ttl pol) {s0 s : State} {es : List Ev} {owner key : Nat → Nat} {last : Nat → Bool} (h0 : Initial s0)
    (hkey : ∀ l, (s0.pc l).key = key l) (hx : Timed ttl pol s0 es s) :
    Exclusive (es.flatMap (calls owner key last)) := by
  intro a b i j k hg hh
  have hsplit : ∀ (es : List Ev) (a b : World), es.flatMap (calls owner key last) = a ++ (i, Call.lock k .ok) :: b →
      ∃ es1 es2 l, es = es1 ++ .obtained l :: es2 ∧ es1.flatMap (calls owner key last) = a ∧ owner l = i ∧ key l = k := by
    intro es
    induction es with
    | nil => intro a b h; simp at h
    | cons e es ih =>
      intro a b h
      rw [List.flatMap_cons] at h
      have one := one_call owner key last e
      rcases one with h1 | ⟨y, h1⟩
      · rw [h1, List.nil_append] at h
        obtain ⟨es1, es2, l, rfl, h2, h3, h4⟩ := ih a b h
        exact ⟨e :: es1, es2, l, rfl, by simp [h1, h2], h3, h4⟩
      · rw [h1] at h
        cases a with
        | nil =>
          simp at h
          obtain ⟨rfl, _⟩ := h
          obtain ⟨l, rfl, e1, e2⟩ := obtained_of_call h1
          exact ⟨[], es, l, rfl, rfl, e1, e2⟩
        | cons y' a =>
          simp at h
          obtain ⟨rfl, h⟩ := h
          obtain ⟨es1, es2, l, rfl, h2, h3, h4⟩ := ih a b h
          exact ⟨e :: es1, es2, l, rfl, by simp [h1, h2], h3, h4⟩
  obtain ⟨es1, es2, l, rfl, rfl, rfl, rfl⟩ := hsplit es a b hg
  obtain ⟨s1, x1, _, x3⟩ := exec_append hx
  obtain ⟨s2, hs⟩ := x3 _ _ rfl
  have xt := x1
  replace x1 := (Timed.exec x1).1
  obtain ⟨l', u, rfl, hk', hu⟩ := holds_of_world hkey x1 j (key l) hh
  by_cases hl : l' = l
  · rw [hl]
  · exfalso
    refine granted_when_free ht ⟨s0, es1, h0, x1⟩ hs hl ⟨u, ?_, (Timed.exec xt).2 l' (key l) u hu⟩
    rw [key_exec x1, hkey]; exact hu

end Lock

/-- **C77** (commands on the database lock) However many commands run concurrently, in whatever interleaving, with the database lock and any number of attempts: if all ask for one common key and none outlives the
lease of its lock, everything that matters happens as if they were run one after the other. -/
theorem C77_serial_on_database_lock {ttl : Nat} {s0 s : Lock.State} {es : List Lock.Ev} {owner key : Nat → Nat} {last : Nat → Bool} (h0 : Lock.Initial s0)
    (hkey : ∀ l, (s0.pc l).key = key l) (hx : Lock.Timed ttl Lock.noRenewal s0 es s)
    {g : World} (hg : g.locking = es.flatMap (Lock.calls owner key last)) {cmd : Nat → Cmd} {env : Nat → Env} {opts : Nat → Opts} {h : Nat → Heap}
    (hrun : ∀ i, World.of g i <+: (run (env i) (opts i) (cmd i) (h i)).2.trace) {k : Nat} (hk : ∀ i, ∃ keys, (cmd i).Keys keys ∧ k ∈ keys) : OneAfterTheOther g :=
  C69_one_after_the_other (Lockers.exclusive_of_locking (by rw [hg]; exact Lock.C77_database_lock_exclusive (pol := Lock.noRenewal) (fun _ _ _ _ h => h.elim) h0 hkey hx)) hrun hk

/-- **C77** (commands on the Redis lock) The same with the Redis lock. -/
theorem C77_serial_on_redis_lock {ttl : Nat} {s0 s : Redis.State} {es : List Redis.Ev} {owner key : Nat → Nat} (h0 : Redis.Initial s0)
    (hkey : ∀ l, ∃ n a, s0.pc l = .trying (key l) n a) (hx : Redis.Timed ttl s0 es s)
    {g : World} (hg : g.locking = es.flatMap (Redis.calls owner key)) {cmd : Nat → Cmd} {env : Nat → Env} {opts : Nat → Opts} {h : Nat → Heap}
    (hrun : ∀ i, World.of g i <+: (run (env i) (opts i) (cmd i) (h i)).2.trace) {k : Nat} (hk : ∀ i, ∃ keys, (cmd i).Keys keys ∧ k ∈ keys) : OneAfterTheOther g :=
  C69_one_after_the_other (Lockers.exclusive_of_locking (by rw [hg]; exact Redis.C74_exclusive_for_commands h0 hkey hx)) hrun hk

/-! ## A concrete case: the three commands of `busy` -/

namespace Lockers
open Serial Demo

/-- attempt, command, key: command 1 tries twice, the second time being its last. -/
def owners : Nat → Nat := fun l => ([0, 0, 1, 1, 2, 2][l]?).getD 3
def keys : Nat → Nat := fun l => ([4, 9, 4, 4, 4, 9][l]?).getD 4
def lasts : Nat → Bool := fun l => l ≠ 2

def dbStart : Lock.State := { now := 0, tab := fun _ => none, pc := fun l => .start (keys l) }

def okPc (now : Nat) : Lock.Pc → Bool
  | .held _ u => now < u + 10
  | _ => true

/-- executions in which only the first six attempts are made. -/
def Going (es : List Lock.Ev) (s : Lock.State) : Prop := Lock.Timed 10 Lock.noRenewal dbStart es s ∧ ∀ l, 6 ≤ l → s.pc l = .start 4

theorem inTime_of {s : Lock.State} (h1 : ∀ l < 6, okPc s.now (s.pc l) = true) (h2 : ∀ l, 6 ≤ l → s.pc l = .start 4) : Lock.InTime 10 s := by
  intro l k u hh
  by_cases hl : l < 6
  · have := h1 l hl
    unfold Lock.Holds at hh; rw [hh] at this; simpa [okPc] using this
  · unfold Lock.Holds at hh; rw [h2 l (by omega)] at hh; simp at hh

theorem Going.step {es : List Lock.Ev} {s s' : Lock.State} {e : Lock.Ev} (h : Going es s) (hs : Lock.Step 10 Lock.noRenewal s e s') (h2 : ∀ l, 6 ≤ l → s'.pc l = s.pc l)
    (h1 : ∀ l < 6, okPc s'.now (s'.pc l) = true) : Going (es ++ [e]) s' :=
  have h3 : ∀ l, 6 ≤ l → s'.pc l = .start 4 := fun l hl => (h2 l hl).trans (h.2 l hl)
  ⟨h.1.snoc hs (inTime_of h1 h3), h3⟩

/-- the execution of the lock behind `busy`. -/
theorem demo_db : ∃ s, Lock.Timed 10 Lock.noRenewal dbStart
    [.internal 0, .internal 0, .obtained 0, .internal 1, .internal 1, .obtained 1, .tick, .internal 2, .refused 2, .tick, .internal 3, .refused 3, .released 0, .internal 4, .internal 4, .obtained 4, .released 1,
      .internal 5, .internal 5, .obtained 5, .tick, .released 4, .released 5] s := by
  have a0 : Going [] dbStart := by
    have : ∀ l, 6 ≤ l → dbStart.pc l = .start 4 := by
      intro l hl
      simp only [dbStart, keys]
      rw [List.getElem?_eq_none (by simpa using hl)]
      rfl
    exact ⟨.nil (inTime_of (by decide) this), this⟩
  have a1 := a0.step (.read (l := 0) (k := 4) rfl) (fun l hl => if_neg (by omega)) (by decide)
  have a2 := a1.step (.prepare (l := 0) (k := 4) rfl) (fun l hl => if_neg (by omega)) (by decide)
  have a3 := a2.step (.create (l := 0) (k := 4) (u := 0) rfl) (fun l hl => if_neg (by omega)) (by decide)
  have a4 := a3.step (.read (l := 1) (k := 9) rfl) (fun l hl => if_neg (by omega)) (by decide)
  have a5 := a4.step (.prepare (l := 1) (k := 9) rfl) (fun l hl => if_neg (by omega)) (by decide)
  have a6 := a5.step (.create (l := 1) (k := 9) (u := 0) rfl) (fun l hl => if_neg (by omega)) (by decide)
  have a7 := a6.step (.tick _ 3) (fun l hl => rfl) (by decide)
  have a8 := a7.step (.read (l := 2) (k := 4) rfl) (fun l hl => if_neg (by omega)) (by decide)
  have a9 := a8.step (.check (l := 2) (k := 4) (r := ⟨0, 0⟩) (tr := 3) rfl (by show 3 ≤ 3; decide)) (fun l hl => if_neg (by omega)) (by decide)
  have a10 := a9.step (.tick _ 2) (fun l hl => rfl) (by decide)
  have a11 := a10.step (.read (l := 3) (k := 4) rfl) (fun l hl => if_neg (by omega)) (by decide)
  have a12 := a11.step (.check (l := 3) (k := 4) (r := ⟨0, 0⟩) (tr := 5) rfl (by show 5 ≤ 5; decide)) (fun l hl => if_neg (by omega)) (by decide)
  have a13 := a12.step (.unlock (l := 0) (k := 4) (u := 0) rfl) (fun l hl => if_neg (by omega)) (by decide)
  have a14 := a13.step (.read (l := 4) (k := 4) rfl) (fun l hl => if_neg (by omega)) (by decide)
  have a15 := a14.step (.prepare (l := 4) (k := 4) rfl) (fun l hl => if_neg (by omega)) (by decide)
  have a16 := a15.step (.create (l := 4) (k := 4) (u := 5) rfl) (fun l hl => if_neg (by omega)) (by decide)
  have a17 := a16.step (.unlock (l := 1) (k := 9) (u := 0) rfl) (fun l hl => if_neg (by omega)) (by decide)
  have a18 := a17.step (.read (l := 5) (k := 9) rfl) (fun l hl => if_neg (by omega)) (by decide)
  have a19 := a18.step (.prepare (l := 5) (k := 9) rfl) (fun l hl => if_neg (by omega)) (by decide)
  have a20 := a19.step (.create (l := 5) (k := 9) (u := 5) rfl) (fun l hl => if_neg (by omega)) (by decide)
  have a21 := a20.step (.tick _ 4) (fun l hl => rfl) (by decide)
  have a22 := a21.step (.unlock (l := 4) (k := 4) (u := 5) rfl) (fun l hl => if_neg (by omega)) (by decide)
  have a23 := a22.step (.unlock (l := 5) (k := 9) (u := 5) rfl) (fun l hl => if_neg (by omega)) (by decide)
  exact ⟨_, a23.1⟩

/-- The hypotheses of C77 are met by `busy`: its calls to the locker are those of an execution of the database lock in which nobody outlives its lease. -/
example : ∃ s es, Lock.Initial dbStart ∧ (∀ l, (dbStart.pc l).key = keys l) ∧ Lock.Timed 10 Lock.noRenewal dbStart es s ∧ World.locking busy = es.flatMap (Lock.calls owners keys lasts) ∧
    (∀ i ∈ [0, 1, 2], World.of busy i <+: (run (envs i) txOpts addCmd evHeap).2.trace) := by
  obtain ⟨s, hs⟩ := demo_db
  exact ⟨s, _, ⟨fun l => ⟨rfl, keys l, .inl rfl⟩, fun k r h => by simp [dbStart] at h⟩, fun l => rfl, hs, by decide +kernel, by decide +kernel⟩

end Lockers

end Ddd
