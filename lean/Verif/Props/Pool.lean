import Verif.Spec.Pool
import Mathlib.Data.List.Perm.Basic
/-!
# C89: one consumption pass with its worker pool
-/
set_option linter.unusedVariables false
set_option linter.unusedSimpArgs false
namespace Ddd.Pool
open Ddd.Spec

variable {σ L : Type} {w : Work σ L} {n : Nat} {k : Int} {d : σ}

theorem begunOf_snoc (l : List Log) (x : Log) : begunOf (l ++ [x]) = begunOf l ++ (match x with | .begun i => [i] | .ended _ => []) := by
  cases x <;> simp [begunOf, List.filterMap_append]

theorem endedOf_snoc (l : List Log) (x : Log) : endedOf (l ++ [x]) = endedOf l ++ (match x with | .ended i => [i] | .begun _ => []) := by
  cases x <;> simp [endedOf, List.filterMap_append]

/-- the tuples being handled -/
def busyOf (ws : List (Worker L)) : List Nat := ws.filterMap fun | .busy i _ => some i | _ => none

/-- the workers still running -/
def alive (ws : List (Worker L)) : Nat := ws.countP fun | .gone => false | _ => true

@[simp] theorem busyOf_append (a b : List (Worker L)) : busyOf (a ++ b) = busyOf a ++ busyOf b := by simp [busyOf, List.filterMap_append]
@[simp] theorem busyOf_idle (b : List (Worker L)) : busyOf (.idle :: b) = busyOf b := by simp [busyOf]
@[simp] theorem busyOf_gone (b : List (Worker L)) : busyOf (.gone :: b) = busyOf b := by simp [busyOf]
@[simp] theorem busyOf_busy (i : Nat) (l : L) (b : List (Worker L)) : busyOf (.busy i l :: b) = i :: busyOf b := by simp [busyOf]
@[simp] theorem busyOf_nil : busyOf ([] : List (Worker L)) = [] := rfl
@[simp] theorem alive_append (a b : List (Worker L)) : alive (a ++ b) = alive a + alive b := by simp [alive, List.countP_append]
@[simp] theorem alive_idle (b : List (Worker L)) : alive (.idle :: b) = alive b + 1 := by simp [alive]
@[simp] theorem alive_gone (b : List (Worker L)) : alive (.gone :: b) = alive b := by simp [alive]
@[simp] theorem alive_busy (i : Nat) (l : L) (b : List (Worker L)) : alive (.busy i l :: b) = alive b + 1 := by simp [alive]
@[simp] theorem alive_nil : alive ([] : List (Worker L)) = 0 := rfl

theorem busyOf_length (ws : List (Worker L)) : (busyOf ws).length ≤ ws.length := List.length_filterMap_le ..

theorem busyOf_allGone {ws : List (Worker L)} (h : ∀ x ∈ ws, x = .gone) : busyOf ws = [] := by
  induction ws with
  | nil => rfl
  | cons x xs ih => rw [h x (by simp)]; simp [ih fun y hy => h y (by simp [hy])]

structure Inv (n : Nat) (k : Int) (s : State σ L) : Prop where
  bound : s.next ≤ n
  begun : begunOf s.log = List.range s.next
  split : (endedOf s.log ++ busyOf s.ws).Perm (List.range s.next)
  size : s.toSpawn + s.ws.length = k.toNat
  gone : .gone ∈ s.ws → n ≤ s.next
  ret : s.returned = true → s.toSpawn = 0 ∧ ∀ x ∈ s.ws, x = .gone

theorem inv_init : Inv n k (State.init (L := L) k d) :=
  ⟨Nat.zero_le _, rfl, by simp [State.init, endedOf], by simp [State.init], by simp [State.init], by simp [State.init]⟩

theorem inv_step {s s' : State σ L} (h : Inv n k s) (st : Step w n s s') : Inv n k s' := by
  obtain ⟨h1, h2, h3, h4, h5, h6⟩ := h
  cases st with
  | spawn hm =>
    refine ⟨h1, h2, by simpa using h3, by simp; omega, by simpa using h5, fun hr => ?_⟩
    have := (h6 hr).1; omega
  | @take a b hw hn =>
    rw [hw] at h3 h4 h5 h6
    refine ⟨hn, by simp [begunOf_snoc, h2, List.range_succ], ?_, by simpa using h4, fun hg => ?_, fun hr => ?_⟩
    · simp only [endedOf_snoc, List.append_nil, busyOf_append, busyOf_busy, List.range_succ]
      simp only [busyOf_append, busyOf_idle] at h3
      rw [← List.append_assoc]
      refine List.perm_middle.trans ?_
      rw [List.append_assoc]
      exact (h3.cons _).trans (List.perm_append_singleton _ _).symm
    · have := h5 (by simpa using hg)
      simp; omega
    · have := (h6 hr).2 .idle (by simp); simp at this
  | @finish a b i l hw =>
    rw [hw] at h3 h4 h5 h6
    refine ⟨h1, by simpa [begunOf_snoc] using h2, ?_, by simpa using h4, fun hg => h5 (by simpa using hg), fun hr => ?_⟩
    · simp only [endedOf_snoc, busyOf_append, busyOf_idle]
      simp only [busyOf_append, busyOf_busy] at h3
      refine List.Perm.trans ?_ h3
      rw [List.append_assoc]
      refine List.Perm.append_left _ ?_
      simpa using List.perm_middle.symm
    · have := (h6 hr).2 (.busy i l) (by simp); simp at this
  | @leave a b hw hn =>
    rw [hw] at h3 h4 h5 h6
    refine ⟨h1, h2, by simpa using h3, by simpa using h4, fun _ => hn, fun hr => ?_⟩
    have := (h6 hr).2 .idle (by simp); simp at this
  | ret a b c => exact ⟨h1, h2, h3, h4, h5, fun _ => ⟨a, b⟩⟩

theorem inv_of {s : State σ L} (h : Pass w n k d s) : Inv n k s := by
  obtain ⟨m, h⟩ := h
  generalize hs : State.init k d = s0 at h
  induction h with
  | nil => subst hs; exact inv_init
  | snoc _ st ih => exact inv_step ih st

/-- **C89.** At every moment of a pass, whatever the schedule: the tuples begun are the first ones, in scan order and each once; those that are over were begun, and each is over at most once; and no more than `ConsumeConcurrent`
are being handled. -/
theorem C89_pool {s : State σ L} (h : Pass w n k d s) :
    (∃ m, m ≤ n ∧ begunOf s.log = List.range m) ∧ (endedOf s.log).Nodup ∧ (∀ i ∈ endedOf s.log, i ∈ begunOf s.log) ∧
      (begunOf s.log).length ≤ (endedOf s.log).length + k.toNat := by
  have i := inv_of h
  have hnd : (endedOf s.log ++ busyOf s.ws).Nodup := i.split.nodup_iff.2 List.nodup_range
  refine ⟨⟨_, i.bound, i.begun⟩, (List.nodup_append.1 hnd).1, fun x hx => ?_, ?_⟩
  · rw [i.begun]; exact i.split.subset (by simp [hx])
  · rw [i.begun, ← i.split.length_eq, List.length_append]
    have := busyOf_length s.ws
    have := i.size
    omega

/-- **C89.** When `dispatchEvents` returns and there is at least one worker, every tuple was handled to its end, exactly once. -/
theorem C89_complete {s : State σ L} (h : Pass w n k d s) (hk : 1 ≤ k) (hr : s.returned = true) :
    begunOf s.log = List.range n ∧ (endedOf s.log).Perm (List.range n) := by
  have i := inv_of h
  obtain ⟨h0, hg⟩ := i.ret hr
  have hsz := i.size
  have hn : n ≤ s.next := by
    cases hw : s.ws with
    | nil => rw [hw] at hsz; simp at hsz; omega
    | cons x xs => exact i.gone (by rw [hw, ← hg x (by simp [hw])]; simp)
  have he : s.next = n := Nat.le_antisymm i.bound hn
  refine ⟨he ▸ i.begun, ?_⟩
  have := i.split
  rw [busyOf_allGone hg, List.append_nil, he] at this
  exact this

/-- **C89.** As long as one handler has not come back, the pass does not return (so no later pass starts on this instance). -/
theorem C89_waits {s : State σ L} (h : Pass w n k d s) (hk : 1 ≤ k) {i : Nat} (hi : i < n) (hne : i ∉ endedOf s.log) : s.returned = false := by
  cases hr : s.returned with
  | false => rfl
  | true => exact absurd ((C89_complete h hk hr).2.mem_iff.2 (List.mem_range.2 hi)) hne

/-- **C89.** No deadlock: as long as the pass has not returned, something can happen. -/
theorem C89_progress {s : State σ L} (hr : s.returned = false) : ∃ s', Step w n s s' := by
  cases hm : s.toSpawn with
  | succ m => exact ⟨_, .spawn hm⟩
  | zero =>
    by_cases hg : ∀ x ∈ s.ws, x = .gone
    · exact ⟨_, .ret hm hg hr⟩
    · simp only [not_forall] at hg
      obtain ⟨x, hx, hne⟩ := hg
      obtain ⟨a, b, hw⟩ := List.append_of_mem hx
      cases x with
      | gone => exact absurd rfl hne
      | busy i l => exact ⟨_, .finish hw⟩
      | idle =>
        by_cases hn : s.next < n
        · exact ⟨_, .take hw hn⟩
        · exact ⟨_, .leave hw (Nat.le_of_not_lt hn)⟩

/-- what is still to be done -/
def todo (n : Nat) (s : State σ L) : Nat := 2 * (n - s.next) + (busyOf s.ws).length + alive s.ws + 2 * s.toSpawn + (if s.returned then 0 else 1)

theorem todo_step {s s' : State σ L} (st : Step w n s s') : todo n s = todo n s' + 1 := by
  cases st with
  | spawn hm => simp [todo, hm]; omega
  | take hw hn => simp [todo, hw]; omega
  | finish hw => simp [todo, hw]; omega
  | leave hw hn => simp [todo, hw]; omega
  | ret a b c => simp [todo, c]

/-- **C89.** Every pass is over after at most `2·n + 2·ConsumeConcurrent + 1` steps, provided every handler call comes back (each step is one; a handler that does not come back is a step that never happens). -/
theorem C89_terminates {s : State σ L} {m : Nat} (h : Exec w n (State.init k d) m s) : m ≤ 2 * n + 2 * k.toNat + 1 := by
  have key : todo n (State.init (L := L) k d) = todo n s + m := by
    induction h with
    | nil => rfl
    | snoc _ st ih => rw [ih, todo_step st]; omega
  have h0 : todo n (State.init (L := L) k d) = 2 * n + 2 * k.toNat + 1 := by simp [todo, State.init]
  omega

/-- **C89, counterexample.** A `ConsumeConcurrent` that is not positive is accepted: the pass returns at once and nothing is ever handled. -/
theorem C89_no_workers {s : State σ L} (hk : k ≤ 0) (h : Pass w n k d s) : s.log = [] ∧ s.data = d ∧ (s.returned = false → ∃ s', Step w n s s' ∧ s'.returned = true ∧ s'.log = []) := by
  have hi : ∀ s : State σ L, Pass w n k d s → s.toSpawn = 0 ∧ s.ws = [] := fun s hs => by
    have := (inv_of hs).size
    have : s.toSpawn + s.ws.length = 0 := by omega
    exact ⟨by omega, List.eq_nil_of_length_eq_zero (by omega)⟩
  have hl : s.log = [] ∧ s.data = d := by
    obtain ⟨m, hx⟩ := h
    generalize hs : State.init k d = s0 at hx
    induction hx with
    | nil => subst hs; exact ⟨rfl, rfl⟩
    | @snoc s1 s2 m e st ih =>
      obtain ⟨a, b⟩ := hi s1 ⟨m, hs ▸ e⟩
      cases st with
      | spawn hm => omega
      | take hw hn => simp [b] at hw
      | finish hw => simp [b] at hw
      | leave hw hn => simp [b] at hw
      | ret => exact ih
  obtain ⟨a, b⟩ := hi s h
  exact ⟨hl.1, hl.2, fun hr => ⟨_, .ret a (by simp [b]) hr, rfl, hl.1⟩⟩

/-! ## One worker -/

theorem oneByOne_succ (m : Nat) : oneByOne (List.range (m + 1)) = oneByOne (List.range m) ++ [.begun m, .ended m] := by simp [oneByOne, List.range_succ]

theorem sequential_succ (m : Nat) (d : σ) : sequential w (List.range (m + 1)) d = w.leave m (w.enter m (sequential w (List.range m) d)) (sequential w (List.range m) d) := by
  simp [sequential, List.range_succ]

/-- with one worker -/
def Single (w : Work σ L) (d : σ) (s : State σ L) : Prop :=
  match s.ws with
  | [] => s.next = 0 ∧ s.log = [] ∧ s.data = d
  | [.busy i l] => s.next = i + 1 ∧ s.log = oneByOne (List.range i) ++ [.begun i] ∧ s.data = sequential w (List.range i) d ∧ l = w.enter i s.data
  | [_] => s.log = oneByOne (List.range s.next) ∧ s.data = sequential w (List.range s.next) d
  | _ => False

theorem one_of_split {a b : List (Worker L)} {x : Worker L} {ws : List (Worker L)} (h : ws = a ++ x :: b) (hl : ws.length ≤ 1) : a = [] ∧ b = [] := by
  subst h; simp at hl
  exact ⟨List.eq_nil_of_length_eq_zero (by omega), List.eq_nil_of_length_eq_zero (by omega)⟩

theorem single_step {s s' : State σ L} (hi : Inv n 1 s) (h : Single w d s) (st : Step w n s s') : Single w d s' := by
  have hsz := hi.size
  have hl : s.ws.length ≤ 1 := by
    have : (1 : Int).toNat = 1 := rfl
    omega
  cases st with
  | @spawn m hm =>
    have : s.ws = [] := List.eq_nil_of_length_eq_zero (by
      have : (1 : Int).toNat = 1 := rfl
      omega)
    simp only [Single, this] at h
    simp [Single, this, h, oneByOne, sequential]
  | take hw hn =>
    obtain ⟨rfl, rfl⟩ := one_of_split hw hl
    simp only [List.nil_append] at hw
    simp only [Single, hw] at h
    simp [Single, h]
  | finish hw =>
    obtain ⟨rfl, rfl⟩ := one_of_split hw hl
    simp only [List.nil_append] at hw
    simp only [Single, hw] at h
    obtain ⟨h1, h2, h3, h4⟩ := h
    simp only [Single, List.nil_append, h1, h2, h4, h3, oneByOne_succ, sequential_succ]
    simp
  | leave hw hn =>
    obtain ⟨rfl, rfl⟩ := one_of_split hw hl
    simp only [List.nil_append] at hw
    simp only [Single, hw] at h
    simpa [Single] using h
  | ret a b c => simpa [Single] using h

/-- **C89.** With one worker a pass is sequential: the tuples are handled one after the other in scan order, each seeing what the ones before left. -/
theorem C89_sequential {s : State σ L} (h : Pass w n 1 d s) (hr : s.returned = true) : s.log = oneByOne (List.range n) ∧ s.data = sequential w (List.range n) d := by
  have hs : Single w d s := by
    clear hr
    obtain ⟨m, hx⟩ := h
    generalize he : State.init 1 d = s0 at hx
    induction hx with
    | nil => subst he; simp [Single, State.init]
    | @snoc s1 s2 m e st ih =>
      exact single_step (inv_of ⟨m, he ▸ e⟩) ih st
  have i := inv_of h
  obtain ⟨h0, hg⟩ := i.ret hr
  have hsz := i.size
  have h1 : (1 : Int).toNat = 1 := rfl
  obtain ⟨x, hx⟩ : ∃ x, s.ws = [x] := List.length_eq_one_iff.1 (by omega)
  have : x = .gone := hg x (by simp [hx])
  subst this
  simp only [Single, hx] at hs
  have he : s.next = n := Nat.le_antisymm i.bound (i.gone (by simp [hx]))
  rwa [he] at hs

/-! ## Passes exist -/

theorem Exec.trans {s s1 s2 : State σ L} {a b : Nat} (h : Exec w n s a s1) (h2 : Exec w n s1 b s2) : Exec w n s (a + b) s2 := by
  induction h2 with
  | nil => exact h
  | snoc _ st ih => exact .snoc ih st

theorem Exec.one {s s1 : State σ L} (h : Step w n s s1) : Exec w n s 1 s1 := .snoc (.nil s) h

/-- from any state of a pass it can be brought to its end -/
theorem finishes (s : State σ L) : ∃ m s', Exec w n s m s' ∧ s'.returned = true := by
  induction ht : todo n s using Nat.strongRecOn generalizing s with
  | ind t ih =>
    cases hr : s.returned with
    | true => exact ⟨0, s, .nil s, hr⟩
    | false =>
      obtain ⟨s1, st⟩ := C89_progress (w := w) (n := n) hr
      obtain ⟨m, s', e, h⟩ := ih (todo n s1) (by have := todo_step st; omega) s1 rfl
      exact ⟨1 + m, s', (Exec.one st).trans e, h⟩

/-- **C89.** Every pass can be completed from wherever it is; in particular the theorems about returned passes are about passes that exist. -/
theorem C89_returns {s : State σ L} (h : Pass w n k d s) : ∃ s', Pass w n k d s' ∧ s'.returned = true := by
  obtain ⟨m, h⟩ := h
  obtain ⟨m', s', e, hr⟩ := finishes (w := w) (n := n) s
  exact ⟨s', ⟨_, h.trans e⟩, hr⟩

/-- a worker alone handles `c` tuples -/
theorem alone (c : Nat) : ∀ (s : State σ L) (a b : List (Worker L)), s.ws = a ++ .idle :: b → s.next + c ≤ n →
    ∃ m s', Exec w n s m s' ∧ s'.ws = s.ws ∧ s'.next = s.next + c ∧ s'.toSpawn = s.toSpawn ∧ s'.returned = s.returned ∧ s'.log = s.log ++ oneByOne (List.range' s.next c) := by
  induction c with
  | zero => intro s a b hw hn; exact ⟨0, s, .nil s, rfl, rfl, rfl, rfl, by simp [oneByOne]⟩
  | succ c ih =>
    intro s a b hw hn
    have st1 := Step.take (w := w) hw (show s.next < n by omega)
    have st2 := Step.finish (w := w) (n := n) (s := { s with next := s.next + 1, ws := a ++ .busy s.next (w.enter s.next s.data) :: b, log := s.log ++ [.begun s.next] }) rfl
    obtain ⟨m, s', e, h1, h2, h3, h4, h5⟩ := ih { s with next := s.next + 1, ws := a ++ .idle :: b, data := w.leave s.next (w.enter s.next s.data) s.data, log := s.log ++ [.begun s.next] ++ [.ended s.next] } a b rfl (show s.next + 1 + c ≤ n by omega)
    refine ⟨_, s', ((Exec.one st1).trans (Exec.one st2)).trans e, by rw [h1]; exact hw.symm, by rw [h2]; simp; omega, h3, h4, ?_⟩
    rw [h5]
    simp [oneByOne, List.range'_succ]

/-- **C89.** With at least two workers, a handler that never comes back does not keep the others from being handled: there is a pass in which everything but tuple `i` is over. -/
theorem C89_others_go_on (hk : 2 ≤ k) {i : Nat} (hi : i < n) : ∃ s : State σ L, Pass w n k d s ∧ endedOf s.log = List.range i ++ List.range' (i + 1) (n - (i + 1)) := by
  obtain ⟨j, hj⟩ : ∃ j, k.toNat = j + 2 := ⟨k.toNat - 2, by omega⟩
  have e0 : Exec w n (State.init (L := L) k d) 2 { (State.init (L := L) k d) with toSpawn := j, ws := [.idle, .idle] } :=
    (Exec.one (.spawn (m := j + 1) (by simp [State.init, hj]))).trans (Exec.one (.spawn (m := j) rfl))
  obtain ⟨m1, s1, e1, h1, h2, _, _, h5⟩ := alone (w := w) (n := n) i { (State.init (L := L) k d) with toSpawn := j, ws := [.idle, .idle] } [] [.idle] rfl (by simp [State.init]; omega)
  simp only [State.init, Nat.zero_add] at h2 h5
  have st := Step.take (w := w) (n := n) (s := s1) (a := []) (b := [.idle]) (by rw [h1]; rfl) (by omega)
  obtain ⟨m2, s2, e2, _, _, _, _, g5⟩ := alone (w := w) (n := n) (n - (i + 1)) _ [.busy s1.next (w.enter s1.next s1.data)] [] (rfl : ({ s1 with next := s1.next + 1, ws := [] ++ .busy s1.next (w.enter s1.next s1.data) :: [.idle], log := s1.log ++ [.begun s1.next] } : State σ L).ws = _)
    (show s1.next + 1 + (n - (i + 1)) ≤ n by omega)
  refine ⟨s2, ⟨_, ((e0.trans e1).trans (Exec.one st)).trans e2⟩, ?_⟩
  have ho : ∀ l, endedOf (oneByOne l) = l := fun l => by
    induction l with
    | nil => rfl
    | cons x xs ih => simp only [oneByOne, endedOf, List.flatMap_cons, List.filterMap_append] at ih ⊢; rw [ih]; rfl
  have ha : ∀ a b, endedOf (a ++ b) = endedOf a ++ endedOf b := fun a b => by simp [endedOf, List.filterMap_append]
  rw [g5, h5, ha, ha, ho, h2]
  simp only [List.nil_append, ha, ho]
  simp [endedOf, List.range_eq_range']

/-! ## The pass of the MySQL bus -/
section bus
variable {c : Bus.Cfg} {svc start now : Nat} {ans : Nat → Bus.DEv → Bus.Ret} {ts : List Bus.Tuple} {db : Bus.DB}

theorem busWork_one (i : Nat) (t : Bus.Tuple) (ht : ts[i]? = some t) (db : Bus.DB) :
    (busWork c svc start now ans ts).leave i ((busWork c svc start now ans ts).enter i db) db = (Bus.handle c db svc start now t (ans i)).1 := by
  simp only [busWork, ht, Bus.handle]
  cases h1 : (db.recs.any fun x => x.id == t.r.id) with
  | false => simp
  | true =>
    by_cases h2 : t.r.status = .init
    · cases h3 : Bus.mayCall db svc start t.e <;> simp [h2]
    · simp [h2]

theorem busWork_seq (pre post : List Bus.Tuple) (hts : ts = pre ++ post) (db : Bus.DB) :
    sequential (busWork c svc start now ans ts) (List.range' pre.length post.length) db = (Bus.handleAll c svc start now ans pre.length post db).1 := by
  induction post generalizing pre db with
  | nil => rfl
  | cons t post ih =>
    have ht : ts[pre.length]? = some t := by simp [hts]
    have := ih (pre ++ [t]) (by simp [hts]) (Bus.handle c db svc start now t (ans pre.length)).1
    simp only [List.length_append, List.length_singleton] at this
    simp only [List.length_cons, List.range'_succ, sequential, List.foldl_cons, Bus.handleAll]
    rw [busWork_one _ t ht]
    exact this

/-- **C89, refinement.** With `ConsumeConcurrent = 1` a pass of the MySQL bus leaves the tables exactly as handling the scanned records in order does. -/
theorem C89_bus_sequential {s : State Bus.DB Seen} (h : Pass (busWork c svc start now ans ts) ts.length 1 db s) (hr : s.returned = true) :
    s.data = (Bus.handleAll c svc start now ans 0 ts db).1 := by
  rw [(C89_sequential h hr).2, List.range_eq_range']
  exact busWork_seq [] ts rfl db

/-! ### Events without order: the schedule does not matter -/

theorem saveRec_ids (db : Bus.DB) (r : Bus.Rec) : (Bus.saveRec db r).recs.map Bus.Rec.id = db.recs.map Bus.Rec.id := by
  simp only [Bus.saveRec, List.map_map]
  refine List.map_congr_left fun x _ => ?_
  simp only [Function.comp_apply]
  split
  · rename_i h; exact h.symm
  · rfl

theorem saveRec_comm (db : Bus.DB) {r r' : Bus.Rec} (h : r.id ≠ r'.id) : Bus.saveRec (Bus.saveRec db r) r' = Bus.saveRec (Bus.saveRec db r') r := by
  simp only [Bus.saveRec, List.map_map]
  congr 1
  refine List.map_congr_left fun x _ => ?_
  simp only [Function.comp_apply]
  grind

theorem afterCall_id (st : Bus.Strategy) (now : Nat) (r : Bus.Rec) (a : Bus.Ret) : (Bus.afterCall st now r a).id = r.id := by
  cases a <;> simp only [Bus.afterCall, Bus.retryStep] <;> split <;> rfl

theorem leave_ids (i : Nat) (l : Seen) (db : Bus.DB) : ((busWork c svc start now ans ts).leave i l db).recs.map Bus.Rec.id = db.recs.map Bus.Rec.id := by
  simp only [busWork]
  split
  · exact saveRec_ids _ _
  · exact saveRec_ids _ _
  · rfl

theorem enter_same (hu : ∀ t ∈ ts, t.e.ev.sendType ≠ .fifo ∧ t.e.ev.sendType ≠ .laxFifo) (i : Nat) {db db' : Bus.DB} (h : db'.recs.map Bus.Rec.id = db.recs.map Bus.Rec.id) :
    (busWork c svc start now ans ts).enter i db' = (busWork c svc start now ans ts).enter i db := by
  have hany : ∀ (x : Nat), (db'.recs.any fun y => y.id == x) = (db.recs.any fun y => y.id == x) := fun x => by
    have : ∀ d : Bus.DB, (d.recs.any fun y => y.id == x) = (d.recs.map Bus.Rec.id).any (· == x) := fun d => by simp [List.any_map, Function.comp_def]
    rw [this, this, h]
  simp only [busWork]
  cases ht : ts[i]? with
  | none => rfl
  | some t =>
    have := hu t (List.mem_of_getElem? ht)
    simp [hany, Bus.mayCall, this]

theorem leave_comm (hd : (ts.map fun t => t.r.id).Nodup) (v : Nat → Seen) (i j : Nat) (db : Bus.DB) :
    (busWork c svc start now ans ts).leave j (v j) ((busWork c svc start now ans ts).leave i (v i) db) =
      (busWork c svc start now ans ts).leave i (v i) ((busWork c svc start now ans ts).leave j (v j) db) := by
  by_cases hij : i = j
  · subst hij; rfl
  · simp only [busWork]
    cases hi : ts[i]? with
    | none => rfl
    | some a =>
      cases hj : ts[j]? with
      | none => rfl
      | some b =>
        have hne : a.r.id ≠ b.r.id := by
          intro he
          apply hij
          have hil : i < ts.length := (List.getElem?_eq_some_iff.1 hi).1
          refine (List.getElem?_inj (l := ts.map fun t => t.r.id) (by simpa using hil) hd).1 ?_
          simp [hi, hj, he]
        cases v i <;> cases v j <;> first | rfl | (refine saveRec_comm _ ?_; simpa [afterCall_id] using hne)

theorem unordered_inv (hu : ∀ t ∈ ts, t.e.ev.sendType ≠ .fifo ∧ t.e.ev.sendType ≠ .laxFifo) {s : State Bus.DB Seen} (h : Pass (busWork c svc start now ans ts) n k db s) :
    s.data.recs.map Bus.Rec.id = db.recs.map Bus.Rec.id ∧ (∀ i l, .busy i l ∈ s.ws → l = (busWork c svc start now ans ts).enter i db) ∧
      s.data = (endedOf s.log).foldl (fun d i => (busWork c svc start now ans ts).leave i ((busWork c svc start now ans ts).enter i db) d) db := by
  obtain ⟨m, hx⟩ := h
  induction hx with
  | nil => exact ⟨rfl, by simp [State.init], rfl⟩
  | snoc _ st ih =>
    obtain ⟨h1, h2, h3⟩ := ih
    cases st with
    | spawn hm => exact ⟨h1, fun i l hm => h2 i l (by simpa using hm), h3⟩
    | take hw hn =>
      refine ⟨h1, fun i l hm => ?_, by simpa [endedOf_snoc] using h3⟩
      rw [hw] at h2
      simp only [List.mem_append, List.mem_cons] at hm
      rcases hm with hm | hm | hm
      · exact h2 i l (by simp [hm])
      · injection hm with hi hl; subst hi; rw [hl]; exact enter_same hu _ h1
      · exact h2 i l (by simp [hm])
    | @finish a b i l hw =>
      rw [hw] at h2
      refine ⟨by rw [← h1]; exact leave_ids (svc := svc) (start := start) _ _ _, fun i l hm => h2 i l (by simp only [List.mem_append, List.mem_cons] at hm ⊢; rcases hm with hm | hm | hm; exacts [.inl hm, by simp at hm, .inr (.inr hm)]), ?_⟩
      rw [h2 i l (by simp)]
      simp only [endedOf_snoc, List.foldl_append, List.foldl_cons, List.foldl_nil, ← h3]
    | leave hw hn =>
      rw [hw] at h2
      exact ⟨h1, fun i l hm => h2 i l (by simpa using hm), h3⟩
    | ret => exact ⟨h1, h2, h3⟩

theorem sequential_const {v : Nat → Seen} (hu : ∀ t ∈ ts, t.e.ev.sendType ≠ .fifo ∧ t.e.ev.sendType ≠ .laxFifo) (is : List Nat) {db db' : Bus.DB} (h : db'.recs.map Bus.Rec.id = db.recs.map Bus.Rec.id) :
    sequential (busWork c svc start now ans ts) is db' = is.foldl (fun d i => (busWork c svc start now ans ts).leave i ((busWork c svc start now ans ts).enter i db) d) db' := by
  induction is generalizing db' with
  | nil => rfl
  | cons i is ih =>
    simp only [sequential, List.foldl_cons] at ih ⊢
    rw [enter_same hu i h]
    exact ih ((leave_ids _ _ _).trans h)

/-- **C89.** If none of the scanned events demands an order, any number of workers and any schedule leave the tables exactly as handling the scanned records one after the other does. -/
theorem C89_bus_any_schedule {s : State Bus.DB Seen} (hu : ∀ t ∈ ts, t.e.ev.sendType ≠ .fifo ∧ t.e.ev.sendType ≠ .laxFifo) (hd : (ts.map fun t => t.r.id).Nodup) (hk : 1 ≤ k)
    (h : Pass (busWork c svc start now ans ts) ts.length k db s) (hr : s.returned = true) : s.data = (Bus.handleAll c svc start now ans 0 ts db).1 := by
  rw [(unordered_inv hu h).2.2, (C89_complete h hk hr).2.foldl_eq' (fun x _ y _ z => leave_comm hd (fun i => (busWork c svc start now ans ts).enter i db) x y z),
    ← sequential_const (v := fun _ => .skip) hu _ rfl, List.range_eq_range']
  exact busWork_seq [] ts rfl db

/-! ### Examples -/

/-- two events of one sender in a row, both pending for service 1 -/
def exEv (st : Bus.SendType) (i : Nat) : Bus.EvRow := ⟨i, ⟨i, 7, st, i, 0⟩, 0⟩
def exRec (i : Nat) : Bus.Rec := ⟨i, 1, i, 0, .init, i, i⟩
def exDB (st : Bus.SendType) : Bus.DB := { events := [exEv st 1, exEv st 2], recs := [exRec 1, exRec 2], services := [1], txs := [], nextEv := 3, nextRec := 3, nextTx := 1 }
def exTs (st : Bus.SendType) : List Bus.Tuple := [⟨exRec 1, exEv st 1⟩, ⟨exRec 2, exEv st 2⟩]
def exCfg : Bus.Cfg := ⟨100, 10, 5, Bus.limitRetry 3⟩

/-- the example is what a scan finds -/
example : Bus.scan (exDB .normal) 1 10 1 9 = exTs .normal := by decide +kernel

/-- the hypotheses of `C89_bus_any_schedule` are met by events that were really scanned, and the pass handles both -/
example : (∀ t ∈ exTs .normal, t.e.ev.sendType ≠ .fifo ∧ t.e.ev.sendType ≠ .laxFifo) ∧ ((exTs .normal).map fun t => t.r.id).Nodup ∧
    ((Bus.handleAll exCfg 1 1 9 (fun _ _ => .ok) 0 (exTs .normal) (exDB .normal)).1.recs.map Bus.Rec.status = [.success, .success]) := by decide +kernel

/-- **C89, the schedule matters for ordered events.** Two events of one sender with `SendTypeFIFO` in one pass: one worker handles both; two workers may leave the second one for a later pass, because it is looked at while the
first is still being handled. -/
theorem C89_fifo_delayed : ∃ s : State Bus.DB Seen, Pass (busWork exCfg 1 1 9 (fun _ _ => .ok) (exTs .fifo)) 2 2 (exDB .fifo) s ∧ s.returned = true ∧
    s.data.recs.map Bus.Rec.status = [.success, .init] ∧
    (Bus.handleAll exCfg 1 1 9 (fun _ _ => .ok) 0 (exTs .fifo) (exDB .fifo)).1.recs.map Bus.Rec.status = [.success, .success] := by
  let w := busWork exCfg 1 1 9 (fun _ _ => .ok) (exTs .fifo)
  have e1 : Exec w 2 (State.init (L := Seen) 2 (exDB .fifo)) 2 { (State.init (L := Seen) 2 (exDB .fifo)) with toSpawn := 0, ws := [.idle, .idle] } :=
    (Exec.one (.spawn (m := 1) rfl)).trans (Exec.one (.spawn (m := 0) rfl))
  have e2 := ((e1.snoc (.take (a := []) (b := [.idle]) rfl (by decide))).snoc (.take (a := [.busy 0 (w.enter 0 (exDB .fifo))]) (b := []) rfl (by decide)))
  have e3 := ((e2.snoc (.finish (a := [.busy 0 (w.enter 0 (exDB .fifo))]) (b := []) rfl)).snoc (.finish (a := []) (b := [.idle]) rfl))
  have e4 := ((e3.snoc (.leave (a := []) (b := [.idle]) rfl (by decide))).snoc (.leave (a := [.gone]) (b := []) rfl (by decide)))
  have e5 := e4.snoc (.ret rfl (by simp) rfl)
  exact ⟨_, ⟨_, e5⟩, rfl, by decide +kernel, by decide +kernel⟩

end bus

end Ddd.Pool
