import Verif.Spec.LockSkew
/-!
# C112: the database lock with clocks that differ
-/
set_option linter.unusedVariables false
set_option linter.unusedSimpArgs false
namespace Ddd.Lock.Skew
variable {cfg : Cfg}

/-- an attempt that has not written anything yet -/
def _root_.Ddd.Lock.Pc.unwritten : Pc → Prop
  | .start _ | .sawNone _ | .saw .. | .creating .. | .stealing .. => True
  | _ => False

structure Inv (m d : Nat) (s : State) : Prop where
  /-- rows of attempts that wrote -/
  wrote : ∀ k r, s.tab k = some r → ¬ (s.pc r.locker).unwritten
  /-- what was read of an attempt is what it wrote -/
  saw : ∀ l k r tr, s.pc l = .saw k r tr → ¬ (s.pc r.locker).unwritten ∧ (∀ u, s.tab k = some ⟨r.locker, u⟩ → u = r.updated)
  stealing : ∀ l k v u, s.pc l = .stealing k v u → ¬ (s.pc v).unwritten ∧ ∀ u', s.tab k = some ⟨v, u'⟩ → u' + m ≤ s.now + d
  held : ∀ l k u, s.pc l = .held k u → s.now + d < u + m → s.tab k = some ⟨l, u⟩

theorem inv_init {m d : Nat} {s : State} (h : Initial s) : Inv m d s := by
  obtain ⟨h1, h2⟩ := h
  refine ⟨?_, ?_, ?_, ?_⟩
  · intro k r hr; rw [h2 k r hr]; exact id
  all_goals
    intro l
    obtain ⟨k, hk | hk⟩ := h1 l <;> simp [hk]

set_option maxHeartbeats 4000000 in
theorem inv_step {m d : Nat} (hd : Off d cfg) (hm : AtLeast m cfg) {s s' : State} (hi : Inv m d s) (h : Step cfg s s') : Inv m d s' := by
  obtain ⟨i1, i2, i3, i4⟩ := hi
  cases h with
  | tick d' =>
    refine ⟨i1, i2, fun l k v u h => ⟨(i3 l k v u h).1, fun u' hu => ?_⟩, fun l k u h hn => i4 l k u h ?_⟩
    · have := (i3 l k v u h).2 u' hu; show u' + m ≤ s.now + d' + d; omega
    · have : s.now + d' + d < u + m := hn; omega
  | @checkExpired l k tr c c' r h1 h2 h3 h4 =>
    have := hd _ _ _ h2
    have := hd _ _ _ h3
    have := hm l
    refine ⟨?_, ?_, ?_, ?_⟩ <;> simp only [State.at] <;> grind [Pc.unwritten]
  | @create l k u h1 =>
    rcases hk : s.tab k with _ | r <;> simp only [insertRow, hk, if_true, if_false, Bool.false_eq_true] <;>
      (refine ⟨?_, ?_, ?_, ?_⟩ <;> simp only [State.at, setTab] <;> grind [Pc.unwritten])
  | @createErr l k u t h1 ht =>
    rcases hk : s.tab k with _ | r <;> simp only [insertRow, hk] at ht <;> rcases ht with rfl | rfl <;>
      (refine ⟨?_, ?_, ?_, ?_⟩ <;> simp only [State.at, setTab] <;> grind [Pc.unwritten])
  | @steal l k v u h1 =>
    rcases hk : s.tab k with _ | r
    · simp only [casRow, hk, if_true]
      refine ⟨?_, ?_, ?_, ?_⟩ <;> simp only [State.at, setTab] <;> grind [Pc.unwritten]
    · by_cases hr : r.locker = v <;> simp only [casRow, hk, hr, if_true, if_false, Nat.one_ne_zero] <;>
        (refine ⟨?_, ?_, ?_, ?_⟩ <;> simp only [State.at, setTab] <;> grind [Pc.unwritten])
  | @stealErr l k v u t h1 ht =>
    rcases hk : s.tab k with _ | r
    · simp only [casRow, hk, or_self] at ht
      subst ht
      refine ⟨?_, ?_, ?_, ?_⟩ <;> simp only [State.at, setTab] <;> grind [Pc.unwritten]
    · by_cases hr : r.locker = v <;> simp only [casRow, hk, hr, if_true, if_false] at ht <;> rcases ht with rfl | rfl <;>
        (refine ⟨?_, ?_, ?_, ?_⟩ <;> simp only [State.at, setTab] <;> grind [Pc.unwritten])
  | @unlock l k u h1 =>
    rcases hk : s.tab k with _ | r
    · simp only [delRow, hk, if_true]
      refine ⟨?_, ?_, ?_, ?_⟩ <;> simp only [State.at, setTab] <;> grind [Pc.unwritten]
    · by_cases hr : r.locker = l <;> simp only [delRow, hk, hr, if_true, if_false, Nat.one_ne_zero] <;>
        (refine ⟨?_, ?_, ?_, ?_⟩ <;> simp only [State.at, setTab] <;> grind [Pc.unwritten])
  | @unlockErr l k u t h1 ht =>
    rcases hk : s.tab k with _ | r
    · simp only [delRow, hk, or_self] at ht
      subst ht
      refine ⟨?_, ?_, ?_, ?_⟩ <;> simp only [State.at, setTab] <;> grind [Pc.unwritten]
    · by_cases hr : r.locker = l <;> simp only [delRow, hk, hr, if_true, if_false] at ht <;> rcases ht with rfl | rfl <;>
        (refine ⟨?_, ?_, ?_, ?_⟩ <;> simp only [State.at, setTab] <;> grind [Pc.unwritten])
  | _ =>
    refine ⟨?_, ?_, ?_, ?_⟩ <;> simp only [State.at] <;> grind [Pc.unwritten]

theorem inv_reachable {m d : Nat} (hd : Off d cfg) (hm : AtLeast m cfg) {s : State} (h : Reachable cfg s) : Inv m d s := by
  induction h with
  | init h => exact inv_init h
  | step _ hs ih => exact inv_step hd hm ih hs

/-- **C112** If every clock is off by at most `d` and every lease time is at least `m`, a client that holds a key is the only such client as long as its own clock shows less than `m` minus `2 d` since its time stamp. -/
theorem C112_exclusive_partial {m d : Nat} (hd : Off d cfg) (hm : AtLeast m cfg) {s : State} (h : Reachable cfg s) {k l1 l2 : Nat} (h1 : Sure cfg m (2 * d) s l1 k) (h2 : Sure cfg m (2 * d) s l2 k) : l1 = l2 := by
  have hi := inv_reachable hd hm h
  have key : ∀ l, Sure cfg m (2 * d) s l k → ∃ u, s.tab k = some ⟨l, u⟩ := by
    rintro l ⟨u, c, hu, hc, hn⟩
    have := hd _ _ _ hc
    exact ⟨u, hi.held l k u hu (by omega)⟩
  obtain ⟨u1, e1⟩ := key l1 h1
  obtain ⟨u2, e2⟩ := key l2 h2
  rw [e1] at e2
  simpa using congrArg (fun o => o.map Row.locker) e2

/-- **C112** … and nobody else can have obtained the key from it: the row is still the one it wrote. -/
theorem C112_still_there {m d : Nat} (hd : Off d cfg) (hm : AtLeast m cfg) {s : State} (h : Reachable cfg s) {k l u c : Nat} (h1 : s.pc l = .held k u) (hc : cfg.reads l s.now c) (hn : c + 2 * d < u + m) :
    s.tab k = some ⟨l, u⟩ := by
  have := hd _ _ _ hc
  exact (inv_reachable hd hm h).held l k u h1 (by omega)

/-- **C112** (a lock whose holder died is not refused for ever) Once the true time is past the time stamp that a client read by its lease time and `d`, the client is not told that the key is locked. -/
theorem C112_expires {d : Nat} (hd : Off d cfg) {s s' : State} {l k tr : Nat} {r : Row} (hp : s.pc l = .saw k r tr) (hx : r.updated + cfg.ttl l + d ≤ s.now) (hs : Step cfg s s') : s'.pc l ≠ .locked k := by
  cases hs with
  | @checkLocked l' k' tr' c r' h1 h2 h3 =>
    by_cases hl : l' = l
    · subst hl
      rw [hp] at h1
      obtain ⟨rfl, rfl, rfl⟩ := Pc.saw.inj h1
      have := hd _ _ _ h2
      omega
    · simp only [State.at, if_neg (Ne.symm hl), hp]; simp
  | _ => grind [State.at]

/-! ## the margin is needed -/

/-- clients 1 and 2 with clocks off by `a` and `b` -/
def apart (a b : Nat) (ttl1 ttl2 : Nat) : Cfg :=
  { ttl := fun l => if l = 1 then ttl1 else ttl2
    reads := fun l now c => if l = 1 then c + a = now else c = now + b }

def start : State := { now := 0, tab := fun _ => none, pc := fun _ => .start 0 }

theorem start_initial : Initial start := ⟨fun l => ⟨0, .inl rfl⟩, fun k r h => by simp [start] at h⟩

/-- client 1 obtains key 0 at true time `t1`, client 2 takes it at true time `t2`, when its clock shows that client 1's lease is over -/
theorem taken (cfg : Cfg) (t1 t2 u1 u2 : Nat) (hr1 : cfg.reads 1 t1 u1) (hr2 : cfg.reads 2 (t1 + t2) u2) (hx : u1 + cfg.ttl 2 ≤ u2) :
    ∃ s, Reachable cfg s ∧ s.now = t1 + t2 ∧ s.pc 1 = .held 0 u1 ∧ s.pc 2 = .held 0 u2 := by
  have a0 : Reachable cfg start := .init start_initial
  have a1 := Reachable.step a0 (.tick _ t1)
  have a2 := Reachable.step a1 (.read (l := 1) (k := 0) rfl)
  have a3 := Reachable.step a2 (.prepare (l := 1) (k := 0) (c := u1) rfl (by simpa [start, State.at] using hr1))
  have a4 := Reachable.step a3 (.create (l := 1) (k := 0) (u := u1) rfl)
  have a5 := Reachable.step a4 (.tick _ t2)
  have a6 := Reachable.step a5 (.read (l := 2) (k := 0) rfl)
  have a7 := Reachable.step a6 (.checkExpired (l := 2) (k := 0) (tr := t1 + t2) (c := u2) (c' := u2) (r := ⟨1, u1⟩) (by simp [State.at, start, insertRow, setTab]) (by simpa [start, State.at] using hr2)
    (by simpa [start, State.at] using hr2) hx)
  have a8 := Reachable.step a7 (.steal (l := 2) (k := 0) (v := 1) (u := u2) (by simp [State.at]))
  exact ⟨_, a8, by simp [State.at, start], by simp [State.at, start, insertRow, setTab], by simp [State.at, start, insertRow, setTab, casRow]⟩

/-- **C112** (the margin `2 d` is the best possible) For every `d` and every lease time above `2 d` there are clocks off by at most `d` for which two clients hold the same key although for each of them its own clock shows at most the lease time minus `2 d` since
its time stamp. -/
theorem C112_margin (d m : Nat) (hm : 2 * d ≤ m) : ∃ cfg, Off d cfg ∧ AtLeast m cfg ∧ ∃ s u1 u2 c1 c2, Reachable cfg s ∧ s.pc 1 = .held 0 u1 ∧ s.pc 2 = .held 0 u2 ∧
    cfg.reads 1 s.now c1 ∧ cfg.reads 2 s.now c2 ∧ c1 + 2 * d ≤ u1 + m ∧ c2 ≤ u2 := by
  refine ⟨{ ttl := fun _ => m, reads := fun l now c => if l = 1 then c ≤ now + d ∧ now ≤ c + d else c = now + d }, ?_, fun _ => Nat.le_refl _, ?_⟩
  · intro l now c h
    by_cases hl : l = 1
    · simp only [hl, if_true] at h; exact h
    · simp only [hl, if_false] at h; omega
  · obtain ⟨s, h1, h2, h3, h4⟩ := taken { ttl := fun _ => m, reads := fun l now c => if l = 1 then c ≤ now + d ∧ now ≤ c + d else c = now + d } d (m - 2 * d) 0 m (by simp) (by simp; omega) (by simp)
    refine ⟨s, 0, m, m - 2 * d, m, h1, h3, h4, ?_, ?_, by omega, by omega⟩
    · simp only [if_true, h2]; omega
    · simp [h2]; omega

/-- **C112** (without the margin it is not so) Lease 10, clocks off by 3: client 2 takes the lock while the clock of client 1 shows that 4 have passed of its lease. -/
theorem C112_skewed : ∃ s u1 u2, Off 3 (apart 3 3 10 10) ∧ Reachable (apart 3 3 10 10) s ∧ s.pc 1 = .held 0 u1 ∧ s.pc 2 = .held 0 u2 ∧ (apart 3 3 10 10).reads 1 s.now (u1 + 4) ∧ (apart 3 3 10 10).reads 2 s.now u2 := by
  obtain ⟨s, h1, h2, h3, h4⟩ := taken (apart 3 3 10 10) 3 4 0 10 (by simp [apart]) (by simp [apart]) (by simp [apart])
  refine ⟨s, 0, 10, ?_, h1, h3, h4, by simp [apart, h2], by simp [apart, h2]⟩
  intro l now c h
  simp only [apart] at h
  split at h <;> omega

/-- **C112** (nor with different lease times) Exact clocks, but client 2 was configured with lease 5 and client 1 with lease 10: client 2 takes the lock when client 1 has used half of its lease. -/
theorem C112_two_leases : ∃ s u1 u2, Off 0 (apart 0 0 10 5) ∧ Reachable (apart 0 0 10 5) s ∧ s.pc 1 = .held 0 u1 ∧ s.pc 2 = .held 0 u2 ∧ s.now < u1 + (apart 0 0 10 5).ttl 1 ∧ s.now < u2 + (apart 0 0 10 5).ttl 2 := by
  obtain ⟨s, h1, h2, h3, h4⟩ := taken (apart 0 0 10 5) 0 5 0 5 (by simp [apart]) (by simp [apart]) (by simp [apart])
  refine ⟨s, 0, 5, ?_, h1, h3, h4, by simp [apart, h2], by simp [apart, h2]⟩
  intro l now c h
  simp only [apart] at h
  split at h <;> omega

/-- hypotheses of `C112_exclusive_partial` and `C112_still_there`: client 1 has the lock, its clock is 3 behind, and 3 of the 10 have passed -/
example : ∃ s, Off 3 (apart 3 3 10 10) ∧ AtLeast 10 (apart 3 3 10 10) ∧ Reachable (apart 3 3 10 10) s ∧ Sure (apart 3 3 10 10) 10 (2 * 3) s 1 0 := by
  have a0 : Reachable (apart 3 3 10 10) start := .init start_initial
  have a1 := Reachable.step a0 (.tick _ 3)
  have a2 := Reachable.step a1 (.read (l := 1) (k := 0) rfl)
  have a3 := Reachable.step a2 (.prepare (l := 1) (k := 0) (c := 0) rfl (by simp [apart, start, State.at]))
  have a4 := Reachable.step a3 (.create (l := 1) (k := 0) (u := 0) rfl)
  have a5 := Reachable.step a4 (.tick _ 3)
  refine ⟨_, ?_, ?_, a5, 0, 3, by simp [State.at, start, insertRow, setTab], by simp [apart, State.at, start], by omega⟩
  · intro l now c h
    simp only [apart] at h
    split at h <;> omega
  · intro l; simp only [apart]; split <;> omega

end Ddd.Lock.Skew
