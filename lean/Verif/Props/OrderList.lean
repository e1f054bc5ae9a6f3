import Verif.Model.OrderList
import Mathlib.Data.List.Basic
/-!
# C130: listing the orders of the example
-/
namespace Ddd.OrderList

/-! ## Specification -/

/-- the order has the user asked for and was created within the interval asked for (both ends excluded, seconds) -/
def Wanted (q : Req) (r : Row) : Prop :=
  (∀ u, q.user = some u → r.user = u) ∧ (∀ t, q.after = some t → t * 1000000000 < r.created) ∧ (∀ t, q.before = some t → r.created < t * 1000000000)

/-- what is shown of an order -/
def shown (r : Row) : Simple := { id := r.id, user := r.user, total := r.total }

/-- no part of the list is asked for -/
def Req.Whole (q : Req) : Prop := q.offset = none ∧ q.limit = none
/-- page `i` of the list, `n` orders per page -/
def Req.nth (q : Req) (n i : Nat) : Req := { q with offset := some (n * i), limit := some n }
/-- no time is asked for -/
def Req.Timeless (q : Req) : Prop := q.after = none ∧ q.before = none

/-- the database gives the same order in every answer -/
def DB.Stable (db : DB) : Prop := ∀ k k', db.ord k = db.ord k'

/-! ## Lemmas -/

theorem simples_eq (l : List Row) : simples l = l.map shown := by
  have : ∀ (l : List Row) (acc : List Simple), l.foldl (fun acc r => acc ++ [simple r]) acc = acc ++ l.map shown := by
    intro l
    induction l with
    | nil => intro acc; simp
    | cons r l ih => intro acc; simp only [List.foldl_cons, ih, List.map_cons]; simp [simple, shown]
  exact (this l []).trans (List.nil_append _)

theorem cond_iff (q : Req) (r : Row) : q.opt.cond r = true ↔ Wanted q r := by
  unfold Opt.cond Wanted Req.opt
  cases q.user <;> cases q.after <;> cases q.before <;> simp [and_assoc]

open Classical in
theorem filter_wanted (q : Req) (l : List Row) : l.filter q.opt.cond = l.filter fun r => decide (Wanted q r) := by
  refine List.filter_congr fun r _ => ?_
  have := cond_iff q r
  by_cases h : Wanted q r
  · simp [h, this.2 h]
  · have h' : q.opt.cond r = false := by
      cases hc : q.opt.cond r with
      | false => rfl
      | true => exact absurd (this.1 hc) h
    simp [h, h']

theorem answer_ok {db : DB} {k : Nat} {q : Req} {l : List Simple} (h : getOrderList db k q = some l) : l = (q.opt.page (db.ord k (db.rows.filter q.opt.cond))).map shown := by
  unfold getOrderList queryList dalList at h
  split at h
  · cases h
  split at h
  · cases h
  rw [Option.map_some, Option.some.injEq, simples_eq] at h
  exact h.symm

theorem page_sublist {A : Type} (o : Opt) (l : List A) : (o.page l).Sublist l := by
  unfold Opt.page
  cases o.limit with
  | none => exact List.drop_sublist _ _
  | some n =>
    dsimp only
    split
    · exact (List.take_sublist _ _).trans (List.drop_sublist _ _)
    · exact List.drop_sublist _ _

/-! ## Theorems -/

/-- **C130** Every answer lists stored orders that were asked for, each at most as often as it is stored, and no more of them than the limit. -/
theorem C130_only_wanted {db : DB} {k : Nat} {q : Req} {l : List Simple} (h : getOrderList db k q = some l) :
    ∃ rs : List Row, l = rs.map shown ∧ (∀ r ∈ rs, r ∈ db.rows ∧ Wanted q r) ∧ (∀ r, rs.count r ≤ db.rows.count r) ∧ ∀ n, q.limit = some n → 0 ≤ n → (l.length : Int) ≤ n := by
  have e := answer_ok h
  refine ⟨_, e, ?_, ?_, ?_⟩
  · intro r hr
    have := (db.perm k _).mem_iff.1 ((page_sublist _ _).subset hr)
    rw [List.mem_filter, cond_iff] at this
    exact this
  · intro r
    refine Nat.le_trans ((page_sublist _ _).count_le r) ?_
    rw [(db.perm k _).count_eq]
    exact List.filter_sublist.count_le r
  · intro n hn h0
    have hl : q.opt.limit = some n := hn
    rw [e, List.length_map]
    unfold Opt.page
    rw [hl]
    simp only [h0, if_true, List.length_take]
    omega

open Classical in
/-- **C130** A request without times and without offset and limit is answered with exactly the wanted orders, each as often as it is stored. -/
theorem C130_whole_list_partial (db : DB) (k : Nat) {q : Req} (ht : q.Timeless) (hw : q.Whole) :
    ∃ l, getOrderList db k q = some l ∧ l.Perm ((db.rows.filter fun r => decide (Wanted q r)).map shown) := by
  unfold getOrderList queryList dalList
  have h1 : q.opt.gt = none := by simp [Req.opt, ht.1]
  have h2 : q.opt.lt = none := by simp [Req.opt, ht.2]
  have h3 : q.opt.offset = none := hw.1
  have h4 : q.opt.limit = none := hw.2
  simp only [h1, h2, h3, Option.isSome_none, Bool.or_self, Bool.false_and, Bool.false_eq_true, if_false, Option.getD_none, Int.lt_irrefl, decide_false, Bool.and_false, Option.map_some]
  refine ⟨_, rfl, ?_⟩
  rw [simples_eq]
  unfold Opt.page
  rw [h3, h4]
  simp only [Option.getD_none, Int.toNat_zero, List.drop_zero]
  rw [filter_wanted]
  exact (db.perm k _).map _

/-- the answer to a request for one page -/
theorem nth_answer (db : DB) (k : Nat) {q : Req} (ht : q.Timeless) (n i : Nat) :
    getOrderList db k (q.nth n i) = some ((((db.ord k (db.rows.filter q.opt.cond)).drop (n * i)).take n).map shown) := by
  unfold getOrderList queryList dalList
  have h1 : (q.nth n i).opt.gt = none := by simp [Req.opt, Req.nth, ht.1]
  have h2 : (q.nth n i).opt.lt = none := by simp [Req.opt, Req.nth, ht.2]
  have h3 : (q.nth n i).opt.offset = some ((n : Int) * i) := rfl
  have h4 : (q.nth n i).opt.limit = some (n : Int) := rfl
  have h5 : (q.nth n i).opt.unlimited = false := by unfold Opt.unlimited; rw [h4]; simp
  have hc : (q.nth n i).opt.cond = q.opt.cond := rfl
  simp only [h1, h2, h5, Option.isSome_none, Bool.or_self, Bool.false_and, Bool.false_eq_true, if_false, Option.map_some, simples_eq, hc]
  unfold Opt.page
  rw [h3, h4]
  simp only [Option.getD_some, Int.natCast_nonneg, if_true, Int.toNat_natCast]
  rw [← Int.natCast_mul, Int.toNat_natCast]

theorem pages_take {A : Type} (l : List A) (n m : Nat) : ((List.range m).flatMap fun i => (l.drop (n * i)).take n) = l.take (n * m) := by
  induction m with
  | zero => simp
  | succ m ih =>
    rw [List.range_succ, List.flatMap_append, ih, List.flatMap_singleton, Nat.mul_succ, List.take_add]

open Classical in
/-- **C130** If the database lists the rows in the same order in every answer, then the pages of a request without times, one after the other, are the wanted orders, each as often as it is stored. The order is not fixed by the
query, so this is an assumption; without it see `C130_pages_differ`. -/
theorem C130_pages_partial {db : DB} (hs : db.Stable) {q : Req} (ht : q.Timeless) {n m : Nat} (hm : db.rows.length ≤ n * m) (ks : Nat → Nat) :
    ∃ pages : Nat → List Simple, (∀ i, getOrderList db (ks i) (q.nth n i) = some (pages i)) ∧
      ((List.range m).flatMap pages).Perm ((db.rows.filter fun r => decide (Wanted q r)).map shown) := by
  refine ⟨fun i => (((db.ord 0 (db.rows.filter q.opt.cond)).drop (n * i)).take n).map shown, ?_, ?_⟩
  · intro i
    rw [nth_answer db (ks i) ht, hs (ks i) 0]
  · rw [← List.map_flatMap, pages_take, List.take_of_length_le, filter_wanted]
    · exact (db.perm 0 _).map _
    · rw [(db.perm 0 _).length_eq]
      exact Nat.le_trans (List.length_filter_le _ _) hm

/-- **C130 is false of the code** for requests with a time: the query names a column `create_time`, the table made from `OrderPO` has `created_at`; every such request is answered with an error, whatever is stored. -/
theorem C130_time_fails {db : DB} (h : db.OfPO) (k : Nat) {q : Req} (ht : ¬ q.Timeless) : getOrderList db k q = none := by
  unfold getOrderList queryList dalList
  have h1 : (q.opt.gt.isSome || q.opt.lt.isSome) = true := by
    unfold Req.Timeless at ht
    cases ha : q.after <;> cases hb : q.before <;> simp_all [Req.opt]
  rw [h1, show db.createTime = false from h]
  rfl

/-- **C130** If the column is there, an order created exactly at a full second `t` is in no interval that ends or begins at `t`: listing interval after interval loses it. -/
theorem C130_boundary_lost {db : DB} {k k' : Nat} {q q' : Req} {l l' : List Simple} {t : Int} (h : getOrderList db k q = some l) (h' : getOrderList db k' q' = some l') (hq : q.before = some t) (hq' : q'.after = some t)
    {r : Row} (hr : r.created = t * 1000000000) (hid : ∀ r' ∈ db.rows, r'.id = r.id → r' = r) : (∀ x ∈ l, x.id ≠ r.id) ∧ ∀ x ∈ l', x.id ≠ r.id := by
  obtain ⟨rs, rfl, h1, -, -⟩ := C130_only_wanted h
  obtain ⟨rs', rfl, h1', -, -⟩ := C130_only_wanted h'
  constructor
  · intro x hx he
    obtain ⟨r', hr', rfl⟩ := List.mem_map.1 hx
    have := h1 r' hr'
    rw [hid r' this.1 he] at this
    have := this.2.2.2 t hq
    omega
  · intro x hx he
    obtain ⟨r', hr', rfl⟩ := List.mem_map.1 hx
    have := h1' r' hr'
    rw [hid r' this.1 he] at this
    have := this.2.2.1 t hq'
    omega

/-! ## Concrete cases -/

def o1 : Row := ⟨"1", "ann", 10, 5000000000⟩
def o2 : Row := ⟨"2", "bob", 20, 6000000000⟩
def o3 : Row := ⟨"3", "ann", 30, 7000000000⟩

/-- rows in the order of the table in every answer -/
def steady : DB := { rows := [o1, o2, o3], createTime := false, lone := false, ord := fun _ l => l, perm := fun _ _ => .refl _ }
/-- as `steady`, but with a column `create_time` -/
def timed : DB := { steady with createTime := true }
/-- answers with an odd number list the rows backwards -/
def moody : DB where
  rows := [o1, o2, o3]
  createTime := false
  lone := false
  ord k l := if k % 2 = 0 then l else l.reverse
  perm k l := by
    by_cases h : k % 2 = 0
    · rw [if_pos h]
    · rw [if_neg h]; exact List.reverse_perm l

example : getOrderList steady 0 { user := some "ann" } = some [⟨"1", "ann", 10⟩, ⟨"3", "ann", 30⟩] := by decide +kernel
example : steady.Stable ∧ steady.OfPO ∧ Req.Timeless { user := some "ann" } ∧ Req.Whole { user := some "ann" } ∧ steady.rows.length ≤ 2 * 2 := ⟨fun _ _ => rfl, rfl, ⟨rfl, rfl⟩, ⟨rfl, rfl⟩, by decide⟩
example : ¬ Req.Timeless { after := some 1 } := by simp [Req.Timeless]
example : getOrderList timed 0 { before := some 6 } = some [⟨"1", "ann", 10⟩] ∧ getOrderList timed 0 { after := some 6 } = some [⟨"3", "ann", 30⟩] ∧ o2.created = 6 * 1000000000 := by decide +kernel

/-- **C130**: the query has no `ORDER BY`: if the database lists the rows differently in the second answer, an order is on both pages and another on none. -/
theorem C130_pages_differ :
    getOrderList moody 0 (Req.nth {} 1 0) = some [⟨"1", "ann", 10⟩] ∧ getOrderList moody 1 (Req.nth {} 1 1) = some [⟨"2", "bob", 20⟩] ∧
      getOrderList moody 1 (Req.nth {} 1 2) = some [⟨"1", "ann", 10⟩] := by decide +kernel

/-- **C130**: with an offset and no limit the answer of a database that does not accept `OFFSET` without `LIMIT` is an error. -/
theorem C130_offset_alone {db : DB} (h : db.lone = false) (k : Nat) {q : Req} (hl : q.limit = none) {n : Int} (ho : q.offset = some n) (hn : 0 < n) : getOrderList db k q = none := by
  unfold getOrderList queryList dalList
  have h1 : q.opt.unlimited = true := by unfold Opt.unlimited; rw [show q.opt.limit = none from hl]
  have h2 : decide (0 < q.opt.offset.getD 0) = true := by rw [show q.opt.offset = some n from ho]; simpa using hn
  rw [h1, h2, h]
  split <;> simp

end Ddd.OrderList
