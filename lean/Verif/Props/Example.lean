import Verif.Spec.Example
/-! C96–C98: orders of the example application. -/
set_option linter.unusedVariables false
set_option linter.unusedSimpArgs false
namespace Ddd.Example
open Ddd.Spec

/-! ### the loops of `calPrice` -/

theorem foldl_lines (l : List Item) (t : Int) :
    l.foldl (fun t i => t + i.price * i.count.signExtend 64) (BitVec.ofInt 64 t) =
      BitVec.ofInt 64 (t + (l.map fun i => i.price.toInt * i.count.toInt).sum) := by
  induction l generalizing t with
  | nil => simp
  | cons i l ih =>
    have h : BitVec.ofInt 64 t + i.price * i.count.signExtend 64 = BitVec.ofInt 64 (t + i.price.toInt * i.count.toInt) := by
      rw [BitVec.ofInt_add, BitVec.ofInt_mul, BitVec.ofInt_toInt]; rfl
    simp only [List.foldl_cons, List.map_cons, List.sum_cons]
    rw [h, ih, Int.add_assoc]

theorem foldl_discounts (l : List Coupon) (t : Int) :
    l.foldl (fun t c => t - c.discount) (BitVec.ofInt 64 t) = BitVec.ofInt 64 (t - (l.map fun c => c.discount.toInt).sum) := by
  induction l generalizing t with
  | nil => simp
  | cons c l ih =>
    have h : BitVec.ofInt 64 t - c.discount = BitVec.ofInt 64 (t - c.discount.toInt) := by
      rw [Int.sub_eq_add_neg, BitVec.ofInt_add, BitVec.ofInt_neg, BitVec.ofInt_toInt, BitVec.sub_eq_add_neg]
    simp only [List.foldl_cons, List.map_cons, List.sum_cons]
    rw [h, ih]; congr 1; omega

theorem sum_eq (o : Order) : sum o = BitVec.ofInt 64 (costOf o) := by
  unfold sum costOf cost
  have := foldl_lines o.items 0
  rw [show (0 : BitVec 64) = BitVec.ofInt 64 0 from rfl, this, foldl_discounts]
  congr 1
  simp [List.map_map, Function.comp_def]

theorem rightTotal_iff (t : BitVec 64) (z : Int) : RightTotal t z ↔ t = BitVec.ofInt 64 z := by
  unfold RightTotal
  rw [← BitVec.toInt_inj, BitVec.toInt_ofInt]

theorem calPrice_total (o : Order) : (calPrice o).total = sum o := by
  unfold calPrice; split <;> simp_all

theorem calPrice_rest (o : Order) : (calPrice o).items = o.items ∧ (calPrice o).coupons = o.coupons ∧ (calPrice o).id = o.id ∧ (calPrice o).user = o.user ∧ (calPrice o).remark = o.remark := by
  unfold calPrice; split <;> simp

theorem calPrice_right (o : Order) : RightTotal (calPrice o).total (costOf (calPrice o)) := by
  rw [rightTotal_iff, calPrice_total, sum_eq]
  simp [costOf, calPrice_rest]

theorem settle_right {R o} (h : (settle R o).2 = true) : RightTotal (settle R o).1.total (costOf (settle R o).1) := by
  unfold settle at h ⊢
  simp only at h ⊢
  split at h
  · simp at h
  · rename_i hl
    simp only [hl, if_false]
    exact calPrice_right _

/-! ### C96 -/

/-- C96: after any call about lines or coupons that returned no error, whatever happened to the order before, its total is the sum of price times count of its lines minus the discounts of its coupons. -/
theorem C96_total (R : Ruler) (o : Order) (op : Op) (hm : AboutMoney op) (h : (op.run R o).2 = true) :
    RightTotal (op.run R o).1.total (costOf (op.run R o).1) := by
  cases op with
  | addItem => exact calPrice_right _
  | delItem => exact calPrice_right _
  | addCoupon => exact settle_right h
  | delCoupon => exact settle_right h
  | update => exact hm.elim

/-- C96: along any history of calls without errors the total stays right. -/
theorem C96_history (R : Ruler) (o : Order) (ops : List Op) (h0 : RightTotal o.total (costOf o)) (h : NoErrors R o ops) :
    RightTotal (afterOps R o ops).total (costOf (afterOps R o ops)) := by
  induction ops generalizing o with
  | nil => exact h0
  | cons op ops ih =>
    refine ih _ ?_ h.2
    by_cases hm : AboutMoney op
    · exact C96_total R o op hm h.1
    · cases op <;> simp_all [AboutMoney, Op.run, update, costOf]

/-- C96: a total that is right and whose cost fits in 64 bits is the cost. -/
theorem C96_exact (o : Order) (h : RightTotal o.total (costOf o)) (hf : Fits (costOf o)) : o.total.toInt = costOf o := by
  obtain ⟨h1, h2⟩ := hf
  rw [h]
  exact Int.bmod_eq_of_le (by omega) (by omega)

theorem calPrice_dirty (o : Order) (h : (calPrice o).total ≠ o.total) : (calPrice o).dirty = true := by
  unfold calPrice at h ⊢; split <;> simp_all

theorem calPrice_keeps_dirty (o : Order) (h : o.dirty = true) : (calPrice o).dirty = true := by
  unfold calPrice; split <;> simp_all

theorem run_marks (R : Ruler) (o : Order) (op : Op) :
    (o.dirty = true → (op.run R o).1.dirty = true) ∧
    ((op.run R o).1.total ≠ o.total ∨ (op.run R o).1.remark ≠ o.remark → (op.run R o).1.dirty = true) ∧
    (op.run R o).1.id = o.id ∧ (op.run R o).1.user = o.user := by
  have key : ∀ x : Order, x.dirty = o.dirty → x.total = o.total → x.remark = o.remark → x.id = o.id → x.user = o.user →
      (o.dirty = true → (calPrice x).dirty = true) ∧
      ((calPrice x).total ≠ o.total ∨ (calPrice x).remark ≠ o.remark → (calPrice x).dirty = true) ∧ (calPrice x).id = o.id ∧ (calPrice x).user = o.user := by
    intro x h1 h2 h3 h4 h5
    refine ⟨fun h => calPrice_keeps_dirty _ (by rw [h1, h]), fun h => ?_, by simp [calPrice_rest, h4], by simp [calPrice_rest, h5]⟩
    rcases h with h | h
    · exact calPrice_dirty _ (by rw [h2]; exact h)
    · simp [calPrice_rest, h3] at h
  have key2 : ∀ x : Order, x.dirty = o.dirty → x.total = o.total → x.remark = o.remark → x.id = o.id → x.user = o.user →
      (o.dirty = true → (settle R x).1.dirty = true) ∧
      ((settle R x).1.total ≠ o.total ∨ (settle R x).1.remark ≠ o.remark → (settle R x).1.dirty = true) ∧ (settle R x).1.id = o.id ∧ (settle R x).1.user = o.user := by
    intro x h1 h2 h3 h4 h5
    unfold settle
    simp only
    split
    · simp [fixCoupons, h1, h2, h3, h4, h5]
    · exact key _ (by simp [fixCoupons, h1]) (by simp [fixCoupons, h2]) (by simp [fixCoupons, h3]) (by simp [fixCoupons, h4]) (by simp [fixCoupons, h5])
  cases op with
  | addItem => exact key _ rfl rfl rfl rfl rfl
  | delItem => exact key _ rfl rfl rfl rfl rfl
  | addCoupon => exact key2 _ rfl rfl rfl rfl rfl
  | delCoupon => exact key2 _ rfl rfl rfl rfl rfl
  | update => simp [Op.run, update]

/-- C96: whatever is called and whatever fails: an order whose columns (total, remark) differ from before is marked as changed, so that the next save writes them; identifier and user are never changed. -/
theorem C96_dirty (R : Ruler) (o : Order) (ops : List Op) :
    ((afterOps R o ops).total ≠ o.total ∨ (afterOps R o ops).remark ≠ o.remark → (afterOps R o ops).dirty = true) ∧
    (afterOps R o ops).id = o.id ∧ (afterOps R o ops).user = o.user := by
  suffices hs : (o.dirty = true → (afterOps R o ops).dirty = true) ∧
      ((afterOps R o ops).total ≠ o.total ∨ (afterOps R o ops).remark ≠ o.remark → (afterOps R o ops).dirty = true) ∧
      (afterOps R o ops).id = o.id ∧ (afterOps R o ops).user = o.user from hs.2
  induction ops generalizing o with
  | nil => simp [afterOps]
  | cons op ops ih =>
    obtain ⟨a1, a2, a3, a4⟩ := run_marks R o op
    obtain ⟨b1, b2, b3, b4⟩ := ih (op.run R o).1
    have e : afterOps R o (op :: ops) = afterOps R (op.run R o).1 ops := rfl
    rw [e]
    refine ⟨fun h => b1 (a1 h), fun h => ?_, by rw [b3, a3], by rw [b4, a4]⟩
    by_cases ht : (op.run R o).1.total = o.total ∧ (op.run R o).1.remark = o.remark
    · exact b2 (by rw [ht.1, ht.2]; exact h)
    · exact b1 (a2 (by grind))

theorem settle_ok {R o} (h : (settle R o).2 = true) : (∀ c ∈ o.coupons, R o c.rule = true) ∧ (settle R o).1 = calPrice o := by
  unfold settle at h ⊢
  simp only [fixCoupons] at h ⊢
  by_cases hl : (o.coupons.filter fun c => !R o c.rule).length > 0
  · simp only [hl, if_true] at h; simp at h
  · have hl' : o.coupons.filter (fun c => !R o c.rule) = [] := by simpa using hl
    have hv : ∀ c ∈ o.coupons, R o c.rule = true := by
      intro c hc
      have := List.filter_eq_nil_iff.1 hl' c hc
      simpa using this
    refine ⟨hv, ?_⟩
    simp only [hl, if_false]
    rw [List.filter_eq_self.2 (by simpa using hv)]

theorem items_fold (R : Ruler) (is : List ItemDTO) (o : Order) (hc : o.coupons = []) :
    let o' := is.foldl (fun o i => addSaleItem R o i.code i.name i.price i.count) o
    o'.coupons = [] ∧ o'.items = o.items ++ is.map (fun i => ⟨"", i.code, i.name, i.price, i.count⟩) ∧ o'.user = o.user ∧ o'.remark = o.remark ∧ o'.id = o.id ∧
      (RightTotal o.total (costOf o) → RightTotal o'.total (costOf o')) := by
  induction is generalizing o with
  | nil => simp [hc]
  | cons i is ih =>
    have h := ih (addSaleItem R o i.code i.name i.price i.count) (by simp [addSaleItem, calPrice_rest, fixCoupons, hc])
    simp only [List.foldl_cons] at h ⊢
    obtain ⟨h1, h2, h3, h4, h5, h6⟩ := h
    refine ⟨h1, ?_, ?_, ?_, ?_, fun _ => h6 (calPrice_right _)⟩
    · rw [h2]; simp [addSaleItem, calPrice_rest, fixCoupons]
    · rw [h3]; simp [addSaleItem, calPrice_rest, fixCoupons]
    · rw [h4]; simp [addSaleItem, calPrice_rest, fixCoupons]
    · rw [h5]; simp [addSaleItem, calPrice_rest, fixCoupons]

theorem coupons_fold (R : Ruler) (cs : List CouponDTO) (o o' : Order) (h : addCoupons R o cs = some o') :
    o'.coupons = o.coupons ++ cs.map (fun c => ⟨"", c.id, c.rule, c.discount⟩) ∧ o'.items = o.items ∧ o'.user = o.user ∧ o'.remark = o.remark ∧ o'.id = o.id ∧
      (RightTotal o.total (costOf o) → RightTotal o'.total (costOf o')) := by
  induction cs generalizing o with
  | nil => simp [addCoupons] at h; subst h; simp
  | cons c cs ih =>
    unfold addCoupons at h
    split at h
    · rename_i o1 heq
      have hb : (addCoupon R o c.id c.rule c.discount).2 = true := by rw [heq]
      have ho := (settle_ok hb).2
      obtain ⟨h1, h2, h3, h4, h5, h6⟩ := ih _ h
      have e : o1 = calPrice { o with coupons := o.coupons ++ [⟨"", c.id, c.rule, c.discount⟩] } := by
        rw [← ho]; show o1 = (addCoupon R o c.id c.rule c.discount).1; rw [heq]
      subst e
      refine ⟨by rw [h1]; simp [calPrice_rest], by rw [h2]; simp [calPrice_rest], by rw [h3]; simp [calPrice_rest], by rw [h4]; simp [calPrice_rest], by rw [h5]; simp [calPrice_rest],
        fun _ => h6 (calPrice_right _)⟩
    · simp at h

/-- C96: an order that NewOrder returns has exactly the requested lines and coupons, in their order, and the right total. -/
theorem C96_new (R : Ruler) (user : String) (is : List ItemDTO) (cs : List CouponDTO) (o : Order) (h : newOrder R user is cs = some o) :
    o.items.map (fun i => (i.code, i.name, i.price, i.count)) = is.map (fun i => (i.code, i.name, i.price, i.count)) ∧
    o.coupons.map (fun c => (c.couponID, c.rule, c.discount)) = cs.map (fun c => (c.id, c.rule, c.discount)) ∧
    o.user = user ∧ RightTotal o.total (costOf o) := by
  obtain ⟨a1, a2, a3, a4, a5, a6⟩ := items_fold R is ⟨"", user, 0, "", [], [], false⟩ rfl
  obtain ⟨b1, b2, b3, b4, b5, b6⟩ := coupons_fold R cs _ o h
  refine ⟨by rw [b2, a2]; simp, by rw [b1, a1]; simp, by rw [b3, a3], b6 (a6 ?_)⟩
  simp [RightTotal, costOf, cost]

/-- C96: with the rule engine of the repository, creating an order never fails and no call on an order ever returns an error. -/
theorem C96_accepts (user : String) (is : List ItemDTO) (cs : List CouponDTO) :
    (∃ o, newOrder ruler user is cs = some o) ∧ ∀ (o : Order) (ops : List Op), NoErrors ruler o ops := by
  have hs : ∀ o, (settle ruler o).2 = true := by intro o; simp [settle, fixCoupons, ruler]
  have hc : ∀ (cs : List CouponDTO) o, ∃ o', addCoupons ruler o cs = some o' := by
    intro cs
    induction cs with
    | nil => intro o; exact ⟨o, rfl⟩
    | cons c cs ih =>
      intro o
      unfold addCoupons
      have := hs { o with coupons := o.coupons ++ [⟨"", c.id, c.rule, c.discount⟩] }
      split
      · exact ih _
      · rename_i heq
        have h2 : (addCoupon ruler o c.id c.rule c.discount).2 = false := by rw [heq]
        rw [addCoupon] at h2; rw [this] at h2; cases h2
  refine ⟨hc _ _, fun o ops => ?_⟩
  induction ops generalizing o with
  | nil => trivial
  | cons op ops ih =>
    refine ⟨?_, ih _⟩
    cases op with
    | addItem => rfl
    | delItem => rfl
    | addCoupon => exact hs _
    | delCoupon => exact hs _
    | update => rfl

/-- C96: the condition "no error" is needed: an engine may refuse an older coupon while a new one is added; then AddCoupon fails, has removed the older coupon too, and the total is still the one with it. -/
theorem C96_stale : ∃ (R : Ruler) (o : Order), RightTotal o.total (costOf o) ∧ (addCoupon R o "n" "r" 1#64).2 = false ∧
    ¬RightTotal (addCoupon R o "n" "r" 1#64).1.total (costOf (addCoupon R o "n" "r" 1#64).1) ∧ (addCoupon R o "n" "r" 1#64).1.dirty = o.dirty :=
  ⟨fun o _ => decide (o.coupons.length ≤ 1), ⟨"7", "u", 90#64, "", [⟨"1", "c", "n", 50#64, 2#32⟩], [⟨"2", "x", "r", 10#64⟩], false⟩, by decide⟩

/-- a concrete history: two lines and a coupon; the total is computed with wrapping arithmetic -/
theorem demo_history : (newOrder ruler "u" [⟨"a", "A", 30#64, 2#32⟩, ⟨"b", "B", 5#64, 3#32⟩] [⟨"k", "r", 7#64⟩]).map (fun o => (o.total.toInt, o.dirty, costOf o)) = some (68, true, 68) ∧
    ((newOrder ruler "u" [⟨"a", "A", BitVec.ofInt 64 (2 ^ 62), 2#32⟩] []).map fun o => (o.total.toInt, costOf o)) = some (-2 ^ 63, 2 ^ 63) := by decide

/-! ### C97 -/

theorem settle_items (R o) : (settle R o).1.items = o.items := by
  unfold settle; simp only; split <;> simp [fixCoupons, calPrice_rest]

/-- C97 (partial: for engines that look at the lines only): after a call about lines or coupons, with or without error, every coupon of the order is accepted by the rule engine for the order as it is. -/
theorem C97_valid_partial (R : Ruler) (hR : LinesOnly R) (o : Order) (op : Op) (hm : AboutMoney op) : CouponsValid R (op.run R o).1 := by
  have key : ∀ x : Order, CouponsValid R (calPrice (fixCoupons R x).1) ∧ CouponsValid R (fixCoupons R x).1 := by
    intro x
    constructor <;> intro c hc <;> simp [calPrice_rest, fixCoupons] at hc
    · rw [hR _ x _ (by simp [calPrice_rest, fixCoupons])]; exact hc.2
    · rw [hR _ x _ (by simp [fixCoupons])]; exact hc.2
  have key2 : ∀ x : Order, CouponsValid R (settle R x).1 := by
    intro x
    unfold settle; simp only
    split
    · exact (key x).2
    · exact (key x).1
  cases op with
  | addItem => exact (key _).1
  | delItem => exact (key _).1
  | addCoupon => exact key2 _
  | delCoupon => exact key2 _
  | update => exact hm.elim

/-- C97 (for engines that look at the lines only): a refused coupon leaves the order as it was, if its coupons were valid before; and a coupon is refused exactly if the engine does not accept it for the lines. -/
theorem C97_refused (R : Ruler) (hR : LinesOnly R) (o : Order) (k r : String) (d : BitVec 64) (hv : CouponsValid R o) :
    ((addCoupon R o k r d).2 = false → (addCoupon R o k r d).1 = o) ∧ ((addCoupon R o k r d).2 = true ↔ R o r = true) := by
  have e : ∀ x, R { o with coupons := o.coupons ++ [⟨"", k, r, d⟩] } x = R o x := fun x => hR _ _ _ rfl
  have f1 : o.coupons.filter (fun c => R o c.rule) = o.coupons := List.filter_eq_self.2 hv
  have f2 : o.coupons.filter (fun c => !R o c.rule) = [] := List.filter_eq_nil_iff.2 (fun c hc => by simp [hv c hc])
  unfold addCoupon settle
  simp only [fixCoupons, e, List.filter_append, f1, f2]
  by_cases hr : R o r = true
  · simp [hr]
  · simp [hr]

/-- C97: accepted calls never lose a coupon: AddCoupon and DeleteCoupon without an error change the coupons exactly as asked; lines change exactly as asked in any case. -/
theorem C97_asked (R : Ruler) (o : Order) :
    (∀ k r d, (addCoupon R o k r d).2 = true → (addCoupon R o k r d).1.coupons = o.coupons ++ [⟨"", k, r, d⟩]) ∧
    (∀ i, (deleteCoupon R o i).2 = true → (deleteCoupon R o i).1.coupons = o.coupons.filter fun c => c.id ≠ i) ∧
    (∀ c n p k, (addSaleItem R o c n p k).items = o.items ++ [⟨"", c, n, p, k⟩]) ∧
    (∀ i, (deleteSaleItem R o i).items = o.items.filter fun x => x.id ≠ i) ∧
    (∀ k r d, (addCoupon R o k r d).1.items = o.items) ∧ (∀ i, (deleteCoupon R o i).1.items = o.items) := by
  refine ⟨fun k r d h => ?_, fun i h => ?_, fun c n p k => ?_, fun i => ?_, fun k r d => settle_items _ _, fun i => settle_items _ _⟩
  · rw [addCoupon, (settle_ok h).2]; simp [calPrice_rest]
  · rw [deleteCoupon, (settle_ok h).2]; simp [calPrice_rest, bne]; exact List.filter_congr fun c _ => by rw [Bool.beq_eq_decide_eq]
  · simp [addSaleItem, calPrice_rest, fixCoupons]
  · simp [deleteSaleItem, calPrice_rest, fixCoupons, bne]; exact List.filter_congr fun c _ => by rw [Bool.beq_eq_decide_eq]

/-- C97 is false for an engine that looks at the total (a minimal amount): DeleteSaleItem checks the coupons against the old total, so a coupon stays on an order that does not reach its minimum any more; the next
AddCoupon then fails and throws it away. -/
theorem C97_minimum : ∃ (R : Ruler) (o : Order), RightTotal o.total (costOf o) ∧ CouponsValid R o ∧
    (deleteSaleItem R o "1").coupons = o.coupons ∧ ¬CouponsValid R (deleteSaleItem R o "1") ∧
    (addCoupon R (deleteSaleItem R o "1") "n" "" 1#64).1.coupons = [] :=
  ⟨fun o _ => decide (50 ≤ o.total.toInt), ⟨"7", "u", 90#64, "", [⟨"1", "c", "n", 80#64, 1#32⟩, ⟨"3", "c", "n", 20#64, 1#32⟩], [⟨"2", "x", "r", 10#64⟩], false⟩, by decide⟩

/-- the hypotheses of C97 can be met by an engine that accepts and refuses -/
theorem demo_lines_only : ∃ R : Ruler, LinesOnly R ∧ ∃ o : Order, CouponsValid R o ∧ o.coupons ≠ [] ∧ (addCoupon R o "k" "2" 1#64).2 = false ∧ (addCoupon R o "k" "1" 1#64).2 = true :=
  ⟨fun o r => r == "1" && o.items.length == 1, fun o o' r h => by simp [h],
    ⟨"7", "u", 90#64, "", [⟨"1", "c", "n", 80#64, 1#32⟩], [⟨"2", "x", "1", 10#64⟩], false⟩, by decide⟩

/-! ### C98 -/

theorem filter_all {α} (l : List α) (p : α → Bool) (h : ∀ x ∈ l, p x = true) : l.filter p = l := List.filter_eq_self.2 h
theorem filter_none {α} (l : List α) (p : α → Bool) (h : ∀ x ∈ l, p x = false) : l.filter p = [] := List.filter_eq_nil_iff.2 (by simpa using h)

/-- rows appended below order `x` -/
def extended (db : Tables) (orders : List OrderRow) (x : String) (ids : NewIDs) (is : List Item) (cs : List Coupon) : Tables where
  orders := orders
  items := db.items ++ is.mapIdx fun n i => itemPO x { i with id := ids.item n }
  coupons := db.coupons ++ cs.mapIdx fun n c => couponPO x { c with id := ids.coupon n }

theorem stored_extended_self (db orders x ids is cs) :
    storedCost (extended db orders x ids is cs) x = storedCost db x + cost (is.map fun i => (i.price, i.count)) (cs.map (·.discount)) := by
  unfold storedCost extended cost
  have h1 : (is.mapIdx fun n i => itemPO x { i with id := ids.item n }).filter (fun r => r.orderID == x) = is.mapIdx fun n i => itemPO x { i with id := ids.item n } := by
    apply filter_all
    intro r hr
    obtain ⟨n, hn, rfl⟩ := List.mem_mapIdx.1 hr
    simp [itemPO]
  have h2 : (cs.mapIdx fun n c => couponPO x { c with id := ids.coupon n }).filter (fun r => r.orderID == x) = cs.mapIdx fun n c => couponPO x { c with id := ids.coupon n } := by
    apply filter_all
    intro r hr
    obtain ⟨n, hn, rfl⟩ := List.mem_mapIdx.1 hr
    simp [couponPO]
  simp only [List.filter_append, h1, h2, List.map_append, List.sum_append, List.map_map]
  have h3 : (is.mapIdx fun n i => itemPO x { i with id := ids.item n }).map ((fun l : BitVec 64 × BitVec 32 => l.1.toInt * l.2.toInt) ∘ fun r => (r.price, r.count)) =
      is.map ((fun l : BitVec 64 × BitVec 32 => l.1.toInt * l.2.toInt) ∘ fun i => (i.price, i.count)) := by
    apply List.ext_getElem <;> simp [itemPO]
  have h4 : (cs.mapIdx fun n c => couponPO x { c with id := ids.coupon n }).map (BitVec.toInt ∘ fun c => c.discount) = cs.map (BitVec.toInt ∘ fun c => c.discount) := by
    apply List.ext_getElem <;> simp [couponPO]
  rw [h3, h4]
  omega

theorem stored_extended_other (db orders x ids is cs) (y : String) (hy : y ≠ x) : storedCost (extended db orders x ids is cs) y = storedCost db y := by
  unfold storedCost extended
  have h1 : (is.mapIdx fun n i => itemPO x { i with id := ids.item n }).filter (fun r => r.orderID == y) = [] := by
    apply filter_none
    intro r hr
    obtain ⟨n, hn, rfl⟩ := List.mem_mapIdx.1 hr
    simp [itemPO]; exact fun h => hy h.symm
  have h2 : (cs.mapIdx fun n c => couponPO x { c with id := ids.coupon n }).filter (fun r => r.orderID == y) = [] := by
    apply filter_none
    intro r hr
    obtain ⟨n, hn, rfl⟩ := List.mem_mapIdx.1 hr
    simp [couponPO]; exact fun h => hy h.symm
  simp only [List.filter_append, h1, h2, List.append_nil]

theorem stored_fresh (db : Tables) (x : String) (h : NewOrderID db x) : storedCost db x = 0 := by
  unfold storedCost
  rw [filter_none _ _ (fun r hr => by simpa using h.2.1 r hr), filter_none _ _ (fun r hr => by simpa using h.2.2 r hr)]
  simp [cost]

theorem insert_extended (db ids o) : insertOrder db ids o = extended db (db.orders ++ [orderPO { o with id := ids.order } true]) ids.order ids o.items o.coupons := rfl
theorem save_extended (db ids o) : saveOrder db ids o = extended db (db.orders.map fun r => if r.id == o.id then orderPO o false else r) o.id ids o.items o.coupons := rfl

/-- saving an order that was loaded without its children: the stored totals are right afterwards iff the new total is right for old and new rows together -/
theorem save_right (db : Tables) (ids : NewIDs) (o : Order) (h : StoredRight db) (hin : ∃ r ∈ db.orders, r.id = o.id) :
    StoredRight (saveOrder db ids o) ↔ RightTotal o.total (storedCost db o.id + costOf o) := by
  rw [save_extended]
  constructor
  · intro hs
    obtain ⟨r, hr, he⟩ := hin
    have := hs (orderPO o false) (List.mem_map.2 ⟨r, hr, by simp [he]⟩)
    simpa [orderPO, stored_extended_self, costOf] using this
  · intro ht r hr
    obtain ⟨r0, hr0, rfl⟩ := List.mem_map.1 hr
    by_cases he : r0.id = o.id
    · simpa [he, orderPO, stored_extended_self, costOf] using ht
    · simp only [beq_iff_eq, he, if_false]
      rw [stored_extended_other _ _ _ _ _ _ _ he]
      exact h r0 hr0

theorem getOrder_some {db id o} (h : getOrder db id = some o) : (∃ r ∈ db.orders, r.id = o.id ∧ r.total = o.total ∧ r.remark = o.remark ∧ r.user = o.user) ∧ o.id = id ∧ o.items = [] ∧ o.coupons = [] := by
  unfold getOrder at h
  rw [Option.map_eq_some_iff] at h
  obtain ⟨r, hr, rfl⟩ := h
  have := List.find?_some hr
  exact ⟨⟨r, List.mem_of_find?_eq_some hr, by simpa using this, rfl, rfl, rfl⟩, rfl, rfl, rfl⟩

/-- C98 (partial): as long as nothing is added to an existing order: after any history of commands, each successful or failing, with unused identifiers for new orders, every stored order has the total of its stored lines
and coupons. What is missing: AddSaleItem and AddCoupon, see `C98_add_item`, `C98_add_coupon`. -/
theorem C98_stored_partial (R : Ruler) (db d : Tables) (cs : List Cmd) (h0 : StoredRight db) (hc : ∀ c ∈ cs, NotAdding c) (h : Shop R db cs d) : StoredRight d := by
  induction h with
  | nil => exact h0
  | failed _ _ ih => exact ih fun c hm => hc c (by simp [hm])
  | @done cs d d' c ids _ hid hr ih =>
    have hd := ih fun c hm => hc c (by simp [hm])
    have hn := hc c (by simp)
    cases c with
    | addItem => exact hn.elim
    | addCoupon => exact hn.elim
    | create u is ks =>
      simp only [Cmd.run, Option.map_eq_some_iff] at hr
      obtain ⟨o, ho, rfl⟩ := hr
      have ht := (C96_new R u is ks o ho).2.2.2
      rw [insert_extended]
      intro r hr
      rcases List.mem_append.1 hr with hr | hr
      · rw [stored_extended_other _ _ _ _ _ _ _ (hid.1 r hr)]; exact hd r hr
      · simp only [List.mem_singleton] at hr; subst hr
        simp only [orderPO, stored_extended_self, stored_fresh _ _ hid, Int.zero_add]
        exact ht
    | update id r =>
      simp only [Cmd.run, Option.map_eq_some_iff] at hr
      obtain ⟨o, ho, rfl⟩ := hr
      obtain ⟨⟨row, hrow, h1, h2, _⟩, h3, h4, h5⟩ := getOrder_some ho
      rw [save_right d ids (update o r) hd ⟨row, hrow, h1⟩]
      have := hd row hrow
      simp only [update, costOf, h4, h5]
      simpa [cost, h1, h2] using this
    | delete id =>
      simp only [Cmd.run, Option.some.injEq] at hr
      subst hr
      intro r hr
      exact hd r (List.mem_filter.1 hr).1

theorem bmod_add_right_iff (z w : Int) : w.bmod (2 ^ 64) = (z + w).bmod (2 ^ 64) ↔ z.bmod (2 ^ 64) = 0 := by
  simp only [Int.bmod_def]
  constructor <;> intro h
  · split at h <;> split at h <;> split <;> omega
  · split at h <;> split <;> split <;> omega

/-- C98, what AddSaleItem does (any engine): it succeeds iff the order exists, and then the stored total is that of the new line alone; so it is right afterwards exactly if what the order cost before wraps to 0
(an order without lines, for example). -/
theorem C98_add_item (R : Ruler) (db : Tables) (ids : NewIDs) (id : String) (i : ItemDTO) :
    ((Cmd.addItem id i).run R ids db = none ↔ ∀ r ∈ db.orders, r.id ≠ id) ∧
    ∀ d, (Cmd.addItem id i).run R ids db = some d →
      (∀ r ∈ d.orders, r.id = id → r.total = i.price * i.count.signExtend 64) ∧
      (StoredRight db → (StoredRight d ↔ (storedCost db id).bmod (2 ^ 64) = 0)) := by
  constructor
  · simp [Cmd.run, getOrder, List.find?_eq_none]
  intro d hd
  simp only [Cmd.run, Option.map_eq_some_iff] at hd
  obtain ⟨o, ho, rfl⟩ := hd
  obtain ⟨⟨row, hrow, h1, h2, _⟩, h3, h4, h5⟩ := getOrder_some ho
  have hid : (addSaleItem R o i.code i.name i.price i.count).id = id := by simp [addSaleItem, calPrice_rest, fixCoupons, h3]
  have htot : (addSaleItem R o i.code i.name i.price i.count).total = i.price * i.count.signExtend 64 := by
    unfold addSaleItem; rw [calPrice_total]; simp [sum, fixCoupons, h4, h5]
  refine ⟨?_, fun hr => ?_⟩
  · intro r hr he
    simp only [saveOrder, List.mem_map] at hr
    obtain ⟨r0, hr0, rfl⟩ := hr
    by_cases hc : r0.id = id
    · simp [hid, hc, orderPO, htot]
    · simp [hid, hc] at he
  · rw [save_right db ids _ hr ⟨row, hrow, by rw [h1, h3, hid]⟩, hid]
    have hc := C96_total R o (.addItem i.code i.name i.price i.count) trivial rfl
    simp only [Op.run] at hc
    unfold RightTotal at hc ⊢
    rw [hc, bmod_add_right_iff]

/-- C98, what AddCoupon does (any engine): if it succeeds, the stored total is minus the discount; right exactly if what the order cost before wraps to 0. -/
theorem C98_add_coupon (R : Ruler) (db d : Tables) (ids : NewIDs) (id : String) (c : CouponDTO) (hd : (Cmd.addCoupon id c).run R ids db = some d) :
    (∀ r ∈ d.orders, r.id = id → r.total = -c.discount) ∧ (StoredRight db → (StoredRight d ↔ (storedCost db id).bmod (2 ^ 64) = 0)) := by
  simp only [Cmd.run] at hd
  split at hd
  · simp at hd
  rename_i o ho
  split at hd
  · rename_i o' heq
    simp only [Option.some.injEq] at hd
    subst hd
    obtain ⟨⟨row, hrow, h1, h2, _⟩, h3, h4, h5⟩ := getOrder_some ho
    have hb : (addCoupon R o c.id c.rule c.discount).2 = true := by rw [heq]
    have ho' : o' = calPrice { o with coupons := o.coupons ++ [⟨"", c.id, c.rule, c.discount⟩] } := by
      rw [← (settle_ok hb).2]; show o' = (addCoupon R o c.id c.rule c.discount).1; rw [heq]
    have hid : o'.id = id := by rw [ho']; simp [calPrice_rest, h3]
    have htot : o'.total = -c.discount := by rw [ho', calPrice_total]; simp [sum, h4, h5]
    refine ⟨?_, fun hr => ?_⟩
    · intro r hr he
      simp only [saveOrder, List.mem_map] at hr
      obtain ⟨r0, hr0, rfl⟩ := hr
      by_cases hc : r0.id = id
      · simp [hid, hc, orderPO, htot]
      · simp [hid, hc] at he
    · rw [save_right db ids _ hr ⟨row, hrow, by rw [h1, h3, hid]⟩, hid]
      have hc := C96_total R o (.addCoupon c.id c.rule c.discount) trivial hb
      simp only [Op.run] at hc
      rw [heq] at hc
      unfold RightTotal at hc ⊢
      rw [hc, bmod_add_right_iff]
  · simp at hd

/-- C98: deleting an order leaves its lines and coupons in their tables. -/
theorem C98_orphans (R : Ruler) (ids : NewIDs) (db : Tables) (id : String) :
    ∃ d, (Cmd.delete id).run R ids db = some d ∧ (∀ r ∈ d.orders, r.id ≠ id) ∧ d.items = db.items ∧ d.coupons = db.coupons := by
  refine ⟨_, rfl, fun r hr => ?_, rfl, rfl⟩
  have := (List.mem_filter.1 hr).2
  simpa using this

/-- C98: reading an order back right after it was created: user and total are those of the request, the coupons are the requested ones except for their IDs, but there are no lines at all, whatever was ordered, unless an
item happens to have the identifier of the order. -/
theorem C98_query (R : Ruler) (db d : Tables) (ids : NewIDs) (u : String) (is : List ItemDTO) (cs : List CouponDTO) (hid : NewOrderID db ids.order)
    (h : (Cmd.create u is cs).run R ids db = some d) :
    ∃ q, queryOrder d ids.order = some q ∧ q.id = ids.order ∧ q.user = u ∧ RightTotal q.total (cost (is.map fun i => (i.price, i.count)) (cs.map (·.discount))) ∧
      q.coupons.map (fun c => (c.rule, c.discount)) = cs.map (fun c => (c.rule, c.discount)) ∧
      ((∀ r ∈ db.items, r.id ≠ ids.order) → (∀ n, ids.item n ≠ ids.order) → q.items = []) := by
  simp only [Cmd.run, Option.map_eq_some_iff] at h
  obtain ⟨o, ho, rfl⟩ := h
  obtain ⟨a1, a2, a3, a4⟩ := C96_new R u is cs o ho
  have hf : (insertOrder db ids o).orders.find? (fun r => r.id == ids.order) = some (orderPO { o with id := ids.order } true) := by
    simp only [insertOrder, List.find?_append]
    rw [List.find?_eq_none.2 (by simpa using hid.1)]
    simp [orderPO]
  refine ⟨_, by unfold queryOrder; rw [hf]; rfl, rfl, a3, ?_, ?_, ?_⟩
  · have e : costOf o = cost (is.map fun i => (i.price, i.count)) (cs.map (·.discount)) := by
      unfold costOf
      have e1 : o.items.map (fun i => (i.price, i.count)) = is.map fun i => (i.price, i.count) := by
        have := congrArg (List.map fun x : String × String × BitVec 64 × BitVec 32 => (x.2.2.1, x.2.2.2)) a1
        simpa [List.map_map, Function.comp_def] using this
      have e2 : o.coupons.map (·.discount) = cs.map (·.discount) := by
        have := congrArg (List.map fun x : String × String × BitVec 64 => x.2.2) a2
        simpa [List.map_map, Function.comp_def] using this
      rw [e1, e2]
    rw [← e]; exact a4
  · have e2 : o.coupons.map (fun c => (c.rule, c.discount)) = cs.map fun c => (c.rule, c.discount) := by
      have := congrArg (List.map fun x : String × String × BitVec 64 => (x.2.1, x.2.2)) a2
      simpa [List.map_map, Function.comp_def] using this
    rw [← e2]
    simp only [getOrderCoupons, insertOrder, List.filter_append]
    rw [filter_none db.coupons _ (fun r hr => by simpa using hid.2.2 r hr)]
    rw [filter_all _ _ (by intro r hr; obtain ⟨n, hn, rfl⟩ := List.mem_mapIdx.1 hr; simp [couponPO])]
    simp only [List.nil_append, List.map_map]
    apply List.ext_getElem <;> simp [couponPO]
  · intro h1 h2
    simp only [getOrderSaleItems, insertOrder, List.filter_append]
    rw [filter_none db.items _ (fun r hr => by simpa using h1 r hr),
      filter_none _ _ (by intro r hr; obtain ⟨n, hn, rfl⟩ := List.mem_mapIdx.1 hr; simp [itemPO, h2])]
    rfl

/-- C98: of the events of a new order, those that reach the handlers of "order_sale_item_added" are one for each stored line (with the ID of its row), in order, and one more for each coupon (with the number of the coupon). -/
theorem C98_events (R : Ruler) (ids : NewIDs) (u : String) (is : List ItemDTO) (cs : List CouponDTO) (o : Order) (h : newOrder R u is cs = some o) :
    ((createEvents ids o).filter fun e => e.type == "order_sale_item_added") =
      ((insertOrder ⟨[], [], []⟩ ids o).items.map fun r => Event.itemAdded r.orderID r.id) ++ cs.map (fun c => Event.couponAdded ids.order c.id) ∧
    ((createEvents ids o).filter fun e => e.type == "order_sale_item_added").length = is.length + cs.length := by
  obtain ⟨a1, a2, _, _⟩ := C96_new R u is cs o h
  have l1 := congrArg List.length a1
  have l2 := congrArg List.length a2
  simp only [List.length_map] at l1 l2
  have a3 : o.coupons.map (fun c => c.couponID) = cs.map (fun c => c.id) := by
    have := congrArg (List.map Prod.fst) a2
    simpa [List.map_map, Function.comp_def] using this
  unfold createEvents
  simp only [List.filter_append, List.cons_append]
  rw [List.filter_cons_of_neg (by simp [Event.type]), List.filter_append]
  rw [filter_all _ _ (by intro e he; obtain ⟨n, hn, rfl⟩ := List.mem_mapIdx.1 he; simp [Event.type]), filter_all _ _ (by intro e he; obtain ⟨c, hc, rfl⟩ := List.mem_map.1 he; simp [Event.type])]
  refine ⟨?_, by simp [l1, l2]⟩
  congr 1
  · simp only [insertOrder, itemPO, List.nil_append]
    apply List.ext_getElem <;> simp
  · have := congrArg (List.map (Event.couponAdded ids.order)) a3
    simpa [List.map_map, Function.comp_def] using this

/-- identifiers for the demo -/
def demoIDs : NewIDs := ⟨"o1", fun n => if n = 0 then "i0" else "i1", fun _ => "c0"⟩
/-- identifiers for the demo, second command -/
def demoIDs2 : NewIDs := ⟨"o2", fun _ => "i2", fun _ => "c2"⟩

/-- A concrete history: an order of 68 is created (right), a line of 10 is added: the stored total becomes 10 while the stored rows cost 78; the query answers no lines. -/
theorem C98_demo : ∃ d1 d2, Shop ruler ⟨[], [], []⟩ [.create "u" [⟨"a", "A", 30#64, 2#32⟩, ⟨"b", "B", 5#64, 3#32⟩] [⟨"k", "r", 7#64⟩], .update "o1" (some "hi")] d1 ∧
    StoredRight d1 ∧ d1.orders = [⟨"o1", "u", 68#64, "hi"⟩] ∧ (Cmd.addItem "o1" ⟨"x", "X", 10#64, 1#32⟩).run ruler demoIDs2 d1 = some d2 ∧
    d2.orders = [⟨"o1", "u", 10#64, "hi"⟩] ∧ storedCost d2 "o1" = 78 ∧ ¬StoredRight d2 ∧
    queryOrder d2 "o1" = some ⟨"o1", "u", 10#64, [], [⟨"c0", "r", 7#64⟩]⟩ := by
  refine ⟨⟨[⟨"o1", "u", 68#64, "hi"⟩], [⟨"i0", "o1", "a", "A", 30#64, 2#32⟩, ⟨"i1", "o1", "b", "B", 5#64, 3#32⟩], [⟨"c0", "o1", "k", "r", 7#64⟩]⟩,
    ⟨[⟨"o1", "u", 10#64, "hi"⟩], [⟨"i0", "o1", "a", "A", 30#64, 2#32⟩, ⟨"i1", "o1", "b", "B", 5#64, 3#32⟩, ⟨"i2", "o1", "x", "X", 10#64, 1#32⟩], [⟨"c0", "o1", "k", "r", 7#64⟩]⟩,
    ?_, ?_, rfl, by decide, rfl, by decide, ?_, by decide⟩
  · refine Shop.done (cs := [.create "u" [⟨"a", "A", 30#64, 2#32⟩, ⟨"b", "B", 5#64, 3#32⟩] [⟨"k", "r", 7#64⟩]]) (ids := demoIDs2) (Shop.done (cs := []) (ids := demoIDs) Shop.nil
      (by unfold NewOrderID; decide) (d' := ⟨[⟨"o1", "u", 68#64, "-"⟩], [⟨"i0", "o1", "a", "A", 30#64, 2#32⟩, ⟨"i1", "o1", "b", "B", 5#64, 3#32⟩], [⟨"c0", "o1", "k", "r", 7#64⟩]⟩) (by decide))
      (by unfold NewOrderID; decide) (by decide)
  · decide
  · decide

end Ddd.Example
