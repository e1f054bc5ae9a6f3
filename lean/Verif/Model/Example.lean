/-!
# The example application of the repository: orders

Models `/repo/example/biz/sale/domain/order.go` function by function, the five commands of `/repo/example/biz/sale/application/command`, the converters of `/repo/example/biz/sale/infrastructure/init.go` and the
queries of `/repo/example/biz/sale/infrastructure/dal/order.go`. `int64` and `int32` are `BitVec 64` and `BitVec 32` (two's complement, wrapping). The commands act on tables; what the engine
does between `Main` and the tables (loading, snapshots, diff, executor, transaction) is the subject of the other models and is summarised here: a root loaded with `Get` without slices of children has its own columns
only, what was appended to its slices is inserted, its changed columns are written, a failing command changes nothing. Timestamps are not modelled.
-/
namespace Ddd.Example

/-- `SaleItem` (`example/biz/sale/domain/sale_item.go:26-36`) -/
structure Item where
  id : String
  code : String
  name : String
  price : BitVec 64
  count : BitVec 32
  deriving DecidableEq, Repr

/-- `Coupon` (`example/biz/sale/domain/coupon.go:25-33`) -/
structure Coupon where
  id : String
  couponID : String
  rule : String
  discount : BitVec 64
  deriving DecidableEq, Repr

/-- `Order` (`example/biz/sale/domain/order.go:45-54`); `dirty`: the flag of `BaseEntity` set by `Dirty()`. -/
structure Order where
  id : String
  user : String
  total : BitVec 64
  remark : String
  items : List Item
  coupons : List Coupon
  dirty : Bool
  deriving DecidableEq, Repr

/-- `RuleEngine.Validate(order, rule) == nil` (`example/biz/sale/domain/order.go:27-29`), arbitrary. The engine of the repository (`36-39`) accepts everything. -/
abbrev Ruler := Order → String → Bool

/-- `OrderRuleEngine.Validate` (`example/biz/sale/domain/order.go:36-39`) -/
def ruler : Ruler := fun _ _ => true

/-- `fixCoupons` (`example/biz/sale/domain/order.go:99-110`): keeps the valid coupons, returns the others. `o` is not changed while the rules are checked. -/
def fixCoupons (R : Ruler) (o : Order) : Order × List Coupon :=
  ({ o with coupons := o.coupons.filter fun c => R o c.rule }, o.coupons.filter fun c => !R o c.rule)

/-- the two loops of `calPrice` (`example/biz/sale/domain/order.go:114-120`); `int64(item.Count)` is sign extension -/
def sum (o : Order) : BitVec 64 :=
  o.coupons.foldl (fun t c => t - c.discount) (o.items.foldl (fun t i => t + i.price * i.count.signExtend 64) 0)

/-- `calPrice` (`example/biz/sale/domain/order.go:113-126`) -/
def calPrice (o : Order) : Order :=
  if o.total ≠ sum o then { o with total := sum o, dirty := true } else o

/-- `AddSaleItem` (`example/biz/sale/domain/order.go:128-138`); the new item has no ID yet -/
def addSaleItem (R : Ruler) (o : Order) (code name : String) (price : BitVec 64) (count : BitVec 32) : Order :=
  calPrice (fixCoupons R { o with items := o.items ++ [⟨"", code, name, price, count⟩] }).1

/-- `DeleteSaleItem` (`example/biz/sale/domain/order.go:140-151`) -/
def deleteSaleItem (R : Ruler) (o : Order) (id : String) : Order :=
  calPrice (fixCoupons R { o with items := o.items.filter fun i => i.id != id }).1

/-- the end of `AddCoupon` and `DeleteCoupon` (`example/biz/sale/domain/order.go:161-165,177-181`): `false` is the error "coupon invalid" -/
def settle (R : Ruler) (o : Order) : Order × Bool :=
  let (o', invalid) := fixCoupons R o
  if invalid.length > 0 then (o', false) else (calPrice o', true)

/-- `AddCoupon` (`example/biz/sale/domain/order.go:153-166`) -/
def addCoupon (R : Ruler) (o : Order) (couponID rule : String) (discount : BitVec 64) : Order × Bool :=
  settle R { o with coupons := o.coupons ++ [⟨"", couponID, rule, discount⟩] }

/-- `DeleteCoupon` (`example/biz/sale/domain/order.go:168-182`) -/
def deleteCoupon (R : Ruler) (o : Order) (id : String) : Order × Bool :=
  settle R { o with coupons := o.coupons.filter fun c => c.id != id }

/-- `Update` (`example/biz/sale/domain/order.go:90-96`) -/
def update (o : Order) (remark : Option String) : Order :=
  { o with remark := remark.getD o.remark, dirty := true }

/-- `sale.SaleItem` of a request (`example/common/dto/sale/sale_item.go:18-23`) -/
structure ItemDTO where
  code : String
  name : String
  price : BitVec 64
  count : BitVec 32
  deriving DecidableEq, Repr

/-- `sale.Coupon` of a request (`example/common/dto/sale/coupon.go:18-22`) -/
structure CouponDTO where
  id : String
  rule : String
  discount : BitVec 64
  deriving DecidableEq, Repr

/-- the second loop of `NewOrder` (`example/biz/sale/domain/order.go:64-68`): `none` is the error -/
def addCoupons (R : Ruler) : Order → List CouponDTO → Option Order
  | o, [] => some o
  | o, c :: cs => match addCoupon R o c.id c.rule c.discount with
    | (o', true) => addCoupons R o' cs
    | (_, false) => none

/-- `NewOrder` (`example/biz/sale/domain/order.go:56-70`) -/
def newOrder (R : Ruler) (user : String) (items : List ItemDTO) (coupons : List CouponDTO) : Option Order :=
  addCoupons R (items.foldl (fun o i => addSaleItem R o i.code i.name i.price i.count) ⟨"", user, 0, "", [], [], false⟩) coupons

/-- A call of a method of an order by user code (`example/biz/sale/domain/order.go:90,128,140,153,168`). -/
inductive Op where
  | addItem (code name : String) (price : BitVec 64) (count : BitVec 32)
  | delItem (id : String)
  | addCoupon (couponID rule : String) (discount : BitVec 64)
  | delCoupon (id : String)
  | update (remark : Option String)
  deriving DecidableEq, Repr

/-- The call and its result (`example/biz/sale/domain/order.go:90-182`): `true` if no error is returned. -/
def Op.run (R : Ruler) (o : Order) : Op → Order × Bool
  | .addItem c n p k => (addSaleItem R o c n p k, true)
  | .delItem i => (deleteSaleItem R o i, true)
  | .addCoupon c r d => Example.addCoupon R o c r d
  | .delCoupon i => deleteCoupon R o i
  | .update r => (Example.update o r, true)

/-- `OrderPO` (`example/biz/sale/infrastructure/po/order.go:24-32`) -/
structure OrderRow where
  id : String
  user : String
  total : BitVec 64
  remark : String
  deriving DecidableEq, Repr

/-- `SaleItemPO` (`example/biz/sale/infrastructure/po/saleitem.go:22-32`) -/
structure ItemRow where
  id : String
  orderID : String
  code : String
  name : String
  price : BitVec 64
  count : BitVec 32
  deriving DecidableEq, Repr

/-- `CouponPO` (`example/biz/sale/infrastructure/po/coupon.go:22-31`) -/
structure CouponRow where
  id : String
  orderID : String
  couponID : String
  rule : String
  discount : BitVec 64
  deriving DecidableEq, Repr

/-- The three tables (`example/biz/sale/infrastructure/po`: `order.go:38-40`, `saleitem.go:38-40`, `coupon.go:37-39`). -/
structure Tables where
  orders : List OrderRow
  items : List ItemRow
  coupons : List CouponRow
  deriving DecidableEq, Repr

/-- The converter of an order (`example/biz/sale/infrastructure/init.go:27-42`): the default remark only on insert. -/
def orderPO (o : Order) (insert : Bool) : OrderRow :=
  ⟨o.id, o.user, o.total, if insert && o.remark == "" then "-" else o.remark⟩

/-- The converter of a sale item below its order (`example/biz/sale/infrastructure/init.go:50-64`). -/
def itemPO (orderID : String) (i : Item) : ItemRow := ⟨i.id, orderID, i.code, i.name, i.price, i.count⟩

/-- The converter of a coupon below its order (`example/biz/sale/infrastructure/init.go:74-87`). -/
def couponPO (orderID : String) (c : Coupon) : CouponRow := ⟨c.id, orderID, c.couponID, c.rule, c.discount⟩

/-- `repo.Get(ctx, &domain.Order{ID: id})` (`example/biz/sale/application/command/add_saleitem.go:40-43`, converter `example/biz/sale/infrastructure/init.go:42-48`): no slices are passed, so no children are loaded. -/
def getOrder (db : Tables) (id : String) : Option Order :=
  (db.orders.find? fun r => r.id == id).map fun r => ⟨id, r.user, r.total, r.remark, [], [], false⟩

/-- The IDs the engine gives to new entities (`/repo/engine.go`, `defaultIDGenerator`; see C07): arbitrary here, one per entity. -/
structure NewIDs where
  order : String
  item : Nat → String
  coupon : Nat → String

/-- Insert of a new order with what is below it (`example/biz/sale/application/command/create_order.go:52-57`). -/
def insertOrder (db : Tables) (ids : NewIDs) (o : Order) : Tables where
  orders := db.orders ++ [orderPO { o with id := ids.order } true]
  items := db.items ++ o.items.mapIdx fun n i => itemPO ids.order { i with id := ids.item n }
  coupons := db.coupons ++ o.coupons.mapIdx fun n c => couponPO ids.order { c with id := ids.coupon n }

/-- Save of an order that was loaded without children: its row is written, everything found below it is new (the end of the commands
`example/biz/sale/application/command/add_saleitem.go:44-45`, `add_coupon.go:47-50`, `update_order.go:50-51`). -/
def saveOrder (db : Tables) (ids : NewIDs) (o : Order) : Tables where
  orders := db.orders.map fun r => if r.id == o.id then orderPO o false else r
  items := db.items ++ o.items.mapIdx fun n i => itemPO o.id { i with id := ids.item n }
  coupons := db.coupons ++ o.coupons.mapIdx fun n c => couponPO o.id { c with id := ids.coupon n }

/-- The commands of `example/biz/sale/application/command` (`create_order.go:46`, `update_order.go:45`, `add_saleitem.go:39`, `add_coupon.go:42`, `remove_order.go:35`). -/
inductive Cmd where
  | create (user : String) (items : List ItemDTO) (coupons : List CouponDTO)
  | update (id : String) (remark : Option String)
  | addItem (id : String) (item : ItemDTO)
  | addCoupon (id : String) (c : CouponDTO)
  | delete (id : String)
  deriving DecidableEq, Repr

/-- `Main` and the save of a command (`example/biz/sale/application/command/create_order.go:46-60`, `update_order.go:45-52`, `add_saleitem.go:39-46`, `add_coupon.go:42-51`, `remove_order.go:35-38`): the tables
after it, `none` if it fails. Deleting an order deletes the row with that ID, if any, and nothing below it. -/
def Cmd.run (R : Ruler) (ids : NewIDs) (db : Tables) : Cmd → Option Tables
  | .create u is cs => (newOrder R u is cs).map (insertOrder db ids)
  | .update id r => (getOrder db id).map fun o => saveOrder db ids (Example.update o r)
  | .addItem id i => (getOrder db id).map fun o => saveOrder db ids (addSaleItem R o i.code i.name i.price i.count)
  | .addCoupon id c => match getOrder db id with
    | none => none
    | some o => match Example.addCoupon R o c.id c.rule c.discount with
      | (o', true) => some (saveOrder db ids o')
      | (_, false) => none
  | .delete id => some { db with orders := db.orders.filter fun r => r.id != id }

/-- `DAL.GetOrderSaleItems` (`example/biz/sale/infrastructure/dal/order.go:43-49`): `WHERE id = ?` with the ID of the order -/
def getOrderSaleItems (db : Tables) (orderID : String) : List ItemRow := db.items.filter fun r => r.id == orderID

/-- `DAL.GetOrderCoupons` (`example/biz/sale/infrastructure/dal/order.go:51-57`): `WHERE order_id = ?` -/
def getOrderCoupons (db : Tables) (orderID : String) : List CouponRow := db.coupons.filter fun r => r.orderID == orderID

/-- `sale.Order`, the answer of a query (`example/common/dto/sale/order.go:18-24`) -/
structure OrderDTO where
  id : String
  user : String
  total : BitVec 64
  items : List ItemDTO
  coupons : List CouponDTO
  deriving DecidableEq, Repr

/-- `query.GetOrder` (`example/biz/sale/application/query/order.go:39-60`) with `pack` (`example/biz/sale/application/query/pack/saleitem.go:22-54`): `none` if there is no such order. A coupon is answered with the ID of
its row. -/
def queryOrder (db : Tables) (id : String) : Option OrderDTO :=
  (db.orders.find? fun r => r.id == id).map fun r =>
    ⟨r.id, r.user, r.total, (getOrderSaleItems db id).map fun i => ⟨i.code, i.name, i.price, i.count⟩, (getOrderCoupons db id).map fun c => ⟨c.id, c.rule, c.discount⟩⟩

/-- The events of the example (`example/common/domain_event/sale/order.go:27-29,43-45,59-62,79-82`). -/
inductive Event where
  | orderCreated (orderID : String)
  | orderDeleted (orderID : String)
  | itemAdded (orderID itemID : String)
  | couponAdded (orderID couponID : String)
  deriving DecidableEq, Repr

/-- `GetType` of the events (`example/common/domain_event/sale/order.go:21-23,35-37,51-53,71-73,91-93`). -/
def Event.type : Event → String
  | .orderCreated _ => "order_created"
  | .orderDeleted _ => "order_deleted"
  | .itemAdded _ _ => "order_sale_item_added"
  | .couponAdded _ _ => "order_sale_item_added"

/-- The events of the creation hooks of a new order and what is below it (`example/biz/sale/domain/order.go:80-83`, `sale_item.go:37-40`, `coupon.go:35-38`), after the IDs were given. -/
def createEvents (ids : NewIDs) (o : Order) : List Event :=
  .orderCreated ids.order :: (o.items.mapIdx fun n _ => .itemAdded ids.order (ids.item n)) ++ o.coupons.map fun c => .couponAdded ids.order c.couponID

end Ddd.Example
