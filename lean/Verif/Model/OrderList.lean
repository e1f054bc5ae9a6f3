/-!
# The example application: listing orders

Models `/repo/example/handler/order.go:79-99` (`GetOrderList` of the service), `/repo/example/biz/sale/application/query/order.go:62-68`, `/repo/example/biz/sale/application/query/pack/order.go:23-37`,
`/repo/example/biz/sale/infrastructure/dal/order.go:59-89` and the columns of `/repo/example/biz/sale/infrastructure/po/order.go:24-32`. The database is a list of rows; in what order it answers a query without
`ORDER BY` is arbitrary and may be different for every query. `int32` offsets and limits are integers. What gorm makes of `Offset` and `Limit` is modelled after its documentation: a negative limit is none,
a negative offset is zero.
-/
namespace Ddd.OrderList

/-- a stored order (`example/biz/sale/infrastructure/po/order.go:24-32`); `created` is the column `created_at`, in nanoseconds. -/
structure Row where
  id : String
  user : String
  total : Int
  created : Int
  deriving DecidableEq, Repr

/-- `GetOrderListRequest` (`example/handler/request.go:55-61`), times in seconds. -/
structure Req where
  user : Option String := none
  after : Option Int := none
  before : Option Int := none
  offset : Option Int := none
  limit : Option Int := none

/-- `SearchOrderOpt` (`example/biz/sale/infrastructure/dal/order.go:59-65`), times in nanoseconds. -/
structure Opt where
  user : Option String
  gt : Option Int
  lt : Option Int
  offset : Option Int
  limit : Option Int

/-- `SimpleOrder` (`example/biz/sale/application/query/pack/order.go:23-29`) -/
structure Simple where
  id : String
  user : String
  total : Int
  deriving DecidableEq, Repr

/-- The database (`example/biz/sale/infrastructure/dal/order.go:27-29`). `createTime`: the table has a column `create_time`. `lone`: `OFFSET` is accepted without `LIMIT`. `ord k`: the order of the rows in the answer to query `k`. -/
structure DB where
  rows : List Row
  createTime : Bool
  lone : Bool
  ord : Nat → List Row → List Row
  perm : ∀ k l, (ord k l).Perm l

/-- the table created from `OrderPO`: gorm names the column of `CreatedAt` `created_at` (`example/biz/sale/infrastructure/po/order.go:24-32`). -/
def DB.OfPO (db : DB) : Prop := db.createTime = false

/-- the service's translation of the request (`example/handler/order.go:80-92`) -/
def Req.opt (r : Req) : Opt :=
  { user := r.user, offset := r.offset, limit := r.limit
    gt := r.after.map fun t => t * 1000000000
    lt := r.before.map fun t => t * 1000000000 }

/-- the `WHERE` conditions (`example/biz/sale/infrastructure/dal/order.go:69-77`) -/
def Opt.cond (o : Opt) (r : Row) : Bool :=
  (match o.user with | some u => decide (r.user = u) | none => true) &&
  (match o.gt with | some t => decide (t < r.created) | none => true) &&
  (match o.lt with | some t => decide (r.created < t) | none => true)

/-- `LIMIT` and `OFFSET` (`example/biz/sale/infrastructure/dal/order.go:78-83`) -/
def Opt.page {A : Type} (o : Opt) (l : List A) : List A :=
  let l := l.drop ((o.offset.getD 0).toNat)
  match o.limit with
  | some n => if 0 ≤ n then l.take n.toNat else l
  | none => l

/-- no `LIMIT` is sent (`example/biz/sale/infrastructure/dal/order.go:81-83`). -/
def Opt.unlimited (o : Opt) : Bool := match o.limit with | some n => decide (n < 0) | none => true

/-- `DAL.GetOrderList` (`example/biz/sale/infrastructure/dal/order.go:67-89`) as query `k`; `none`: the database reports an error. -/
def dalList (db : DB) (k : Nat) (o : Opt) : Option (List Row) :=
  if (o.gt.isSome || o.lt.isSome) && !db.createTime then none
  else if o.unlimited && decide (0 < o.offset.getD 0) && !db.lone then none
  else some (o.page (db.ord k (db.rows.filter o.cond)))

/-- `MakeSimpleOrder` (`example/biz/sale/application/query/pack/order.go:23-29`) -/
def simple (r : Row) : Simple := ⟨r.id, r.user, r.total⟩

/-- `MakeSimpleOrderList` (`example/biz/sale/application/query/pack/order.go:31-37`) -/
def simples (l : List Row) : List Simple := l.foldl (fun acc r => acc ++ [simple r]) []

/-- `query.GetOrderList` (`example/biz/sale/application/query/order.go:62-68`) -/
def queryList (db : DB) (k : Nat) (o : Opt) : Option (List Simple) := (dalList db k o).map simples

/-- `SaleServiceImpl.GetOrderList` (`example/handler/order.go:79-99`); `none`: an error is returned. -/
def getOrderList (db : DB) (k : Nat) (r : Req) : Option (List Simple) := queryList db k r.opt

end Ddd.OrderList
