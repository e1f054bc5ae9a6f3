import Verif.Model.Example
import Verif.Model.OrderList
/-!
# The example application: the HTTP service

Models `/repo/example/handler/util/http.go:29-64` (the handler), `/repo/example/handler/order.go:28-119` (the seven methods of the service) and `/repo/example/handler/request.go:22-81`. `encoding/json` is a pair of
arbitrary functions, except that what is decoded has the type of the method's request. A nil pointer in a request (a missing or `null` sale item or coupon) is `none`. Commands are those of `Verif.Model.Example`;
what the engine can add to them (errors of locks, transactions and the database) is the fault of the request. Requests are served one after another.
-/
namespace Ddd.Http
open Example

/-- the exported methods of `SaleServiceImpl` (`example/handler/order.go:38-119`) -/
inductive Method where
  | createOrder | updateOrder | deleteOrder | getOrder | getOrderList | addSaleItem | addCoupon
  deriving DecidableEq, Repr

/-- `reflect.Value.MethodByName` on `*SaleServiceImpl` (`example/handler/util/http.go:33-39`): exact names of exported methods; `none`: not valid. -/
def methodByName : String → Option Method
  | "CreateOrder" => some .createOrder
  | "UpdateOrder" => some .updateOrder
  | "DeleteOrder" => some .deleteOrder
  | "GetOrder" => some .getOrder
  | "GetOrderList" => some .getOrderList
  | "AddSaleItem" => some .addSaleItem
  | "AddCoupon" => some .addCoupon
  | _ => none

/-- the requests (`example/handler/request.go:22-81`) -/
inductive Call where
  | createOrder (user : String) (items : List (Option ItemDTO)) (coupons : List (Option CouponDTO))
  | updateOrder (id : String) (remark : Option String)
  | deleteOrder (id : String)
  | getOrder (id : String)
  | getOrderList (r : OrderList.Req)
  | addSaleItem (id : String) (item : Option ItemDTO)
  | addCoupon (id : String) (coupon : Option CouponDTO)

/-- the method that takes the request (`example/handler/order.go:38,50,60,70,79,102,112`) -/
def Call.method : Call → Method
  | .createOrder .. => .createOrder
  | .updateOrder .. => .updateOrder
  | .deleteOrder .. => .deleteOrder
  | .getOrder .. => .getOrder
  | .getOrderList .. => .getOrderList
  | .addSaleItem .. => .addSaleItem
  | .addCoupon .. => .addCoupon

/-- the responses (`example/handler/request.go:28-81`); those without fields are one. -/
inductive Reply where
  | created (orderID : String)
  | empty
  | order (o : OrderDTO)
  | orders (l : List OrderList.Simple)

/-- what is not part of the example's code: the rules, `json.Unmarshal` and `json.Marshal` (`example/handler/util/http.go:50,60`), the answer of the database to a listing (`Verif.Model.OrderList`). -/
structure Env where
  R : Ruler
  decode : Method → String → Option Call
  typed : ∀ m b c, decode m b = some c → c.method = m
  marshal : Reply → Option String
  listing : Tables → OrderList.Req → Option (List OrderList.Simple)

/-- What goes wrong outside the command (`/repo/engine.go:1208-1291`): `before`: an error before anything is stored; `after`: an error (of the commit) although everything is stored. -/
inductive Fault where
  | none | before | after
  deriving DecidableEq, Repr

/-- What is decided outside for one request: the new IDs and the fault (`/repo/engine.go:1208-1291`). -/
structure Fate where
  ids : NewIDs
  fault : Fault

/-- how `Main` of a command ends (`example/biz/sale/application/command/add_saleitem.go:39-46`): `stop`: a nil pointer is dereferenced. -/
inductive Main where
  | stop
  | ended (r : Option Tables)

/-- `NewOrder` with nil pointers (`example/biz/sale/domain/order.go:60-68`): the items first; coupons before the first nil one can be refused. -/
def createMain (R : Ruler) (ids : NewIDs) (db : Tables) (u : String) (is : List (Option ItemDTO)) (cs : List (Option CouponDTO)) : Main :=
  if is.contains none then .stop
  else if cs.contains none then
    match newOrder R u (is.filterMap id) ((cs.takeWhile Option.isSome).filterMap id) with
    | none => .ended none
    | some _ => .stop
  else .ended ((Cmd.create u (is.filterMap id) (cs.filterMap id)).run R ids db)

/-- `AddSaleItemCommand.Main` (`example/biz/sale/application/command/add_saleitem.go:39-46`): the order is loaded before the item is looked at. -/
def addItemMain (R : Ruler) (ids : NewIDs) (db : Tables) (id : String) (i : Option ItemDTO) : Main :=
  match i with
  | some i => .ended ((Cmd.addItem id i).run R ids db)
  | none => if (Example.getOrder db id).isSome then .stop else .ended none

/-- `AddCouponCommand.Main` (`example/biz/sale/application/command/add_coupon.go:42-51`), likewise. -/
def addCouponMain (R : Ruler) (ids : NewIDs) (db : Tables) (id : String) (c : Option CouponDTO) : Main :=
  match c with
  | some c => .ended ((Cmd.addCoupon id c).run R ids db)
  | none => if (Example.getOrder db id).isSome then .stop else .ended none

/-- how a method of the service ends (`example/handler/order.go:38-119`) -/
inductive Outcome where
  | panicked
  | failed
  | done (r : Reply)

/-- `engine.Run` (`example/handler/order.go:42-45`, `/repo/engine.go:1250-1291`): a panic is rolled back and goes on. -/
def engineRun (fault : Fault) (db : Tables) (main : Main) (ok : Reply) : Outcome × Tables :=
  match fault, main with
  | .before, _ => (.failed, db)
  | _, .stop => (.panicked, db)
  | _, .ended none => (.failed, db)
  | .none, .ended (some d) => (.done ok, d)
  | .after, .ended (some d) => (.failed, d)

/-- the end of a query (`example/handler/order.go:71-75,94-98`) -/
def queryRun (fault : Fault) (db : Tables) (r : Option Reply) : Outcome × Tables :=
  match fault, r with
  | .none, some r => (.done r, db)
  | _, _ => (.failed, db)

/-- the methods of the service (`example/handler/order.go:38-119`) -/
def call (env : Env) (f : Fate) (db : Tables) : Call → Outcome × Tables
  | .createOrder u is cs => engineRun f.fault db (createMain env.R f.ids db u is cs) (.created f.ids.order)
  | .updateOrder id r => engineRun f.fault db (.ended ((Cmd.update id r).run env.R f.ids db)) .empty
  | .deleteOrder id => engineRun f.fault db (.ended ((Cmd.delete id).run env.R f.ids db)) .empty
  | .getOrder id => queryRun f.fault db ((queryOrder db id).map .order)
  | .getOrderList r => queryRun f.fault db ((env.listing db r).map .orders)
  | .addSaleItem id i => engineRun f.fault db (addItemMain env.R f.ids db id i) .empty
  | .addCoupon id c => engineRun f.fault db (addCouponMain env.R f.ids db id c) .empty

/-- an HTTP request: its method, the `Action` of the query ("" if there is none), the body (`none`: it cannot be read) (`example/handler/util/http.go:33-53`) -/
structure HttpReq where
  verb : String
  action : String
  body : Option String

/-- an answer (`example/handler/util/http.go:37,47,51,57,62`); `cut`: the connection is closed without one, which is what `net/http` does when a handler panics. -/
inductive Answer where
  | status (code : Nat) (body : String)
  | cut
  deriving DecidableEq, Repr

/-- `Handler` (`example/handler/util/http.go:29-64`) -/
def handle (env : Env) (f : Fate) (r : HttpReq) (db : Tables) : Answer × Tables :=
  match methodByName r.action with
  | none => (.status 404 "404 page not found\n", db)
  | some m =>
    match r.body with
    | none => (.status 400 "body invalid\n", db)
    | some b =>
      match env.decode m b with
      | none => (.status 400 "body invalid\n", db)
      | some c =>
        match call env f db c with
        | (.panicked, d) => (.cut, d)
        | (.failed, d) => (.status 500 "server error\n", d)
        | (.done rep, d) => (.status 200 ((env.marshal rep).getD ""), d)

/-- requests served one after another (`example/main.go:68-69`): the answers and the tables at the end -/
def serve (env : Env) : List (Fate × HttpReq) → Tables → List Answer × Tables
  | [], db => ([], db)
  | (f, r) :: rs, db =>
    let (a, d) := handle env f r db
    let (as, e) := serve env rs d
    (a :: as, e)

end Ddd.Http
