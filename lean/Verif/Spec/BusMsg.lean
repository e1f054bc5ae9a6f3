import Verif.Model.BusMsg
import Verif.Spec.Bus
/-!
# Vocabulary of C114 and C115
-/
namespace Ddd.BusMsg
open Bus

/-- A MySQL column of type `text` with character set utf8mb4 in strict mode: at most 65535 bytes, and they are UTF-8. -/
def TextColumn (b : ByteArray) : Prop := b.size ≤ 65535 ∧ b.IsValidUTF8

/-- what happens on the bus: a pass of the service at some time (the process is started again if it died), or anything else -/
inductive Act where
  | pass (now : Nat)
  | op (o : Op)

/-- the handlers answer `ans now` at time `now` -/
def Act.apply (env : Env) (svc : Nat) (ans : Nat → DEv → Reply) (db : DB) : Act → DB
  | .pass now => (BusMsg.pass env svc now (ans now) db).db
  | .op o => o.apply db

/-- not a pass of the service itself -/
def NotRun (svc : Nat) : Op → Prop
  | .run _ s _ _ => s ≠ svc
  | _ => True

/-- passes of the service are those of `Act.pass` -/
def Act.Fair (svc : Nat) : Act → Prop
  | .pass _ => True
  | .op o => NotRun svc o

/-- a history -/
def play (env : Env) (svc : Nat) (ans : Nat → DEv → Reply) (db : DB) (acts : List Act) : DB := acts.foldl (Act.apply env svc ans) db

/-- the handler fails with this message -/
def Fails (a : Reply) (m : ByteArray) : Prop := a = .err m ∨ a = .panic m

end Ddd.BusMsg
