import Verif.Model.Diff
/-!
# Vocabulary for the model diff
-/
namespace Ddd.Diff

mutual
/-- two values of the same Go type; pointers point to structs -/
def SameTy : Val → Val → Prop
  | .leaf _, .leaf _ => True
  | .nil, .nil => True
  | .nil, .ref (.struct _) => True
  | .ref (.struct _), .nil => True
  | .ref (.struct fs), .ref (.struct gs) => SameTys fs gs
  | .struct fs, .struct gs => SameTys fs gs
  | _, _ => False
def SameTys : Flds → Flds → Prop
  | .nil, .nil => True
  | .cons f v fs, .cons g w gs => f = g ∧ SameTy v w ∧ SameTys fs gs
  | _, _ => False
end

/-- the code takes the field apart (if it is a struct) -/
def Fld.flat (f : Fld) : Bool := f.anon || f.tagged

mutual
/-- no embedded pointer is nil in one value and not in the other -/
def Steady : Val → Val → Prop
  | .ref a, .ref b => Steady a b
  | .struct fs, .struct gs => Steadys fs gs
  | _, _ => True
def Steadys : Flds → Flds → Prop
  | .cons f v fs, .cons _ w gs => (f.flat = true → (v = .nil ↔ w = .nil)) ∧ Steady v w ∧ Steadys fs gs
  | _, _ => True
end

mutual
/-- gorm spreads exactly the structs that the code takes apart: embedded ones are no `time.Time` or other one-column type -/
def Honest : Val → Prop
  | .ref a => Honest a
  | .struct fs => Honests fs
  | _ => True
def Honests : Flds → Prop
  | .nil => True
  | .cons f v fs => (v.isStruct = true ∨ v = .nil → f.spread = f.flat) ∧ Honest v ∧ Honests fs
end

mutual
/-- Comparing the value with itself finds no difference: every leaf that is not zero equals itself and can be compared (it is comparable, or reachable without passing an unexported field). -/
def Plain (go : Go) (ro canI : Bool) : Val → Prop
  | .leaf v => v = 0 ∨ (go.selfEq v = true ∧ (go.comparable v = true ∨ canI = true))
  | .nil => True
  | .ref a => Plain go ro canI a
  | .struct fs => Plains go ro fs
def Plains (go : Go) (ro : Bool) : Flds → Prop
  | .nil => True
  | .cons f v fs => Plain go (ro || (!f.exported && !f.anon)) (!ro && f.exported) v ∧ Plains go ro fs
end

/-- every column of the struct is the one gorm finds for its field name: no two columns share a field name -/
def Unambiguous (look : Nat → Option Col) (fs : Flds) : Prop := (fs.cols.map Prod.fst).Nodup ∧ ∀ c v, (c, v) ∈ fs.cols → look c.2 = some c

/-- all leaves can be compared with themselves and with others: no NaN, function or unexported slice or map anywhere -/
def AllPlain (go : Go) : Prop := ∀ v, go.selfEq v = true ∧ go.comparable v = true

end Ddd.Diff
