import Verif.Model.Json
/-!
# Vocabulary for the data of events (C121)
-/
namespace Ddd.Json.Spec
open Ddd.Json

variable (L : Lib)

/-- the names `json` uses of a struct -/
def visible (keys : List (List Char)) (vis : List Bool) : List (List Char) := (keys.zip vis).filterMap fun x => if x.2 then some x.1 else none

mutual
/-- `v` is a value of the type -/
def HasTy : Ty → Val → Prop
  | .bool, .bool _ => True
  | .int lo hi, .int i => lo ≤ i ∧ i ≤ hi
  | .float, .float l => ∀ x, l = some x → L.round x = x
  | .str, .str _ => True
  | .bytes, .bytes _ => True
  | .bytes, .nil => True
  | .time, .time _ _ => True
  | .iface, .nil => True
  | .iface, .dyn t v => t ≠ .iface ∧ HasTy t v
  | .ptr _, .nil => True
  | .ptr t, .ref v => HasTy t v
  | .slice _, .nil => True
  | .slice t, .slice l => AllTy t l
  | .map _, .nil => True
  | .map t, .map ks vs => ks.length = vs.length ∧ ks.Nodup ∧ AllTy t vs
  | .struct keys vis omits ts, .struct l => keys.length = ts.length ∧ vis.length = ts.length ∧ omits.length = ts.length ∧ (visible keys vis).Nodup ∧ FieldsTy ts l
  | _, _ => False
def AllTy : Ty → List Val → Prop
  | _, [] => True
  | t, v :: vs => HasTy t v ∧ AllTy t vs
def FieldsTy : List Ty → List Val → Prop
  | [], [] => True
  | t :: ts, v :: vs => HasTy t v ∧ FieldsTy ts vs
  | _, _ => False
end

/-- Types whose values can be told from their text: no interfaces, no pointers to something that may be nil itself, no hidden fields, no `omitempty` on slices, maps and `[]byte`. -/
def Ty.mayBeNil : Ty → Bool
  | .bytes | .iface | .ptr _ | .slice _ | .map _ => true
  | _ => false
def Ty.emptyNotNil : Ty → Bool
  | .bytes | .slice _ | .map _ => true
  | _ => false

mutual
def Plain : Ty → Prop
  | .iface => False
  | .ptr t => Ty.mayBeNil t = false ∧ Plain t
  | .slice t => Plain t
  | .map t => Plain t
  | .struct _ vis omits ts => (∀ b ∈ vis, b = true) ∧ PlainFields omits ts
  | _ => True
def PlainFields : List Bool → List Ty → Prop
  | om :: omits, t :: ts => (om = true → Ty.emptyNotNil t = false) ∧ Plain t ∧ PlainFields omits ts
  | _, [] => True
  | [], _ :: _ => False
end

mutual
/-- valid UTF-8, finite numbers, no monotonic clock readings -/
def Tidy : Val → Prop
  | .float l => l ≠ none
  | .str s => ∀ p ∈ s, ∃ c, p = .ch c
  | .time _ mono => mono = false
  | .ref v => Tidy v
  | .slice l => TidyAll l
  | .map ks vs => (∀ k ∈ ks, ∀ p ∈ k, ∃ c, p = Piece.ch c) ∧ TidyAll vs
  | .struct l => TidyAll l
  | .dyn _ v => Tidy v
  | _ => True
def TidyAll : List Val → Prop
  | [] => True
  | v :: vs => Tidy v ∧ TidyAll vs
end

/-! ## what is left of any value -/

/-- a text of valid characters -/
def readable (s : List Piece) : List Piece := ofChars (clean s)

/-- written as `null` -/
def writesNull : Val → Bool
  | .nil => true
  | .ref v => writesNull v
  | .dyn _ v => writesNull v
  | _ => false

/-- a map made of these entries, one after the other -/
def gather : List (List Piece) → List Val → List (List Piece) → List Val → List (List Piece) × List Val
  | k :: ks, v :: vs, aks, avs => gather ks vs (put k v aks avs).1 (put k v aks avs).2
  | _, _, aks, avs => (aks, avs)

mutual
/-- what an interface field holds after the journey: floats for numbers, texts, slices of such, maps from names to such -/
def widen : Ty → Val → Val
  | _, .bool b => .dyn .bool (.bool b)
  | _, .int i => .dyn .float (.float (some (L.round (.int i))))
  | _, .float l => .dyn .float (.float l)
  | _, .str s => .dyn .str (.str (readable s))
  | _, .bytes b => .dyn .str (.str (ofChars (L.b64 b)))
  | _, .time t _ => .dyn .str (.str (ofChars (L.timeText t)))
  | _, .nil => .nil
  | .ptr t, .ref v => widen t v
  | .slice t, .slice l => .dyn (.slice .iface) (.slice (widenAll t l))
  | .map t, .map ks vs => .dyn (.map .iface) (.map (gather (ks.map readable) (widenAll t vs) [] []).1 (gather (ks.map readable) (widenAll t vs) [] []).2)
  | .struct keys vis omits ts, .struct l =>
    .dyn (.map .iface) (.map (gather (widenFields keys vis omits ts l).1 (widenFields keys vis omits ts l).2 [] []).1 (gather (widenFields keys vis omits ts l).1 (widenFields keys vis omits ts l).2 [] []).2)
  | _, .dyn t v => widen t v
  | _, v => v
def widenAll : Ty → List Val → List Val
  | _, [] => []
  | t, v :: vs => widen t v :: widenAll t vs
def widenFields : List (List Char) → List Bool → List Bool → List Ty → List Val → List (List Piece) × List Val
  | k :: keys, vi :: vis, om :: omits, t :: ts, v :: vs =>
    if vi && !(om && v.empty) then (ofChars k :: (widenFields keys vis omits ts vs).1, widen t v :: (widenFields keys vis omits ts vs).2) else widenFields keys vis omits ts vs
  | _, _, _, _, _ => ([], [])
end

mutual
/-- what is left of a value: hidden fields and fields left out for being empty are zero, strings are made valid, times lose their monotonic reading, pointers to nil are nil, interfaces hold generic values -/
def survive : Ty → Val → Val
  | .str, .str s => .str (readable s)
  | .time, .time t _ => .time t false
  | .ptr t, .ref v => if writesNull v then .nil else .ref (survive t v)
  | .slice t, .slice l => .slice (surviveAll t l)
  | .map t, .map ks vs => .map (gather (ks.map readable) (surviveAll t vs) [] []).1 (gather (ks.map readable) (surviveAll t vs) [] []).2
  | .struct _ vis omits ts, .struct l => .struct (surviveFields vis omits ts l)
  | .iface, .dyn t v => widen L t v
  | _, v => v
def surviveAll : Ty → List Val → List Val
  | _, [] => []
  | t, v :: vs => survive t v :: surviveAll t vs
def surviveFields : List Bool → List Bool → List Ty → List Val → List Val
  | vi :: vis, om :: omits, t :: ts, v :: vs => (if vi && !(om && v.empty) then survive t v else t.zero) :: surviveFields vis omits ts vs
  | _, _, _, _ => []
end

/-! ## a handler whose parameter has another type -/

/-- of the list, what belongs to the field that `json` knows by this name -/
def named {α : Type} (k : List Char) : List (List Char) → List Bool → List α → Option α
  | x :: keys, vi :: vis, y :: ys => if vi = true ∧ x = k then some y else named k keys vis ys
  | _, _, _ => none

end Ddd.Json.Spec
