/-!
# The data of an event on its way to a handler

Models what `json.Marshal(event)` in `NewDomainEvent` (`/repo/event.go:246`) and `json.Unmarshal(evt.Payload, …)` in `onEvent` and `onTXChecker` (`/repo/event.go:179,208`) do with the data of an event, according to the
documentation of `encoding/json`. The stored event itself goes the same way (`serializer:json`, `/repo/eventbus/mysql/po.go:65,90`). JSON texts are trees here. Not modelled: types with `MarshalJSON` of their own other than
`time.Time`, arrays, map keys that are no strings, embedded fields, the tag option `string`, repeated keys in a text (`Marshal` writes none).
-/
namespace Ddd.Json

/-- a Go string: characters, and bytes that are no UTF-8 (a field of an event, `event.go:246`) -/
inductive Piece where
  | ch (c : Char)
  | bad (b : Nat)
deriving DecidableEq

/-- number literals of a JSON text (`event.go:246`); `other`: not an integer literal -/
inductive Lit where
  | int (i : Int)
  | other (n : Nat)
deriving DecidableEq

/-- a JSON text (`event.go:246`); an object is the list of its keys and the list of its values -/
inductive J where
  | null
  | bool (b : Bool)
  | num (l : Lit)
  | str (s : List Char)
  | arr (l : List J)
  | obj (ks : List (List Char)) (js : List J)

/-- Go types (`event.go:179`). A struct is the list of its fields: name in the text, does `json` see it (exported and not tagged `-`), `omitempty`, type. -/
inductive Ty where
  | bool
  | int (lo hi : Int)
  | float
  | str
  | bytes
  | time
  | iface
  | ptr (t : Ty)
  | slice (t : Ty)
  | map (t : Ty)
  | struct (keys : List (List Char)) (vis : List Bool) (omits : List Bool) (ts : List Ty)

/-- Go values (`event.go:246`). `nil`: of a pointer, slice, map, `[]byte` or interface; a float is the literal Go writes for it (none: NaN, infinity); a time may have a reading of the monotonic clock; a map is the list of its
keys in the order in which `Marshal` writes them, and the list of its values. -/
inductive Val where
  | bool (b : Bool)
  | int (i : Int)
  | float (l : Option Lit)
  | str (s : List Piece)
  | bytes (b : List Nat)
  | time (t : Int) (mono : Bool)
  | nil
  | ref (v : Val)
  | slice (l : List Val)
  | map (ks : List (List Piece)) (vs : List Val)
  | struct (l : List Val)
  | dyn (t : Ty) (v : Val)

/-- What is left to the library (used in `event.go:179,246`): base64, the text of a time, the float nearest to a literal, and upper and lower case of keys. -/
structure Lib where
  b64 : List Nat → List Char
  unb64 : List Char → Option (List Nat)
  b64_ok : ∀ b, unb64 (b64 b) = some b
  timeText : Int → List Char
  parseTime : List Char → Option Int
  time_ok : ∀ t, parseTime (timeText t) = some t
  round : Lit → Lit
  round_round : ∀ l, round (round l) = round l
  fold : List Char → List Char

/-- a string in a JSON text (`event.go:246`): what is no UTF-8 becomes U+FFFD -/
def clean (s : List Piece) : List Char := s.map fun p => match p with | .ch c => c | .bad _ => Char.ofNat 0xFFFD

/-- a string of a JSON text as a Go string (`event.go:179`) -/
def ofChars (s : List Char) : List Piece := s.map .ch

/-- the values that `omitempty` leaves out (`event.go:246`) -/
def Val.empty : Val → Bool
  | .bool b => !b
  | .int i => decide (i = 0)
  | .float (some l) => decide (l = .int 0)
  | .str s => s.isEmpty
  | .bytes b => b.isEmpty
  | .nil => true
  | .slice l => l.isEmpty
  | .map ks _ => ks.isEmpty
  | _ => false

mutual
/-- the zero value of a type (`reflect.New`, `event.go:178`) -/
def Ty.zero : Ty → Val
  | .bool => .bool false
  | .int _ _ => .int 0
  | .float => .float (some (.int 0))
  | .str => .str []
  | .time => .time 0 false
  | .struct _ _ _ ts => .struct (zeros ts)
  | _ => .nil
/-- the zero values of the fields of a struct (`reflect.New`, `event.go:178`) -/
def zeros : List Ty → List Val
  | [] => []
  | t :: ts => t.zero :: zeros ts
end

/-- the type under all pointers (`indirect` of `encoding/json`, used in `event.go:179`) -/
def Ty.base : Ty → Ty
  | .ptr t => t.base
  | t => t

/-- the number of pointers (`indirect` of `encoding/json`, used in `event.go:179`) -/
def Ty.ptrs : Ty → Nat
  | .ptr t => t.ptrs + 1
  | _ => 0

/-- new pointers to a value (`indirect` of `encoding/json`, used in `event.go:179`) -/
def wrap : Nat → Val → Val
  | 0, v => v
  | n + 1, v => .ref (wrap n v)

variable (L : Lib)

mutual
/-- `json.Marshal` of a value of the type (`event.go:246`); none: an error, on which `NewDomainEvent` panics (`event.go:247-249`) -/
def encode : Ty → Val → Option J
  | _, .bool b => some (.bool b)
  | _, .int i => some (.num (.int i))
  | _, .float l => l.map .num
  | _, .str s => some (.str (clean s))
  | _, .bytes b => some (.str (L.b64 b))
  | _, .time t _ => some (.str (L.timeText t))
  | _, .nil => some .null
  | .ptr t, .ref v => encode t v
  | .slice t, .slice l => (encodeAll t l).map .arr
  | .map t, .map ks vs => (encodeAll t vs).map (.obj (ks.map clean))
  | .struct keys vis omits ts, .struct l => (encodeFields keys vis omits ts l).map fun x => .obj x.1 x.2
  | _, .dyn t v => encode t v
  | _, _ => none
/-- the elements of a slice or map (`event.go:246`) -/
def encodeAll : Ty → List Val → Option (List J)
  | _, [] => some []
  | t, v :: vs => (encode t v).bind fun j => (encodeAll t vs).map (j :: ·)
/-- the fields of a struct (`event.go:246`): those that are not visible, and empty ones with `omitempty`, are left out -/
def encodeFields : List (List Char) → List Bool → List Bool → List Ty → List Val → Option (List (List Char) × List J)
  | k :: keys, vi :: vis, om :: omits, t :: ts, v :: vs =>
    if vi && !(om && v.empty) then (encode t v).bind fun j => (encodeFields keys vis omits ts vs).map fun x => (k :: x.1, j :: x.2)
    else encodeFields keys vis omits ts vs
  | _, _, _, _, _ => some ([], [])
end

/-- the place of a visible field whose name satisfies `p`, and its type (`event.go:179`) -/
def place (p : List Char → Bool) : List (List Char) → List Bool → List Ty → Option (Nat × Ty)
  | k :: keys, vi :: vis, t :: ts => if vi && p k then some (0, t) else (place p keys vis ts).map fun x => (x.1 + 1, x.2)
  | _, _, _ => none

/-- which field a key means (`event.go:179`): the one of this name, or one whose name differs only by upper and lower case -/
def field (k : List Char) (keys : List (List Char)) (vis : List Bool) (ts : List Ty) : Option (Nat × Ty) :=
  match place (fun x => decide (x = k)) keys vis ts with
  | some x => some x
  | none => place (fun x => decide (L.fold x = L.fold k)) keys vis ts

/-- `m[k] = v` (`event.go:179`) -/
def put (k : List Piece) (v : Val) : List (List Piece) → List Val → List (List Piece) × List Val
  | x :: ks, y :: vs => if x = k then (k :: ks, v :: vs) else ((x :: (put k v ks vs).1), (y :: (put k v ks vs).2))
  | _, _ => ([k], [v])

mutual
/-- a text decoded into an empty interface (`event.go:179`): numbers become floats, objects maps, arrays slices -/
def generic : J → Val
  | .null => .nil
  | .bool b => .dyn .bool (.bool b)
  | .num l => .dyn .float (.float (some (L.round l)))
  | .str s => .dyn .str (.str (ofChars s))
  | .arr l => .dyn (.slice .iface) (.slice (generics l))
  | .obj ks js => .dyn (.map .iface) (.map (genericEntries ks js [] []).1 (genericEntries ks js [] []).2)
/-- the elements of an array (`event.go:179`) -/
def generics : List J → List Val
  | [] => []
  | j :: js => generic j :: generics js
/-- the entries of an object (`event.go:179`) -/
def genericEntries : List (List Char) → List J → List (List Piece) → List Val → List (List Piece) × List Val
  | k :: ks, j :: js, aks, avs => genericEntries ks js (put (ofChars k) (generic j) aks avs).1 (put (ofChars k) (generic j) aks avs).2
  | _, _, aks, avs => (aks, avs)
end

mutual
/-- `json.Unmarshal` into a new value of the type (`event.go:178-181`); none: an error. `null` leaves the zero value. -/
def decode (t : Ty) : J → Option Val
  | .null => some t.zero
  | .bool b => match t.base with
    | .bool => some (wrap t.ptrs (.bool b))
    | .iface => some (wrap t.ptrs (generic L (.bool b)))
    | _ => none
  | .num l => match t.base with
    | .int lo hi => match l with
      | .int i => if lo ≤ i ∧ i ≤ hi then some (wrap t.ptrs (.int i)) else none
      | .other _ => none
    | .float => some (wrap t.ptrs (.float (some (L.round l))))
    | .iface => some (wrap t.ptrs (generic L (.num l)))
    | _ => none
  | .str s => match t.base with
    | .str => some (wrap t.ptrs (.str (ofChars s)))
    | .bytes => (L.unb64 s).map fun b => wrap t.ptrs (.bytes b)
    | .time => (L.parseTime s).map fun x => wrap t.ptrs (.time x false)
    | .iface => some (wrap t.ptrs (generic L (.str s)))
    | _ => none
  | .arr l => match t.base with
    | .slice u => (decodeAll u l).map fun vs => wrap t.ptrs (.slice vs)
    | .iface => some (wrap t.ptrs (generic L (.arr l)))
    | _ => none
  | .obj ks js => match t.base with
    | .map u => (decodeEntries u ks js [] []).map fun x => wrap t.ptrs (.map x.1 x.2)
    | .struct keys vis _ ts => (decodeFields keys vis ts ks js (zeros ts)).map fun vs => wrap t.ptrs (.struct vs)
    | .iface => some (wrap t.ptrs (generic L (.obj ks js)))
    | _ => none
/-- the elements of an array (`event.go:179`) -/
def decodeAll (t : Ty) : List J → Option (List Val)
  | [] => some []
  | j :: js => (decode t j).bind fun v => (decodeAll t js).map (v :: ·)
/-- the entries of an object, into a map (`event.go:179`) -/
def decodeEntries (t : Ty) : List (List Char) → List J → List (List Piece) → List Val → Option (List (List Piece) × List Val)
  | k :: ks, j :: js, aks, avs => (decode t j).bind fun v => decodeEntries t ks js (put (ofChars k) v aks avs).1 (put (ofChars k) v aks avs).2
  | _, _, aks, avs => some (aks, avs)
/-- the entries of an object, into a struct (`event.go:179`); unknown keys are skipped -/
def decodeFields (keys : List (List Char)) (vis : List Bool) (ts : List Ty) : List (List Char) → List J → List Val → Option (List Val)
  | k :: ks, j :: js, vs =>
    match field L k keys vis ts with
    | none => decodeFields keys vis ts ks js vs
    | some (i, t) => (decode t j).bind fun v => decodeFields keys vis ts ks js (vs.set i v)
  | _, _, vs => some vs
end

/-- what a handler whose parameter is a pointer to `u` gets of an event of type `t` (`event.go:246,178-181`): none if the event can not be made; some none if it can not be decoded, then the handler is not called -/
def received (t u : Ty) (v : Val) : Option (Option Val) := (encode L t v).map (decode L u)

end Ddd.Json
