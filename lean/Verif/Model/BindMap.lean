import Verif.Model.Binder
/-!
# Map parameters: params/binder.go:336-361

Maps with keys of kind bool, string or integer; the values are of any type `Model/Binder` has, or maps again. Maps below
slices, pointers and struct fields are not modelled. `json.Unmarshal` is a parameter.
-/
namespace Verif.Params
open Verif.Go Verif.Conv

/-- Key types (the `typ.Key()` of params/binder.go:339). -/
inductive KTy where
  | bool
  | int (k : IntKind)
  | string
deriving DecidableEq, Repr

/-- Keys. -/
inductive Key where
  | bool (b : Bool)
  | int (i : Int)
  | str (s : Str)
deriving DecidableEq, Repr

/-- Types: those of `Model/Binder`, and maps (`typ.Elem()` of params/binder.go:340). -/
inductive MTy where
  | plain (t : Ty)
  | map (k : KTy) (v : MTy)

/-- Values; the entries of a map in no particular order. -/
inductive MV where
  | plain (v : V)
  | map (entries : List (Key × MV))
deriving Repr

/-- What `json.Unmarshal` puts into an `interface{}`, as far as `fmt.Sprint` (params/binder.go:346) can tell: whole numbers
of at most 2^53 (all numbers are float64), strings, booleans, null, and anything else by the text it prints as. -/
inductive JVal where
  | str (s : Str)
  | num (i : Int)
  | bool (b : Bool)
  | null
  | other (text : Str)
deriving DecidableEq, Repr

/-- A text without the zeros at its end (used for params/binder.go:346). -/
def stripZeros (s : Str) : Str := (s.reverse.dropWhile (fun c => c = 48)).reverse

/-- `%v` of a whole float64 of a million or more: its first digit, the others after a point, and the exponent in at least
two digits (params/binder.go:346). -/
def sciNat (n : Nat) : Str :=
  match natDec n with
  | [] => []
  | d :: ds =>
    d :: (if stripZeros ds = [] then [] else 46 :: stripZeros ds) ++ b!"e+" ++
      (if ds.length < 10 then 48 :: natDec ds.length else natDec ds.length)

/-- params/binder.go:346 `fmt.Sprint(value)`. -/
def sprint : JVal → Str
  | .str s => s
  | .num i =>
    if i.natAbs < 1000000 then fmtInt i
    else if i < 0 then 45 :: sciNat i.natAbs else sciNat i.natAbs
  | .bool b => if b then b!"true" else b!"false"
  | .null => b!"<nil>"
  | .other t => t

/-- Standard library: what `json.Unmarshal` leaves in a `map[string]interface{}` (nothing, if the text is not a JSON
object; params/binder.go:343-344), and the order in which the loop of 345 visits it. -/
structure JExt where
  json : Str → List (Str × JVal)
  order : List Nat → List (Str × JVal) → List (Str × JVal)

/-- params/binder.go:377-379 `BindValue(key, keyType)`. -/
def bindKey : KTy → Str → Key
  | .bool, s => .bool (bindBool s)
  | .int k, s => .int (bindInt k s)
  | .string, s => .str s

/-- `Values.Get(name)` (params/binder.go:342). -/
def getFirst (p : P) (name : Str) : Str := (firstValue p name).getD []

/-- params/binder.go:351-357: the text of the key and of the value (`none`: `values[0]` panics) of one parameter, if its
name is that of an entry. -/
def bracketEntry (name : Str) (e : Str × List Str) : Option (Str × Option Str) :=
  if hasPrefix e.1 (name ++ [91]) = true ∧ e.1.getLast? = some 93 then
    some ((e.1.drop (name.length + 1)).dropLast, e.2.head?)
  else none

/-- `result.SetMapIndex` (params/binder.go:346, 357). -/
def setEntry (m : List (Key × MV)) (k : Key) (v : MV) : List (Key × MV) := (k, v) :: m.filter (fun e => e.1 ≠ k)

/-- One turn of the loops of params/binder.go:345-347, 351-358; `none`: panicked. -/
def fillStep (kt : KTy) (bindV : List Nat → Str → Option MV) (path : List Nat) (acc : Option (List (Key × MV)))
    (e : (Str × Option Str) × Nat) : Option (List (Key × MV)) :=
  match acc, e.1.2.bind (bindV (e.2 :: path)) with
  | some m, some v => some (setEntry m (bindKey kt e.1.1) v)
  | _, _ => none

/-- params/binder.go:345-347, 351-358. -/
def fill (kt : KTy) (bindV : List Nat → Str → Option MV) (path : List Nat) (l : List (Str × Option Str)) :
    Option (List (Key × MV)) :=
  l.zipIdx.foldl (fillStep kt bindV path) (some [])

/-- params/binder.go:342-359: the entries in the order the loop visits them. -/
def mapEntries (j : JExt) (it : Order) (path : List Nat) (p : P) (name : Str) : List (Str × Option Str) :=
  if getFirst p name ≠ [] then
    (j.order path (j.json (getFirst p name))).map (fun e => (e.1, some (sprint e.2)))
  else (it path p).values.filterMap (bracketEntry name)

/-- params/binder.go:336-361 `bindMap`, reached through `Bind` (363-375); `none` is a panic. -/
def bindM (x : Ext) (j : JExt) (it : Order) : MTy → List Nat → P → Str → Option MV
  | .plain t, path, p, name => (bind x it t path p name).map .plain
  | .map k v, path, p, name =>
    (fill k (fun path' s => bindM x j it v path' (single s) []) path (mapEntries j it path p name)).map .map

end Verif.Params
