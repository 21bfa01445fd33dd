import Verif.Model.Conv
/-!
# Dynamic values: utils/converter_value_to.go, utils/converter.go:160-231

`ValueTo(x)` wraps any value; its methods convert it. Floats are not modelled.
-/
namespace Verif.Conv
open Verif.Go

/-- What `ValueTo` is given: a value of a predeclared type (or nil, or something of none of the kinds below), a value of
a type the program defined over one of them (`type ID int64`), or a `[]string`
(utils/converter_value_to.go:10-12, 217-219). -/
inductive Src where
  | plain (a : Any)
  | named (a : Any)
  | strings (l : List Str)
deriving DecidableEq, Repr

/-- utils/converter.go:160-184 `ToStr` without further arguments: by the kind of the value, so that defined types are
printed as the predeclared ones; but a defined type over `[]byte` is not a `[]byte` (178), and what is printed for the
rest is a nil `[]byte` (182). -/
def Src.toStr : Src → Str
  | .plain a => Conv.toStr a
  | .named (.int _ i) => fmtInt i
  | .named (.str s) => s
  | .named (.bool b) => if b then b!"true" else b!"false"
  | .named _ => b!"[]byte(nil)"
  | .strings _ => b!"[]byte(nil)"

/-- utils/converter_value_to.go:119-127 `String` (and `MustString`, 194-197). -/
def Src.string : Src → Str
  | .plain (.str s) => s
  | .plain .nil => []
  | v => v.toStr

/-- utils/converter_value_to.go:39-117 `Int`, …, `Uint64`: a value of exactly that type as it is, otherwise its text is
parsed (`Uint` parses 32 bits, 90). -/
def Src.int (k : IntKind) : Src → Int × Option NumErr
  | .plain (.int k' i) => if k' = k then (i, none) else valueTo.go k (Src.plain (.int k' i)).string
  | v => valueTo.go k v.string

/-- utils/converter_value_to.go:144-192 `MustInt`, …, `MustUint64`: the error is dropped. -/
def Src.mustInt (k : IntKind) (v : Src) : Int := (v.int k).1

/-- utils/converter_value_to.go:14-22 `Bool`: the value, and whether there is no error. A defined string type is not equal
to the constant `"on"` (18: another dynamic type). -/
def Src.bool : Src → Bool × Bool
  | .plain (.bool b) => (b, true)
  | .plain (.str s) => if s = b!"on" then (true, true) else parseBool s
  | v => parseBool v.string

/-- utils/converter_value_to.go:129-132 `MustBool`. -/
def Src.mustBool (v : Src) : Bool := v.bool.1

/-- utils/converter_value_to.go:204-207 `MustBytes` (`none`: nil). -/
def Src.mustBytes : Src → Option Str
  | .plain (.bytes s) => some s
  | _ => none

/-- utils/converter_value_to.go:199-202 `MustSliceString` (`none`: nil). -/
def Src.mustStrings : Src → Option (List Str)
  | .strings l => some l
  | _ => none

/-- utils/converter_value_to.go:213-215 `IsNil`. -/
def Src.isNil : Src → Bool
  | .plain .nil => true
  | _ => false

/-- utils/converter.go:200-231 `argString.Get`, `argInt.Get`, `argAny.Get`: the i-th argument, or the given default, or
the zero value. -/
def argGet {α : Type} (zero : α) (a : List α) (i : Int) (dflt : List α) : α :=
  if 0 ≤ i ∧ i < a.length then a[i.toNat]?.getD zero
  else
    match dflt with
    | d :: _ => d
    | [] => zero

end Verif.Conv
