import Verif.Model.DevPage
/-!
# Assertions in tests: assert.go

`testing` (`Errorf` records a message, `FailNow` ends the test with `runtime.Goexit`), `reflect` and `runtime.Caller` are trusted.
-/
namespace Verif.Assert
open Verif.Go
open Verif.Page (Frame fileSource)

/-- The kinds of dynamic types, in the order of package reflect (assert.go:23, 32). -/
inductive Kind where
  | invalid | bool | int | int8 | int16 | int32 | int64 | uint | uint8 | uint16 | uint32 | uint64 | uintptr | float32 | float64 | complex64
  | complex128 | array | chan | func | interface | map | ptr | slice | string | struct | unsafePointer
deriving DecidableEq, Repr

/-- The number of a kind (assert.go:23, 32). -/
def Kind.num : Kind → Nat
  | .invalid => 0 | .bool => 1 | .int => 2 | .int8 => 3 | .int16 => 4 | .int32 => 5 | .int64 => 6 | .uint => 7 | .uint8 => 8 | .uint16 => 9
  | .uint32 => 10 | .uint64 => 11 | .uintptr => 12 | .float32 => 13 | .float64 => 14 | .complex64 => 15 | .complex128 => 16 | .array => 17
  | .chan => 18 | .func => 19 | .interface => 20 | .map => 21 | .ptr => 22 | .slice => 23 | .string => 24 | .struct => 25
  | .unsafePointer => 26

/-- An argument of type `interface{}` (assert.go:20, 29): nil, or of a dynamic type of this kind; `zero`: it is the zero value of its type
(for the kinds that `reflect.Value.IsNil` allows: nil). -/
inductive Val where
  | nilI
  | of (k : Kind) (zero : Bool)
deriving DecidableEq, Repr

/-- `reflect.ValueOf(ni).Kind()` (assert.go:22, 31). -/
def Val.kind : Val → Kind
  | .nilI => .invalid
  | .of k _ => k

/-- `val.IsNil()` for these kinds (assert.go:23, 32). -/
def Val.isNil : Val → Bool
  | .nilI => false
  | .of _ z => z

/-- The calls. `noError`: the text of the error, if it is not nil (assert.go:13, 20, 29, 38, 45). -/
inductive Claim where
  | noError (err : Option Str)
  | isNil (v : Val)
  | notNil (v : Val)
  | isTrue (b : Bool)
  | isFalse (b : Bool)
deriving DecidableEq, Repr

/-- The conditions (assert.go:14, 23, 32, 39, 46). -/
def Claim.fails : Claim → Bool
  | .noError err => err.isSome
  | .isNil v => v ≠ .nilI && !(v.kind.num ≥ Kind.chan.num && v.kind.num ≤ Kind.slice.num && v.isNil)
  | .notNil v => v = .nilI || (v.kind.num ≥ Kind.chan.num && v.kind.num ≤ Kind.slice.num && v.isNil)
  | .isTrue b => !b
  | .isFalse b => b

/-- The messages, before the position (assert.go:15, 24, 33, 40, 47). -/
def Claim.text : Claim → Str
  | .noError err => b!"expected no error but get `" ++ err.getD b!"<nil>" ++ b!"`"
  | .isNil _ => b!"expected nil"
  | .notNil _ => b!"expected not nil"
  | .isTrue _ => b!"expected true but get false"
  | .isFalse _ => b!"expected false but get true"

/-- assert.go:52-67 `callerInfo`: `fs` is the stack seen from it, innermost frame first. -/
def callerInfo (read : Str → Option Str) (fs : List Frame) : Str :=
  match fs[0]?, fs[1]?, fs[2]? with
  | some _, some _, some f => f.file ++ b!":" ++ natDec f.line ++ b!" " ++ (fileSource read f.file f.line).getD []
  | _, _, _ => []

/-- What a test does: it calls an assertion (`us`: its stack then), or does something else. -/
inductive Step where
  | claim (c : Claim) (us : List Frame)
  | other (s : Str)

/-- What there is to see: the messages, whether the test failed, and what else was done. -/
structure Out where
  messages : List Str := []
  failed : Bool := false
  did : List Str := []
deriving DecidableEq, Repr

/-- A test (assert.go:13-50): `info` and `method` are the frames of `callerInfo` and of the assertion. -/
def run (read : Str → Option Str) (info method : Frame) : List Step → Out → Out
  | [], o => o
  | .other s :: l, o => run read info method l { o with did := o.did ++ [s] }
  | .claim c us :: l, o =>
    if c.fails then { o with messages := o.messages ++ [c.text ++ b!"\n" ++ callerInfo read (info :: method :: us)], failed := true }
    else run read info method l o

end Verif.Assert
