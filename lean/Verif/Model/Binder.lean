import Verif.Model.Params
/-!
# params/binder.go: binding parameters to Go values

Types are finite trees (recursive struct types are not modelled); map types are modelled separately
(`bindMap`); user-added type binders are not modelled. Float and time values are codes produced by the
parsers of the standard library, which are parameters. Every `range` over a map may visit it in another
order: each dynamic call asks the oracle `it`, under its own call path, for the order.
-/
namespace Verif.Params
open Verif.Go Verif.Conv

mutual
/-- Types of destinations. Struct fields carry name, exportedness and type.
(reflect.Type of params/binder.go:180-206, 390-400). -/
inductive Ty where
  | bool
  | int (k : IntKind)
  | float (bits : Nat)
  | string
  | time
  | ptr (t : Ty)
  | slice (t : Ty)
  | struct (fs : Fields)
  /-- interfaces, functions, channels, arrays: no binder -/
  | other
/-- the fields of a struct type, params/binder.go:320. -/
inductive Fields where
  | nil
  | cons (name : Str) (exported : Bool) (t : Ty) (rest : Fields)
end

/-- Values. `nil` is the nil pointer, nil slice or the zero value of a type without binder; floats and times are
codes (`0` is the zero value) (reflect.Value of params/binder.go:34). -/
inductive V where
  | bool (b : Bool)
  | int (i : Int)
  | float (n : Nat)
  | str (s : Str)
  | time (n : Nat)
  | nil
  | ptr (v : V)
  | slice (l : List V)
  | struct (l : List V)
deriving Repr

mutual
/-- `reflect.Zero(typ)` (params/binder.go:42, 374). -/
def zero : Ty → V
  | .bool => .bool false
  | .int _ => .int 0
  | .float _ => .float 0
  | .string => .str []
  | .time => .time 0
  | .ptr _ => .nil
  | .slice _ => .nil
  | .struct fs => .struct (zeros fs)
  | .other => .nil
/-- params/binder.go:305: the fields of `reflect.New(typ).Elem()`. -/
def zeros : Fields → List V
  | .nil => []
  | .cons _ _ t rest => zero t :: zeros rest
end

/-- The two maps of a `Params` that binding reads: values, and files (how many for each key) (params/params.go:27-42). -/
structure P where
  values : Values
  files : List (Str × Nat)

/-- Standard-library functions and limits left as parameters: `ParseFloat(_, 64)` stored into a float of the given
width, the time formats of params/binder.go:147-171, and the largest slice `reflect.MakeSlice` can make. -/
structure Ext where
  float : Nat → Str → Nat
  time : Str → Nat
  maxLen : Nat

/-- Order in which a `range` loop visits the maps, for each dynamic call (params/binder.go:275, 278, 307, 347, 351). -/
abbrev Order := List Nat → P → P

/-- params/binder.go:38-46 `ValueBinder`: the first value, or zero. -/
def firstValue (p : P) (name : Str) : Option Str :=
  match lookup p.values name with
  | some (v :: _) => some v
  | _ => none

/-- params/binder.go:64-77, 79-92: `IntBinder`, `UintBinder`: 64-bit parsing, then `SetInt`/`SetUint` truncates to
the type's width. -/
def bindInt (k : IntKind) (s : Str) : Int :=
  if s = [] then 0
  else if k.signed = true then
    match parseInt 64 s with
    | (i, none) => wrapS k.width i
    | _ => 0
  else
    match parseUint 64 s with
    | (n, none) => wrapU k.width n
    | _ => 0

/-- params/binder.go:115-129 `BoolBinder` (`ToLower` on ASCII letters; no other letter lower-cases to one of
t, r, u, e, o, n). -/
def bindBool (s : Str) : Bool :=
  trimSpace (toLower s) = b!"true" ∨ trimSpace (toLower s) = b!"on" ∨ trimSpace (toLower s) = b!"1"

/-- `Params{Values: {"": {val}}}`, params/binder.go:377-379. -/
def single (v : Str) : P := ⟨[([], [v])], []⟩

/-- `Params{Files: {"": {fh}}}`, params/binder.go:381-383. -/
def singleFile : P := ⟨[], [([], 1)]⟩

/-- params/binder.go:268-273 `normalizeKey`. -/
def normalizeKey (name key : Str) : Str := if trimPrefix key name = [] then key ++ b!"[]" else key

/-- params/binder.go:230-236: the index in brackets and the key up to the closing bracket, when the index counts
(`> -1`). `Atoi`'s error is dropped, so text that is not a number gives 0. -/
def keyIndex (name key : Str) : Option (Nat × Str) :=
  match indexByte (key.drop name.length) 93 with
  | none => none
  | some r =>
    if r > 1 then
      if (parseInt 64 (((key.drop name.length).take r).drop 1)).1 > -1 then
        some ((parseInt 64 (((key.drop name.length).take r).drop 1)).1.toNat, key.take (name.length + r + 1))
      else none
    else none

/-- params/binder.go:208-212 `sliceValue`: index (`none`: -1) and the bound value (`none`: binding panicked). -/
structure SV where
  idx : Option Nat
  val : Option V

/-- params/binder.go:224-266 `processElement` for one key. -/
def processElement (bindE : List Nat → P → Str → Option V) (p : P) (name : Str) (path : List Nat) (key : Str)
    (vals : List Str) (nfiles : Nat) : List SV :=
  if hasPrefix key (name ++ [91]) = true then
    match keyIndex name key with
    | some (i, sub) => [⟨some i, bindE (0 :: path) p sub⟩]
    | none =>
      vals.map (fun v => ⟨none, bindE (1 :: path) (single v) []⟩) ++
        (List.range nfiles).map (fun j => ⟨none, bindE (j :: 2 :: path) singleFile []⟩)
  else []

/-- params/binder.go:275-280: all elements, in the order the loops visit the keys. -/
def elements (bindE : List Nat → P → Str → Option V) (p : P) (name : Str) (path : List Nat) (visit : P) : List SV :=
  visit.values.zipIdx.flatMap (fun e => processElement bindE p name (e.2 :: 0 :: path) (normalizeKey name e.1.1) e.1.2 0) ++
  visit.files.zipIdx.flatMap (fun e => processElement bindE p name (e.2 :: 1 :: path) (normalizeKey name e.1.1) [] e.1.2)

/-- params/binder.go:240-242: `maxIndex + 1` after one more element. -/
def sizeStep (n : Nat) (e : SV) : Nat :=
  match e.idx with
  | some i => max n (i + 1)
  | none => n

/-- `maxIndex + 1` (params/binder.go:282). -/
def size (l : List SV) : Nat := l.foldl sizeStep 0

/-- params/binder.go:283-289: one element put into the slice. -/
def place (acc : List V) (e : SV) : List V :=
  match e.idx, e.val with
  | some i, some v => acc.set i v
  | none, some v => acc ++ [v]
  | _, none => acc

/-- params/binder.go:282-291: the finished slice; `none` when an element panicked or the slice is too long. -/
def build (maxLen : Nat) (z : V) (l : List SV) : Option V :=
  if l.any (fun e => e.val.isNone) then none
  else if size l > maxLen then none
  else some (.slice (l.foldl place (List.replicate (size l) z)))

/-- params/binder.go:294-302 `nextKey`. -/
def nextKey (key : Str) : Str := key.takeWhile (fun c => c ≠ 46 ∧ c ≠ 91)

/-- params/binder.go:307-315: does some key name this field of the struct called `name`? -/
def mentions (p : P) (name field : Str) : Bool :=
  p.values.any (fun e => hasPrefix e.1 (name ++ [46]) && decide (nextKey (e.1.drop (name.length + 1)) = field))

mutual
/-- params/binder.go:363-375 `Bind`, with the binders of 64-176 and 218-361: `none` is a panic.
Simplification: `FieldByName` also finds promoted fields of embedded structs; these are not modelled. -/
def bind (x : Ext) (it : Order) : Ty → List Nat → P → Str → Option V
  | .bool, _, p, name => some (match firstValue p name with | some s => .bool (bindBool s) | none => .bool false)
  | .int k, _, p, name => some (match firstValue p name with | some s => .int (bindInt k s) | none => .int 0)
  | .float b, _, p, name =>
    some (match firstValue p name with | some s => .float (if s = [] then 0 else x.float b s) | none => .float 0)
  | .string, _, p, name => some (match firstValue p name with | some s => .str s | none => .str [])
  | .time, _, p, name => some (match firstValue p name with | some s => .time (x.time s) | none => .time 0)
  | .ptr t, path, p, name =>
    match firstValue p name with
    | none => some .nil
    | some _ => (bind x it t (0 :: path) p name).map .ptr
  | .slice t, path, p, name =>
    build x.maxLen (zero t) (elements (fun path p n => bind x it t path p n) p name (1 :: path) (it path p))
  | .struct fs, path, p, name => (bindFields x it fs 0 path p name).map .struct
  | .other, _, _, _ => some .nil
/-- params/binder.go:304-334 `bindStruct`: a field is bound, once, when a key names it and it can be set. -/
def bindFields (x : Ext) (it : Order) : Fields → Nat → List Nat → P → Str → Option (List V)
  | .nil, _, _, _, _ => some []
  | .cons f exported t rest, n, path, p, name =>
    match (if exported && mentions p name f then bind x it t (n :: path) p (name ++ [46] ++ f) else some (zero t)),
      bindFields x it rest (n + 1) path p name with
    | some v, some vs => some (v :: vs)
    | _, _ => none
end

/-- params/binder.go:336-361 `bindMap` when the parameter itself is empty or absent (otherwise its value is JSON:
see Model/BindMap), for string keys and values bound by `bv`, as the entry of one key: the last key visited wins.
`kb` converts the text of the key to the map's key type. -/
def bindMap {K W : Type} [DecidableEq K] (kb : Str → K) (bv : Str → W) (visit : Values) (name : Str) : List (K × W) :=
  visit.foldl (fun m e =>
    if hasPrefix e.1 (name ++ [91]) = true ∧ e.1.getLast? = some 93 then
      (kb ((e.1.drop (name.length + 1)).dropLast), bv (e.2.headD [])) ::
        m.filter (fun y => y.1 ≠ kb ((e.1.drop (name.length + 1)).dropLast))
    else m) []

end Verif.Params
