import Verif.Model.Config
import Verif.Model.Conv
/-!
# Binding configuration to variables and structs: config.go, app_util.go:197-254, config/config_parse.go
-/
namespace Verif.Conf
open Verif.Go Verif.Conv

/-- Element types of a slice that `convertStringAsType` distinguishes: `byte`/`string` themselves, named types of
those kinds, others (app_util.go:232-244). -/
inductive Elem where
  | byte | namedByte | string | namedString | other
deriving DecidableEq, Repr

/-- The types of variables (named types have the kind of their underlying type and convert from it).
(app_util.go:202-247). -/
inductive Ty where
  | bool
  | float (bits : Nat)
  | int (k : IntKind)
  | string
  | slice (e : Elem)
  | ptr (t : Ty)
  /-- maps, structs, interfaces, functions, channels, arrays, complex numbers -/
  | other
deriving DecidableEq, Repr

/-- Values of variables; floats are whatever `strconv.ParseFloat` gives (`F`), other values are opaque.
(app_util.go:198, 249-252; config.go:84-92). -/
inductive Val (F : Type) where
  | bool (b : Bool)
  | float (f : F)
  | int (i : Int)
  | string (s : Str)
  | bytes (s : Str)
  | strings (l : List Str)
  | ptr (v : Option (Val F))
  | opaque (n : Nat)
deriving Repr

/-- `strconv.ParseFloat(s, bits)` as the root package's `StrTo` uses it: the float, or the zero float.
(app_util.go:30-45). -/
abbrev FloatParser (F : Type) := Nat → Str → F

/-- app_util.go:189-195 `indirectType`. -/
def indirectTy : Ty → Ty
  | .ptr t => indirectTy t
  | t => t

/-- app_util.go:235-243: the parts of a `[]string`: split at commas, trimmed, empty ones dropped. -/
def splitList (s : Str) : List Str := ((splitOn1 44 s).map trimSpace).filter (fun e => e ≠ [])

variable {F : Type}

/-- app_util.go:197-254 `convertStringAsType` (errors of the number parsers are dropped): `none` is the invalid
`reflect.Value`; `.panic` is `reflect.ValueOf(nil).Type()`. -/
def convertStringAsType (pf : FloatParser F) (s : Str) (t : Ty) : Res (Option (Val F)) :=
  match indirectTy t with
  | .bool => .ok (some (.bool (strToBool s).1))
  | .float bits => .ok (some (.float (pf bits s)))
  | .int k => .ok (some (.int (rootStrTo k s).1))
  | .string => .ok (some (.string s))
  | .slice .byte => .ok (some (.bytes s))
  | .slice .namedByte => .ok none
  | .slice .string => .ok (some (.strings (splitList s)))
  | .slice .namedString => .ok none
  | .slice .other => .panic
  | .ptr _ => .ok none
  | .other => .ok none

/-- config.go:72-94 `Bind` of a non-nil pointer to a variable of type `t` holding `v`: the variable's new value.
`find?` is `none` when no configuration system was imported. -/
def bind (pf : FloatParser F) (find? : Option (Str → Str)) (t : Ty) (v : Val F) (name : Str) : Res (Val F) :=
  match find? with
  | none => .ok v
  | some _ =>
    if appFind find? name none = [] then .ok v
    else
      match convertStringAsType pf (appFind find? name none) t with
      | .ok none => .ok v
      | .ok (some x) =>
        match t with
        | .ptr (.ptr _) => .panic
        | .ptr _ => .ok (.ptr (some x))
        | _ => .ok x
      | .err e => .err e
      | .panic => .panic

/-- What reflection says about a struct field (config/config_parse.go:23-31). -/
structure Info where
  exported : Bool
  anonymous : Bool
  /-- the `conf` tag (empty when there is none) -/
  tag : Str

/-- A struct's fields with their current values (config/config_parse.go:22-24). -/
inductive Fld (F : Type) where
  | leaf (i : Info) (t : Ty) (v : Val F)
  | struct (i : Info) (fs : List (Fld F))

/-- config/config_parse.go:24. -/
def Fld.info : Fld F → Info
  | .leaf i _ _ => i
  | .struct i _ => i

/-- config/config_parse.go:31-34, 51-54: no tag, or "-". -/
def skipped (tag : Str) : Bool := tag = [] ∨ tag = b!"-"

/-- config/config_parse.go:45-58 `parseSection`; `ro` says that the section's struct was reached through an
unexported field (then `Interface()` panics). A struct field is bound as a variable of a type that cannot be
converted. -/
def parseSection (pf : FloatParser F) (find? : Option (Str → Str)) (ro : Bool) (sec : Str) :
    List (Fld F) → Res (List (Fld F))
  | [] => .ok []
  | f :: fs =>
    if skipped f.info.tag then
      (parseSection pf find? ro sec fs).bind fun fs' => .ok (f :: fs')
    else if ro = true ∨ f.info.exported = false then .panic
    else
      match f with
      | .leaf i t v =>
        (bind pf find? t v (sec ++ b!"::" ++ i.tag)).bind fun v' =>
          (parseSection pf find? ro sec fs).bind fun fs' => .ok (.leaf i t v' :: fs')
      | .struct i gs =>
        (bind pf find? .other (.opaque 0) (sec ++ b!"::" ++ i.tag)).bind fun _ =>
          (parseSection pf find? ro sec fs).bind fun fs' => .ok (.struct i gs :: fs')

mutual
/-- config/config_parse.go:9-43 `Decode`, the body of the loop for one field. -/
def decode1 (pf : FloatParser F) (find? : Option (Str → Str)) : Fld F → Res (Fld F)
  | .struct i gs =>
    if i.anonymous = true then
      if i.exported = false then .panic
      else (decode pf find? gs).bind fun gs' => .ok (.struct i gs')
    else if skipped i.tag then .ok (.struct i gs)
    else (parseSection pf find? (!i.exported) i.tag gs).bind fun gs' => .ok (.struct i gs')
  | .leaf i t v =>
    if skipped i.tag then .ok (.leaf i t v)
    else if i.exported = false then .panic
    else (bind pf find? t v i.tag).bind fun v' => .ok (.leaf i t v')
/-- config/config_parse.go:9-43 `Decode` of a pointer to a struct with these fields. -/
def decode (pf : FloatParser F) (find? : Option (Str → Str)) : List (Fld F) → Res (List (Fld F))
  | [] => .ok []
  | f :: fs => (decode1 pf find? f).bind fun f' => (decode pf find? fs).bind fun fs' => .ok (f' :: fs')
end

end Verif.Conf
