import Verif.Model.Binder
/-!
# params/params.go:123-210: `BindValuesToStruct`

Struct values are finite trees: pointers reached through embedded fields are assumed distinct (then the code's
`pointerMap` never skips anything), and self-embedding types are not modelled.
-/
namespace Verif.Params
open Verif.Go

/-- A field of the destination struct with its current value (params/params.go:138-140). -/
inductive SF where
  /-- not embedded: exported?, `param` tag, name, type, value -/
  | leaf (exported : Bool) (tag name : Str) (t : Ty) (v : V)
  /-- embedded struct -/
  | emb (exported : Bool) (tag : Str) (fs : List SF)
  /-- embedded pointer to a struct; when it is nil, `fs` are the zero fields of a fresh struct -/
  | embPtr (exported : Bool) (tag : Str) (isNil : Bool) (fs : List SF)
  /-- any other embedded field -/
  | embOther (v : V)

/-- params/params.go:151-158: the parameter's name: the tag up to a comma, or the field's name. -/
def paramName (tag name : Str) : Str :=
  if (44 : UInt8) ∈ tag then tag.takeWhile (fun c => c ≠ 44) else if tag = [] then name else tag

/-- params/params.go:198-202: does one of the plain fields of this struct have a parameter? -/
def anyParam (p : P) : List SF → Bool
  | [] => false
  | .leaf exported tag name _ _ :: fs =>
    (exported && tag ≠ b!"-" && (firstValue p (paramName tag name)).isSome) || anyParam p fs
  | _ :: fs => anyParam p fs

mutual
/-- params/params.go:138-208, the body of the loop for one field; `none` is a panic (`field.Set` of an unexported
embedded pointer, or a panic inside `Bind`). -/
def bindSF (x : Ext) (it : Order) (p : P) (path : List Nat) : SF → Option SF
  | .leaf exported tag name t v =>
    if exported = false ∨ tag = b!"-" then some (.leaf exported tag name t v)
    else (bind x it t path p (paramName tag name)).map (fun w => .leaf exported tag name t w)
  | .emb exported tag fs =>
    if tag = b!"-" then some (.emb exported tag fs)
    else (bindSFs x it p path 0 fs).map (fun gs => .emb exported tag gs)
  | .embPtr exported tag isNil fs =>
    if tag = b!"-" then some (.embPtr exported tag isNil fs)
    else
      match bindSFs x it p path 0 fs with
      | none => none
      | some gs =>
        if anyParam p fs then (if exported then some (.embPtr exported tag false gs) else none)
        else if isNil then some (.embPtr exported tag true fs)
        else some (.embPtr exported tag false gs)
  | .embOther v => some (.embOther v)
/-- params/params.go:135-210 `bindValuesToStruct` (its result is `anyParam`). -/
def bindSFs (x : Ext) (it : Order) (p : P) (path : List Nat) : Nat → List SF → Option (List SF)
  | _, [] => some []
  | n, f :: fs =>
    match bindSF x it p (n :: path) f, bindSFs x it p path (n + 1) fs with
    | some g, some gs => some (g :: gs)
    | _, _ => none
end

end Verif.Params
