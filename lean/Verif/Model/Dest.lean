import Verif.Model.BindStruct
/-!
# params/params.go:86-96, 125-133: what a handler may give `Params.Bind` and `BindValuesToStruct` to write to
-/
namespace Verif.Params
open Verif.Go

/-- The `interface{}` given to `Params.Bind` (params/params.go:86): nothing, a value which is not a pointer, or a pointer to
a variable of a type: nil, or with what the variable holds. -/
inductive BindDest where
  | nothing
  | value (t : Ty) (v : V)
  | ptr (t : Ty) (cur : Option V)

/-- The `interface{}` given to `BindValuesToStruct` (params/params.go:125). `value` and `ptrValue` are of types that are not
structs (a pointer to a pointer is a `ptrValue`); a `time.Time` is a struct without exported fields. -/
inductive StructDest where
  | nothing
  | value (v : V)
  | ptrValue (v : Option V)
  | struct (fs : List SF)
  | ptrStruct (cur : Option (List SF))

/-- How such a call ends: it returns, it panics with a text of its own (params/params.go:89, 93, 130), or the reflect package
or the runtime panics (params/params.go:95, 136, 138, 190, 205). -/
inductive DestRes (α : Type) where
  | ok (a : α)
  | own (text : Str)
  | reflect

/-- params/params.go:86-96 `Params.Bind`: what the variable holds afterwards. `reflect.ValueOf(nil)` has no kind, so it is not
a pointer; the element of a nil pointer can not be set. -/
def bindInto (x : Ext) (it : Order) (p : P) (name : Str) : BindDest → DestRes V
  | .nothing => .own (b!"non-pointer passed to Bind: " ++ name)
  | .value _ _ => .own (b!"non-pointer passed to Bind: " ++ name)
  | .ptr _ none => .own (b!"non-settable variable passed to Bind: " ++ name)
  | .ptr t (some _) =>
    match bind x it t [] p name with
    | none => .reflect
    | some v => .ok v

mutual
/-- params/params.go:138-208 for a field which can not be set because the struct was given by value: `field.Set` panics (205,
190). An embedded pointer leads to a struct that can be set. -/
def bindRO (x : Ext) (it : Order) (p : P) (path : List Nat) : SF → Option SF
  | .leaf exported tag name t v =>
    if exported = false ∨ tag = b!"-" then some (.leaf exported tag name t v) else none
  | .emb exported tag fs =>
    if tag = b!"-" then some (.emb exported tag fs)
    else (bindROs x it p path 0 fs).map (fun gs => .emb exported tag gs)
  | .embPtr exported tag isNil fs =>
    if tag = b!"-" then some (.embPtr exported tag isNil fs)
    else
      match bindSFs x it p path 0 fs with
      | none => none
      | some gs =>
        if anyParam p fs then none
        else if isNil then some (.embPtr exported tag true fs)
        else some (.embPtr exported tag false gs)
  | .embOther v => some (.embOther v)
/-- params/params.go:135-210 on a struct that can not be set. -/
def bindROs (x : Ext) (it : Order) (p : P) (path : List Nat) : Nat → List SF → Option (List SF)
  | _, [] => some []
  | n, f :: fs =>
    match bindRO x it p (n :: path) f, bindROs x it p path (n + 1) fs with
    | some g, some gs => some (g :: gs)
    | _, _ => none
end

/-- The check of params/params.go:129 on the kind of the value and of what it points to. -/
def needPtr : StructDest → Bool
  | .nothing => true
  | .value _ => true
  | .ptrValue _ => false
  | .struct _ => false
  | .ptrStruct _ => false

/-- params/params.go:125-133 `BindValuesToStruct`: the fields of the struct afterwards (for a struct given by value: of the
caller's copy, whose embedded pointers lead to shared structs). The check at 129 asks for "not a pointer AND not a struct"; what passes
it without being a struct or a pointer to one panics in `elm.Type` or `elm.NumField` (136, 138). -/
def bindStructInto (x : Ext) (it : Order) (p : P) (d : StructDest) : DestRes (List SF) :=
  if needPtr d = true then .own b!"need ptr of struct"
  else match d with
    | .struct fs => match bindROs x it p [] 0 fs with | none => .reflect | some gs => .ok gs
    | .ptrStruct (some fs) => match bindSFs x it p [] 0 fs with | none => .reflect | some gs => .ok gs
    | _ => .reflect

end Verif.Params
