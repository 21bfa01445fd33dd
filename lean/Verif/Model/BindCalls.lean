import Verif.Model.Binder
/-!
# params/binder.go:218-375: which calls of `Bind` a call of `Bind` makes, for types that may contain themselves

Model/Binder takes a type for a finite tree. Here types have numbers and a table says what they are, so that a type may contain itself by way of pointers,
slices and structs. What is bound is left out: only the calls are listed. Maps are left out.
-/
namespace Verif.BindCalls
open Verif.Go Verif.Params

/-- The kinds of types whose binders call `Bind`; every other type is `plain` (params/binder.go:180-206). -/
inductive TyDef where
  | plain
  | ptr (t : Nat)
  | slice (t : Nat)
  /-- the fields: name, exported, type -/
  | struct (fs : List (Str × Bool × Nat))

/-- The arguments of a call of `Bind` (params/binder.go:363). -/
structure Call where
  ty : Nat
  p : P
  name : Str

/-- params/binder.go:224-266: the calls for one key of a slice (238, 253, 260; `BindValue` and `BindFile`, 377-383, call `Bind` with the name ""). -/
def elementCalls (t : Nat) (p : P) (name key : Str) (vals : List Str) (nfiles : Nat) : List Call :=
  if hasPrefix key (name ++ [91]) = true then
    match keyIndex name key with
    | some i => [⟨t, p, i.2⟩]
    | none => vals.map (fun v => ⟨t, single v, []⟩) ++ (List.replicate nfiles ⟨t, singleFile, []⟩)
  else []

/-- params/binder.go:363-375: the calls made for a type: `PointerBinder` (131-145) only if the parameter has a value, `bindSlice` (275-280), `bindStruct`
(307-331). -/
def calls (T : Nat → TyDef) (c : Call) : List Call :=
  match T c.ty with
  | .plain => []
  | .ptr t => if (firstValue c.p c.name).isSome then [⟨t, c.p, c.name⟩] else []
  | .slice t =>
    c.p.values.flatMap (fun e => elementCalls t c.p c.name (normalizeKey c.name e.1) e.2 0) ++
    c.p.files.flatMap (fun e => elementCalls t c.p c.name (normalizeKey c.name e.1) [] e.2)
  | .struct fs => fs.filterMap (fun f => if f.2.1 && mentions c.p c.name f.1 then some ⟨f.2.2, c.p, c.name ++ [46] ++ f.1⟩ else none)

end Verif.BindCalls
