import Verif.Go.Bytes
/-! # Model of injection slot names (`inject/inject_provider.go:186-205`) -/
namespace Verif.Inj

/-- Go types, as far as `reflect` names them: declared types with package path, name and the scope of the declaration
(0: package level, `n + 1`: inside the `n`-th function of the package), pointers, and other unnamed types (slices, maps,
functions, struct literals, …), numbered (reflect.Type of inject/inject_provider.go:187-189). -/
inductive GoType where
  | decl (pkg name : Str) (scope : Nat)
  | ptr (t : GoType)
  | lit (n : Nat)
deriving DecidableEq, Repr

/-- `reflect.Type.PkgPath`: empty for predeclared and unnamed types (inject/inject_provider.go:188). -/
def GoType.pkgPath : GoType → Str
  | .decl p _ _ => p
  | _ => []

/-- `reflect.Type.Name`: empty for unnamed types; the name inside its scope for local types.
(inject/inject_provider.go:188). -/
def GoType.name : GoType → Str
  | .decl _ n _ => n
  | _ => []

/-- `inject_provider.go:199-205` `indirectType`. -/
def GoType.indirect : GoType → GoType
  | .ptr t => t.indirect
  | t => t

/-- The byte `:` (inject/inject_provider.go:188). -/
def colon : UInt8 := 58

/-- `inject_provider.go:186-189` `createName`. -/
def createName (t : GoType) (slot : Str) : Str := t.pkgPath ++ [colon] ++ t.name ++ [colon] ++ slot

/-- The slot of a type, with an optional name: `createName(indirectType(typ), name)`, `inject.go:119,222`,
`inject_provider.go:75-81,88-89,112-118`. -/
def slotOf (t : GoType) (slot : Str) : Str := createName t.indirect slot

end Verif.Inj
