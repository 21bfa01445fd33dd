import Verif.Model.Inject
/-! # Model of `Apply` (`inject/inject.go:186-266`) -/
namespace Verif.Inj

/-- The `inject` tag of a field: none, `inject:"-"`, or present (its name is part of the slot name).
(inject/inject.go:215-220). -/
inductive Tag where
  | none
  | dash
  | inject
deriving DecidableEq, Repr

/-- A struct field: whether it can be set, its tag, the slot name of its type and tag, an identification of its type, its
value, and, for a struct or a non-nil pointer to a struct, its fields (no fields otherwise). Pointers to the same
struct from two fields are not modelled (inject/inject.go:207-209). -/
inductive Field where
  | mk (settable : Bool) (tag : Tag) (key : Key) (ty : Nat) (val : Val) (sub : List Field)

/-- inject/inject.go:211. -/
def Field.settable : Field → Bool | .mk a _ _ _ _ _ => a
/-- inject/inject.go:215. -/
def Field.tag : Field → Tag | .mk _ a _ _ _ _ => a
/-- inject/inject.go:222. -/
def Field.key : Field → Key | .mk _ _ a _ _ _ => a
/-- inject/inject.go:222. -/
def Field.ty : Field → Nat | .mk _ _ _ a _ _ => a
/-- inject/inject.go:208. -/
def Field.val : Field → Val | .mk _ _ _ _ a _ => a
/-- inject/inject.go:250-257. -/
def Field.sub : Field → List Field | .mk _ _ _ _ _ a => a

/-- The field after assigning `v` (the contents are then those of `v`, they are not tracked) (inject/inject.go:240). -/
def Field.assign (x : Field) (v : Val) : Field := .mk x.settable x.tag x.key x.ty v []

/-- The field with other contents (inject/inject.go:257). -/
def Field.withSub (x : Field) (fs : List Field) : Field := .mk x.settable x.tag x.key x.ty x.val fs

/-- `inject.go:207-263`: the loop over the fields, for a given treatment of one field. An error ends it. -/
def fillList (step : Field → St → Res Unit × Field × St) : List Field → St → Res Unit × List Field × St
  | [], s => (.ok (), [], s)
  | x :: xs, s =>
    match step x s with
    | (.ok _, x', s') => match fillList step xs s' with
      | (r, xs', s'') => (r, x' :: xs', s'')
    | (.err, x', s') => (.err, x' :: xs, s')
    | (.diverge, x', s') => (.diverge, x' :: xs, s')

/-- `inject.go:208-262`: one field, where structs are entered at most `n` levels deep. `asg v ty` is whether `assignValue`
(`inject.go:295-307`) can put `v` into a field of type `ty`; its error is ignored (`inject.go:240`). -/
def fillField (f i : Nat) (asg : Val → Nat → Bool) : Nat → Field → St → Res Unit × Field × St
  | n, x, s =>
    if x.settable = false ∨ x.tag = .dash then (.ok (), x, s)
    else if x.tag = .inject then
      match get s i x.key with
      | none => (.err, x, s)
      | some p => match invoke f i s p with
        | (.ok v, s') => (.ok (), if asg v x.ty then x.assign v else x, s')
        | (.err, s') => (.err, x, s')
        | (.diverge, s') => (.diverge, x, s')
    else match n with
      | 0 => (.ok (), x, s)
      | m + 1 => match fillList (fillField f i asg m) x.sub s with
        | (r, fs, s') => (r, x.withSub fs, s')

/-- `inject.go:186-193` `Apply` to a pointer to a struct (`INJECT_MAX_RECURSIVE_LEVEL` is 3: two levels below the top). -/
def applyStruct (f : Nat) (s : St) (i : Nat) (asg : Val → Nat → Bool) (fs : List Field) : Res Unit × List Field × St :=
  fillList (fillField f i asg 2) fs { s with status := [] }

end Verif.Inj
