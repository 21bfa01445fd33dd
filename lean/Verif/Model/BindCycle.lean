/-!
# params/params.go:135-192: the walk of `bindValuesToStruct` over embedded pointers that may be shared, cyclic or nil

Model/BindStruct takes a struct for a finite tree. Here structs lie in a memory and point to each other, and a type may embed a pointer to itself.
What is bound in a struct is left out: which structs are walked, and whether the walk ends. The fields of a struct that is embedded itself count as the
fields of the struct it is in (params/params.go:191-193: the same walk goes on with the same `pointerMap`); fields tagged "-" are left out (145).
-/
namespace Verif.BindCycle

/-- A field for the walk: not an embedded pointer to a struct, or one: its type and where it points (params/params.go:162-181). -/
inductive Fld where
  | other
  | ptr (ty : Nat) (to : Option Nat)
deriving DecidableEq, Repr

/-- The struct types, by the types of the pointers they embed, and the structs, by address (params/params.go:136-138). -/
structure Mem where
  embeds : Nat → List Nat
  structs : Nat → List Fld

/-- `reflect.New(ftyp.Type.Elem())` (params/params.go:170): all pointers in it are nil. -/
def Mem.zero (M : Mem) (ty : Nat) : List Fld := (M.embeds ty).map (fun t => .ptr t none)

/-- `pointerMap`, and the structs walked so far, the last one first: `inl` for one in memory, `inr` for a new one (params/params.go:126, 135). -/
structure St where
  seen : List Nat
  walked : List (Nat ⊕ Nat)
deriving DecidableEq, Repr

mutual
/-- params/params.go:135-210 `bindValuesToStruct` on the fields of a struct; `none`: the recursion is deeper than the first argument. -/
def visit (M : Mem) : Nat → List Fld → St → Option St
  | _, [], s => some s
  | n, f :: fs, s =>
    match field M n f s with
    | none => none
    | some s' => visit M n fs s'
/-- params/params.go:161-192, for one field: a pointer in `pointerMap` is passed over (165), a nil pointer leads to a new struct, whose address is not
kept (180). -/
def field (M : Mem) : Nat → Fld → St → Option St
  | _, .other, s => some s
  | 0, .ptr _ _, _ => none
  | n + 1, .ptr ty none, s => visit M n (M.zero ty) { s with walked := .inr ty :: s.walked }
  | n + 1, .ptr _ (some a), s =>
    if a ∈ s.seen then some s else visit M n (M.structs a) ⟨a :: s.seen, .inl a :: s.walked⟩
end

/-- params/params.go:125-133: the walk of `BindValuesToStruct` of a pointer to a struct with these fields, whose own address is not kept (126). -/
def start (M : Mem) (n : Nat) (fs : List Fld) : Option St := visit M n fs ⟨[], []⟩

end Verif.BindCycle
