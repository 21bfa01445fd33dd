import Verif.Model.Inject
/-! # Specification of the injector: histories of calls

A history is the list of the calls made by users of the package, oldest first. -/
namespace Verif.Inj

/-- The provider most recently given to injector `i` for type `k`. -/
def provided (cs : List Cmd) (i : Nat) (k : Key) : Option Prov :=
  cs.foldl (fun a c => match c with
    | .provide j pr => if j = i ∧ pr.name = k then some pr else a
    | _ => a) none

/-- The current parent of injector `i`. -/
def parentIs (cs : List Cmd) (i : Nat) : Option Nat :=
  cs.foldl (fun a c => match c with
    | .setParent x j => if x = i ∧ j < x then some j else a
    | _ => a) none

/-- `pr` is the provider for `k` in the nearest enclosing injector having one. -/
inductive Nearest (cs : List Cmd) : Nat → Key → Prov → Prop where
  | own (i : Nat) (k : Key) (pr : Prov) : provided cs i k = some pr → Nearest cs i k pr
  | up (i j : Nat) (k : Key) (pr : Prov) : provided cs i k = none → parentIs cs i = some j → Nearest cs j k pr →
      Nearest cs i k pr

/-- The state after a history; `f` bounds the depth of nested provider calls. -/
def reach (f : Nat) (cs : List Cmd) : St := cs.foldl (Cmd.run f) St.empty

/-- Every call of the history is possible. -/
def Cmds (cs : List Cmd) : Prop := ∀ c ∈ cs, c.Wf

/-- A value of type `k` can be made in injector `i`: there is a provider and it is a value, or a value
was made before, or it is a function all whose arguments can be made (a cyclic dependency cannot). -/
inductive Can (cs : List Cmd) (made : Key → Prop) (i : Nat) : Key → Prop where
  | made (k : Key) (pr : Prov) : Nearest cs i k pr → made k → Can cs made i k
  | value (k : Key) (pr : Prov) (v : Val) : Nearest cs i k pr → pr.kind = .value v → Can cs made i k
  | func (k : Key) (pr : Prov) (deps : List Key) (out : Bool) : Nearest cs i k pr → pr.kind = .func deps out →
      (∀ d ∈ deps, Can cs made i d) → Can cs made i k

end Verif.Inj
