import Verif.Model.RouterHeap
/-!
# Model of the filters of applications, as slices (app.go:91-93, 102-107, app_util.go:14-16)

`Strip.Filter` appends to the slice of the application; `ReplaceFilters` copies the slice of one application to another, so both share a
backing array; a request keeps the slice its application had when it arrived.
-/
namespace Verif.AppFilters
open Verif.Go Verif.Router

/-- What a program does with its applications (numbers). -/
inductive Op where
  /-- app.go:91-93 `Filter` -/
  | filter (app : Nat) (fs : List Filter)
  /-- app_util.go:14-16 `ReplaceFilters` -/
  | replace (old new : Nat)
  /-- app.go:102-107: a request arrives and its context keeps the slice -/
  | request (app : Nat)
deriving Repr

/-- The memory, the `filters` field of every application, and the slices kept by the requests, in order of arrival (app.go:23-33, context.go:34). -/
structure State where
  heap : Heap Filter
  apps : Nat → Slice
  reqs : List Slice

/-- No filters: nil slices (app.go:37-42). -/
def init : State := ⟨Heap.empty, fun _ => Heap.nilSlice, []⟩

/-- One step (app.go:91-93, app_util.go:14-16, app.go:107); `g` is the growth policy of `append`. -/
def step (g : Nat → Nat) (s : State) : Op → State
  | .filter a fs =>
    { s with heap := (appendH g s.heap (s.apps a) fs).1
             apps := fun b => if b = a then (appendH g s.heap (s.apps a) fs).2 else s.apps b }
  | .replace old new => { s with apps := fun b => if b = old then s.apps new else s.apps b }
  | .request a => { s with reqs := s.reqs ++ [s.apps a] }

/-- A history of steps (app.go:91-107). -/
def run (g : Nat → Nat) : State → List Op → State
  | s, [] => s
  | s, o :: os => run g (step g s o) os

end Verif.AppFilters
