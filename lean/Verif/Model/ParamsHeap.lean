import Verif.Go.Slice
import Verif.Go.Bytes
/-!
# params/params.go:212-243: `calcValues` with maps and slices that can be shared

Model/Params treats the maps of values as values. Here they are Go maps whose entries are slices in a heap, and `Params.Values` may be the very map
of the query, of the route or of the form.
-/
namespace Verif.ParamsHeap
open Verif.Go

/-- The maps of a request (params/params.go:28, 34-36): a map of its own for `Values`, or those it is made of. -/
inductive Which where
  | own
  | query
  | route
  | form
deriving DecidableEq, Repr

/-- The memory, the entries of all maps (a Go map has no order), and which map `Params.Values` is (params/params.go:27-36). -/
structure W where
  heap : Heap Str
  slots : Which × Str → Option Slice
  values : Which

/-- `append(s, xs...)` (params/params.go:233, 236, 239). Simplified: element by element; the capacities are any the runtime likes. -/
def appendMany (g : Nat → Nat) : Heap Str → Slice → List Str → Heap Str × Slice
  | h, s, [] => (h, s)
  | h, s, x :: xs => appendMany g (h.append1 g s x).1 (h.append1 g s x).2 xs

/-- `m[k] = s` (params/params.go:233). -/
def store (w : W) (h : Heap Str) (k : Which × Str) (s : Slice) : W :=
  { w with heap := h, slots := fun k' => if k' = k then some s else w.slots k' }

/-- `m[k]`: nil for a missing key (params/params.go:233). -/
def W.slot (w : W) (k : Which × Str) : Slice := (w.slots k).getD Heap.nilSlice

/-- What code does with a `url.Values` (params/params.go:28, the standard library's methods on it): `m[k] = append(m[k], xs...)`, `m[k][i] = x` (which panics beyond
the length: then nothing happens here), `m[k] = []string{x}`, `delete(m, k)`. -/
inductive VOp where
  | add (k : Str) (xs : List Str)
  | put (k : Str) (i : Nat) (x : Str)
  | set (k : Str) (x : Str)
  | del (k : Str)

/-- One such statement on one of the maps (params/params.go:28; `append` as in 233). -/
def step (g : Nat → Nat) (w : W) (m : Which) : VOp → W
  | .add k xs => store w (appendMany g w.heap (w.slot (m, k)) xs).1 (m, k) (appendMany g w.heap (w.slot (m, k)) xs).2
  | .put k i x =>
    if i < (w.slot (m, k)).len then { w with heap := w.heap.write (w.slot (m, k)).arr i x } else w
  | .set k x => store w (appendMany (fun n => n) w.heap Heap.nilSlice [x]).1 (m, k) (appendMany (fun n => n) w.heap Heap.nilSlice [x]).2
  | .del k => { w with slots := fun k' => if k' = (m, k) then none else w.slots k' }

/-- params/params.go:232-234 (235-237, 238-240): the keys of one map, in the order the loop visits them. -/
def mergeFrom (g : Nat → Nat) (src : Which) (ks : List Str) (w : W) : W :=
  ks.foldl (fun w k => step g w .own (.add k (w.heap.read (w.slot (src, k))))) w

/-- params/params.go:212-243 `calcValues` and its use at 79; `q`, `r`, `f` are the keys of the three maps in the order of the loops. -/
def unify (g : Nat → Nat) (q r f : List Str) (w : W) : W :=
  if q.length + r.length + f.length = 0 then { w with values := .own }
  else if q.length + r.length + f.length = q.length then { w with values := .query }
  else if q.length + r.length + f.length = r.length then { w with values := .route }
  else if q.length + r.length + f.length = f.length then { w with values := .form }
  else { mergeFrom g .form f (mergeFrom g .route r (mergeFrom g .query q w)) with values := .own }

end Verif.ParamsHeap
