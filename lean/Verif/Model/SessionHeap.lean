import Verif.Model.Session
/-!
# Session stores and the maps they keep: sessions/provider.go

Maps are objects that may be shared: `Create` keeps the map it is given (provider.go:29-31), `Values` makes a copy (90-96). A program's
variables hold maps; a variable is used only while it holds one.
-/
namespace Verif.SessHeap

/-- What `Create` is given besides the id: nothing, a nil map, or the map in a variable (sessions/provider.go:24, 147). -/
inductive Arg where
  | none
  | nil
  | var (x : Nat)

/-- What a program does with its maps and with session stores, which are numbered as they are created (sessions/provider.go:63-129,
147-150; sessions/sessions.go `SessionStore`). -/
inductive Op (V : Type) where
  /-- `x := make(map[string]interface{})` -/
  | make (x : Nat)
  | put (x : Nat) (k : Str) (v : V)
  | drop (x : Nat) (k : Str)
  | look (x : Nat) (k : Str)
  | create (sid : Str) (a : Arg)
  | set (i : Nat) (k : Str) (v : V)
  | get (i : Nat) (k : Str)
  | delete (i : Nat) (k : Str)
  | clean (i : Nat)
  | destroy (i : Nat)
  /-- `x := store.Values()` -/
  | values (i : Nat) (x : Nat)
  | flush (i : Nat)

/-- What is seen of a call: a value read, the values saved under an id, or nothing (sessions/provider.go:72, 105, 211). -/
inductive Seen (V : Type) where
  | nothing
  | got (v : Option V)
  | saved (sid : Str) (values : Str → Option V)

/-- sessions/provider.go:39-45 `sessData`, with the map it refers to (19-22). -/
structure Store where
  sid : Str
  ref : Nat
  changed : Bool
  closed : Bool

/-- The maps, the program's variables, the open stores (sessions/provider.go:19-45). -/
structure St (V : Type) where
  heap : List (Str → Option V)
  env : Nat → Option Nat
  stores : List Store

/-- Nothing there yet (sessions/provider.go:147). -/
def St.init {V : Type} : St V := ⟨[], fun _ => none, []⟩

variable {V : Type}

/-- A write to the map a reference points to (sessions/provider.go:69, 81). -/
def St.write (s : St V) (r : Nat) (f : (Str → Option V) → Str → Option V) : St V :=
  { s with heap := s.heap.set r (f ((s.heap[r]?).getD fun _ => none)) }

/-- sessions/provider.go:24-37, 49-60, 205-209 `create`: a store with that map, or with a new one. -/
def St.open_ (s : St V) (sid : Str) : Arg → St V
  | .none => { s with heap := s.heap ++ [fun _ => none], stores := s.stores ++ [⟨sid, s.heap.length, false, false⟩] }
  | .nil => { s with heap := s.heap ++ [fun _ => none], stores := s.stores ++ [⟨sid, s.heap.length, true, false⟩] }
  | .var x =>
    match s.env x with
    | some r => { s with stores := s.stores ++ [⟨sid, r, true, false⟩] }
    | none => { s with heap := s.heap ++ [fun _ => none], stores := s.stores ++ [⟨sid, s.heap.length, true, false⟩] }

/-- One call on store `i` with record `t` (sessions/provider.go:63-129). -/
def St.onStore (s : St V) (i : Nat) (f : Store → St V × Seen V) : St V × Seen V :=
  match s.stores[i]? with
  | some t => f t
  | none => (s, .nothing)

/-- One call (sessions/provider.go:67-125, 147-150). -/
def step (s : St V) : Op V → St V × Seen V
  | .make x => ({ s with heap := s.heap ++ [fun _ => none], env := Cache.upd s.env x (some s.heap.length) }, .nothing)
  | .put x k v => (match s.env x with | some r => s.write r (fun m => Cache.upd m k (some v)) | none => s, .nothing)
  | .drop x k => (match s.env x with | some r => s.write r (fun m => Cache.upd m k none) | none => s, .nothing)
  | .look x k => (s, .got ((s.env x).bind fun r => (s.heap[r]?).bind fun m => m k))
  | .create sid a => (s.open_ sid a, .nothing)
  | .set i k v => s.onStore i fun t =>
      ({ s.write t.ref (fun m => Cache.upd m k (some v)) with stores := s.stores.set i { t with changed := true } }, .nothing)
  | .get i k => s.onStore i fun t => (s, .got ((s.heap[t.ref]?).bind fun m => m k))
  | .delete i k => s.onStore i fun t =>
      ({ s.write t.ref (fun m => Cache.upd m k none) with stores := s.stores.set i { t with changed := true } }, .nothing)
  | .clean i => s.onStore i fun t =>
      ({ s with heap := s.heap ++ [fun _ => none], stores := s.stores.set i { t with changed := true, ref := s.heap.length } }, .nothing)
  | .destroy i => s.onStore i fun t =>
      ({ s with heap := s.heap ++ [fun _ => none], stores := s.stores.set i { t with closed := true, ref := s.heap.length } }, .nothing)
  | .values i x => s.onStore i fun t =>
      ({ s with heap := s.heap ++ [(s.heap[t.ref]?).getD fun _ => none], env := Cache.upd s.env x (some s.heap.length) }, .nothing)
  | .flush i => s.onStore i fun t =>
      if t.closed = true ∨ t.changed = false then (s, .nothing)
      else ({ s with stores := s.stores.set i { t with changed := false } }, .saved t.sid ((s.heap[t.ref]?).getD fun _ => none))

/-- A program: what is seen of each call (sessions/provider.go:67-125, 147-150). -/
def run (s : St V) : List (Op V) → List (Seen V)
  | [] => []
  | o :: l => (step s o).2 :: run (step s o).1 l

end Verif.SessHeap
