import Verif.Go.Bytes
/-!
# Model of the injector (`inject/inject.go`, `inject/inject_provider.go`)

Injectors, providers and values are numbered.  A provider is a value or a function; what a function does
is not modelled, every call of it yields a new value and is recorded.  Types appear by their slot name
(`createName`), see `Model/InjectKey.lean` for how names come from Go types.  Assignability of the found
value to the requested variable (`assignValue`) is not modelled.
-/
namespace Verif.Inj

/-- Name of an injection slot (`inject_provider.go:186-189` `createName`). -/
abbrev Key := Str

/-- Injected values: given objects, and the result of the `n`-th provider call (inject/inject_provider.go:30-34, 179). -/
inductive Val where
  | obj (n : Nat)
  | res (n : Nat)
deriving DecidableEq, Repr

/-- The two kinds of providers (`inject_provider.go:39-121`). `out` is `NumOut() > 0`. -/
inductive Kind where
  | value (v : Val)
  | func (deps : List Key) (out : Bool)
deriving DecidableEq, Repr

/-- `inject_provider.go:14-37` `providerInfo` without `done`. -/
structure Prov where
  name : Key
  kind : Kind
deriving DecidableEq, Repr

/-- A call of provider function `prov` by injector `inj` (inject/inject_provider.go:179). -/
structure Call where
  inj : Nat
  prov : Nat
  name : Key
  args : List Val
deriving DecidableEq, Repr

/-- All injectors (`inject.go:60-77`), all providers with their `done` counters (a uint32 in the code: the model's
`Nat` does not wrap around after 2^32 uses), the `status` of the
current lookup (`inject.go:49-58`) and the calls made so far. -/
structure St where
  values : Nat → Key → Option Nat
  caches : Nat → Key → Option Val
  parent : Nat → Option Nat
  provs : List Prov
  done : Nat → Nat
  status : List Key
  calls : List Call

/-- No injectors' contents yet (inject/inject.go:72-77). -/
def St.empty : St := ⟨fun _ _ => none, fun _ _ => none, fun _ => none, [], fun _ => 0, [], []⟩

/-- a map assignment, inject/inject.go:110, inject/inject_provider.go:181. -/
def upd {α β : Type} [DecidableEq α] (f : α → β) (a : α) (b : β) : α → β := fun x => if x = a then b else f x

/-- Result of a lookup; `diverge` means more than the given number of nested calls (inject/inject_provider.go:127). -/
inductive Res (α : Type) where
  | ok (a : α)
  | err
  | diverge
deriving DecidableEq, Repr

/-- `inject.go:268-280` `get`, through at most `f` injectors. -/
def getN (s : St) : Nat → Nat → Key → Option Nat
  | 0, _, _ => none
  | f + 1, i, k =>
    match s.values i k with
    | some p => some p
    | none => match s.parent i with
      | some j => getN s f j k
      | none => none

/-- `get`. Injectors are numbered such that parents have smaller numbers (see `setParent`) (inject/inject.go:268-280). -/
def get (s : St) (i : Nat) (k : Key) : Option Nat := getN s (i + 1) i k

/-- `prov.name` of provider `q` (inject/inject_provider.go:15). -/
def nameOf (s : St) (q : Nat) : Key := match s.provs[q]? with | some pr => pr.name | none => []

/-- `inject_provider.go:147-176`: the loop over the dependencies. Lines 168-173 (a provider returning an
invalid `reflect.Value`, which no function can) are not modelled. -/
def invokeDeps (inv : St → Nat → Res Val × St) (i : Nat) : List Key → List Val → St → Res (List Val) × St
  | [], acc, s => (.ok acc, s)
  | d :: ds, acc, s =>
    match get s i d with
    | none => (.err, s)
    | some q =>
      if s.done q = 0 ∧ nameOf s q ∈ s.status then (.err, s)
      else match inv s q with
        | (.ok v, s') => invokeDeps inv i ds (acc ++ [v]) s'
        | (.err, s') => (.err, s')
        | (.diverge, s') => (.diverge, s')

/-- `inject_provider.go:127-184` `invoke` of provider `p` in injector `i`, with at most `f` nested
calls. A function without results yields a dummy value (its result is never used). -/
def invoke : Nat → Nat → St → Nat → Res Val × St
  | 0, _, s, _ => (.diverge, s)
  | f + 1, i, s, p =>
    match s.provs[p]? with
    | none => (.err, s)
    | some pr =>
      match s.caches i pr.name with
      | some v => (.ok v, s)
      | none =>
        let s := { s with status := pr.name :: s.status }
        match pr.kind with
        | .value v => (.ok v, { s with done := upd s.done p (s.done p + 1) })
        | .func deps out =>
          match invokeDeps (fun s q => invoke f i s q) i deps [] s with
          | (.ok args, s') =>
            let v := Val.res s'.calls.length
            (.ok v,
              { s' with
                calls := s'.calls ++ [⟨i, p, pr.name, args⟩]
                caches := if out then upd s'.caches i (upd (s'.caches i) pr.name (some v)) else s'.caches
                done := upd s'.done p (s'.done p + 1) })
          | (.err, s') => (.err, s')
          | (.diverge, s') => (.diverge, s')

/-- `inject.go:86-112` `ProvideAs` (`newProvider` is done: the provider has its slot name). -/
def provideAs (s : St) (i : Nat) (pr : Prov) : St :=
  { s with
    provs := s.provs ++ [pr]
    caches := upd s.caches i (upd (s.caches i) pr.name none)
    values := upd s.values i (upd (s.values i) pr.name (some s.provs.length)) }

/-- `inject.go:114-141` `Find`. -/
def find (f : Nat) (s : St) (i : Nat) (k : Key) : Res Val × St :=
  match get s i k with
  | none => (.err, s)
  | some p => invoke f i { s with status := [] } p

/-- `inject.go:171-184` `Invoke`. -/
def invokeFn (f : Nat) (s : St) (i : Nat) (pr : Prov) : Res Val × St :=
  let s := { s with provs := s.provs ++ [pr], status := [] }
  match invoke f i s (s.provs.length - 1) with
  | (.ok v, s') => (.ok v, { s' with caches := upd s'.caches i (upd (s'.caches i) pr.name none) })
  | r => r

/-- `inject.go:282-286` `SetParent`. Only parents with a smaller number are modelled: cyclic parent
chains, on which `get` does not terminate, are excluded. -/
def setParent (s : St) (i j : Nat) : St :=
  if j < i then { s with parent := upd s.parent i (some j) } else s

/-- The calls of users of the package (inject/inject.go:20-32). -/
inductive Cmd where
  | provide (i : Nat) (pr : Prov)
  | find (i : Nat) (k : Key)
  | invoke (i : Nat) (pr : Prov)
  | setParent (i j : Nat)
deriving DecidableEq, Repr

/-- What user calls can be: a function without results has no slot (its name is empty), everything else
has a non-empty slot name, and dependencies are slots (inject/inject_provider.go:39-121). -/
def Prov.Wf (pr : Prov) : Prop :=
  match pr.kind with
  | .value _ => pr.name ≠ []
  | .func deps out => (pr.name = [] ↔ out = false) ∧ [] ∉ deps

instance (pr : Prov) : Decidable pr.Wf := by
  unfold Prov.Wf
  split <;> infer_instance

/-- inject/inject.go:79-112. -/
def Cmd.Wf : Cmd → Prop
  | .provide _ pr => pr.Wf
  | .find _ k => k ≠ []
  | .invoke _ pr => pr.Wf ∧ ∃ deps out, pr.kind = .func deps out
  | .setParent _ _ => True

/-- Run one user call (`f` bounds the nesting; a diverging call leaves the state as reached).
(inject/inject.go:79-184). -/
def Cmd.run (f : Nat) (s : St) : Cmd → St
  | .provide i pr => provideAs s i pr
  | .find i k => (Inj.find f s i k).2
  | .invoke i pr => (invokeFn f s i pr).2
  | .setParent i j => Inj.setParent s i j

end Verif.Inj
