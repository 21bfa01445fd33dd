import Verif.Model.Inject
/-!
# Concurrent requests and the injector

While requests are served, the application's injector and its providers are shared by all of them: every request has an
injector of its own whose parent is the application's (`app.go:108-121`, `context.go:44-60`). Lookups write only to the
injector they are made on (`inject_provider.go:179-181`), so the only shared memory that changes are the `done` counters of
the providers (`inject_provider.go:36`), accessed by `atomic.AddUint32` (`:136`) and `atomic.LoadUint32` (`:155`). Here
lookups are programs over these two operations, and requests are interleaved at every one of them. Assumed: one goroutine
per request uses its injector, and nothing is provided to the application's injector while it serves. Counters are
natural numbers (Go's wrap around after 2^32 lookups).
-/
namespace Verif.Inj

/-- A program over the shared counters: `load` is `atomic.LoadUint32`, `inc` is `atomic.AddUint32(.., 1)`.
(inject/inject_provider.go:135, 156). -/
inductive Prog (α : Type) where
  | ret (a : α)
  | load (q : Nat) (k : Nat → Prog α)
  | inc (q : Nat) (k : Prog α)

/-- Continue with the result (the sequencing of statements in inject/inject_provider.go:127-184). -/
def Prog.bind {α β : Type} (p : Prog α) (g : α → Prog β) : Prog β :=
  match p with
  | .ret a => g a
  | .load q k => .load q (fun n => (k n).bind g)
  | .inc q k => .inc q (k.bind g)

/-- `inject_provider.go:147-176`, as `invokeDeps`, the counter being read at `:155`. The field `done` of the state counts
what this request added. -/
def invokeDepsP (inv : St → Nat → Prog (Res Val × St)) (i : Nat) : List Key → List Val → St → Prog (Res (List Val) × St)
  | [], acc, s => .ret (.ok acc, s)
  | d :: ds, acc, s =>
    match get s i d with
    | none => .ret (.err, s)
    | some q =>
      .load q fun n =>
        if n = 0 ∧ nameOf s q ∈ s.status then .ret (.err, s)
        else (inv s q).bind fun r =>
          match r with
          | (.ok v, s') => invokeDepsP inv i ds (acc ++ [v]) s'
          | (.err, s') => .ret (.err, s')
          | (.diverge, s') => .ret (.diverge, s')

/-- `inject_provider.go:127-184` `invoke`, as in `Model/Inject.lean`; the counter is incremented on return (`:133-138`). -/
def invokeP : Nat → Nat → St → Nat → Prog (Res Val × St)
  | 0, _, s, _ => .ret (.diverge, s)
  | f + 1, i, s, p =>
    match s.provs[p]? with
    | none => .ret (.err, s)
    | some pr =>
      match s.caches i pr.name with
      | some v => .ret (.ok v, s)
      | none =>
        let s := { s with status := pr.name :: s.status }
        match pr.kind with
        | .value v => .inc p (.ret (.ok v, { s with done := upd s.done p (s.done p + 1) }))
        | .func deps out =>
          (invokeDepsP (fun s q => invokeP f i s q) i deps [] s).bind fun r =>
            match r with
            | (.ok args, s') =>
              .inc p (.ret (.ok (Val.res s'.calls.length),
                { s' with
                  calls := s'.calls ++ [⟨i, p, pr.name, args⟩]
                  caches := if out then upd s'.caches i (upd (s'.caches i) pr.name (some (Val.res s'.calls.length))) else s'.caches
                  done := upd s'.done p (s'.done p + 1) }))
            | (.err, s') => .ret (.err, s')
            | (.diverge, s') => .ret (.diverge, s')

/-- What a request does with its injector: `Provide`, `Find`, `Invoke` (inject/inject.go:86, 114, 171). -/
inductive RCmd where
  | provide (pr : Prov)
  | find (k : Key)
  | invoke (pr : Prov)
deriving DecidableEq, Repr

/-- One call (`inject.go:86-112`, `:114-141`, `:171-184`), with its result if it is a lookup. -/
def RCmd.prog (f i : Nat) (s : St) : RCmd → Prog (Option (Res Val) × St)
  | .provide pr => .ret (none, provideAs s i pr)
  | .find k =>
    match get s i k with
    | none => .ret (some .err, s)
    | some p => (invokeP f i { s with status := [] } p).bind fun r => .ret (some r.1, r.2)
  | .invoke pr =>
    (invokeP f i { s with provs := s.provs ++ [pr], status := [] } s.provs.length).bind fun r =>
      match r with
      | (.ok v, s') => .ret (some (.ok v), { s' with caches := upd s'.caches i (upd (s'.caches i) pr.name none) })
      | (r, s') => .ret (some r, s')

/-- The calls of a request, one after the other, with their results (inject/inject.go:86-141, 171-184). -/
def reqProg (f i : Nat) : List RCmd → List (Option (Res Val)) → St → Prog (List (Option (Res Val)) × St)
  | [], acc, s => .ret (acc, s)
  | c :: cs, acc, s => (c.prog f i s).bind fun r => reqProg f i cs (acc ++ [r.1]) r.2

/-- Where a counter lives: providers of the application are shared, those a request adds are its own.
(`&p.done`, inject/inject_provider.go:36, 135, 156). -/
inductive Addr where
  | app (q : Nat)
  | own (t q : Nat)
deriving DecidableEq

/-- inject/inject.go:268-280: where `get` found the provider. -/
def addr (base t q : Nat) : Addr := if q < base then .app q else .own t q

/-- The counters and the requests being served (app.go:102-124, one call for each request). -/
structure Mach (α : Type) where
  mem : Addr → Nat
  threads : List (Prog α)

/-- One step of request `t` (inject/inject_provider.go:135, 156). -/
def Mach.step {α : Type} (base : Nat) (m : Mach α) (t : Nat) : Mach α :=
  match m.threads[t]? with
  | none => m
  | some (.ret _) => m
  | some (.load q k) => { m with threads := m.threads.set t (k (m.mem (addr base t q))) }
  | some (.inc q k) => ⟨upd m.mem (addr base t q) (m.mem (addr base t q) + 1), m.threads.set t k⟩

/-- A schedule: which request makes the next step (app.go:102-124, concurrent calls). -/
def Mach.run {α : Type} (base : Nat) : List Nat → Mach α → Mach α
  | [], m => m
  | t :: ts, m => Mach.run base ts (m.step base t)

/-- `app.go:108-121`: the application in state `s` starts to serve these requests; each has an injector of its own (number
`i` in the request's view of the state) whose parent is the application's injector `j`. -/
def start (f : Nat) (s : St) (i j : Nat) (reqs : List (List RCmd)) : Mach (List (Option (Res Val)) × St) :=
  ⟨fun a => match a with | .app q => s.done q | .own _ q => s.done q, reqs.map fun cs => reqProg f i cs [] (setParent s i j)⟩

end Verif.Inj
