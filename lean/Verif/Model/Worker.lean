/-!
# The concurrency-limited worker: utils/worker.go

A small-step model: each step is one synchronisation operation or one access of a shared field, by one goroutine;
goroutines are interleaved arbitrarily. `sync.RWMutex`, `sync.WaitGroup` and buffered channels are modelled by their
documented behaviour (a blocked `Lock` keeps new readers out; `Wait` sleeps and is woken when the counter reaches
zero; it panics if the counter is not zero when it wakes up). Unsynchronised accesses of `err` are taken as atomic.
Tasks that panic are not modelled (the program ends).
-/
namespace Verif.Worker

/-- What is passed to `RunTask`: a `func()`, a `func() error` with the error it returns (`none`: nil; errors are
numbers), or anything else (utils/worker.go:49-53). -/
inductive Kind where
  | plain
  | err (e : Option Nat)
  | other
deriving DecidableEq, Repr

/-- What a goroutine does with the worker; the body of a task is what the task itself does with the worker.
(utils/worker.go:22, 35, 42). -/
inductive Op where
  | runTask (k : Kind) (body : List Op)
  | wait
  | close

/-- Why the write lock is taken: `Close`, or a task's error (utils/worker.go:43, 57). -/
inductive Job where
  | close
  | fail (e : Nat)
deriving DecidableEq, Repr

/-- Where a goroutine is. The number in the states of `Wait` is a ghost: how many goroutines existed when `Wait` was
called (utils/worker.go:22-70, between two atomic steps). -/
inductive PC where
  | ready
  /-- worker.go:23 -/
  | rlock (k : Kind) (body : List Op)
  /-- worker.go:24 -/
  | check (k : Kind) (body : List Op)
  /-- worker.go:25 -/
  | dropped
  /-- worker.go:28 -/
  | add (k : Kind) (body : List Op)
  /-- worker.go:29 -/
  | send (k : Kind) (body : List Op)
  /-- worker.go:30 -/
  | runlock (k : Kind) (body : List Op)
  /-- worker.go:32 -/
  | spawn (k : Kind) (body : List Op)
  /-- worker.go:36, before looking at the counter -/
  | waiting (since : Nat)
  /-- worker.go:36, asleep -/
  | sleeping (since : Nat)
  /-- worker.go:36, woken -/
  | woken (since : Nat)
  /-- worker.go:37 -/
  | readErr (since : Nat)
  /-- worker.go:38-39 -/
  | clearErr (since : Nat) (r : Option Nat)
  /-- worker.go:43, 57: before `Lock` -/
  | announce (j : Job)
  /-- worker.go:43, 57: `Lock` keeps new readers out and waits for the present ones -/
  | acquire (j : Job)
  /-- worker.go:44, 58-61 -/
  | inside (j : Job)
  /-- worker.go:45, 62 -/
  | unlock (j : Job)
  /-- worker.go:68 -/
  | recv
  /-- worker.go:69 -/
  | wgDone
  /-- the goroutine is over -/
  | finished
  /-- worker.go:49: no case of the switch applies; the goroutine is over -/
  | leaked

/-- A goroutine that uses the worker, or one started by `RunTask` (worker.go:48) for a task. -/
inductive Role where
  | client
  | task (k : Kind)
deriving DecidableEq, Repr

/-- a goroutine, utils/worker.go:32. -/
structure Thread where
  role : Role
  pc : PC
  ops : List Op

/-- Panics (utils/worker.go:29, 69, 77: sends and closes on a closed channel, a negative counter). -/
inductive Crash where
  | sendClosed
  | closeClosed
  | wgNegative
  | wgReused
deriving DecidableEq, Repr

/-- worker.go:12-20 and the goroutines; `buf` is the number of values in `pools`, `cap` its capacity; `returns` (ghost)
the results of `Wait` so far, with the goroutine. The lock's state is where the goroutines are. -/
structure St where
  cap : Nat
  threads : List Thread
  closed : Bool
  chanClosed : Bool
  buf : Nat
  wg : Nat
  err : Option Nat
  returns : List (Nat × Option Nat)
  crash : Option Crash

/-- Holds the read lock (utils/worker.go:23-30). -/
def PC.holdsR : PC → Bool
  | .check .. | .dropped | .add .. | .send .. | .runlock .. => true
  | _ => false

/-- Holds the write lock or has announced that it wants it (utils/worker.go:43-45, 57-62). -/
def PC.wantsW : PC → Bool
  | .acquire _ | .inside _ | .unlock _ => true
  | _ => false

/-- The goroutine `i` moves on (utils/worker.go:22-78). -/
def St.put (s : St) (i : Nat) (t : Thread) (pc : PC) : St := { s with threads := s.threads.set i { t with pc := pc } }

/-- `sync.WaitGroup`: the sleeping goroutines are woken (utils/worker.go:36, 69). -/
def wake (t : Thread) : Thread :=
  match t.pc with
  | .sleeping n => { t with pc := .woken n }
  | _ => t

/-- worker.go:48-65: what a task's goroutine does after `done()`. -/
def afterDone : Role → PC
  | .task (.err (some e)) => .announce (.fail e)
  | _ => .finished

/-- worker.go:32, 48-49: a task's goroutine. -/
def newTask (k : Kind) (body : List Op) : Thread :=
  match k with
  | .other => ⟨.task .other, .leaked, []⟩
  | k => ⟨.task k, .ready, body⟩

/-- One step of the goroutine `t`, the `i`-th: `none` if it is blocked or over (utils/worker.go:22-78). -/
def stepThread (s : St) (i : Nat) (t : Thread) : Option St :=
  match t.pc with
  | .ready =>
    match t.ops with
    | [] =>
      match t.role with
      | .client => some (s.put i t .finished)
      | .task _ => some (s.put i t .recv)
    | .runTask k b :: r => some (s.put i { t with ops := r } (.rlock k b))
    | .wait :: r => some (s.put i { t with ops := r } (.waiting s.threads.length))
    | .close :: r => some (s.put i { t with ops := r } (.announce .close))
  | .rlock k b => if s.threads.any (fun u => u.pc.wantsW) then none else some (s.put i t (.check k b))
  | .check k b => if s.closed then some (s.put i t .dropped) else some (s.put i t (.add k b))
  | .dropped => some (s.put i t .ready)
  | .add k b => some { s.put i t (.send k b) with wg := s.wg + 1 }
  | .send k b =>
    if s.chanClosed then some { s with crash := some .sendClosed }
    else if s.buf < s.cap then some { s.put i t (.runlock k b) with buf := s.buf + 1 }
    else none
  | .runlock k b => some (s.put i t (.spawn k b))
  | .spawn k b => some { s with threads := s.threads.set i { t with pc := .ready } ++ [newTask k b] }
  | .waiting n => if s.wg = 0 then some (s.put i t (.readErr n)) else some (s.put i t (.sleeping n))
  | .sleeping _ => none
  | .woken n => if s.wg = 0 then some (s.put i t (.readErr n)) else some { s with crash := some .wgReused }
  | .readErr n => some (s.put i t (.clearErr n s.err))
  | .clearErr _ r => some { s.put i t .ready with err := none, returns := s.returns ++ [(i, r)] }
  | .announce j => if s.threads.any (fun u => u.pc.wantsW) then none else some (s.put i t (.acquire j))
  | .acquire j => if s.threads.any (fun u => u.pc.holdsR) then none else some (s.put i t (.inside j))
  | .inside j =>
    if s.closed then some (s.put i t (.unlock j))
    else if s.chanClosed then some { s with crash := some .closeClosed }
    else
      match j with
      | .close => some { s.put i t (.unlock j) with closed := true, chanClosed := true }
      | .fail e => some { s.put i t (.unlock j) with closed := true, chanClosed := true, err := some e }
  | .unlock .close => some (s.put i t .ready)
  | .unlock (.fail _) => some (s.put i t .finished)
  | .recv =>
    if 0 < s.buf then some { s.put i t .wgDone with buf := s.buf - 1 }
    else if s.chanClosed then some (s.put i t .wgDone)
    else none
  | .wgDone =>
    if s.wg = 0 then some { s with crash := some .wgNegative }
    else if s.wg = 1 then
      some { s with wg := 0, threads := (s.threads.set i { t with pc := afterDone t.role }).map wake }
    else some { s.put i t (afterDone t.role) with wg := s.wg - 1 }
  | .finished => none
  | .leaked => none

/-- One step of the `i`-th goroutine (utils/worker.go:22-78). -/
def step (s : St) (i : Nat) : Option St :=
  match s.crash, s.threads[i]? with
  | none, some t => stepThread s i t
  | _, _ => none

/-- worker.go:80-84 `NewWorker(cap)`, used by one goroutine for each program. With `cap = 0` the channel is unbuffered;
a send then needs a receiver, and there is none before the first send, so it blocks: `buf < 0` never holds. -/
def init (cap : Nat) (progs : List (List Op)) : St :=
  ⟨cap, progs.map (fun p => ⟨.client, .ready, p⟩), false, false, 0, 0, none, [], none⟩

/-- Everything that can happen (utils/worker.go:22-78). -/
inductive Reach (cap : Nat) (progs : List (List Op)) : St → Prop where
  | init : Reach cap progs (init cap progs)
  | step {s s' : St} (i : Nat) : Reach cap progs s → step s i = some s' → Reach cap progs s'

/-- Run the given schedule (utils/worker.go:22-78). -/
def exec : List Nat → St → Option St
  | [], s => some s
  | i :: r, s => (step s i).bind (exec r)

theorem exec_reach {cap : Nat} {progs : List (List Op)} : ∀ (l : List Nat) (s s' : St), Reach cap progs s →
    exec l s = some s' → Reach cap progs s'
  | [], s, s', h, e => by cases e; exact h
  | i :: r, s, s', h, e => by
    unfold exec at e
    cases hs : step s i with
    | none => rw [hs] at e; cases e
    | some x => rw [hs] at e; exact exec_reach r x s' (Reach.step i h hs) e

end Verif.Worker
