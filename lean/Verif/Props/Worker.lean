import Verif.Proofs.WorkerHist
/-!
# C61–C65: the concurrency-limited worker

All theorems quantify over the pool size, the programs of the client goroutines (calls of `RunTask`, `Wait`, `Close`;
tasks may use the worker themselves) and every interleaving (`Reach`, or a schedule given to `exec`).
-/
namespace Verif.Worker

/-! ## Specification -/

/-- The task's function has been called and has returned: its goroutine is at one of the statements after the call. -/
def Spec.returned : Thread → Bool
  | ⟨.client, _, _⟩ => false
  | ⟨.task .other, _, _⟩ => false
  | ⟨.task _, pc, _⟩ =>
    match pc with
    | .recv | .wgDone | .announce (.fail _) | .acquire (.fail _) | .inside (.fail _) | .unlock (.fail _) | .finished => true
    | _ => false

/-- The goroutine is executing a task's function. -/
def Spec.running : Thread → Bool
  | ⟨.client, _, _⟩ => false
  | ⟨.task .other, _, _⟩ => false
  | ⟨.task k, pc, ops⟩ => !(Spec.returned ⟨.task k, pc, ops⟩)

/-- A goroutine of a task of one of the two allowed types. -/
def Spec.isTask (t : Thread) : Prop := t.role = .task .plain ∨ ∃ e, t.role = .task (.err e)

/-- The goroutine is inside a call of `Wait`. -/
def Spec.inWait : PC → Bool
  | .waiting _ | .sleeping _ | .woken _ | .readErr _ | .clearErr _ _ => true
  | _ => false

/-- No goroutine can move. -/
def Spec.stuck (s : St) : Prop := ∀ i, step s i = none

/-- The task that returned `e` is over. -/
def Spec.failedWith (s : St) (e : Nat) : Prop :=
  ∃ t ∈ s.threads, t.role = .task (.err (some e)) ∧ Spec.returned t = true

/-! ## C61 -/

theorem running_active (t : Thread) (h : Spec.running t = true) : t.active = true := by
  obtain ⟨ro, pc, ops⟩ := t
  rcases ro with _ | (_ | e | _)
  · cases h
  · rcases pc with _ | _ | _ | _ | _ | _ | _ | _ | _ | _ | _ | _ | _ | (_ | _) | (_ | _) | (_ | _) | (_ | _) | _ | _ | _ | _ <;>
      first | rfl | cases h
  · rcases pc with _ | _ | _ | _ | _ | _ | _ | _ | _ | _ | _ | _ | _ | (_ | _) | (_ | _) | (_ | _) | (_ | _) | _ | _ | _ | _ <;>
      first | rfl | cases h
  · cases h

/-- C61: at any moment at most `nums` tasks are running. -/
theorem C61_concurrency_bound (nums : Nat) (progs : List (List Op)) (s : St) (h : Reach nums progs s) :
    s.threads.countP Spec.running ≤ nums := by
  have hi := inv_reach h
  have hb := hi.buf
  have hc := hi.cap
  rw [cap_reach h] at hc
  have : s.threads.countP Spec.running ≤ s.threads.countP Thread.active :=
    List.countP_mono_left (fun t _ ht => running_active t ht)
  omega

/-- The bound is reached: with a pool of 2, two tasks run at the same time. -/
theorem C61_bound_reached : (exec (List.replicate 14 0) (init 2 [[.runTask .plain [], .runTask (.err none) []]])).map
    (fun s => s.threads.countP Spec.running) = some 2 := by rfl

/-! ## C62 -/

/-- C62: nothing is ever sent on a closed channel, the channel is not closed twice, and the task counter does not go
below zero. -/
theorem C62_never_panics_by_closing (nums : Nat) (progs : List (List Op)) (s : St) (h : Reach nums progs s) :
    s.crash ≠ some .sendClosed ∧ s.crash ≠ some .closeClosed ∧ s.crash ≠ some .wgNegative := by
  rcases (inv_reach h).crash with h | h <;> rw [h] <;> exact ⟨nofun, nofun, nofun⟩

/-- The case is not empty: `Close` by two goroutines, a failing task and a late `RunTask` all take place. -/
theorem C62_example : (exec (List.replicate 7 0 ++ List.replicate 12 1 ++ List.replicate 7 2 ++ List.replicate 10 0)
    (init 1 [[.runTask (.err (some 7)) [], .close, .runTask .plain []], [.close, .close, .wait]])).map
    (fun s => (s.closed, s.chanClosed, s.buf, s.crash, s.err)) = some (true, true, 0, none, none) := by rfl

/-! ## C63 -/

theorem returned_of_not_pending {t : Thread} (ht : Spec.isTask t) (h : t.pending = false) : Spec.returned t = true := by
  obtain ⟨ro, pc, ops⟩ := t
  rcases ht with rfl | ⟨e, rfl⟩
  · rcases pc with _ | _ | _ | _ | _ | _ | _ | _ | _ | _ | _ | _ | _ | (_ | _) | (_ | _) | (_ | _) | (_ | _) | _ | _ | _ | _ <;>
      first | rfl | cases h
  · rcases pc with _ | _ | _ | _ | _ | _ | _ | _ | _ | _ | _ | _ | _ | (_ | _) | (_ | _) | (_ | _) | (_ | _) | _ | _ | _ | _ <;>
      first | rfl | cases h

/-- C63: let the goroutine `i` call `Wait` in the state `s`, whatever happens then (`l`). If afterwards, in `s2`, it is
no longer inside `Wait`, every task whose goroutine existed at the call has returned. -/
theorem C63_wait_waits_for_all (nums : Nat) (progs : List (List Op)) (s s1 s2 : St) (i : Nat) (l : List Nat)
    (ro : Role) (r : List Op) (t2 : Thread) (h : Reach nums progs s)
    (hcall : s.threads[i]? = some ⟨ro, .ready, .wait :: r⟩) (hs : step s i = some s1) (hl : exec l s1 = some s2)
    (ht2 : s2.threads[i]? = some t2) (hret : Spec.inWait t2.pc = false) :
    ∀ (j : Nat) (t : Thread), s.threads[j]? = some t → Spec.isTask t →
      ∃ t' : Thread, s2.threads[j]? = some t' ∧ t'.role = t.role ∧ Spec.returned t' = true := by
  have hr1 : Reach nums progs s1 := .step i h hs
  obtain ⟨hc, t0, ht0, hst⟩ := step_of hs
  rw [hcall] at ht0
  simp only [Option.some.injEq] at ht0
  subst ht0
  simp only [stepThread] at hst
  have h1 : ∃ t, s1.threads[i]? = some t ∧ t.pc.inWait s.threads.length := by
    cases hst
    refine ⟨⟨ro, .waiting s.threads.length, r⟩, ?_, rfl⟩
    simp only [St.put]
    rw [List.getElem?_set_self (lt_of_get hcall)]
  have roles : ∀ (l : List Nat) (s s' : St), exec l s = some s' → ∀ (j : Nat) (t : Thread), s.threads[j]? = some t →
      ∃ t', s'.threads[j]? = some t' ∧ t'.role = t.role := by
    intro l
    induction l with
    | nil => intro s s' he j t ht; cases he; exact ⟨t, ht, rfl⟩
    | cons a l ih =>
      intro s s' he j t ht
      unfold exec at he
      cases hx : step s a with
      | none => rw [hx] at he; cases he
      | some x =>
        rw [hx] at he
        obtain ⟨u, hu, hru, _⟩ := persist_at hx ht
        obtain ⟨v, hv, hrv⟩ := ih x s' he j u hu
        exact ⟨v, hv, by rw [hrv, hru]⟩
  rcases wait_exec l s1 s2 hr1 hl (Or.inl h1) with ⟨t, ht, hw⟩ | ⟨hd, hn⟩
  · rw [ht2] at ht
    simp only [Option.some.injEq] at ht
    subst ht
    exfalso
    cases hp : t2.pc <;> rw [hp] at hw hret <;> first | exact hw | cases hret
  · intro j t ht htask
    obtain ⟨u, hu, hru, _⟩ := persist_at hs ht
    obtain ⟨v, hv, hrv⟩ := roles l s1 s2 hl j u hu
    have hrole : v.role = t.role := by rw [hrv, hru]
    refine ⟨v, hv, hrole, returned_of_not_pending ?_ (hd j (lt_of_get ht) v hv)⟩
    unfold Spec.isTask at htask ⊢
    rw [hrole]; exact htask

/-- A case that meets the hypotheses of C63: two tasks, both running when `Wait` is called; `Wait` returns. -/
theorem C63_example : (exec (List.replicate 14 0) (init 2 [[.runTask .plain [], .runTask (.err none) [], .wait]])).map
      (fun s => s.threads.countP Spec.running) = some 2 ∧
    (exec (List.replicate 16 0 ++ [1, 1, 2, 1, 2, 2, 0, 0, 0])
      (init 2 [[.runTask .plain [], .runTask (.err none) [], .wait]])).map
      (fun s => (s.returns, s.threads.countP Spec.returned)) = some ([(0, none)], 2) := by exact ⟨rfl, rfl⟩

/-- C63: calling `Wait` while another goroutine calls `RunTask` may panic ("WaitGroup is reused before previous Wait
has returned"): the woken `Wait` finds the counter not zero. -/
theorem C63_wait_beside_runtask_violated : (exec (List.replicate 9 0 ++ [2, 2, 2] ++ List.replicate 4 1 ++ [0])
    (init 1 [[.runTask .plain [], .wait], [.runTask .plain []]])).map (fun s => s.crash) = some (some .wgReused) := by rfl

/-! ## C64 -/

/-- C64: every error `Wait` returns is one that a finished task returned. -/
theorem C64_only_task_errors (nums : Nat) (progs : List (List Op)) (s : St) (h : Reach nums progs s) :
    ∀ p ∈ s.returns, ∀ e, p.2 = some e → Spec.failedWith s e := by
  intro p hp e he
  obtain ⟨u, hu, hr, hpe⟩ := (einv_reach h).ret p hp e he
  exact ⟨u, hu, hr, returned_of_not_pending (Or.inr ⟨_, hr⟩) hpe⟩

/-- C64, in part: without `Close`, once the goroutine of a failing task is over, the first `Wait` (of goroutine `i`,
with all tasks over, undisturbed) returns the error of a task. Missing: `Wait` racing with the failing task's
goroutine, and `Close` (see the violations below). -/
theorem C64_error_reported_partial (nums : Nat) (progs : List (List Op)) (s : St) (i : Nat) (ro : Role) (r : List Op)
    (t : Thread) (e : Nat) (hp : ∀ p ∈ progs, opsNoClose p = true) (h : Reach nums progs s)
    (hcall : s.threads[i]? = some ⟨ro, .ready, .wait :: r⟩) (hc : s.crash = none) (hw : s.wg = 0) (hfirst : s.returns = [])
    (ht : t ∈ s.threads) (hrole : t.role = .task (.err (some e))) (hover : t.pc = .finished) :
    ∃ s' e', exec [i, i, i, i] s = some s' ∧ s'.returns = [(i, some e')] ∧ Spec.failedWith s e' := by
  have hf := finv_reach hp h
  have hcl := hf.fin t ht e hrole (Or.inl hover)
  have herr : s.err ≠ none := by
    rcases hf.err hcl with h | h
    · exact h
    · exact absurd hfirst h
  cases he : s.err with
  | none => exact absurd he herr
  | some e' =>
    have hlt := lt_of_get hcall
    have hsrc : Spec.failedWith s e' := by
      obtain ⟨u, hu, hru, hpe⟩ := (einv_reach h).err e' he
      exact ⟨u, hu, hru, returned_of_not_pending (Or.inr ⟨_, hru⟩) hpe⟩
    have hx : ∃ ths, exec [i, i, i, i] s = some { s with threads := ths, err := none, returns := s.returns ++ [(i, some e')] } := ?_
    · obtain ⟨ths, hx⟩ := hx
      exact ⟨_, e', hx, by simp [hfirst], hsrc⟩
    refine ⟨(((s.threads.set i ⟨ro, .waiting s.threads.length, r⟩).set i
      ⟨ro, .readErr s.threads.length, r⟩).set i ⟨ro, .clearErr s.threads.length (some e'), r⟩).set i ⟨ro, .ready, r⟩, ?_⟩
    have st0 : step s i = stepThread s i ⟨ro, .ready, .wait :: r⟩ := by unfold step; rw [hc, hcall]
    have st : ∀ (ths : List Thread) (u : Thread), ths[i]? = some u →
        step { s with threads := ths } i = stepThread { s with threads := ths } i u := by
      intro ths u h2
      unfold step; simp only; rw [hc, h2]
    simp only [exec]
    rw [st0]
    simp only [stepThread, St.put, Option.bind_some]
    rw [st _ ⟨ro, .waiting s.threads.length, r⟩ (by rw [List.getElem?_set_self hlt])]
    simp only [stepThread, St.put]
    rw [if_pos hw]
    simp only [Option.bind_some]
    rw [st _ ⟨ro, .readErr s.threads.length, r⟩ (by simp [hlt])]
    simp only [stepThread, St.put, Option.bind_some]
    rw [st _ ⟨ro, .clearErr s.threads.length s.err, r⟩ (by simp [hlt])]
    simp only [stepThread, St.put, Option.bind_some]
    rw [he]

/-- A case that meets these hypotheses. -/
theorem C64_example : (exec (List.replicate 7 0 ++ List.replicate 7 1) (init 1 [[.runTask (.err (some 7)) [], .wait]])).map
    (fun s => (s.crash, s.wg, s.returns, s.threads.map (fun t => match t.pc with | .finished => 1 | .ready => 2 | _ => 0))) =
    some (none, 0, [], [2, 1]) := by rfl

/-- C64: a failing task's goroutine signals that the task is over before it stores the error: `Wait`, called after the
task was started, returns nil. (The error is reported by a later `Wait`, if there is one.) -/
theorem C64_error_missed_violated : (exec (List.replicate 7 0 ++ [1, 1, 1] ++ List.replicate 4 0 ++ List.replicate 4 1)
    (init 1 [[.runTask (.err (some 7)) [], .wait]])).map (fun s => (s.returns, s.err)) = some ([(0, none)], some 7) := by rfl

/-- C64: if the error is stored between the two statements of `Wait`, no call ever returns it. -/
theorem C64_error_lost_violated : (exec (List.replicate 7 0 ++ [1, 1, 1] ++ List.replicate 3 0 ++ List.replicate 4 1 ++
    List.replicate 5 0) (init 1 [[.runTask (.err (some 7)) [], .wait, .wait]])).map (fun s => (s.returns, s.err)) =
    some ([(0, none), (0, none)], none) := by rfl

/-- C64: after `Close` the errors of the tasks still running are dropped. -/
theorem C64_error_after_close_violated : (exec (List.replicate 12 0 ++ List.replicate 7 1 ++ List.replicate 4 0)
    (init 1 [[.runTask (.err (some 7)) [], .close, .wait]])).map (fun s => (s.returns, s.err, s.threads.countP Spec.returned)) =
    some ([(0, none)], none, 1) := by rfl

/-- C64: the comment at worker.go:11 says that after `Wait` tasks can be added again; after an error they are dropped
silently: no goroutine is started for the second task and the second `Wait` returns nil. -/
theorem C64_dropped_after_error_violated : (exec (List.replicate 7 0 ++ List.replicate 7 1 ++ List.replicate 12 0)
    (init 1 [[.runTask (.err (some 7)) [], .wait, .runTask .plain [], .wait]])).map
    (fun s => (s.returns, s.threads.length)) = some ([(0, some 7), (0, none)], 2) := by rfl

/-! ## C65 -/

theorem stuck_can {s : St} (h : Spec.stuck s) : ∀ i, ¬ can s i := by
  intro i hc
  unfold can at hc
  rw [h i] at hc
  cases hc

/-- C65: no schedule goes on for ever: the number of steps is bounded by a number that depends only on the programs
(`measure`), so every execution ends. -/
theorem C65_executions_bounded (nums : Nat) (progs : List (List Op)) :
    ∃ B, ∀ (l : List Nat) (s : St), exec l (init nums progs) = some s → l.length ≤ B :=
  ⟨measure (init nums progs), fun l s h => by have := exec_measure l _ s h; omega⟩

/-- C65, in part: with a pool of at least one and tasks of the two allowed types that do not use the worker themselves,
when nothing can move any more every goroutine is over — every call returned —, unless the program panicked because
`Wait` was called beside `RunTask` (C63). Missing: what the violations below show to be false. -/
theorem C65_progress_partial (nums : Nat) (progs : List (List Op)) (s : St) (hn : 1 ≤ nums)
    (hp : ∀ p ∈ progs, ∀ o ∈ p, ∀ k b, o = .runTask k b → k ≠ .other ∧ b = []) (h : Reach nums progs s)
    (hst : Spec.stuck s) : s.crash = some .wgReused ∨ ∀ t ∈ s.threads, t.pc = .finished := by
  rcases (inv_reach h).crash with hc | hc
  · right
    have hsm : ∀ p ∈ progs, ∀ o ∈ p, o.simple := by
      intro p hp1 o ho
      cases o with
      | runTask k b => exact hp p hp1 _ ho k b rfl
      | wait => trivial
      | close => trivial
    exact progress (inv_reach h) (winv_reach h) (simple_reach hsm h) (by rw [cap_reach h]; exact hn) hc (stuck_can hst)
  · exact Or.inl hc

/-- C65: one goroutine that uses the worker (with such tasks): every call returns, in every schedule, and nothing
panics. -/
theorem C65_one_client_progress (nums : Nat) (p : List Op) (s : St) (hn : 1 ≤ nums)
    (hp : ∀ o ∈ p, ∀ k b, o = .runTask k b → k ≠ .other ∧ b = []) (h : Reach nums [p] s) :
    s.crash = none ∧ (Spec.stuck s → ∀ t ∈ s.threads, t.pc = .finished) := by
  have hsm : ∀ o ∈ p, o.simple := by
    intro o ho
    cases o with
    | runTask k b => exact hp _ ho k b rfl
    | wait => trivial
    | close => trivial
  have hc := (one_reach hsm h).2
  refine ⟨hc, fun hst => ?_⟩
  exact progress (inv_reach h) (winv_reach h) (simple_reach (by simpa using hsm) h) (by rw [cap_reach h]; exact hn) hc
    (stuck_can hst)

/-- A case that meets the hypotheses of the last two theorems and comes to an end. -/
theorem C65_example : (exec (List.replicate 11 0 ++ List.replicate 3 1 ++ List.replicate 3 0 ++ List.replicate 7 2 ++
    List.replicate 5 0 ++ [1]) (init 1 [[.runTask .plain [], .runTask (.err (some 3)) [], .wait]])).map
      (fun s => (s.returns, s.crash)) = none ∧
    (exec (List.replicate 11 0 ++ List.replicate 3 1 ++ List.replicate 3 0 ++ List.replicate 7 2 ++ List.replicate 5 0)
      (init 1 [[.runTask .plain [], .runTask (.err (some 3)) [], .wait]])).map
      (fun s => (s.returns, s.crash, s.threads.map (fun t => match t.pc with | .finished => true | _ => false))) =
      some ([(0, some 3)], none, [true, true, true]) := by exact ⟨rfl, rfl⟩

/-- C65: with a pool of 0 the first `RunTask` never returns. -/
theorem C65_zero_pool_violated : ∃ s, exec (List.replicate 4 0) (init 0 [[.runTask .plain []]]) = some s ∧
    Spec.stuck s ∧ s.crash = none ∧ s.threads.map (fun t => t.ops.length) = [0] ∧
    s.threads.all (fun t => match t.pc with | .send .. => true | _ => false) = true := by
  refine ⟨_, rfl, ?_, rfl, rfl, rfl⟩
  intro i
  match i with
  | 0 => rfl
  | i + 1 => rfl

/-- C65: a task that itself calls `RunTask` while the pool is full blocks for ever, and with it every `Wait`. -/
theorem C65_nested_deadlock_violated : ∃ s, exec (List.replicate 9 0 ++ List.replicate 4 1)
    (init 1 [[.runTask .plain [.runTask .plain []], .wait]]) = some s ∧ Spec.stuck s ∧ s.crash = none ∧
    s.threads.map (fun t => match t.pc with | .sleeping _ => 1 | .send .. => 2 | _ => 0) = [1, 2] := by
  refine ⟨_, rfl, ?_, rfl, rfl⟩
  intro i
  match i with
  | 0 => rfl
  | 1 => rfl
  | i + 2 => rfl

/-- C65: a task of any other type (e.g. `func() string`) is not run and keeps its slot for ever: `Wait` never returns. -/
theorem C65_other_type_leaks_violated : ∃ s, exec (List.replicate 9 0) (init 1 [[.runTask .other [], .wait]]) = some s ∧
    Spec.stuck s ∧ s.crash = none ∧ s.buf = 1 ∧
    s.threads.map (fun t => match t.pc with | .sleeping _ => 1 | .leaked => 2 | _ => 0) = [1, 2] := by
  refine ⟨_, rfl, ?_, rfl, rfl, rfl⟩
  intro i
  match i with
  | 0 => rfl
  | 1 => rfl
  | i + 2 => rfl

end Verif.Worker
