import Verif.Props.Worker
/-!
# C139: tasks run once, and a worker fails once
-/
namespace Verif.Worker

/-! ## Specification -/

mutual
/-- How many tasks of the kind `k` a call submits, with those its task submits. (The body of a task of another type is never run.) -/
def Spec.opCount (k : Kind) : Op → Nat
  | .runTask k' b => (if k' = k then 1 else 0) + (if k' = .other then 0 else Spec.count k b)
  | _ => 0
/-- How many tasks of the kind `k` a program submits. -/
def Spec.count (k : Kind) : List Op → Nat
  | [] => 0
  | o :: r => Spec.opCount k o + Spec.count k r
end

/-- How many tasks of the kind `k` all programs submit. -/
def Spec.submitted (k : Kind) (progs : List (List Op)) : Nat := (progs.map (Spec.count k)).sum

/-- How many goroutines were started for tasks of the kind `k`. -/
def Spec.started (k : Kind) (s : St) : Nat := s.threads.countP (fun t => t.role = .task k)

/-- Inside a call of `RunTask` that found the worker open, before its `go`. -/
def Spec.accepted : PC → Bool
  | .add .. | .send .. | .runlock .. | .spawn .. => true
  | _ => false

/-- Is it the goroutine of a task? -/
def Spec.ofTask (t : Thread) : Bool := t.role ≠ .client

/-! ## Sums over the goroutines -/

def sumBy (f : Thread → Nat) (l : List Thread) : Nat := (l.map f).sum

theorem sumBy_set (f : Thread → Nat) : ∀ (l : List Thread) (i : Nat) (t a : Thread), l[i]? = some t →
    sumBy f (l.set i a) + f t = sumBy f l + f a
  | [], i, t, a, h => by simp at h
  | x :: l, 0, t, a, h => by
    simp only [List.getElem?_cons_zero, Option.some.injEq] at h
    subst h
    simp only [List.set_cons_zero, sumBy, List.map_cons, List.sum_cons]; omega
  | x :: l, i + 1, t, a, h => by
    simp only [List.getElem?_cons_succ] at h
    have := sumBy_set f l i t a h
    simp only [List.set_cons_succ, sumBy, List.map_cons, List.sum_cons] at this ⊢; omega

theorem sumBy_append (f : Thread → Nat) (a b : List Thread) : sumBy f (a ++ b) = sumBy f a + sumBy f b := by
  simp [sumBy, List.sum_append]

theorem sumBy_wake (f : Thread → Nat) (hf : ∀ t, f (wake t) = f t) (l : List Thread) : sumBy f (l.map wake) = sumBy f l := by
  unfold sumBy
  rw [List.map_map]
  congr 1
  exact List.map_congr_left fun t _ => hf t

/-- The goroutine's program is at its end. -/
def over : PC → Bool
  | .recv | .wgDone | .announce (.fail _) | .acquire (.fail _) | .inside (.fail _) | .unlock (.fail _) | .finished | .leaked => true
  | _ => false

/-- One step of one goroutine: what it was, what it is, whom it started. -/
theorem sumBy_step (f : Thread → Nat) (hf : ∀ t, f (wake t) = f t) {s s' : St} {i : Nat} (hs : step s i = some s') :
    (sumBy f s'.threads = sumBy f s.threads ∧ s'.closed = s.closed) ∨
    ∃ t a extra, s.threads[i]? = some t ∧ sumBy f s'.threads + f t = sumBy f s.threads + f a + sumBy f extra ∧
      ((s.closed = true → s'.closed = true) ∧ a.role = t.role ∧ ((∃ j, a.pc = .unlock j) → s'.closed = true)) ∧
      ((t.pc = .ready ∧ ∃ o r, t.ops = o :: r ∧ a.ops = r ∧ extra = [] ∧
          a.pc = (match o with | .runTask k b => .rlock k b | .wait => .waiting s.threads.length | .close => .announce .close)) ∨
       (a.ops = t.ops ∧ extra = [] ∧
          ((∃ k b, t.pc = .rlock k b ∧ a.pc = .check k b) ∨ (∃ k b, t.pc = .check k b ∧ a.pc = .dropped ∧ s.closed = true) ∨
           (∃ k b, t.pc = .check k b ∧ a.pc = .add k b ∧ s.closed = false) ∨ (∃ k b, t.pc = .add k b ∧ a.pc = .send k b) ∨
           (∃ k b, t.pc = .send k b ∧ a.pc = .runlock k b) ∨ (∃ k b, t.pc = .runlock k b ∧ a.pc = .spawn k b))) ∨
       (∃ k b, t.pc = .spawn k b ∧ a.pc = .ready ∧ a.ops = t.ops ∧ extra = [newTask k b]) ∨
       (a.ops = t.ops ∧ extra = [] ∧
          (∀ k b, t.pc ≠ .rlock k b ∧ t.pc ≠ .check k b ∧ t.pc ≠ .add k b ∧ t.pc ≠ .send k b ∧ t.pc ≠ .runlock k b ∧ t.pc ≠ .spawn k b) ∧
          (∀ k b, a.pc ≠ .rlock k b ∧ a.pc ≠ .check k b ∧ a.pc ≠ .add k b ∧ a.pc ≠ .send k b ∧ a.pc ≠ .runlock k b ∧ a.pc ≠ .spawn k b) ∧
          (over a.pc = true → over t.pc = true ∨ t.ops = []))) := by
  obtain ⟨hc, t, ht, hst⟩ := step_of hs
  obtain ⟨ro, pc, ops⟩ := t
  have hset := fun a => sumBy_set f s.threads i _ a ht
  have mv : ∀ (pc' : PC) (st : St), st.threads = s.threads.set i ⟨ro, pc', ops⟩ →
      sumBy f st.threads + f ⟨ro, pc, ops⟩ = sumBy f s.threads + f ⟨ro, pc', ops⟩ + sumBy f [] := by
    intro pc' st h
    rw [h]
    exact hset _
  unfold stepThread at hst
  cases pc with
  | ready =>
    simp only at hst
    cases ops with
    | nil =>
      right
      cases ro <;> cases hst
      · exact ⟨_, ⟨.client, .finished, []⟩, [], ht, mv _ _ rfl, ⟨id, rfl, by simp⟩, .inr (.inr (.inr ⟨rfl, rfl, by simp, by simp, by simp [over]⟩))⟩
      · exact ⟨_, ⟨_, .recv, []⟩, [], ht, mv _ _ rfl, ⟨id, rfl, by simp⟩, .inr (.inr (.inr ⟨rfl, rfl, by simp, by simp, by simp [over]⟩))⟩
    | cons o r =>
      right
      cases o with
      | runTask k b =>
        cases hst
        exact ⟨_, ⟨ro, .rlock k b, r⟩, [], ht, hset _, ⟨id, rfl, by simp⟩, .inl ⟨rfl, _, _, rfl, rfl, rfl, rfl⟩⟩
      | wait =>
        cases hst
        exact ⟨_, ⟨ro, .waiting s.threads.length, r⟩, [], ht, hset _, ⟨id, rfl, by simp⟩, .inl ⟨rfl, _, _, rfl, rfl, rfl, rfl⟩⟩
      | close =>
        cases hst
        exact ⟨_, ⟨ro, .announce .close, r⟩, [], ht, hset _, ⟨id, rfl, by simp⟩, .inl ⟨rfl, _, _, rfl, rfl, rfl, rfl⟩⟩
  | rlock k b =>
    simp only at hst
    split at hst <;> cases hst
    exact .inr ⟨_, ⟨ro, .check k b, ops⟩, [], ht, mv _ _ rfl, ⟨id, rfl, by simp⟩, .inr (.inl ⟨rfl, rfl, .inl ⟨k, b, rfl, rfl⟩⟩)⟩
  | check k b =>
    simp only at hst
    split at hst <;> cases hst
    · exact .inr ⟨_, ⟨ro, .dropped, ops⟩, [], ht, mv _ _ rfl, ⟨id, rfl, by simp⟩, .inr (.inl ⟨rfl, rfl, .inr (.inl ⟨k, b, rfl, rfl, by assumption⟩)⟩)⟩
    · exact .inr ⟨_, ⟨ro, .add k b, ops⟩, [], ht, mv _ _ rfl, ⟨id, rfl, by simp⟩,
        .inr (.inl ⟨rfl, rfl, .inr (.inr (.inl ⟨k, b, rfl, rfl, by simpa using ‹¬ s.closed = true›⟩))⟩)⟩
  | dropped =>
    cases hst
    exact .inr ⟨_, ⟨ro, .ready, ops⟩, [], ht, mv _ _ rfl, ⟨id, rfl, by simp⟩, .inr (.inr (.inr ⟨rfl, rfl, by simp, by simp, by simp [over]⟩))⟩
  | add k b =>
    cases hst
    exact .inr ⟨_, ⟨ro, .send k b, ops⟩, [], ht, mv _ _ rfl, ⟨id, rfl, by simp⟩, .inr (.inl ⟨rfl, rfl, .inr (.inr (.inr (.inl ⟨k, b, rfl, rfl⟩)))⟩)⟩
  | send k b =>
    simp only at hst
    split at hst
    · cases hst; exact .inl ⟨rfl, rfl⟩
    · split at hst <;> cases hst
      exact .inr ⟨_, ⟨ro, .runlock k b, ops⟩, [], ht, mv _ _ rfl, ⟨id, rfl, by simp⟩, .inr (.inl ⟨rfl, rfl, .inr (.inr (.inr (.inr (.inl ⟨k, b, rfl, rfl⟩))))⟩)⟩
  | runlock k b =>
    cases hst
    exact .inr ⟨_, ⟨ro, .spawn k b, ops⟩, [], ht, mv _ _ rfl, ⟨id, rfl, by simp⟩, .inr (.inl ⟨rfl, rfl, .inr (.inr (.inr (.inr (.inr ⟨k, b, rfl, rfl⟩))))⟩)⟩
  | spawn k b =>
    cases hst
    refine .inr ⟨_, ⟨ro, .ready, ops⟩, [newTask k b], ht, ?_, ⟨id, rfl, by simp⟩, .inr (.inr (.inl ⟨k, b, rfl, rfl, rfl, rfl⟩))⟩
    have := hset ⟨ro, .ready, ops⟩
    simp only [sumBy_append]
    omega
  | waiting n =>
    simp only at hst
    split at hst <;> cases hst
    · exact .inr ⟨_, ⟨ro, .readErr n, ops⟩, [], ht, mv _ _ rfl, ⟨id, rfl, by simp⟩, .inr (.inr (.inr ⟨rfl, rfl, by simp, by simp, by simp [over]⟩))⟩
    · exact .inr ⟨_, ⟨ro, .sleeping n, ops⟩, [], ht, mv _ _ rfl, ⟨id, rfl, by simp⟩, .inr (.inr (.inr ⟨rfl, rfl, by simp, by simp, by simp [over]⟩))⟩
  | sleeping n => cases hst
  | woken n =>
    simp only at hst
    split at hst <;> cases hst
    · exact .inr ⟨_, ⟨ro, .readErr n, ops⟩, [], ht, mv _ _ rfl, ⟨id, rfl, by simp⟩, .inr (.inr (.inr ⟨rfl, rfl, by simp, by simp, by simp [over]⟩))⟩
    · exact .inl ⟨rfl, rfl⟩
  | readErr n =>
    cases hst
    exact .inr ⟨_, ⟨ro, .clearErr n s.err, ops⟩, [], ht, mv _ _ rfl, ⟨id, rfl, by simp⟩, .inr (.inr (.inr ⟨rfl, rfl, by simp, by simp, by simp [over]⟩))⟩
  | clearErr n r =>
    cases hst
    exact .inr ⟨_, ⟨ro, .ready, ops⟩, [], ht, mv .ready _ rfl, ⟨id, rfl, by simp⟩, .inr (.inr (.inr ⟨rfl, rfl, by simp, by simp, by simp [over]⟩))⟩
  | announce j =>
    simp only at hst
    split at hst <;> cases hst
    exact .inr ⟨_, ⟨ro, .acquire j, ops⟩, [], ht, mv _ _ rfl, ⟨id, rfl, by simp⟩, .inr (.inr (.inr ⟨rfl, rfl, by simp, by simp, by cases j <;> simp [over]⟩))⟩
  | acquire j =>
    simp only at hst
    split at hst <;> cases hst
    exact .inr ⟨_, ⟨ro, .inside j, ops⟩, [], ht, mv _ _ rfl, ⟨id, rfl, by simp⟩, .inr (.inr (.inr ⟨rfl, rfl, by simp, by simp, by cases j <;> simp [over]⟩))⟩
  | inside j =>
    simp only at hst
    split at hst
    · cases hst
      exact .inr ⟨_, ⟨ro, .unlock j, ops⟩, [], ht, mv _ _ rfl, ⟨id, rfl, fun _ => by assumption⟩, .inr (.inr (.inr ⟨rfl, rfl, by simp, by simp, by cases j <;> simp [over]⟩))⟩
    · split at hst
      · cases hst; exact .inl ⟨rfl, rfl⟩
      · cases j <;> cases hst
        · exact .inr ⟨_, ⟨ro, .unlock .close, ops⟩, [], ht, mv (.unlock .close) _ rfl, ⟨fun _ => rfl, rfl, fun _ => rfl⟩, .inr (.inr (.inr ⟨rfl, rfl, by simp, by simp, by simp [over]⟩))⟩
        · rename_i e
          exact .inr ⟨_, ⟨ro, .unlock (.fail e), ops⟩, [], ht, mv (.unlock (.fail e)) _ rfl, ⟨fun _ => rfl, rfl, fun _ => rfl⟩, .inr (.inr (.inr ⟨rfl, rfl, by simp, by simp, by simp [over]⟩))⟩
  | unlock j =>
    cases j <;> cases hst
    · exact .inr ⟨_, ⟨ro, .ready, ops⟩, [], ht, mv _ _ rfl, ⟨id, rfl, by simp⟩, .inr (.inr (.inr ⟨rfl, rfl, by simp, by simp, by simp [over]⟩))⟩
    · exact .inr ⟨_, ⟨ro, .finished, ops⟩, [], ht, mv _ _ rfl, ⟨id, rfl, by simp⟩, .inr (.inr (.inr ⟨rfl, rfl, by simp, by simp, by simp [over]⟩))⟩
  | recv =>
    simp only at hst
    split at hst
    · cases hst
      exact .inr ⟨_, ⟨ro, .wgDone, ops⟩, [], ht, mv .wgDone _ rfl, ⟨id, rfl, by simp⟩, .inr (.inr (.inr ⟨rfl, rfl, by simp, by simp, by simp [over]⟩))⟩
    · split at hst <;> cases hst
      exact .inr ⟨_, ⟨ro, .wgDone, ops⟩, [], ht, mv _ _ rfl, ⟨id, rfl, by simp⟩, .inr (.inr (.inr ⟨rfl, rfl, by simp, by simp, by simp [over]⟩))⟩
  | wgDone =>
    have hne : ∀ k b, afterDone ro ≠ .rlock k b ∧ afterDone ro ≠ .check k b ∧ afterDone ro ≠ .add k b ∧ afterDone ro ≠ .send k b ∧
        afterDone ro ≠ .runlock k b ∧ afterDone ro ≠ .spawn k b := by
      rcases ro with _ | (_ | (_ | e') | _) <;> simp [afterDone]
    have hnu : (∃ j, afterDone ro = .unlock j) → s.closed = true := by
      rintro ⟨j, hj⟩
      rcases ro with _ | (_ | (_ | e') | _) <;> simp [afterDone] at hj
    simp only at hst
    split at hst
    · cases hst; exact .inl ⟨rfl, rfl⟩
    · split at hst
      · cases hst
        refine .inr ⟨_, ⟨ro, afterDone ro, ops⟩, [], ht, ?_, ⟨id, rfl, hnu⟩, .inr (.inr (.inr ⟨rfl, rfl, by simp, hne, by simp [over]⟩))⟩
        show sumBy f ((s.threads.set i ⟨ro, afterDone ro, ops⟩).map wake) + _ = _
        rw [sumBy_wake f hf]
        exact hset _
      · cases hst
        exact .inr ⟨_, ⟨ro, afterDone ro, ops⟩, [], ht, mv (afterDone ro) _ rfl, ⟨id, rfl, hnu⟩, .inr (.inr (.inr ⟨rfl, rfl, by simp, hne, by simp [over]⟩))⟩
  | finished => cases hst
  | leaked => cases hst


/-! ## Counting tasks -/

/-- The tasks of the kind `k` in the call a goroutine is executing. -/
def pcC (k : Kind) : PC → Nat
  | .rlock k' b | .check k' b | .add k' b | .send k' b | .runlock k' b | .spawn k' b => Spec.opCount k (.runTask k' b)
  | _ => 0

/-- The tasks of the kind `k` a goroutine is or will still submit. -/
def threadC (k : Kind) (t : Thread) : Nat :=
  (if t.role = .task k then 1 else 0) + pcC k t.pc + Spec.count k t.ops

theorem threadC_wake (k : Kind) (t : Thread) : threadC k (wake t) = threadC k t := by
  obtain ⟨r, p, o⟩ := t; cases p <;> rfl

theorem threadC_new (k k' : Kind) (b : List Op) : threadC k (newTask k' b) = Spec.opCount k (.runTask k' b) := by
  cases k' <;> simp [newTask, threadC, pcC, Spec.opCount, Spec.count, eq_comm]

theorem pcC_zero (k : Kind) {pc : PC} (h : ∀ k b, pc ≠ .rlock k b ∧ pc ≠ .check k b ∧ pc ≠ .add k b ∧ pc ≠ .send k b ∧ pc ≠ .runlock k b ∧ pc ≠ .spawn k b) :
    pcC k pc = 0 := by
  cases pc <;> first | rfl | (exfalso; simp at h)

theorem count_step (k : Kind) {s s' : St} {i : Nat} (hs : step s i = some s') :
    sumBy (threadC k) s'.threads ≤ sumBy (threadC k) s.threads ∧ (s'.closed = false → sumBy (threadC k) s'.threads = sumBy (threadC k) s.threads) ∧
    (s.closed = true → s'.closed = true) := by
  rcases sumBy_step (threadC k) (threadC_wake k) hs with ⟨h, hc⟩ | ⟨t, a, extra, ht, he, ⟨hcl, hro, -⟩, h⟩
  · exact ⟨Nat.le_of_eq h, fun _ => h, fun h => by rw [hc, h]⟩
  suffices hh : threadC k a + sumBy (threadC k) extra ≤ threadC k t ∧ (s'.closed = false → threadC k a + sumBy (threadC k) extra = threadC k t) from
    ⟨by omega, fun h => by have := hh.2 h; omega, hcl⟩
  obtain ⟨ro, pc, ops⟩ := t
  obtain ⟨ro', pc', ops'⟩ := a
  simp only at hro h
  subst hro
  rcases h with ⟨rfl, o, r, rfl, rfl, rfl, hpc⟩ | ⟨rfl, rfl, h⟩ | ⟨k', b, rfl, rfl, rfl, rfl⟩ | ⟨rfl, rfl, h1, h2, -⟩
  · cases o <;> simp only at hpc <;> subst hpc <;> simp [threadC, pcC, Spec.count, sumBy, Spec.opCount] <;> omega
  · rcases h with ⟨k', b, rfl, rfl⟩ | ⟨k', b, rfl, rfl, hc⟩ | ⟨k', b, rfl, rfl, hc⟩ | ⟨k', b, rfl, rfl⟩ | ⟨k', b, rfl, rfl⟩ | ⟨k', b, rfl, rfl⟩
    · simp [threadC, pcC, sumBy]
    · refine ⟨by simp [threadC, pcC, sumBy], fun h => ?_⟩
      rw [hcl hc] at h; cases h
    all_goals simp [threadC, pcC, sumBy]
  · have := threadC_new k k' b
    simp only [sumBy, List.map_cons, List.map_nil, List.sum_cons, List.sum_nil, this]
    simp [threadC, pcC]; omega
  · simp [threadC, pcC_zero k h1, pcC_zero k h2, sumBy]

theorem sumBy_init (k : Kind) (cap : Nat) (progs : List (List Op)) : sumBy (threadC k) (init cap progs).threads = Spec.submitted k progs := by
  unfold sumBy Spec.submitted init
  simp only [List.map_map]
  congr 1
  refine List.map_congr_left fun p _ => ?_
  simp [threadC, pcC]

theorem started_sum (k : Kind) (l : List Thread) : l.countP (fun t => t.role = .task k) = sumBy (fun t => if t.role = .task k then 1 else 0) l := by
  induction l with
  | nil => rfl
  | cons t l ih =>
    rw [List.countP_cons, ih]
    simp only [sumBy, List.map_cons, List.sum_cons, decide_eq_true_eq]
    omega

theorem sumBy_le {f g : Thread → Nat} : ∀ (l : List Thread), (∀ t ∈ l, f t ≤ g t) → sumBy f l ≤ sumBy g l
  | [], _ => Nat.le_refl _
  | t :: l, h => by
    have h1 := h t (by simp)
    have h2 := sumBy_le l (fun x hx => h x (by simp [hx]))
    simp only [sumBy, List.map_cons, List.sum_cons] at h2 ⊢; omega

/-- C139: in every execution no task is started more often than it was submitted (per kind). -/
theorem C139_at_most_once (nums : Nat) (progs : List (List Op)) (s : St) (k : Kind) (h : Reach nums progs s) :
    Spec.started k s ≤ Spec.submitted k progs := by
  have hsum : sumBy (threadC k) s.threads ≤ Spec.submitted k progs := by
    induction h with
    | init => rw [sumBy_init]; exact Nat.le_refl _
    | step i _ hs ih => exact Nat.le_trans (count_step k hs).1 ih
  refine Nat.le_trans ?_ hsum
  unfold Spec.started
  rw [started_sum]
  refine sumBy_le _ fun t _ => ?_
  simp only [threadC]; omega

/-- Programs are executed to their end. -/
def left (t : Thread) : Nat := if over t.pc = true ∧ t.ops ≠ [] then 1 else 0

theorem left_wake (t : Thread) : left (wake t) = left t := by
  obtain ⟨r, p, o⟩ := t; cases p <;> rfl

theorem left_reach {nums : Nat} {progs : List (List Op)} {s : St} (h : Reach nums progs s) : sumBy left s.threads = 0 := by
  induction h with
  | init =>
    have : sumBy left (init nums progs).threads ≤ sumBy (fun _ => 0) (init nums progs).threads := by
      refine sumBy_le _ fun t ht => ?_
      obtain ⟨p, _, rfl⟩ := List.mem_map.1 ht
      simp [left, over]
    have h0 : ∀ l : List Thread, sumBy (fun _ => 0) l = 0 := by
      intro l
      induction l with
      | nil => rfl
      | cons t l ih => simp only [sumBy, List.map_cons, List.sum_cons] at ih ⊢; omega
    rw [h0] at this; omega
  | step i hr hs ih =>
    rcases sumBy_step left left_wake hs with ⟨h, -⟩ | ⟨t, a, extra, ht, he, -, h⟩
    · rw [h, ih]
    · have h0 : left t = 0 := by
        obtain ⟨l1, l2, hl⟩ := List.append_of_mem (List.mem_of_getElem? ht)
        rw [hl, sumBy_append] at ih
        simp only [sumBy, List.map_cons, List.sum_cons] at ih
        omega
      suffices hh : left a + sumBy left extra = 0 by omega
      rcases h with ⟨-, o, r, -, -, rfl, hpc⟩ | ⟨-, rfl, h⟩ | ⟨k', b, -, hpc, -, rfl⟩ | ⟨ho, rfl, -, -, h1⟩
      · cases o <;> simp only at hpc <;> simp [left, hpc, over, sumBy]
      · rcases h with ⟨k', b, -, hpc⟩ | ⟨k', b, -, hpc, -⟩ | ⟨k', b, -, hpc, -⟩ | ⟨k', b, -, hpc⟩ | ⟨k', b, -, hpc⟩ | ⟨k', b, -, hpc⟩ <;>
          simp [left, hpc, over, sumBy]
      · cases k' <;> simp [left, hpc, over, sumBy, newTask]
      · have : left a = 0 := by
          unfold left at h0 ⊢
          by_cases hov : over a.pc = true
          · rcases h1 hov with h2 | h2
            · have : t.ops = [] := by
                by_cases h3 : t.ops = []
                · exact h3
                · rw [if_pos ⟨h2, h3⟩] at h0; cases h0
              simp [ho, this]
            · simp [ho, h2]
          · simp [hov]
        simp [this, sumBy]

/-- C139: if the worker was not closed (by `Close` or an error) and every goroutine is over, every submitted task was started
exactly as often as it was submitted. -/
theorem C139_all_run (nums : Nat) (progs : List (List Op)) (s : St) (k : Kind) (h : Reach nums progs s) (hopen : s.closed = false)
    (hover : ∀ t ∈ s.threads, t.pc = .finished ∨ t.pc = .leaked) : Spec.started k s = Spec.submitted k progs := by
  have hsum : sumBy (threadC k) s.threads = Spec.submitted k progs := by
    clear hover
    induction h with
    | init => exact sumBy_init k _ _
    | @step s s' i _ hs ih =>
      have hc := count_step k hs
      rw [hc.2.1 hopen]
      refine ih ?_
      cases hcl : s.closed with
      | false => rfl
      | true => rw [hc.2.2 hcl] at hopen; cases hopen
  have hl := left_reach h
  rw [← hsum]
  unfold Spec.started
  rw [started_sum]
  have hops : ∀ t ∈ s.threads, t.ops = [] := by
    intro t ht
    obtain ⟨l1, l2, hl2⟩ := List.append_of_mem ht
    rw [hl2, sumBy_append] at hl
    simp only [sumBy, List.map_cons, List.sum_cons] at hl
    have h0 : left t = 0 := by omega
    by_cases ho : t.ops = []
    · exact ho
    · have : over t.pc = true := by rcases hover t ht with h | h <;> rw [h] <;> rfl
      rw [left, if_pos ⟨this, ho⟩] at h0; cases h0
  refine Nat.le_antisymm (sumBy_le _ fun t _ => by simp only [threadC]; omega) (sumBy_le _ fun t ht => ?_)
  have hp : pcC k t.pc = 0 := by rcases hover t ht with h | h <;> rw [h] <;> rfl
  simp only [threadC, hp, hops t ht, Spec.count]; omega

/-- Cases that meet the hypotheses: a task that submits another; all goroutines are over, nothing was closed. -/
theorem C139_example : Spec.submitted .plain [[.runTask .plain [.runTask .plain []], .wait]] = 2 ∧
    (exec (List.replicate 7 0 ++ List.replicate 7 1 ++ List.replicate 3 2 ++ List.replicate 3 1 ++ List.replicate 5 0)
      (init 2 [[.runTask .plain [.runTask .plain []], .wait]])).map
      (fun s => (Spec.started .plain s, s.closed, s.threads.map (fun t => match t.pc with | .finished => true | _ => false))) =
    some (2, false, [true, true, true]) := by
  exact ⟨by decide +kernel, by rfl⟩

/-! ## One error -/

/-- Every error in sight satisfies `P`. -/
structure Only (P : Nat → Prop) (s : St) : Prop where
  err : ∀ e, s.err = some e → P e
  held : ∀ t ∈ s.threads, ∀ n e, t.pc = .clearErr n (some e) → P e
  ret : ∀ p ∈ s.returns, ∀ e, p.2 = some e → P e

theorem Only.mono {P Q : Nat → Prop} {s : St} (h : Only P s) (hpq : ∀ e, P e → Q e) : Only Q s :=
  ⟨fun e he => hpq e (h.err e he), fun t ht n e he => hpq e (h.held t ht n e he), fun p hp e he => hpq e (h.ret p hp e he)⟩

theorem only_frame {P Q : Nat → Prop} {s s' : St} {i : Nat} (hpq : ∀ e, P e → Q e) (h : Only P s)
    (he : s'.err = s.err ∨ s'.err = none ∨ ∃ e, s'.err = some e ∧ Q e)
    (hr : s'.returns = s.returns ∨ ∃ t n r, t ∈ s.threads ∧ t.pc = .clearErr n r ∧ s'.returns = s.returns ++ [(i, r)])
    (hh : ∀ t ∈ s'.threads, ∀ n e, t.pc = .clearErr n (some e) → s.err = some e ∨
      ∃ t' ∈ s.threads, ∃ m, t'.pc = .clearErr m (some e)) : Only Q s' := by
  refine ⟨?_, ?_, ?_⟩
  · intro e h1
    rcases he with he | he | ⟨e', he, hsrc⟩
    · rw [he] at h1; exact hpq e (h.err e h1)
    · rw [he] at h1; cases h1
    · rw [he] at h1; cases h1; exact hsrc
  · intro t ht n e h1
    rcases hh t ht n e h1 with h2 | ⟨t', h2, m, h3⟩
    · exact hpq e (h.err e h2)
    · exact hpq e (h.held t' h2 m e h3)
  · intro p hp e h1
    rcases hr with hr | ⟨t, n, r, h2, h3, h4⟩
    · rw [hr] at hp; exact hpq e (h.ret p hp e h1)
    · rw [h4] at hp
      rcases List.mem_append.1 hp with hp | hp
      · exact hpq e (h.ret p hp e h1)
      · rw [List.mem_singleton.1 hp] at h1
        simp only at h1
        subst h1
        exact hpq e (h.held t h2 n e h3)

macro "omove" h:ident : tactic => `(tactic| (
  refine Or.inl (only_frame (i := 0) (fun _ h => h) $h (Or.inl rfl) (Or.inl rfl) (fun t ht n e hp => Or.inr (held_set' (by simp) t ht n e hp)))))

theorem only_step {P : Nat → Prop} {s s' : St} {i : Nat} (h : Only P s) (hs : step s i = some s') :
    Only P s' ∨ (s.closed = false ∧ s'.closed = true ∧ ∃ e, Only (fun x => P x ∨ x = e) s') := by
  obtain ⟨hc, t, ht, hst⟩ := step_of hs
  have hmem : t ∈ s.threads := List.mem_of_getElem? ht
  have same : ∀ t ∈ s.threads, ∀ n e, t.pc = .clearErr n (some e) → s.err = some e ∨
      ∃ t' ∈ s.threads, ∃ m, t'.pc = .clearErr m (some e) := fun t ht n e h => Or.inr ⟨t, ht, n, h⟩
  have hid : ∀ e, P e → P e := fun _ h => h
  obtain ⟨ro, pc, ops⟩ := t
  unfold stepThread at hst
  cases pc with
  | ready =>
    simp only at hst
    cases ops with
    | nil => cases ro <;> cases hst <;> omove h
    | cons o r => cases o <;> cases hst <;> omove h
  | rlock k b => simp only at hst; split at hst <;> cases hst; omove h
  | check k b => simp only at hst; split at hst <;> cases hst <;> omove h
  | dropped => cases hst; omove h
  | add k b => cases hst; omove h
  | send k b =>
    simp only at hst
    split at hst
    · cases hst; exact .inl (only_frame (i := i) hid h (Or.inl rfl) (Or.inl rfl) same)
    · split at hst <;> cases hst; omove h
  | runlock k b => cases hst; omove h
  | spawn k b =>
    cases hst
    refine .inl (only_frame (i := i) hid h (Or.inl rfl) (Or.inl rfl) (fun t ht n e hp => Or.inr (held_set (by simp) ?_ t ht n e hp)))
    intro x hx
    rw [List.mem_singleton.1 hx]
    cases k <;> simp [newTask]
  | waiting n => simp only at hst; split at hst <;> cases hst <;> omove h
  | sleeping n => cases hst
  | woken n =>
    simp only at hst
    split at hst <;> cases hst
    · omove h
    · exact .inl (only_frame (i := i) hid h (Or.inl rfl) (Or.inl rfl) same)
  | readErr n =>
    cases hst
    refine .inl (only_frame (i := i) hid h (Or.inl rfl) (Or.inl rfl) (fun t ht m e hp => ?_))
    rcases mem_set ht with ht | rfl
    · exact Or.inr ⟨t, ht, m, hp⟩
    · simp only [PC.clearErr.injEq] at hp
      exact Or.inl hp.2
  | clearErr n r =>
    cases hst
    exact .inl (only_frame hid h (Or.inr (Or.inl rfl)) (Or.inr ⟨_, n, r, hmem, rfl, rfl⟩)
      (fun t ht m e hp => Or.inr (held_set' (by simp) t ht m e hp)))
  | announce j => simp only at hst; split at hst <;> cases hst; omove h
  | acquire j => simp only at hst; split at hst <;> cases hst; omove h
  | inside j =>
    simp only at hst
    split at hst
    · cases hst; omove h
    · rename_i hcl
      split at hst
      · cases hst; exact .inl (only_frame (i := i) hid h (Or.inl rfl) (Or.inl rfl) same)
      · cases j <;> cases hst
        · omove h
        · rename_i e
          refine .inr ⟨by simpa using hcl, rfl, e, only_frame (i := i) (fun _ h => .inl h) h (Or.inr (Or.inr ⟨e, rfl, .inr rfl⟩))
            (Or.inl rfl) (fun t ht m e hp => Or.inr (held_set' (by simp) t ht m e hp))⟩
  | unlock j => cases j <;> cases hst <;> omove h
  | recv =>
    simp only at hst
    split at hst
    · cases hst; omove h
    · split at hst <;> cases hst; omove h
  | wgDone =>
    have hne : ∀ n e, afterDone ro ≠ .clearErr n (some e) := by
      rcases ro with _ | (_ | (_ | e') | _) <;> simp [afterDone]
    simp only at hst
    split at hst
    · cases hst; exact .inl (only_frame (i := i) hid h (Or.inl rfl) (Or.inl rfl) same)
    · split at hst
      · cases hst
        refine .inl (only_frame (i := i) hid h (Or.inl rfl) (Or.inl rfl) (fun t ht m e hp => Or.inr ?_))
        obtain ⟨y, hy, rfl⟩ := mem_wake ht
        have hy2 : y.pc = .clearErr m (some e) := by
          obtain ⟨r', p', o'⟩ := y
          cases p' <;> simp [wake] at hp ⊢
          exact hp
        exact held_set' hne y hy m e hy2
      · cases hst
        exact .inl (only_frame (i := i) hid h (Or.inl rfl) (Or.inl rfl) (fun t ht m e hp => Or.inr (held_set' hne t ht m e hp)))
  | finished => cases hst
  | leaked => cases hst

theorem only_reach {nums : Nat} {progs : List (List Op)} {s : St} (h : Reach nums progs s) :
    (s.closed = false → Only (fun _ => False) s) ∧ ∃ e0, Only (fun e => e = e0) s := by
  induction h with
  | init =>
    have h0 : Only (fun _ => False) (init nums progs) := by
      refine ⟨nofun, ?_, nofun⟩
      intro t ht n e h
      obtain ⟨q, _, rfl⟩ := List.mem_map.1 ht
      cases h
    exact ⟨fun _ => h0, 0, h0.mono (fun _ h => h.elim)⟩
  | @step s s' i _ hs ih =>
    have hmono := (count_step .plain hs).2.2
    constructor
    · intro hcl
      have hcl0 : s.closed = false := by
        cases hc : s.closed with
        | false => rfl
        | true => rw [hmono hc] at hcl; cases hcl
      rcases only_step (ih.1 hcl0) hs with h | ⟨-, h, -⟩
      · exact h
      · rw [h] at hcl; cases hcl
    · cases hc : s.closed with
      | false =>
        rcases only_step (ih.1 hc) hs with h | ⟨-, -, e, h⟩
        · exact ⟨0, h.mono (fun _ h => h.elim)⟩
        · exact ⟨e, h.mono (fun _ h => h.elim (fun h => h.elim) id)⟩
      | true =>
        obtain ⟨e0, h0⟩ := ih.2
        rcases only_step h0 hs with h | ⟨h, -⟩
        · exact ⟨e0, h⟩
        · rw [hc] at h; cases h

/-- C139: all errors that calls of `Wait` on one worker ever return are the same error; as long as the worker is open every
call returns nil. -/
theorem C139_one_error (nums : Nat) (progs : List (List Op)) (s : St) (h : Reach nums progs s) :
    (∃ e0, ∀ p ∈ s.returns, p.2 = none ∨ p.2 = some e0) ∧ (s.closed = false → ∀ p ∈ s.returns, p.2 = none) := by
  obtain ⟨h1, e0, h2⟩ := only_reach h
  refine ⟨⟨e0, fun p hp => ?_⟩, fun hc p hp => ?_⟩
  · cases hv : p.2 with
    | none => exact .inl rfl
    | some e => rw [h2.ret p hp e hv]; exact .inr rfl
  · cases hv : p.2 with
    | none => rfl
    | some e => exact ((h1 hc).ret p hp e hv).elim

/-! ## Closed is final -/

/-- Goroutines of tasks, and calls of `RunTask` that will still start one. -/
def due (t : Thread) : Nat := (if Spec.ofTask t then 1 else 0) + (if Spec.accepted t.pc then 1 else 0)

theorem due_wake (t : Thread) : due (wake t) = due t := by
  obtain ⟨r, p, o⟩ := t; cases p <;> rfl

theorem due_step {s s' : St} {i : Nat} (hc : s.closed = true) (hs : step s i = some s') :
    s'.closed = true ∧ sumBy due s'.threads = sumBy due s.threads := by
  rcases sumBy_step due due_wake hs with ⟨h, hcl⟩ | ⟨t, a, extra, ht, he, ⟨hcl, hro, -⟩, h⟩
  · exact ⟨by rw [hcl, hc], h⟩
  refine ⟨hcl hc, ?_⟩
  suffices hh : due a + sumBy due extra = due t by omega
  obtain ⟨ro, pc, ops⟩ := t
  obtain ⟨ro', pc', ops'⟩ := a
  simp only at hro h
  subst hro
  rcases h with ⟨rfl, o, r, rfl, rfl, rfl, hpc⟩ | ⟨rfl, rfl, h⟩ | ⟨k', b, rfl, rfl, rfl, rfl⟩ | ⟨rfl, rfl, h1, h2, -⟩
  · cases o <;> simp only at hpc <;> subst hpc <;> simp [due, Spec.accepted, sumBy, Spec.ofTask]
  · rcases h with ⟨k', b, rfl, rfl⟩ | ⟨k', b, rfl, rfl, -⟩ | ⟨k', b, rfl, rfl, hf⟩ | ⟨k', b, rfl, rfl⟩ | ⟨k', b, rfl, rfl⟩ | ⟨k', b, rfl, rfl⟩
    · simp [due, Spec.accepted, sumBy, Spec.ofTask]
    · simp [due, Spec.accepted, sumBy, Spec.ofTask]
    · rw [hc] at hf; cases hf
    all_goals simp [due, Spec.accepted, sumBy, Spec.ofTask]
  · cases k' <;> simp [due, Spec.accepted, sumBy, Spec.ofTask, newTask]
  · have acc : ∀ pc : PC, (∀ k b, pc ≠ .rlock k b ∧ pc ≠ .check k b ∧ pc ≠ .add k b ∧ pc ≠ .send k b ∧ pc ≠ .runlock k b ∧ pc ≠ .spawn k b) →
        Spec.accepted pc = false := by
      intro pc h
      cases pc <;> first | rfl | (exfalso; simp at h)
    simp [due, acc _ h1, acc _ h2, sumBy, Spec.ofTask]

theorem due_count (l : List Thread) : sumBy due l = l.countP Spec.ofTask + l.countP (fun t => Spec.accepted t.pc) := by
  induction l with
  | nil => rfl
  | cons t l ih =>
    simp only [sumBy, List.map_cons, List.sum_cons, due, List.countP_cons] at ih ⊢
    omega

/-- C139: once a worker is closed it stays closed, whatever happens, and starts goroutines only for the calls of `RunTask` that had
found it open: tasks started so far plus such calls under way is constant. -/
theorem C139_closed_final : ∀ (l : List Nat) (s s' : St), s.closed = true → exec l s = some s' →
    s'.closed = true ∧
    s'.threads.countP Spec.ofTask + s'.threads.countP (fun t => Spec.accepted t.pc) =
      s.threads.countP Spec.ofTask + s.threads.countP (fun t => Spec.accepted t.pc)
  | [], s, s', hc, he => by cases he; exact ⟨hc, rfl⟩
  | i :: l, s, s', hc, he => by
    unfold exec at he
    cases hx : step s i with
    | none => rw [hx] at he; cases he
    | some x =>
      rw [hx] at he
      have h1 := due_step hc hx
      have h2 := C139_closed_final l x s' h1.1 he
      rw [due_count, due_count] at h1
      exact ⟨h2.1, h2.2.trans h1.2⟩

theorem ulk_wake (t : Thread) : (fun t : Thread => match t.pc with | .unlock _ => 1 | _ => 0) (wake t) = (fun t : Thread => match t.pc with | .unlock _ => 1 | _ => 0) t := by
  obtain ⟨r, p, o⟩ := t; cases p <;> rfl

/-- C139: when a call of `Close`, or the goroutine of a failing task, is about to release the lock, the worker is closed. -/
theorem C139_close_closes (nums : Nat) (progs : List (List Op)) (s : St) (t : Thread) (j : Job) (h : Reach nums progs s)
    (ht : t ∈ s.threads) (hu : t.pc = .unlock j) : s.closed = true := by
  cases hc : s.closed with
  | true => rfl
  | false =>
    exfalso
    have hz : sumBy (fun t : Thread => match t.pc with | .unlock _ => 1 | _ => 0) s.threads = 0 := by
      clear ht hu
      induction h with
      | init =>
        unfold init sumBy
        simp only [List.map_map]
        induction progs with
        | nil => rfl
        | cons p ps ih => simpa using ih rfl
      | @step s s' i _ hs ih =>
        rcases sumBy_step (fun t : Thread => match t.pc with | .unlock _ => 1 | _ => 0) ulk_wake hs with ⟨h, hcl⟩ | ⟨t, a, extra, ht, he, ⟨hcl, hro, hul⟩, h⟩
        · rw [h]; exact ih (by rw [← hcl, hc])
        have h0 := ih (by
          cases hx : s.closed with
          | false => rfl
          | true => rw [hcl hx] at hc; cases hc)
        have hx : sumBy (fun t : Thread => match t.pc with | .unlock _ => 1 | _ => 0) extra = 0 := by
          rcases h with ⟨-, _, _, -, -, rfl, -⟩ | ⟨-, rfl, -⟩ | ⟨k', b, -, -, -, rfl⟩ | ⟨-, rfl, -⟩
          · rfl
          · rfl
          · cases k' <;> rfl
          · rfl
        have ha : (match a.pc with | .unlock _ => 1 | _ => 0) = 0 := by
          cases hp : a.pc <;> try rfl
          rename_i j
          rw [hul ⟨j, hp⟩] at hc; cases hc
        simp only [ha, hx, h0] at he
        omega
    obtain ⟨l1, l2, hl⟩ := List.append_of_mem ht
    rw [hl, sumBy_append] at hz
    simp [sumBy, hu] at hz

/-- Two failing tasks, two calls of `Wait`: one error is returned, the other is dropped; the worker is closed, and the task submitted
afterwards is never started. -/
theorem C139_error_example : (exec (List.replicate 14 0 ++ List.replicate 7 1 ++ List.replicate 7 2 ++ List.replicate 12 0)
    (init 2 [[.runTask (.err (some 7)) [], .runTask (.err (some 8)) [], .wait, .runTask .plain [], .wait]])).map
    (fun s => (s.returns, s.closed, s.threads.length, Spec.started .plain s)) =
    some ([(0, some 7), (0, none)], true, 3, 0) := by rfl

end Verif.Worker
