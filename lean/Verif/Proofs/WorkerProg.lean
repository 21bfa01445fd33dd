import Verif.Proofs.WorkerEnd
/-! Termination and progress of the worker model (no property theorems here). -/
namespace Verif.Worker

/-! ## Every schedule is finite -/

mutual
/-- Steps an operation can still cause, including those of the task it starts. -/
def opW : Op → Nat
  | .runTask _ b => 16 + opsW b
  | .wait => 6
  | .close => 5
def opsW : List Op → Nat
  | [] => 0
  | o :: r => opW o + opsW r
end

def pcW : PC → Nat
  | .ready => 9
  | .rlock _ b => 24 + opsW b
  | .check _ b => 23 + opsW b
  | .dropped => 10
  | .add _ b => 22 + opsW b
  | .send _ b => 21 + opsW b
  | .runlock _ b => 20 + opsW b
  | .spawn _ b => 19 + opsW b
  | .waiting _ => 14
  | .sleeping _ => 13
  | .woken _ => 12
  | .readErr _ => 11
  | .clearErr _ _ => 10
  | .announce .close => 13
  | .acquire .close => 12
  | .inside .close => 11
  | .unlock .close => 10
  | .announce (.fail _) => 6
  | .acquire (.fail _) => 5
  | .inside (.fail _) => 4
  | .unlock (.fail _) => 3
  | .recv => 8
  | .wgDone => 7
  | .finished => 0
  | .leaked => 0

def threadW (t : Thread) : Nat := opsW t.ops + pcW t.pc

def sumW : List Thread → Nat
  | [] => 0
  | t :: r => threadW t + sumW r

def measure (s : St) : Nat := sumW s.threads + (if s.crash = none then 1 else 0)

theorem sumW_set : ∀ (l : List Thread) (i : Nat) (t a : Thread), l[i]? = some t →
    sumW (l.set i a) + threadW t = sumW l + threadW a
  | [], i, t, a, h => by simp at h
  | x :: l, 0, t, a, h => by
    simp only [List.getElem?_cons_zero, Option.some.injEq] at h
    subst h
    simp only [List.set_cons_zero, sumW]; omega
  | x :: l, i + 1, t, a, h => by
    simp only [List.getElem?_cons_succ] at h
    have := sumW_set l i t a h
    simp only [List.set_cons_succ, sumW]; omega

theorem sumW_append (a b : List Thread) : sumW (a ++ b) = sumW a + sumW b := by
  induction a with
  | nil => simp [sumW]
  | cons x a ih => simp only [List.cons_append, sumW, ih]; omega

theorem sumW_wake (l : List Thread) : sumW (l.map wake) ≤ sumW l := by
  induction l with
  | nil => simp [sumW]
  | cons x a ih =>
    simp only [List.map_cons, sumW]
    have : threadW (wake x) ≤ threadW x := by
      obtain ⟨r, p, o⟩ := x
      cases p <;> simp [wake, threadW, pcW]
    omega

theorem lt_of_put {s s' : St} {i : Nat} {t a : Thread} (ht : s.threads[i]? = some t) (hc : s.crash = none)
    (hth : s'.threads = s.threads.set i a) (hlt : threadW a < threadW t) : measure s' < measure s := by
  have := sumW_set s.threads i t a ht
  unfold measure
  rw [hth, hc]
  simp only [if_true]
  split <;> omega

theorem measure_step {s s' : St} {i : Nat} (hs : step s i = some s') : measure s' < measure s := by
  obtain ⟨hc, t, ht, hst⟩ := step_of hs
  have crashed : ∀ c, measure { s with crash := some c } < measure s := by
    intro c; unfold measure; rw [hc]; simp
  obtain ⟨ro, pc, ops⟩ := t
  unfold stepThread at hst
  cases pc with
  | ready =>
    simp only at hst
    cases ops with
    | nil => cases ro <;> cases hst <;> exact lt_of_put ht hc rfl (by simp [threadW, pcW])
    | cons o r =>
      cases o <;> cases hst <;> exact lt_of_put ht hc rfl (by simp [threadW, pcW, opsW, opW]; omega)
  | rlock k b => simp only at hst; split at hst <;> cases hst; exact lt_of_put ht hc rfl (by simp [threadW, pcW])
  | check k b => simp only at hst; split at hst <;> cases hst <;> exact lt_of_put ht hc rfl (by simp [threadW, pcW]; try omega)
  | dropped => cases hst; exact lt_of_put ht hc rfl (by simp [threadW, pcW])
  | add k b => cases hst; exact lt_of_put ht hc rfl (by simp [threadW, pcW])
  | send k b =>
    simp only at hst
    split at hst
    · cases hst; exact crashed _
    · split at hst <;> cases hst; exact lt_of_put ht hc rfl (by simp [threadW, pcW])
  | runlock k b => cases hst; exact lt_of_put ht hc rfl (by simp [threadW, pcW])
  | spawn k b =>
    cases hst
    have h1 := sumW_set s.threads i _ ⟨ro, .ready, ops⟩ ht
    have h2 : threadW (newTask k b) ≤ 9 + opsW b := by
      cases k <;> simp [newTask, threadW, pcW, opsW] <;> omega
    unfold measure
    rw [hc]
    simp only [if_true, sumW_append, sumW]
    simp only [threadW, pcW] at h1 h2 ⊢
    omega
  | waiting n => simp only at hst; split at hst <;> cases hst <;> exact lt_of_put ht hc rfl (by simp [threadW, pcW])
  | sleeping n => cases hst
  | woken n =>
    simp only at hst
    split at hst <;> cases hst
    · exact lt_of_put ht hc rfl (by simp [threadW, pcW])
    · exact crashed _
  | readErr n => cases hst; exact lt_of_put ht hc rfl (by simp [threadW, pcW])
  | clearErr n r => cases hst; exact lt_of_put ht hc rfl (by simp [threadW, pcW])
  | announce j => simp only at hst; split at hst <;> cases hst; exact lt_of_put ht hc rfl (by cases j <;> simp [threadW, pcW])
  | acquire j => simp only at hst; split at hst <;> cases hst; exact lt_of_put ht hc rfl (by cases j <;> simp [threadW, pcW])
  | inside j =>
    simp only at hst
    split at hst
    · cases hst; exact lt_of_put ht hc rfl (by cases j <;> simp [threadW, pcW])
    · split at hst
      · cases hst; exact crashed _
      · cases j <;> cases hst <;> exact lt_of_put ht hc rfl (by simp [threadW, pcW])
  | unlock j => cases j <;> cases hst <;> exact lt_of_put ht hc rfl (by simp [threadW, pcW])
  | recv =>
    simp only at hst
    split at hst
    · cases hst; exact lt_of_put ht hc rfl (by simp [threadW, pcW])
    · split at hst <;> cases hst; exact lt_of_put ht hc rfl (by simp [threadW, pcW])
  | wgDone =>
    simp only at hst
    have hlt : threadW ⟨ro, afterDone ro, ops⟩ < threadW ⟨ro, .wgDone, ops⟩ := by
      rcases ro with _ | (_ | (_ | e') | _) <;> simp [threadW, pcW, afterDone]
    split at hst
    · cases hst; exact crashed _
    · split at hst
      · cases hst
        have h1 := sumW_set s.threads i _ ⟨ro, afterDone ro, ops⟩ ht
        have h2 := sumW_wake (s.threads.set i ⟨ro, afterDone ro, ops⟩)
        unfold measure
        rw [hc]
        simp only [if_true]
        omega
      · cases hst; exact lt_of_put ht hc rfl hlt
  | finished => cases hst
  | leaked => cases hst

/-! ## Simple programs: tasks are functions that do not use the worker themselves -/

def Op.simple : Op → Prop
  | .runTask k b => k ≠ .other ∧ b = []
  | _ => True

def PC.simple : PC → Prop
  | .rlock k b | .check k b | .add k b | .send k b | .runlock k b | .spawn k b => k ≠ .other ∧ b = []
  | _ => True

/-- The states of a task's goroutine that does not use the worker. -/
def PC.taskOnly : PC → Prop
  | .ready | .recv | .wgDone | .announce (.fail _) | .acquire (.fail _) | .inside (.fail _) | .unlock (.fail _)
  | .finished => True
  | _ => False

def Thread.simple (t : Thread) : Prop :=
  (∀ o ∈ t.ops, o.simple) ∧ t.pc.simple ∧ (∀ k, t.role = .task k → t.ops = [] ∧ t.pc.taskOnly)

theorem wake_simple {t : Thread} (h : t.simple) : (wake t).simple := by
  obtain ⟨r, p, o⟩ := t
  cases p <;> first
    | exact h
    | exact ⟨h.1, trivial, fun k hk => absurd (h.2.2 k hk).2 (by simp [PC.taskOnly])⟩

theorem simple_step {s s' : St} {i : Nat} (h : ∀ t ∈ s.threads, t.simple) (hs : step s i = some s') :
    ∀ t ∈ s'.threads, t.simple := by
  obtain ⟨hc, t, ht, hst⟩ := step_of hs
  have hts := h t (List.mem_of_getElem? ht)
  have put : ∀ (a : Thread), a.simple → ∀ x ∈ s.threads.set i a, x.simple := by
    intro a ha x hx
    rcases mem_set hx with hx | rfl
    · exact h x hx
    · exact ha
  obtain ⟨ro, pc, ops⟩ := t
  obtain ⟨h1, h2, h3⟩ := hts
  simp only at h1 h2 h3
  have cl : ∀ p : PC, ¬ pc.taskOnly → p.simple → (⟨ro, p, ops⟩ : Thread).simple := fun p hp hq =>
    ⟨h1, hq, fun k hk => absurd (h3 k hk).2 hp⟩
  have tk : ∀ p : PC, p.taskOnly → p.simple → (⟨ro, p, ops⟩ : Thread).simple := fun p hp hq =>
    ⟨h1, hq, fun k hk => ⟨(h3 k hk).1, hp⟩⟩
  unfold stepThread at hst
  cases pc with
  | ready =>
    simp only at hst
    cases ops with
    | nil => cases ro <;> cases hst
             · exact put _ ⟨h1, trivial, nofun⟩
             · exact put _ (tk _ trivial trivial)
    | cons o r =>
      have hr : ∀ o ∈ r, o.simple := fun o ho => h1 o (by simp [ho])
      have hno : ∀ k, ro ≠ .task k := fun k hk => by have := (h3 k hk).1; simp at this
      cases o with
      | runTask k b => cases hst; exact put _ ⟨hr, h1 (.runTask k b) (by simp), fun k hk => absurd hk (hno k)⟩
      | wait => cases hst; exact put _ ⟨hr, trivial, fun k hk => absurd hk (hno k)⟩
      | close => cases hst; exact put _ ⟨hr, trivial, fun k hk => absurd hk (hno k)⟩
  | rlock k b => simp only at hst; split at hst <;> cases hst; exact put _ (cl _ (by simp [PC.taskOnly]) h2)
  | check k b =>
    simp only at hst; split at hst <;> cases hst
    · exact put _ (cl _ (by simp [PC.taskOnly]) trivial)
    · exact put _ (cl _ (by simp [PC.taskOnly]) h2)
  | dropped => cases hst; exact put _ (cl _ (by simp [PC.taskOnly]) trivial)
  | add k b => cases hst; exact put _ (cl _ (by simp [PC.taskOnly]) h2)
  | send k b =>
    simp only at hst
    split at hst
    · cases hst; exact h
    · split at hst <;> cases hst; exact put _ (cl _ (by simp [PC.taskOnly]) h2)
  | runlock k b => cases hst; exact put _ (cl _ (by simp [PC.taskOnly]) h2)
  | spawn k b =>
    cases hst
    intro x hx
    rcases List.mem_append.1 hx with hx | hx
    · exact put _ (cl .ready (by simp [PC.taskOnly]) trivial) x hx
    · rw [List.mem_singleton.1 hx]
      obtain ⟨hk, rfl⟩ := h2
      cases k with
      | other => exact absurd rfl hk
      | plain => exact ⟨by simp [newTask], trivial, fun k _ => ⟨rfl, trivial⟩⟩
      | err e => exact ⟨by simp [newTask], trivial, fun k _ => ⟨rfl, trivial⟩⟩
  | waiting n => simp only at hst; split at hst <;> cases hst <;> exact put _ (cl _ (by simp [PC.taskOnly]) trivial)
  | sleeping n => cases hst
  | woken n =>
    simp only at hst; split at hst <;> cases hst
    · exact put _ (cl _ (by simp [PC.taskOnly]) trivial)
    · exact h
  | readErr n => cases hst; exact put _ (cl _ (by simp [PC.taskOnly]) trivial)
  | clearErr n r => cases hst; exact put _ (cl _ (by simp [PC.taskOnly]) trivial)
  | announce j =>
    simp only at hst; split at hst <;> cases hst
    cases j
    · exact put _ (cl _ (by simp [PC.taskOnly]) trivial)
    · exact put _ (tk _ trivial trivial)
  | acquire j =>
    simp only at hst; split at hst <;> cases hst
    cases j
    · exact put _ (cl _ (by simp [PC.taskOnly]) trivial)
    · exact put _ (tk _ trivial trivial)
  | inside j =>
    simp only at hst
    split at hst
    · cases hst
      cases j
      · exact put _ (cl _ (by simp [PC.taskOnly]) trivial)
      · exact put _ (tk _ trivial trivial)
    · split at hst
      · cases hst; exact h
      · cases j <;> cases hst
        · exact put _ (cl _ (by simp [PC.taskOnly]) trivial)
        · exact put _ (tk _ trivial trivial)
  | unlock j =>
    cases j <;> cases hst
    · exact put _ (cl _ (by simp [PC.taskOnly]) trivial)
    · exact put _ (tk _ trivial trivial)
  | recv =>
    simp only at hst
    split at hst
    · cases hst; exact put _ (tk _ trivial trivial)
    · split at hst <;> cases hst; exact put _ (tk _ trivial trivial)
  | wgDone =>
    have ha : (⟨ro, afterDone ro, ops⟩ : Thread).simple := by
      rcases ro with _ | (_ | (_ | e') | _)
      · exact ⟨h1, trivial, nofun⟩
      all_goals exact tk _ trivial trivial
    simp only at hst
    split at hst
    · cases hst; exact h
    · split at hst
      · cases hst
        intro x hx
        obtain ⟨y, hy, rfl⟩ := mem_wake hx
        exact wake_simple (put _ ha y hy)
      · cases hst; exact put _ ha
  | finished => cases hst
  | leaked => cases hst

theorem simple_reach {cap : Nat} {progs : List (List Op)} (hp : ∀ p ∈ progs, ∀ o ∈ p, o.simple) {s : St}
    (h : Reach cap progs s) : ∀ t ∈ s.threads, t.simple := by
  induction h with
  | init =>
    intro t ht
    obtain ⟨q, hq, rfl⟩ := List.mem_map.1 ht
    exact ⟨hp q hq, trivial, nofun⟩
  | step i hr hs ih => exact simple_step ih hs

theorem cap_reach {cap : Nat} {progs : List (List Op)} {s : St} (h : Reach cap progs s) : s.cap = cap := by
  induction h with
  | init => rfl
  | @step s s' i hr hs ih =>
    rw [← ih]
    obtain ⟨hc, t, ht, hst⟩ := step_of hs
    unfold stepThread at hst
    repeat' split at hst
    all_goals first | (cases hst; done) | (cases hst; rfl)

/-! ## Progress -/

/-- Goroutine `i` can move. -/
def can (s : St) (i : Nat) : Prop := (step s i).isSome = true

theorem can_of {s : St} {i : Nat} {t : Thread} (hc : s.crash = none) (ht : s.threads[i]? = some t)
    (h : (stepThread s i t).isSome = true) : can s i := by
  unfold can step
  rw [hc, ht]; exact h

theorem mem_index {s : St} {t : Thread} (h : t ∈ s.threads) : ∃ i : Nat, s.threads[i]? = some t :=
  List.mem_iff_getElem?.1 h

theorem progress {s : St} (hi : Inv s) (hwk : ∀ u ∈ s.threads, waitOk s u) (hsm : ∀ t ∈ s.threads, t.simple)
    (hcap : 1 ≤ s.cap) (hc : s.crash = none) (hst : ∀ i, ¬ can s i) : ∀ t ∈ s.threads, t.pc = .finished := by
  -- a stuck goroutine's step is `none`
  have stuck : ∀ t ∈ s.threads, ∃ i : Nat, s.threads[i]? = some t ∧ stepThread s i t = none := by
    intro t ht
    obtain ⟨i, h⟩ := mem_index ht
    refine ⟨i, h, ?_⟩
    have := hst i
    unfold can step at this
    rw [hc, h] at this
    simpa using this
  -- 1. no token is held: the channel is empty
  have hbuf : s.buf = 0 := by
    by_cases hz : s.buf = 0
    · exact hz
    · exfalso
      have hb := hi.buf
      by_cases h1 : 0 < s.threads.countP Thread.sent
      · obtain ⟨t, ht, hs⟩ := List.countP_pos_iff.1 h1
        obtain ⟨i, hix, hn⟩ := stuck t ht
        obtain ⟨ro, pc, ops⟩ := t
        cases pc <;> simp [Thread.sent] at hs <;> simp [stepThread] at hn
      · have h2 : 0 < s.threads.countP Thread.active := by omega
        obtain ⟨t, ht, hs⟩ := List.countP_pos_iff.1 h2
        obtain ⟨i, hix, hn⟩ := stuck t ht
        have hts := (hsm t ht).2.2
        obtain ⟨ro, pc, ops⟩ := t
        cases ro with
        | client => simp [Thread.active] at hs
        | task k =>
          obtain ⟨h3, h4⟩ := hts k rfl
          simp only at h3 h4
          subst h3
          cases pc <;> simp [PC.taskOnly] at h4 <;> simp [Thread.active, PC.released, PC.past] at hs
          · simp [stepThread] at hn
          · rename_i j; cases j <;> simp at h4 hs
          · rename_i j; cases j <;> simp at h4 hs
          · rename_i j; cases j <;> simp at h4 hs
          · rename_i j; cases j <;> simp at h4 hs
          · simp only [stepThread] at hn
            rw [if_pos (by omega)] at hn
            cases hn
  -- 2. nobody holds the read lock
  have hR : ∀ t ∈ s.threads, t.pc.holdsR = false := by
    intro t ht
    obtain ⟨i, hix, hn⟩ := stuck t ht
    obtain ⟨ro, pc, ops⟩ := t
    cases pc <;> simp [PC.holdsR] <;> simp [stepThread] at hn
    · split at hn <;> cases hn
    · (split at hn; · cases hn); rw [if_pos (by omega)] at hn; cases hn
  -- 3. nobody holds or wants the write lock
  have hW : ∀ t ∈ s.threads, t.pc.wantsW = false := by
    intro t ht
    obtain ⟨i, hix, hn⟩ := stuck t ht
    obtain ⟨ro, pc, ops⟩ := t
    cases pc <;> simp [PC.wantsW]
    · simp [stepThread] at hn
      obtain ⟨x, hx, hxr⟩ := hn
      rw [hR x hx] at hxr; cases hxr
    · simp only [stepThread] at hn
      repeat' split at hn
      all_goals cases hn
    · rename_i j; cases j <;> simp [stepThread] at hn
  have hWn : s.threads.any (fun u => u.pc.wantsW) = false := by
    rw [Bool.eq_false_iff]
    intro h
    obtain ⟨x, hx, hxw⟩ := List.any_eq_true.1 h
    rw [hW x hx] at hxw; cases hxw
  -- 4. the counter is zero
  have hwg : s.wg = 0 := by
    by_cases hz : s.wg = 0
    · exact hz
    · exfalso
      have hb := hi.wg
      by_cases h1 : 0 < s.threads.countP Thread.added
      · obtain ⟨t, ht, hs⟩ := List.countP_pos_iff.1 h1
        have hr := hR t ht
        obtain ⟨i, hix, hn⟩ := stuck t ht
        obtain ⟨ro, pc, ops⟩ := t
        cases pc <;> simp [Thread.added] at hs <;> simp [PC.holdsR] at hr
        simp [stepThread] at hn
      · have h2 : 0 < s.threads.countP Thread.pending := by omega
        obtain ⟨t, ht, hs⟩ := List.countP_pos_iff.1 h2
        obtain ⟨i, hix, hn⟩ := stuck t ht
        have hact : t.active = false := by
          have hb := hi.buf
          have : s.threads.countP Thread.active = 0 := by omega
          simpa using List.countP_eq_zero.1 this t ht
        obtain ⟨ro, pc, ops⟩ := t
        cases ro with
        | client => simp [Thread.pending] at hs
        | task k =>
          simp only [Thread.active, Thread.pending] at hact hs
          cases pc <;> simp [PC.released, PC.past] at hact hs <;> first
            | (rename_i j; cases j <;> simp at hact hs; done)
            | (simp only [stepThread] at hn
               repeat' split at hn
               all_goals cases hn)
  -- 5. everybody is finished
  intro t ht
  obtain ⟨i, hix, hn⟩ := stuck t ht
  have hts := (hsm t ht)
  have hwt := hwk t ht
  have hok := hi.ok t ht
  have hr := hR t ht
  have hw := hW t ht
  obtain ⟨ro, pc, ops⟩ := t
  cases pc with
  | ready =>
    simp only [stepThread] at hn
    cases ops with
    | nil => cases ro <;> cases hn
    | cons o r => cases o <;> cases hn
  | rlock k b => simp [stepThread, hWn] at hn
  | announce j => simp [stepThread, hWn] at hn
  | spawn k b => simp [stepThread] at hn
  | waiting n => simp [stepThread, hwg] at hn
  | sleeping n => unfold waitOk at hwt; simp only at hwt; omega
  | woken n => simp [stepThread, hwg] at hn
  | readErr n => simp [stepThread] at hn
  | clearErr n r => simp [stepThread] at hn
  | recv =>
    exfalso
    have hb := hi.buf
    have : s.threads.countP Thread.active = 0 := by omega
    have := List.countP_eq_zero.1 this _ ht
    cases ro with
    | client => simp [Thread.ok] at hok
    | task k => simp [Thread.active, PC.released, PC.past] at this
  | wgDone =>
    exfalso
    simp only [stepThread, hwg] at hn
    cases hn
  | finished => rfl
  | leaked =>
    exfalso
    cases ro with
    | client => simp [Thread.ok] at hok
    | task k => exact (hts.2.2 k rfl).2
  | check k b => simp [PC.holdsR] at hr
  | dropped => simp [PC.holdsR] at hr
  | add k b => simp [PC.holdsR] at hr
  | send k b => simp [PC.holdsR] at hr
  | runlock k b => simp [PC.holdsR] at hr
  | acquire j => simp [PC.wantsW] at hw
  | inside j => simp [PC.wantsW] at hw
  | unlock j => simp [PC.wantsW] at hw

end Verif.Worker
