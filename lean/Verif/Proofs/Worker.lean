import Verif.Model.Worker
/-! Invariants of the worker model (no property theorems here). -/
namespace Verif.Worker

theorem countP_set {α : Type} (p : α → Bool) : ∀ (l : List α) (i : Nat) (t a : α), l[i]? = some t →
    (l.set i a).countP p + (if p t then 1 else 0) = l.countP p + (if p a then 1 else 0)
  | [], i, t, a, h => by simp at h
  | x :: l, 0, t, a, h => by
    simp only [List.getElem?_cons_zero, Option.some.injEq] at h
    subst h
    simp only [List.set_cons_zero, List.countP_cons]; omega
  | x :: l, i + 1, t, a, h => by
    simp only [List.getElem?_cons_succ] at h
    have := countP_set p l i t a h
    simp only [List.set_cons_succ, List.countP_cons]; omega

theorem step_of {s s' : St} {i : Nat} (h : step s i = some s') :
    s.crash = none ∧ ∃ t, s.threads[i]? = some t ∧ stepThread s i t = some s' := by
  unfold step at h
  cases hc : s.crash with
  | some c => rw [hc] at h; cases h
  | none =>
    cases ht : s.threads[i]? with
    | none => rw [hc, ht] at h; cases h
    | some t => rw [hc, ht] at h; exact ⟨rfl, t, rfl, h⟩

/-- Has put its value in the channel and not yet started the task's goroutine. -/
def Thread.sent (t : Thread) : Bool :=
  match t.pc with
  | .runlock .. | .spawn .. => true
  | _ => false

/-- Has counted its task and not yet started the task's goroutine. -/
def Thread.added (t : Thread) : Bool :=
  match t.pc with
  | .send .. | .runlock .. | .spawn .. => true
  | _ => false

/-- After `wg.Done()`. -/
def PC.past : PC → Bool
  | .announce (.fail _) | .acquire (.fail _) | .inside (.fail _) | .unlock (.fail _) | .finished => true
  | _ => false

/-- After `<-w.pools`. -/
def PC.released : PC → Bool
  | .wgDone => true
  | p => p.past

/-- A task's goroutine that has not yet taken its value out of the channel. -/
def Thread.active (t : Thread) : Bool :=
  match t.role with
  | .client => false
  | .task _ => !t.pc.released

/-- A task's goroutine that has not yet called `wg.Done()`. -/
def Thread.pending (t : Thread) : Bool :=
  match t.role with
  | .client => false
  | .task _ => !t.pc.past

/-- Which program counters a goroutine can have. -/
def Thread.ok (t : Thread) : Bool :=
  match t.pc, t.role with
  | .recv, .task .plain => true
  | .recv, .task (.err _) => true
  | .recv, _ => false
  | .wgDone, .task .plain => true
  | .wgDone, .task (.err _) => true
  | .wgDone, _ => false
  | .announce (.fail e), .task (.err (some e')) => e = e'
  | .announce (.fail _), _ => false
  | .acquire (.fail e), .task (.err (some e')) => e = e'
  | .acquire (.fail _), _ => false
  | .inside (.fail e), .task (.err (some e')) => e = e'
  | .inside (.fail _), _ => false
  | .unlock (.fail e), .task (.err (some e')) => e = e'
  | .unlock (.fail _), _ => false
  | .leaked, .task .other => true
  | .leaked, _ => false
  | _, .task .other => false
  | _, _ => true

/-- Holds the write lock. -/
def PC.holdsW : PC → Bool
  | .inside _ | .unlock _ => true
  | _ => false

/-- Has seen that the worker is not closed, under the read lock. -/
def PC.sawOpen : PC → Bool
  | .add .. | .send .. => true
  | _ => false

structure Inv (s : St) : Prop where
  ok : ∀ t ∈ s.threads, t.ok = true
  buf : s.buf = s.threads.countP Thread.sent + s.threads.countP Thread.active
  wg : s.wg = s.threads.countP Thread.added + s.threads.countP Thread.pending
  cap : s.buf ≤ s.cap
  closed : s.chanClosed = s.closed
  one : s.threads.countP (fun t => t.pc.wantsW) ≤ 1
  excl : (∃ t ∈ s.threads, t.pc.holdsW = true) → s.threads.countP (fun t => t.pc.holdsR) = 0
  saw : (∃ t ∈ s.threads, t.pc.sawOpen = true) → s.closed = false
  crash : s.crash = none ∨ s.crash = some .wgReused

theorem mem_set {α : Type} {l : List α} {i : Nat} {a x : α} (h : x ∈ l.set i a) : x ∈ l ∨ x = a :=
  List.mem_or_eq_of_mem_set h

theorem countP_pos_of {α : Type} {p : α → Bool} {l : List α} {i : Nat} {t : α} (h : l[i]? = some t) (hp : p t = true) :
    0 < l.countP p := List.countP_pos_iff.2 ⟨t, List.mem_of_getElem? h, hp⟩

theorem any_false {α : Type} {p : α → Bool} {l : List α} (h : ¬ l.any p = true) : l.countP p = 0 := by
  rw [List.countP_eq_zero]
  intro a ha hp
  exact h (List.any_eq_true.2 ⟨a, ha, hp⟩)

/-- The preservation of the invariant when goroutine `i` moves to `a` and the counters change accordingly. -/
theorem inv_put {s s' : St} {i : Nat} {t a : Thread} (ht : s.threads[i]? = some t) (h : Inv s)
    (hth : s'.threads = s.threads.set i a) (hcap : s'.cap = s.cap) (hcr : s'.crash = none)
    (hok : a.ok = true)
    (hbuf : s'.buf + (if t.sent then 1 else 0) + (if t.active then 1 else 0) =
      s.buf + (if a.sent then 1 else 0) + (if a.active then 1 else 0))
    (hbc : s'.buf ≤ s.cap)
    (hwg : s'.wg + (if t.added then 1 else 0) + (if t.pending then 1 else 0) =
      s.wg + (if a.added then 1 else 0) + (if a.pending then 1 else 0))
    (hcl : s'.chanClosed = s'.closed)
    (hone : a.pc.wantsW = true → t.pc.wantsW = true ∨ s.threads.countP (fun t => t.pc.wantsW) = 0)
    (hexW : a.pc.holdsW = true → t.pc.holdsW = true ∨ s.threads.countP (fun t => t.pc.holdsR) = 0)
    (hexW2 : a.pc.holdsW = true → a.pc.holdsR = false)
    (hexR : a.pc.holdsR = true → t.pc.holdsR = true ∨ s.threads.countP (fun t => t.pc.wantsW) = 0)
    (hsaw : a.pc.sawOpen = true → t.pc.sawOpen = true ∨ s.closed = false)
    (hclo : s'.closed = s.closed ∨ (t.pc.holdsW = true ∧ a.pc.sawOpen = false)) : Inv s' := by
  have c1 := countP_set Thread.sent s.threads i t a ht
  have c2 := countP_set Thread.active s.threads i t a ht
  have c3 := countP_set Thread.added s.threads i t a ht
  have c4 := countP_set Thread.pending s.threads i t a ht
  have c5 := countP_set (fun t => t.pc.wantsW) s.threads i t a ht
  have c6 := countP_set (fun t => t.pc.holdsR) s.threads i t a ht
  have hmem : t ∈ s.threads := List.mem_of_getElem? ht
  have himp : ∀ p : PC, p.sawOpen = true → p.holdsR = true := by intro p; cases p <;> simp [PC.sawOpen, PC.holdsR]
  have himp2 : ∀ p : PC, p.holdsW = true → p.wantsW = true := by intro p; cases p <;> simp [PC.holdsW, PC.wantsW]
  refine ⟨?_, ?_, ?_, ?_, hcl, ?_, ?_, ?_, Or.inl hcr⟩
  · rw [hth]
    intro x hx
    rcases mem_set hx with hx | rfl
    · exact h.ok x hx
    · exact hok
  · rw [hth]; have := h.buf; omega
  · rw [hth]; have := h.wg; omega
  · rw [hcap]; exact hbc
  · rw [hth]
    have := h.one
    by_cases ha : a.pc.wantsW = true
    · rcases hone ha with hw | hw
      · simp only [ha, hw, if_true] at c5; omega
      · simp only [ha, if_true] at c5; split at c5 <;> omega
    · rw [if_neg ha] at c5; split at c5 <;> omega
  · rw [hth]
    rintro ⟨x, hx, hxw⟩
    -- someone holds the write lock afterwards
    have hR0 : s.threads.countP (fun t => t.pc.holdsR) = 0 := by
      rcases mem_set hx with hx | rfl
      · exact h.excl ⟨x, hx, hxw⟩
      · rcases hexW hxw with hw | hw
        · exact h.excl ⟨t, hmem, hw⟩
        · exact hw
    by_cases ha : a.pc.holdsR = true
    · exfalso
      rcases hexR ha with hr | hr
      · have := countP_pos_of (p := fun t => t.pc.holdsR) ht hr
        omega
      · rcases mem_set hx with hx | rfl
        · have : 0 < s.threads.countP (fun t => t.pc.wantsW) :=
            List.countP_pos_iff.2 ⟨x, hx, himp2 _ hxw⟩
          omega
        · rw [hexW2 hxw] at ha; cases ha
    · rw [if_neg ha] at c6; split at c6 <;> omega
  · rw [hth]
    rintro ⟨x, hx, hxs⟩
    rcases hclo with hclo | ⟨hw, hns⟩
    · rw [hclo]
      rcases mem_set hx with hx | rfl
      · exact h.saw ⟨x, hx, hxs⟩
      · rcases hsaw hxs with hs | hs
        · exact h.saw ⟨t, hmem, hs⟩
        · exact hs
    · exfalso
      rcases mem_set hx with hx | rfl
      · have := h.excl ⟨t, hmem, hw⟩
        have : 0 < s.threads.countP (fun t => t.pc.holdsR) := List.countP_pos_iff.2 ⟨x, hx, himp _ hxs⟩
        omega
      · rw [hns] at hxs; cases hxs

theorem countP_wake (p : Thread → Bool) (hp : ∀ (t : Thread) n m, p { t with pc := .sleeping n } = p { t with pc := .woken m })
    (l : List Thread) : (l.map wake).countP p = l.countP p := by
  induction l with
  | nil => rfl
  | cons t r ih =>
    rw [List.map_cons, List.countP_cons, List.countP_cons, ih]
    have : p (wake t) = p t := by
      obtain ⟨ro, pc, ops⟩ := t
      unfold wake
      cases pc <;> simp only
      rename_i n
      exact (hp ⟨ro, .sleeping n, ops⟩ n n).symm
    rw [this]

theorem mem_wake {l : List Thread} {x : Thread} (h : x ∈ l.map wake) : ∃ y ∈ l, wake y = x := List.mem_map.1 h

theorem inv_wake {s : St} (h : Inv s) : Inv { s with threads := s.threads.map wake } := by
  have w : ∀ (p : Thread → Bool) (_ : ∀ (t : Thread) n m, p { t with pc := .sleeping n } = p { t with pc := .woken m }) (y : Thread),
      p (wake y) = p y := by
    intro p hp y
    obtain ⟨ro, pc, ops⟩ := y
    unfold wake
    cases pc <;> simp only
    rename_i n
    exact (hp ⟨ro, .sleeping n, ops⟩ n n).symm
  have okw : ∀ (t : Thread) n m, Thread.ok { t with pc := .sleeping n } = Thread.ok { t with pc := .woken m } := by
    intro t n m
    obtain ⟨ro, pc, ops⟩ := t
    cases ro with
    | client => rfl
    | task k => cases k <;> rfl
  refine ⟨?_, ?_, ?_, h.cap, h.closed, ?_, ?_, ?_, h.crash⟩
  · intro x hx
    obtain ⟨y, hy, rfl⟩ := mem_wake hx
    rw [w Thread.ok okw]
    exact h.ok y hy
  · simp only [countP_wake Thread.sent (fun _ _ _ => rfl), countP_wake Thread.active (fun _ _ _ => rfl)]; exact h.buf
  · simp only [countP_wake Thread.added (fun _ _ _ => rfl), countP_wake Thread.pending (fun _ _ _ => rfl)]; exact h.wg
  · simp only [countP_wake (fun t => t.pc.wantsW) (fun _ _ _ => rfl)]; exact h.one
  · rintro ⟨x, hx, hxw⟩
    obtain ⟨y, hy, rfl⟩ := mem_wake hx
    simp only [countP_wake (fun t => t.pc.holdsR) (fun _ _ _ => rfl)]
    exact h.excl ⟨y, hy, by rw [← w (fun t => t.pc.holdsW) (fun _ _ _ => rfl)]; exact hxw⟩
  · rintro ⟨x, hx, hxw⟩
    obtain ⟨y, hy, rfl⟩ := mem_wake hx
    exact h.saw ⟨y, hy, by rw [← w (fun t => t.pc.sawOpen) (fun _ _ _ => rfl)]; exact hxw⟩

/-- Unfolds all the classifications of program counters. -/
macro "pcs" : tactic => `(tactic| simp_all [Thread.ok, Thread.sent, Thread.active, Thread.added, Thread.pending, PC.released,
  PC.past, PC.wantsW, PC.holdsW, PC.holdsR, PC.sawOpen, afterDone])

/-- The side conditions of `inv_put`. -/
macro "side" ro:ident htok:ident : tactic => `(tactic| (
  all_goals first
    | exact fun hh => absurd hh Bool.false_ne_true
    | exact fun _ => Or.inl rfl
    | exact fun _ => rfl
    | (intro _; right; assumption)
    | (intro _; right; simpa using ‹_›)
    | (rcases $ro:ident with _ | (_ | (_ | _) | _) <;>
        (first
          | rfl
          | exact $htok:ident
          | (simp [Thread.ok] at $htok:ident; done)))))

/-- A goroutine's step that only moves it. -/
macro "move" ro:ident htok:ident ht:ident h:ident hc:ident hcp:ident hcl:ident : tactic => `(tactic| (
  refine inv_put $ht $h rfl rfl $hc ?_ ?_ $hcp ?_ $hcl ?_ ?_ ?_ ?_ ?_ (Or.inl rfl)
  side $ro:ident $htok:ident))

theorem inv_step {s s' : St} {i : Nat} (h : Inv s) (hs : step s i = some s') : Inv s' := by
  obtain ⟨hc, t, ht, hst⟩ := step_of hs
  have hmem : t ∈ s.threads := List.mem_of_getElem? ht
  have htok := h.ok t hmem
  have hb := h.buf
  have hw := h.wg
  have hcp := h.cap
  have hcl := h.closed
  obtain ⟨ro, pc, ops⟩ := t
  unfold stepThread at hst
  cases pc with
  | ready =>
    simp only at hst
    cases ops with
    | nil =>
      cases ro with
      | client => cases hst; exact inv_put ht h rfl rfl hc rfl rfl hcp rfl hcl nofun nofun nofun nofun nofun (Or.inl rfl)
      | task k =>
        cases hst
        refine inv_put ht h rfl rfl hc ?_ rfl hcp rfl hcl nofun nofun nofun nofun nofun (Or.inl rfl)
        cases k <;> first | rfl | exact absurd htok (by simp [Thread.ok])
    | cons o r =>
      cases o <;> cases hst <;> move ro htok ht h hc hcp hcl
  | rlock k b =>
    simp only at hst
    split at hst
    · cases hst
    · rename_i hn
      have := any_false hn
      cases hst
      move ro htok ht h hc hcp hcl
  | check k b =>
    simp only at hst
    by_cases hcc : s.closed = true
    · rw [if_pos hcc] at hst
      cases hst
      move ro htok ht h hc hcp hcl
    · rw [if_neg hcc] at hst
      have hcf : s.closed = false := by simpa using hcc
      cases hst
      move ro htok ht h hc hcp hcl
  | dropped => cases hst; move ro htok ht h hc hcp hcl
  | runlock k b => cases hst; move ro htok ht h hc hcp hcl
  | waiting n =>
    simp only at hst
    split at hst <;> cases hst <;> move ro htok ht h hc hcp hcl
  | readErr n => cases hst; move ro htok ht h hc hcp hcl
  | clearErr n r => cases hst; move ro htok ht h hc hcp hcl
  | sleeping n => cases hst
  | finished => cases hst
  | leaked => cases hst
  | unlock j => cases j <;> cases hst <;> move ro htok ht h hc hcp hcl
  | announce j =>
    simp only at hst
    split at hst
    · cases hst
    · rename_i hn
      have := any_false hn
      cases hst
      cases j <;> move ro htok ht h hc hcp hcl
  | acquire j =>
    simp only at hst
    split at hst
    · cases hst
    · rename_i hn
      have := any_false hn
      cases hst
      cases j <;> move ro htok ht h hc hcp hcl
  | woken n =>
    simp only at hst
    split at hst <;> cases hst
    · move ro htok ht h hc hcp hcl
    · exact ⟨h.ok, h.buf, h.wg, h.cap, h.closed, h.one, h.excl, h.saw, Or.inr rfl⟩
  | add k b =>
    cases hst
    refine inv_put ht h rfl rfl hc ?_ ?_ hcp ?_ hcl ?_ ?_ ?_ ?_ ?_ (Or.inl rfl)
    case refine_3 => rcases ro with _ | (_ | (_ | _) | _) <;> simp [Thread.added, Thread.pending, PC.past, St.put]
    side ro htok
  | send k b =>
    simp only at hst
    have hopen := h.saw ⟨_, hmem, rfl⟩
    rw [hcl, hopen] at hst
    simp only [Bool.false_eq_true, if_false] at hst
    split at hst
    · rename_i hlt
      cases hst
      refine inv_put ht h rfl rfl hc ?_ ?_ (by simp only; omega) ?_ hcl ?_ ?_ ?_ ?_ ?_ (Or.inl rfl)
      case refine_2 =>
        rcases ro with _ | (_ | (_ | _) | _) <;> simp [Thread.sent, Thread.active, PC.released, PC.past, St.put]
      side ro htok
    · cases hst
  | inside j =>
    simp only at hst
    by_cases hcc : s.closed = true
    · rw [if_pos hcc] at hst
      cases hst
      cases j <;> move ro htok ht h hc hcp hcl
    · rw [if_neg hcc] at hst
      have hcf : s.closed = false := by simpa using hcc
      rw [hcl, hcf] at hst
      simp only [Bool.false_eq_true, if_false] at hst
      cases j <;> cases hst
      · refine inv_put ht h rfl rfl hc ?_ ?_ hcp ?_ rfl ?_ ?_ ?_ ?_ ?_ (Or.inr ⟨rfl, rfl⟩)
        side ro htok
      · refine inv_put ht h rfl rfl hc ?_ ?_ hcp ?_ rfl ?_ ?_ ?_ ?_ ?_ (Or.inr ⟨rfl, rfl⟩)
        side ro htok
  | recv =>
    simp only at hst
    have hro : (⟨ro, PC.recv, ops⟩ : Thread).active = true := by
      rcases ro with _ | k
      · exact absurd htok (by simp [Thread.ok])
      · rfl
    have hpos := countP_pos_of (p := Thread.active) ht hro
    rw [if_pos (by omega)] at hst
    cases hst
    refine inv_put ht h rfl rfl hc ?_ ?_ (by simp only; omega) ?_ hcl ?_ ?_ ?_ ?_ ?_ (Or.inl rfl)
    case refine_2 =>
      rcases ro with _ | k
      · exact absurd htok (by simp [Thread.ok])
      · simp only [Thread.sent, Thread.active, PC.released, PC.past, St.put]
        simp; omega
    side ro htok
  | wgDone =>
    simp only at hst
    have hro : (⟨ro, PC.wgDone, ops⟩ : Thread).pending = true := by
      rcases ro with _ | k
      · exact absurd htok (by simp [Thread.ok])
      · rfl
    have hpos := countP_pos_of (p := Thread.pending) ht hro
    rw [if_neg (by omega)] at hst
    have key : Inv { s.put i ⟨ro, PC.wgDone, ops⟩ (afterDone ro) with wg := s.wg - 1 } := by
      refine inv_put ht h rfl rfl hc ?_ ?_ hcp ?_ hcl ?_ ?_ ?_ ?_ ?_ (Or.inl rfl)
      case refine_3 =>
        rcases ro with _ | (_ | (_ | _) | _)
        · exact absurd htok (by simp [Thread.ok])
        all_goals
          simp only [Thread.added, Thread.pending, PC.past, St.put, afterDone]
          simp; omega
      all_goals
        rcases ro with _ | (_ | (_ | _) | _) <;>
        first
          | rfl
          | exact fun hh => absurd hh Bool.false_ne_true
          | (simp [Thread.ok] at htok; done)
          | (simp [Thread.ok, afterDone]; done)
    by_cases h1 : s.wg = 1
    · rw [if_pos h1] at hst
      cases hst
      have := inv_wake key
      simp only [h1] at this
      exact this
    · rw [if_neg h1] at hst
      cases hst
      exact key
  | spawn k b =>
    cases hst
    have nr : (newTask k b).sent = false ∧ (newTask k b).added = false ∧ (newTask k b).active = true ∧
        (newTask k b).pending = true ∧ (newTask k b).pc.wantsW = false ∧ (newTask k b).pc.holdsR = false ∧
        (newTask k b).pc.holdsW = false ∧ (newTask k b).pc.sawOpen = false ∧ (newTask k b).ok = true := by
      cases k <;> simp [newTask, Thread.sent, Thread.added, Thread.active, Thread.pending, PC.released, PC.past,
        PC.wantsW, PC.holdsR, PC.holdsW, PC.sawOpen, Thread.ok]
    obtain ⟨n1, n2, n3, n4, n5, n6, n7, n8, n9⟩ := nr
    have hold : ∀ x ∈ s.threads.set i ⟨ro, .ready, ops⟩ ++ [newTask k b],
        x ∈ s.threads ∨ x = ⟨ro, .ready, ops⟩ ∨ x = newTask k b := by
      intro x hx
      rcases List.mem_append.1 hx with hx | hx
      · rcases mem_set hx with hx | hx
        · exact Or.inl hx
        · exact Or.inr (Or.inl hx)
      · exact Or.inr (Or.inr (List.mem_singleton.1 hx))
    have c1 := countP_set Thread.sent s.threads i _ ⟨ro, .ready, ops⟩ ht
    have c2 := countP_set Thread.active s.threads i _ ⟨ro, .ready, ops⟩ ht
    have c3 := countP_set Thread.added s.threads i _ ⟨ro, .ready, ops⟩ ht
    have c4 := countP_set Thread.pending s.threads i _ ⟨ro, .ready, ops⟩ ht
    have c5 := countP_set (fun t => t.pc.wantsW) s.threads i _ ⟨ro, .ready, ops⟩ ht
    have c6 := countP_set (fun t => t.pc.holdsR) s.threads i _ ⟨ro, .ready, ops⟩ ht
    have a1 : (⟨ro, .spawn k b, ops⟩ : Thread).active = (⟨ro, .ready, ops⟩ : Thread).active := by cases ro <;> rfl
    have a2 : (⟨ro, .spawn k b, ops⟩ : Thread).pending = (⟨ro, .ready, ops⟩ : Thread).pending := by cases ro <;> rfl
    rw [a1] at c2
    rw [a2] at c4
    rw [if_pos (by simp [Thread.sent]), if_neg (by simp [Thread.sent])] at c1
    rw [if_pos (by simp [Thread.added]), if_neg (by simp [Thread.added])] at c3
    rw [if_neg (by simp [PC.wantsW]), if_neg (by simp [PC.wantsW])] at c5
    rw [if_neg (by simp [PC.holdsR]), if_neg (by simp [PC.holdsR])] at c6
    refine ⟨?_, ?_, ?_, h.cap, h.closed, ?_, ?_, ?_, Or.inl hc⟩
    · intro x hx
      rcases hold x hx with hx | rfl | rfl
      · exact h.ok x hx
      · rcases ro with _ | (_ | (_ | _) | _) <;> first | rfl | exact htok
      · exact n9
    · simp only [List.countP_append, List.countP_singleton, n1, n3, Bool.false_eq_true, if_false, if_true]
      omega
    · simp only [List.countP_append, List.countP_singleton, n2, n4, Bool.false_eq_true, if_false, if_true]
      omega
    · simp only [List.countP_append, List.countP_singleton, n5, Bool.false_eq_true, if_false]
      have := h.one
      omega
    · rintro ⟨x, hx, hxw⟩
      simp only [List.countP_append, List.countP_singleton, n6, Bool.false_eq_true, if_false]
      rcases hold x hx with hx | rfl | rfl
      · have := h.excl ⟨x, hx, hxw⟩; omega
      · cases hxw
      · rw [n7] at hxw; cases hxw
    · rintro ⟨x, hx, hxw⟩
      rcases hold x hx with hx | rfl | rfl
      · exact h.saw ⟨x, hx, hxw⟩
      · cases hxw
      · rw [n8] at hxw; cases hxw

theorem inv_init (cap : Nat) (progs : List (List Op)) : Inv (init cap progs) := by
  have hz : ∀ (p : Thread → Bool), (∀ ops, p ⟨.client, .ready, ops⟩ = false) →
      (progs.map (fun q => (⟨.client, .ready, q⟩ : Thread))).countP p = 0 := by
    intro p hp
    rw [List.countP_eq_zero]
    intro a ha
    obtain ⟨q, _, rfl⟩ := List.mem_map.1 ha
    rw [hp]; simp
  have hm : ∀ t ∈ (init cap progs).threads, ∃ q, t = ⟨.client, .ready, q⟩ := by
    intro t ht
    obtain ⟨q, _, rfl⟩ := List.mem_map.1 ht
    exact ⟨q, rfl⟩
  refine ⟨?_, ?_, ?_, Nat.zero_le _, rfl, ?_, ?_, ?_, Or.inl rfl⟩
  · intro t ht
    obtain ⟨q, rfl⟩ := hm t ht
    rfl
  · simp only [init]; rw [hz Thread.sent (fun _ => rfl), hz Thread.active (fun _ => rfl)]
  · simp only [init]; rw [hz Thread.added (fun _ => rfl), hz Thread.pending (fun _ => rfl)]
  · simp only [init]; rw [hz (fun t => t.pc.wantsW) (fun _ => rfl)]; omega
  · rintro ⟨t, ht, hw⟩
    obtain ⟨q, rfl⟩ := hm t ht
    cases hw
  · rintro ⟨t, ht, hw⟩
    obtain ⟨q, rfl⟩ := hm t ht
    cases hw

theorem inv_reach {cap : Nat} {progs : List (List Op)} {s : St} (h : Reach cap progs s) : Inv s := by
  induction h with
  | init => exact inv_init cap progs
  | step i _ hs ih => exact inv_step ih hs

end Verif.Worker
