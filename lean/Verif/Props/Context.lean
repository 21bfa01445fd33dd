import Verif.Proofs.Context
/-!
# C13–C16, C20: the request context, recovery and `ServeHTTP`
-/
namespace Verif.Ctx
open Verif.Resp

/-! ## Specification -/

/-- The handlers started, in order. -/
def Spec.starts (t : List CEv) : List Nat :=
  t.filterMap fun e => match e with | .start i => some i | _ => none

/-- The handler an event belongs to. -/
def Spec.owner : CEv → Nat
  | .start i => i
  | .fin i _ => i
  | .nextBeg i _ => i
  | .nextEnd i => i
  | .nextRec i _ _ => i
  | .eff i _ => i

/-- No handler calls `Next` again (a second or later time) while the response is written. -/
def Spec.NoLateReNext (t : List CEv) : Prop :=
  ∀ a b i w, t = a ++ .nextBeg i w :: b → CEv.nextBeg i true ∉ b

/-- An activation: handler `i` running, or handler `i` waiting in `Next`. -/
inductive Spec.Frame where
  | run (i : Nat)
  | inNext (i : Nat)
deriving DecidableEq, Repr

/-- Drop the activations above the `Next` call of handler `i` (a panic unwinds them). -/
def Spec.unwind (i : Nat) : List Frame → Option (List Frame)
  | [] => none
  | .inNext k :: st => if k = i then some st else Spec.unwind i st
  | .run _ :: st => Spec.unwind i st

/-- One event of properly nested activations. Handlers start at the bottom or inside a `Next`; only the
handler on top may act; `Next` returns to its caller when everything started in it is over. -/
def Spec.nestStep (st : List Frame) : CEv → Option (List Frame)
  | .start i => match st with
    | .run _ :: _ => none
    | st => some (.run i :: st)
  | .fin i _ => match st with
    | .run k :: st => if k = i then some st else none
    | _ => none
  | .eff i _ => match st with
    | .run k :: st => if k = i then some (.run k :: st) else none
    | _ => none
  | .nextBeg i _ => match st with
    | .run k :: st => if k = i then some (.inNext i :: .run k :: st) else none
    | _ => none
  | .nextEnd i => match st with
    | .inNext k :: st => if k = i then some st else none
    | _ => none
  | .nextRec i _ _ => Spec.unwind i st

/-- The activations open after a trace, if it is properly nested. -/
def Spec.nested : List Frame → List CEv → Option (List Frame)
  | st, [] => some st
  | st, e :: t => match Spec.nestStep st e with
    | some st => Spec.nested st t
    | none => none

open Spec

@[simp] theorem starts_nil : starts [] = [] := rfl
@[simp] theorem starts_append (a b : List CEv) : starts (a ++ b) = starts a ++ starts b := by
  simp [starts, List.filterMap_append]
@[simp] theorem starts_start (i : Nat) (t : List CEv) : starts (.start i :: t) = i :: starts t := rfl
@[simp] theorem starts_fin (i : Nat) (w : Bool) (t : List CEv) : starts (.fin i w :: t) = starts t := rfl
@[simp] theorem starts_nextBeg (i : Nat) (w : Bool) (t : List CEv) : starts (.nextBeg i w :: t) = starts t := rfl
@[simp] theorem starts_nextEnd (i : Nat) (t : List CEv) : starts (.nextEnd i :: t) = starts t := rfl
@[simp] theorem starts_nextRec (i v w) (t : List CEv) : starts (.nextRec i v w :: t) = starts t := rfl
@[simp] theorem starts_eff (i : Nat) (n : Note) (t : List CEv) : starts (.eff i n :: t) = starts t := rfl

/-- The first index the given mode may start. -/
def lo : Option Nat → Nat → Nat
  | none, j => j
  | some _, j => j + 1

/-! ## C13 -/

theorem Tr.starts_sorted {n m j w t j' w' r} (h : Tr n m j w t j' w' r) :
    (starts t).Pairwise (· < ·) ∧ (∀ x ∈ starts t, lo m j ≤ x ∧ x ≤ j' ∧ x < n) := by
  induction h with
  | done => simp
  | panic => simp
  | next h1 h2 ih1 ih2 =>
    have l1 := h1.idx_le; have l2 := h2.idx_le
    simp only [lo] at *
    simp only [List.cons_append, starts_nextBeg, starts_append, starts_nextEnd]
    refine ⟨List.pairwise_append.2 ⟨ih1.1, ih2.1, ?_⟩, ?_⟩
    · intro a ha b hb; have := ih1.2 a ha; have := ih2.2 b hb; omega
    · intro x hx
      rcases List.mem_append.1 hx with hx | hx
      · have := ih1.2 x hx; omega
      · have := ih2.2 x hx; omega
  | nextPanic h1 ih1 =>
    simp only [lo] at *
    exact ih1
  | nextRec h1 h2 ih1 ih2 =>
    have l1 := h1.idx_le; have l2 := h2.idx_le
    simp only [lo] at *
    simp only [List.cons_append, starts_nextBeg, starts_append, starts_nextRec]
    refine ⟨List.pairwise_append.2 ⟨ih1.1, ih2.1, ?_⟩, ?_⟩
    · intro a ha b hb; have := ih1.2 a ha; have := ih2.2 b hb; omega
    · intro x hx
      rcases List.mem_append.1 hx with hx | hx
      · have := ih1.2 x hx; omega
      · have := ih2.2 x hx; omega
  | ops _ _ ih => exact ih
  | eff _ ih => exact ih
  | stop => simp
  | step hj h1 _ h2 ih1 ih2 =>
    have l1 := h1.idx_le; have l2 := h2.idx_le
    simp only [lo] at *
    simp only [List.cons_append, starts_start, starts_append, starts_fin]
    refine ⟨List.pairwise_cons.2 ⟨?_, List.pairwise_append.2 ⟨ih1.1, ih2.1, ?_⟩⟩, ?_⟩
    · intro x hx
      rcases List.mem_append.1 hx with hx | hx
      · have := ih1.2 x hx; omega
      · have := ih2.2 x hx; omega
    · intro a ha b hb; have := ih1.2 a ha; have := ih2.2 b hb; omega
    · intro x hx
      rcases List.mem_cons.1 hx with rfl | hx
      · omega
      rcases List.mem_append.1 hx with hx | hx
      · have := ih1.2 x hx; omega
      · have := ih2.2 x hx; omega
  | stepWritten hj h1 _ ih1 =>
    have l1 := h1.idx_le
    simp only [lo] at *
    simp only [List.cons_append, starts_start, starts_append, starts_fin, starts_nil, List.append_nil]
    refine ⟨List.pairwise_cons.2 ⟨?_, ih1.1⟩, ?_⟩
    · intro x hx; have := ih1.2 x hx; omega
    · intro x hx
      rcases List.mem_cons.1 hx with rfl | hx
      · omega
      · have := ih1.2 x hx; omega
  | stepPanic hj h1 ih1 =>
    have l1 := h1.idx_le
    simp only [lo] at *
    simp only [starts_start]
    refine ⟨List.pairwise_cons.2 ⟨?_, ih1.1⟩, ?_⟩
    · intro x hx; have := ih1.2 x hx; omega
    · intro x hx
      rcases List.mem_cons.1 hx with rfl | hx
      · omega
      · have := ih1.2 x hx; omega

/-- **C13 (order).** In every run of every chain the handlers are started in chain order, each at most
once: the start indices are strictly increasing (and belong to the chain). -/
theorem C13_started_in_order_at_most_once (hs : List Act) (rw : RW) :
    (starts (run hs rw).1.tr).Pairwise (· < ·) ∧ ∀ i ∈ starts (run hs rw).1.tr, i < hs.length :=
  ⟨(run_tr hs rw).starts_sorted.1, fun i hi => ((run_tr hs rw).starts_sorted.2 i hi).2.2⟩

/-- Either exactly the handlers below `e = j + 1` were started, or all, or the response is written. -/
def Inv (n e j : Nat) (w : RW) : Prop := j + 1 = e ∨ (n ≤ e ∧ n ≤ j + 1) ∨ w.written = true

theorem Inv.mono {n e j w w'} (h : Inv n e j w) (hw : w.written = true → w'.written = true) :
    Inv n e j w' := by
  rcases h with h | h | h
  · exact Or.inl h
  · exact Or.inr (Or.inl h)
  · exact Or.inr (Or.inr (hw h))

theorem NoLateReNext.left {a b : List CEv} (h : NoLateReNext (a ++ b)) : NoLateReNext a := by
  intro x y i w he hm
  exact h x (y ++ b) i w (by rw [he]; simp) (by simp [hm])

theorem NoLateReNext.right {a b : List CEv} (h : NoLateReNext (a ++ b)) : NoLateReNext b := by
  intro x y i w he hm
  exact h (a ++ x) y i w (by rw [he]; simp) hm

theorem NoLateReNext.tail {e} {b : List CEv} (h : NoLateReNext (e :: b)) : NoLateReNext b :=
  NoLateReNext.right (a := [e]) h

theorem Tr.nil_of_ge {n j w t j' w' r} (h : Tr n none j w t j' w' r) (hj : n ≤ j) :
    t = [] ∧ j' = j ∧ w' = w ∧ r = none := by
  cases h with
  | stop => exact ⟨rfl, rfl, rfl, rfl⟩
  | step h => omega
  | stepWritten h => omega
  | stepPanic h => omega

theorem range'_append (s a b : Nat) : List.range' s a ++ List.range' (s + a) b = List.range' s (a + b) := by
  have := @List.range'_append s a b 1
  simpa using this

/-- What `contig` says about a piece of a trace, starting when the handlers below `e` are started. -/
def Piece (n e : Nat) (t : List CEv) (j' : Nat) (w' : RW) : Prop :=
  ∃ k, starts t = List.range' e k ∧ Inv n (e + k) j' w'

theorem Piece.append {n e t1 j1 w1 t2 j2 w2} (h1 : Piece n e t1 j1 w1)
    (h2 : ∀ e', Inv n e' j1 w1 → Piece n e' t2 j2 w2) : Piece n e (t1 ++ t2) j2 w2 := by
  obtain ⟨k1, a1, b1⟩ := h1
  obtain ⟨k2, a2, b2⟩ := h2 _ b1
  refine ⟨k1 + k2, ?_, ?_⟩
  · rw [starts_append, a1, a2, range'_append]
  · rw [← Nat.add_assoc]; exact b2

/-- Entry condition of a mode. -/
def Enter (n : Nat) (m : Option Nat) (e j : Nat) (w : RW) (t : List CEv) : Prop :=
  match m with
  | none => e = j
  | some i => j + 1 = e ∨ (Inv n e j w ∧ CEv.nextBeg i true ∉ t)

theorem Tr.contig {n m j w t j' w' r} (h : Tr n m j w t j' w' r) :
    NoLateReNext t → ∀ e, Enter n m e j w t → Piece n e t j' w' := by
  have inv0 : ∀ {i e j w t}, Enter n (some i) e j w t → Inv n e j w := by
    intro i e j w t h
    rcases h with h | h
    · exact Or.inl h
    · exact h.1
  have hnext : ∀ {i j w t1 j1 w1 r1 e} {t2 : List CEv},
      Tr n none (j + 1) w t1 j1 w1 r1 →
      (NoLateReNext t1 → ∀ e, Enter n none e (j + 1) w t1 → Piece n e t1 j1 w1) →
      NoLateReNext t1 →
      Enter n (some i) e j w (CEv.nextBeg i w.written :: t2) → Piece n e t1 j1 w1 := by
    intro i j w t1 j1 w1 r1 e t2 h1 ih1 hno hen
    rcases hen with hen | ⟨hen | hen | hen, hnb⟩
    · exact ih1 hno e (by simp [Enter]; omega)
    · exact ih1 hno e (by simp [Enter]; omega)
    · obtain ⟨rfl, rfl, rfl, -⟩ := h1.nil_of_ge hen.2
      exact ⟨0, by simp, Or.inr (Or.inl ⟨by omega, by omega⟩)⟩
    · exact absurd (by simp [hen]) hnb
  induction h with
  | done => intro _ e hen; exact ⟨0, by simp, inv0 hen⟩
  | panic => intro _ e hen; exact ⟨0, by simp, inv0 hen⟩
  | @next i j w t1 j1 w1 t2 j2 w2 r h1 h2 ih1 ih2 =>
    intro hno e hen
    rw [List.cons_append] at hno hen ⊢
    have p1 := hnext h1 ih1 (NoLateReNext.left (NoLateReNext.tail hno)) hen
    have hnb : CEv.nextBeg i true ∉ t2 := fun hm => hno [] _ i w.written rfl (by simp [hm])
    have hp := Piece.append (t2 := t2) (j2 := j2) (w2 := w2) p1 (fun e' he' =>
      ih2 (NoLateReNext.tail (NoLateReNext.right (NoLateReNext.tail hno))) e' (Or.inr ⟨he', hnb⟩))
    obtain ⟨k, a, b⟩ := hp
    exact ⟨k, by simpa using a, b⟩
  | nextPanic h1 ih1 =>
    intro hno e hen
    obtain ⟨k, a, b⟩ := hnext h1 ih1 (NoLateReNext.tail hno) hen
    exact ⟨k, by simpa using a, b⟩
  | @nextRec i j w t1 j1 w1 v t2 j2 w2 r h1 h2 ih1 ih2 =>
    intro hno e hen
    rw [List.cons_append] at hno hen ⊢
    have p1 := hnext h1 ih1 (NoLateReNext.left (NoLateReNext.tail hno)) hen
    have hnb : CEv.nextBeg i true ∉ t2 := fun hm => hno [] _ i w.written rfl (by simp [hm])
    have hp := Piece.append (t2 := t2) (j2 := j2) (w2 := w2) p1 (fun e' he' =>
      ih2 (NoLateReNext.tail (NoLateReNext.right (NoLateReNext.tail hno))) e' (Or.inr ⟨he', hnb⟩))
    obtain ⟨k, a, b⟩ := hp
    exact ⟨k, by simpa using a, b⟩
  | ops hw h ih =>
    intro hno e hen
    subst hw
    refine ih hno e ?_
    rcases hen with hen | ⟨hen, hnb⟩
    · exact Or.inl hen
    · exact Or.inr ⟨hen.mono (runOps_written _ _), hnb⟩
  | eff h ih =>
    intro hno e hen
    have := ih (NoLateReNext.tail hno) e (by
      rcases hen with hen | ⟨hen, hnb⟩
      · exact Or.inl hen
      · exact Or.inr ⟨hen, fun hm => hnb (by simp [hm])⟩)
    obtain ⟨k, a, b⟩ := this
    exact ⟨k, by simpa using a, b⟩
  | stop hn =>
    intro _ e hen
    simp only [Enter] at hen
    subst hen
    exact ⟨0, by simp, Or.inr (Or.inl ⟨by omega, by omega⟩)⟩
  | @step j w t1 m w1 t2 k w2 r hj h1 hw1 h2 ih1 ih2 =>
    intro hno e hen
    simp only [Enter] at hen
    subst hen
    rw [List.cons_append] at hno ⊢
    have p1 := ih1 (NoLateReNext.left (NoLateReNext.tail hno)) (e + 1) (Or.inl rfl)
    have hp := Piece.append (t2 := t2) (j2 := k) (w2 := w2) p1 (fun e' he' => by
      rcases he' with he' | he' | he'
      · exact ih2 (NoLateReNext.tail (NoLateReNext.right (NoLateReNext.tail hno))) e' (by simp [Enter]; omega)
      · obtain ⟨rfl, rfl, rfl, -⟩ := h2.nil_of_ge he'.2
        exact ⟨0, by simp, Or.inr (Or.inl ⟨by omega, by omega⟩)⟩
      · rw [hw1] at he'; cases he')
    obtain ⟨k, a, b⟩ := hp
    refine ⟨k + 1, ?_, by rw [show e + (k + 1) = e + 1 + k by omega]; exact b⟩
    rw [List.range'_succ]
    simpa using a
  | @stepWritten e w t1 m w1 hj h1 hw1 ih1 =>
    intro hno e hen
    simp only [Enter] at hen
    subst hen
    rw [List.cons_append] at hno ⊢
    obtain ⟨k, a, b⟩ := ih1 (NoLateReNext.left (NoLateReNext.tail hno)) (e + 1) (Or.inl rfl)
    refine ⟨k + 1, ?_, Or.inr (Or.inr hw1)⟩
    rw [List.range'_succ]
    simpa using a
  | stepPanic hj h1 ih1 =>
    intro hno e hen
    simp only [Enter] at hen
    subst hen
    obtain ⟨k, a, b⟩ := ih1 (NoLateReNext.tail hno) (e + 1) (Or.inl rfl)
    refine ⟨k + 1, ?_, by rw [show e + (k + 1) = e + 1 + k by omega]; exact b⟩
    rw [List.range'_succ]
    simpa using a

/-- **C13 (no gaps; partial).** If no handler calls `Next` a further time after the response has been
written, the handlers started are exactly the first `k` of the chain; in particular the last one (the
action) is started only when all filters have been. Missing: a handler that calls `Next` again although
the response is written, see `C13_action_after_filters_violated`. -/
theorem C13_no_gaps_partial (hs : List Act) (rw : RW) (h : NoLateReNext (run hs rw).1.tr) :
    ∃ k, starts (run hs rw).1.tr = List.range k := by
  obtain ⟨k, a, -⟩ := (run_tr hs rw).contig h 0 rfl
  exact ⟨k, by rw [a, List.range_eq_range']⟩

/-- **C13 (action last; partial).** Under the same condition, when the action runs, all filters have
been started before, in order. -/
theorem C13_action_after_filters_partial (filters : List Act) (action : Act) (rw : RW)
    (h : NoLateReNext (run (filters ++ [action]) rw).1.tr)
    (ha : filters.length ∈ starts (run (filters ++ [action]) rw).1.tr) :
    starts (run (filters ++ [action]) rw).1.tr = List.range (filters.length + 1) := by
  obtain ⟨k, hk⟩ := C13_no_gaps_partial _ rw h
  have hlt := (C13_started_in_order_at_most_once (filters ++ [action]) rw).2
  rw [hk] at ha hlt ⊢
  have h1 : filters.length < k := by simpa using ha
  by_cases h2 : k = filters.length + 1
  · rw [h2]
  · have := hlt (filters.length + 1) (by simp; omega)
    simp at this

/-- **C13 is false of the code** without the condition: filter 0 calls `Next` twice, filter 1 writes,
filter 2 (say, an authorisation check) is skipped and the action runs. -/
theorem C13_action_after_filters_violated :
    ∃ (filters : List Act) (action : Act), filters.length = 3 ∧
      3 ∈ starts (run (filters ++ [action]) newRW).1.tr ∧
      2 ∉ starts (run (filters ++ [action]) newRW).1.tr :=
  ⟨[.next (.next .done), .op (.write b!"x" 1) .done, .eff 7 .done], .eff 9 .done,
    by decide, by decide, by decide⟩

/-- Non-vacuity: three filters, the second calls `Next` and the action writes. -/
example : starts (run [.eff 1 .done, .next (.eff 2 .done), .tryNext (fun _ => .done),
    .op (.write b!"x" 1) .done] newRW).1.tr = List.range 4 := by decide

theorem noLate_example : NoLateReNext (run [.next .done, .next .done, .op (.write b!"x" 1) .done] newRW).1.tr := by
  have : (run [.next .done, .next .done, .op (.write b!"x" 1) .done] newRW).1.tr =
    [.start 0, .nextBeg 0 false, .start 1, .nextBeg 1 false, .start 2, .fin 2 true, .nextEnd 1,
     .fin 1 true, .nextEnd 0, .fin 0 true] := by decide
  rw [this]
  intro a b i w he hm
  have hsub : CEv.nextBeg i true ∈ a ++ CEv.nextBeg i w :: b := by simp [hm]
  rw [← he] at hsub
  simp at hsub

/-! ## C14 -/

/-- State of the stop rule: is the chain stopped? -/
def stopAfter : Bool → List CEv → Bool
  | st, [] => st
  | st, e :: t => stopAfter (match e with | .fin _ true => true | .nextBeg _ true => false | _ => st) t

/-- The stop rule: nothing is started while the chain is stopped. -/
def stopOk : Bool → List CEv → Bool
  | _, [] => true
  | st, e :: t =>
    (match e with | .start _ => !st | _ => true) &&
    stopOk (match e with | .fin _ true => true | .nextBeg _ true => false | _ => st) t

theorem stopAfter_append (a b : List CEv) : ∀ st, stopAfter st (a ++ b) = stopAfter (stopAfter st a) b := by
  induction a with
  | nil => intro st; rfl
  | cons e a ih => intro st; exact ih _

theorem stopOk_append (a b : List CEv) :
    ∀ st, stopOk st (a ++ b) = (stopOk st a && stopOk (stopAfter st a) b) := by
  induction a with
  | nil => intro st; simp [stopOk, stopAfter]
  | cons e a ih =>
    intro st
    simp only [List.cons_append, stopOk, ih, stopAfter, Bool.and_assoc]

theorem Tr.stops {n m j w t j' w' r} (h : Tr n m j w t j' w' r) :
    ∀ st, (st = true → w.written = true ∧ m ≠ none) →
      stopOk st t = true ∧ (stopAfter st t = true → w'.written = true) := by
  have hbeg : ∀ {i : Nat} {w : RW} {m : Option Nat} (st : Bool) (t : List CEv),
      (st = true → w.written = true ∧ m ≠ none) →
      stopOk st (CEv.nextBeg i w.written :: t) = stopOk false t ∧
      stopAfter st (CEv.nextBeg i w.written :: t) = stopAfter false t := by
    intro i w m st t h
    cases hw : w.written with
    | true => exact ⟨by simp [stopOk], by simp [stopAfter]⟩
    | false =>
      cases st with
      | true => rw [hw] at h; exact absurd (h rfl).1 (by simp)
      | false => exact ⟨by simp [stopOk], by simp [stopAfter]⟩
  induction h with
  | done => intro st h; exact ⟨rfl, fun hs => (h hs).1⟩
  | panic => intro st h; exact ⟨rfl, fun hs => (h hs).1⟩
  | next h1 h2 ih1 ih2 =>
    intro st h
    rw [List.cons_append, (hbeg st _ h).1, (hbeg st _ h).2, stopOk_append, stopAfter_append]
    have a := ih1 false (by simp)
    have b := ih2 (stopAfter false _) (fun hs => ⟨a.2 hs, by simp⟩)
    simp only [stopOk, stopAfter] at b ⊢
    exact ⟨by simp [a.1, b.1], b.2⟩
  | nextPanic h1 ih1 =>
    intro st h
    rw [(hbeg st _ h).1, (hbeg st _ h).2]
    exact ih1 false (by simp)
  | nextRec h1 h2 ih1 ih2 =>
    intro st h
    rw [List.cons_append, (hbeg st _ h).1, (hbeg st _ h).2, stopOk_append, stopAfter_append]
    have a := ih1 false (by simp)
    have b := ih2 (stopAfter false _) (fun hs => ⟨a.2 hs, by simp⟩)
    simp only [stopOk, stopAfter] at b ⊢
    exact ⟨by simp [a.1, b.1], b.2⟩
  | ops hw h ih =>
    intro st hs
    subst hw
    exact ih st (fun h => ⟨runOps_written _ _ (hs h).1, (hs h).2⟩)
  | eff h ih =>
    intro st hs
    have := ih st hs
    simpa [stopOk, stopAfter] using this
  | stop => intro st h; exact ⟨rfl, fun hs => (h hs).1⟩
  | @step j w t1 m w1 t2 k w2 r hj h1 hw1 h2 ih1 ih2 =>
    intro st h
    have hst : st = false := by cases st with | false => rfl | true => exact absurd rfl (h rfl).2
    subst hst
    have a := ih1 false (by simp)
    have hf : stopAfter false t1 = false := by
      cases hx : stopAfter false t1 with
      | false => rfl
      | true => rw [a.2 hx] at hw1; cases hw1
    have b := ih2 false (by simp)
    rw [List.cons_append]
    simp only [stopOk, stopAfter, stopOk_append, stopAfter_append, hf, a.1, b.1]
    exact ⟨rfl, b.2⟩
  | stepWritten hj h1 hw1 ih1 =>
    intro st h
    have hst : st = false := by cases st with | false => rfl | true => exact absurd rfl (h rfl).2
    subst hst
    have a := ih1 false (by simp)
    rw [List.cons_append]
    simp only [stopOk, stopAfter, stopOk_append, stopAfter_append, a.1]
    exact ⟨rfl, fun _ => hw1⟩
  | stepPanic hj h1 ih1 =>
    intro st h
    have hst : st = false := by cases st with | false => rfl | true => exact absurd rfl (h rfl).2
    subst hst
    have a := ih1 false (by simp)
    simp only [stopOk, stopAfter, a.1]
    exact ⟨rfl, a.2⟩

/-- **C14 (stop).** When a handler has returned with the response written, no further handler is
started unless some handler explicitly calls `Next` in between. -/
theorem C14_written_stops_chain (hs : List Act) (rw : RW) (a b c : List CEv) (i j : Nat)
    (h : (run hs rw).1.tr = a ++ .fin i true :: b ++ .start j :: c) :
    ∃ k, CEv.nextBeg k true ∈ b := by
  have key := ((run_tr hs rw).stops false (by simp)).1
  rw [h, List.append_assoc, stopOk_append, List.cons_append] at key
  simp only [stopOk, Bool.and_eq_true, stopOk_append] at key
  have hst := key.2.2.2.1
  have : ∀ (b : List CEv) (st : Bool), st = true → (∀ k, CEv.nextBeg k true ∉ b) → stopAfter st b = true := by
    intro b
    induction b with
    | nil => intro st h _; exact h
    | cons e b ih =>
      intro st h hb
      refine ih _ ?_ (fun k hk => hb k (by simp [hk]))
      split
      · rfl
      · rename_i k; exact absurd (by simp) (hb k)
      · exact h
  apply Classical.byContradiction
  intro hno
  have := this b true rfl (fun k hk => hno ⟨k, hk⟩)
  rw [this] at hst
  cases hst

/-- **C14 (completeness).** If at the end nothing is written and no panic is in flight, every handler
of the chain has been started, in order. -/
theorem C14_unwritten_runs_all (hs : List Act) (rw : RW) (hr : (run hs rw).2 = none)
    (hw : (run hs rw).1.rw.written = false) :
    starts (run hs rw).1.tr = List.range hs.length := by
  have htr := run_tr hs rw
  have nobeg : ∀ {n m j w t j' w' r}, Tr n m j w t j' w' r → w'.written = false →
      ∀ k, CEv.nextBeg k true ∉ t := by
    intro n m j w t j' w' r h
    induction h with
    | done => simp
    | panic => simp
    | next h1 h2 ih1 ih2 =>
      intro hw k
      have hw1 := Bool.eq_false_iff.2 (fun h => Bool.eq_false_iff.1 hw (h2.written_mono h))
      have hw0 := Bool.eq_false_iff.2 (fun h => Bool.eq_false_iff.1 hw1 (h1.written_mono h))
      simp [ih1 hw1 k, ih2 hw k, hw0]
    | nextPanic h1 ih1 =>
      intro hw k
      have hw0 := Bool.eq_false_iff.2 (fun h => Bool.eq_false_iff.1 hw (h1.written_mono h))
      simp [ih1 hw k, hw0]
    | nextRec h1 h2 ih1 ih2 =>
      intro hw k
      have hw1 := Bool.eq_false_iff.2 (fun h => Bool.eq_false_iff.1 hw (h2.written_mono h))
      have hw0 := Bool.eq_false_iff.2 (fun h => Bool.eq_false_iff.1 hw1 (h1.written_mono h))
      simp [ih1 hw1 k, ih2 hw k, hw0]
    | ops _ _ ih => exact ih
    | eff _ ih => intro hw k; simp [ih hw k]
    | stop => simp
    | step _ _ hw1 _ ih1 ih2 => intro hw k; simp [ih1 hw1 k, ih2 hw k]
    | stepWritten _ _ hw1 ih1 => intro hw; rw [hw1] at hw; cases hw
    | stepPanic _ _ ih1 => intro hw k; simp [ih1 hw k]
  have hno : NoLateReNext (run hs rw).1.tr := by
    intro a b i w he hm
    exact nobeg htr hw i (by rw [he]; simp [hm])
  obtain ⟨k, ha, hinv⟩ := htr.contig hno 0 rfl
  have hidx : ∀ {n m j w t j' w' r}, Tr n m j w t j' w' r → m = none → r = none →
      w'.written = false → n ≤ j' := by
    intro n m j w t j' w' r h
    induction h with
    | stop h => intro _ _ _; exact h
    | step _ _ _ _ _ ih2 => exact ih2
    | stepWritten _ _ hw1 => intro _ _ h; rw [hw1] at h; cases h
    | stepPanic => intro _ h; cases h
    | _ => intro h; cases h
  have hn := hidx htr rfl hr hw
  have hk : hs.length ≤ k := by
    rcases hinv with h | h | h
    · omega
    · omega
    · rw [hw] at h; cases h
  have hlt := (C13_started_in_order_at_most_once hs rw).2
  have hk' : k ≤ hs.length := by
    apply Classical.byContradiction
    intro hc
    have := hlt hs.length (by rw [ha]; simp; omega)
    omega
  have : k = hs.length := by omega
  rw [ha, this, List.range_eq_range']

example : let r := run [.eff 1 .done, .next (.next .done), .eff 2 .done, .eff 3 .done] newRW
    r.2 = none ∧ r.1.rw.written = false ∧ starts r.1.tr = List.range 4 := by decide

/-! ## C15 -/

theorem nested_append (a b : List CEv) : ∀ st, nested st (a ++ b) = (nested st a).bind (nested · b) := by
  induction a with
  | nil => intro st; rfl
  | cons e a ih =>
    intro st
    simp only [List.cons_append, nested]
    cases nestStep st e with
    | none => rfl
    | some st' => exact ih st'

/-- The bottom of the activations is a place where handlers may be started. -/
def Base (st : List Frame) : Prop := ∀ i st', st ≠ .run i :: st'

theorem Tr.nests {n m j w t j' w' r} (h : Tr n m j w t j' w' r) :
    ∀ st, Base st →
      match m with
      | none => (r = none → nested st t = some st) ∧
          (∀ v, r = some v → ∃ up, nested st t = some (up ++ st) ∧ ∀ f ∈ up, ∃ k, (f = .run k ∨ f = .inNext k) ∧ j ≤ k)
      | some i => i ≤ j → (r = none → nested (.run i :: st) t = some (.run i :: st)) ∧
          (∀ v, r = some v → ∃ up, nested (.run i :: st) t = some (up ++ .run i :: st) ∧
            ∀ f ∈ up, ∃ k, (f = .run k ∨ f = .inNext k) ∧ i ≤ k) := by
  have unw : ∀ (i : Nat) (up : List Frame) (st : List Frame),
      (∀ f ∈ up, ∃ k, (f = .run k ∨ f = .inNext k) ∧ i + 1 ≤ k) →
      unwind i (up ++ .inNext i :: st) = some st := by
    intro i up
    induction up with
    | nil => intro st _; simp [unwind]
    | cons f up ih =>
      intro st h
      obtain ⟨k, hf, hk⟩ := h f (by simp)
      have := ih st (fun g hg => h g (by simp [hg]))
      rcases hf with rfl | rfl
      · simp only [List.cons_append, unwind]; exact this
      · simp only [List.cons_append, unwind]; rw [if_neg (by omega)]; exact this
  have hbn : ∀ (i : Nat) (st : List Frame), Base (.inNext i :: st) := by
    intro i st k st' h; cases h
  have hst0 : ∀ (j : Nat) (st : List Frame), Base st → nestStep st (.start j) = some (.run j :: st) := by
    intro j st hb
    cases st with
    | nil => rfl
    | cons f st' =>
      cases f with
      | run i => exact absurd rfl (hb i st')
      | inNext i => rfl
  induction h with
  | done => intro st hb; intro _; exact ⟨fun _ => rfl, fun v h => by cases h⟩
  | panic => intro st hb; intro _; exact ⟨fun h => (by cases h), fun v h => ⟨[], rfl, by simp⟩⟩
  | @next i j w t1 j1 w1 t2 j2 w2 r h1 h2 ih1 ih2 =>
    intro st hb
    have l1 := h1.idx_le
    intro hij
    have a := (ih1 (.inNext i :: .run i :: st) (hbn _ _)).1 rfl
    have key : nested (.run i :: st) (CEv.nextBeg i w.written :: t1 ++ CEv.nextEnd i :: t2) =
        nested (.run i :: st) t2 := by
      rw [List.cons_append]
      simp only [nested, nestStep, if_true, nested_append, a, Option.bind]
    rw [key]
    exact ih2 st hb (by omega)
  | @nextPanic i j w t1 j1 w1 v h1 ih1 =>
    intro st hb
    intro hij
    refine ⟨fun h => (by cases h), fun v' _ => ?_⟩
    obtain ⟨up, a, b⟩ := (ih1 (.inNext i :: .run i :: st) (hbn _ _)).2 v rfl
    refine ⟨up ++ [.inNext i], ?_, ?_⟩
    · simp only [nested, nestStep, if_true, a, List.append_assoc, List.cons_append, List.nil_append]
    · intro f hf
      rcases List.mem_append.1 hf with hf | hf
      · obtain ⟨k, hk, hk'⟩ := b f hf; exact ⟨k, hk, by omega⟩
      · exact ⟨i, Or.inr (by simpa using hf), Nat.le_refl _⟩
  | @nextRec i j w t1 j1 w1 v t2 j2 w2 r h1 h2 ih1 ih2 =>
    intro st hb
    have l1 := h1.idx_le
    intro hij
    obtain ⟨up, a, b⟩ := (ih1 (.inNext i :: .run i :: st) (hbn _ _)).2 v rfl
    have key : nested (.run i :: st) (CEv.nextBeg i w.written :: t1 ++ CEv.nextRec i v w1 :: t2) =
        nested (.run i :: st) t2 := by
      rw [List.cons_append]
      simp only [nested, nestStep, if_true, nested_append, a, Option.bind]
      rw [unw i up _ (fun f hf => by obtain ⟨k, hk, hk'⟩ := b f hf; exact ⟨k, hk, by omega⟩)]
    rw [key]
    exact ih2 st hb (by omega)
  | ops _ _ ih => exact ih
  | @eff i j w e t j' w' r h ih =>
    intro st hb
    have := ih st hb
    have key : nested (.run i :: st) (CEv.eff i e :: t) = nested (.run i :: st) t := by
      simp only [nested, nestStep, if_true]
    intro hij
    rw [key]
    exact this hij
  | stop => intro st hb; exact ⟨fun _ => rfl, fun v h => by cases h⟩
  | @step j w t1 m w1 t2 k w2 r hj h1 hw1 h2 ih1 ih2 =>
    intro st hb
    have l1 := h1.idx_le
    have a := (ih1 st hb (Nat.le_refl _)).1 rfl
    have hstart := hst0 j st hb
    have key : nested st (CEv.start j :: t1 ++ CEv.fin j false :: t2) = nested st t2 := by
      rw [List.cons_append]
      simp only [nested, hstart, nested_append, a, Option.bind]
      simp only [nestStep, if_true]
    rw [key]
    have b := ih2 st hb
    refine ⟨b.1, fun v hv => ?_⟩
    obtain ⟨up, c, d⟩ := b.2 v hv
    exact ⟨up, c, fun f hf => by obtain ⟨k, hk, hk'⟩ := d f hf; exact ⟨k, hk, by omega⟩⟩
  | @stepWritten j w t1 m w1 hj h1 hw1 ih1 =>
    intro st hb
    have a := (ih1 st hb (Nat.le_refl _)).1 rfl
    have hstart := hst0 j st hb
    refine ⟨fun _ => ?_, fun v h => by cases h⟩
    rw [List.cons_append]
    simp only [nested, hstart, nested_append, a, Option.bind]
    simp only [nestStep, if_true]
  | @stepPanic j w t1 m w1 v hj h1 ih1 =>
    intro st hb
    have hstart := hst0 j st hb
    refine ⟨fun h => (by cases h), fun v' _ => ?_⟩
    obtain ⟨up, a, b⟩ := (ih1 st hb (Nat.le_refl _)).2 v rfl
    refine ⟨up ++ [.run j], ?_, ?_⟩
    · simp only [nested, hstart, a, List.append_assoc, List.cons_append, List.nil_append]
    · intro f hf
      rcases List.mem_append.1 hf with hf | hf
      · obtain ⟨k, hk, hk'⟩ := b f hf; exact ⟨k, hk, by omega⟩
      · exact ⟨j, Or.inl (by simpa using hf), Nat.le_refl _⟩

/-- **C15 (nesting).** In every run the activations are properly nested: a handler started inside
`Next` of handler `i` is over (or unwound by a panic) before `Next` returns to `i`, and only then `i`
goes on; when the chain ends without a panic, no activation is left open. -/
theorem C15_next_is_nested (hs : List Act) (rw : RW) :
    (∃ st, nested [] (run hs rw).1.tr = some st) ∧
    ((run hs rw).2 = none → nested [] (run hs rw).1.tr = some []) := by
  have h := (run_tr hs rw).nests [] (by intro i st' h; cases h)
  simp only [] at h
  refine ⟨?_, h.1⟩
  cases hr : (run hs rw).2 with
  | none => exact ⟨_, h.1 hr⟩
  | some v => obtain ⟨up, a, -⟩ := h.2 v hr; exact ⟨_, a⟩

/-- Is `e` a return from `Next` to handler `i`, normally or by recovering? -/
def Spec.returnsTo (i : Nat) (e : CEv) : Prop := e = .nextEnd i ∨ ∃ v w, e = .nextRec i v w

theorem Tr.owners {n m j w t j' w' r} (h : Tr n m j w t j' w' r) :
    ∀ e ∈ t, (m = none → j ≤ owner e) ∧ (∀ i, m = some i → owner e = i ∨ j < owner e) ∧
      ((∀ i, m = some i → i ≤ j) → owner e ≤ j') := by
  have hnext : ∀ {i j j1 j2 : Nat} {t1 t2 : List CEv} {e0 e1 : CEv}, owner e0 = i → owner e1 = i →
      j + 1 ≤ j1 → j1 ≤ j2 →
      (∀ e ∈ t1, ((none : Option Nat) = none → j + 1 ≤ owner e) ∧ (∀ i, (none : Option Nat) = some i → owner e = i ∨ j + 1 < owner e) ∧
        ((∀ i, (none : Option Nat) = some i → i ≤ j + 1) → owner e ≤ j1)) →
      (∀ e ∈ t2, (some i = none → j1 ≤ owner e) ∧ (∀ i', some i = some i' → owner e = i' ∨ j1 < owner e) ∧
        ((∀ i', some i = some i' → i' ≤ j1) → owner e ≤ j2)) →
      ∀ e ∈ e0 :: t1 ++ e1 :: t2, (some i = none → j ≤ owner e) ∧ (∀ i', some i = some i' → owner e = i' ∨ j < owner e) ∧
        ((∀ i', some i = some i' → i' ≤ j) → owner e ≤ j2) := by
    intro i j j1 j2 t1 t2 e0 e1 h0 h1 l1 l2 a b e he
    refine ⟨fun h => (by cases h), ?_, ?_⟩
    · rintro i' hi'
      have hi' : i = i' := by simpa using hi'
      rcases List.mem_append.1 he with he | he
      · rcases List.mem_cons.1 he with rfl | he
        · left; omega
        · right; have := (a e he).1 rfl; omega
      · rcases List.mem_cons.1 he with rfl | he
        · left; omega
        · rcases (b e he).2.1 i rfl with h | h
          · left; omega
          · right; omega
    · intro hi
      have hij := hi i rfl
      rcases List.mem_append.1 he with he | he
      · rcases List.mem_cons.1 he with rfl | he
        · omega
        · have := (a e he).2.2 (fun _ h => by cases h); omega
      · rcases List.mem_cons.1 he with rfl | he
        · omega
        · have := (b e he).2.2 (fun i' h => by
            have : i = i' := by simpa using h
            omega)
          omega
  induction h with
  | done => simp
  | panic => simp
  | next h1 h2 ih1 ih2 => exact hnext rfl rfl h1.idx_le h2.idx_le ih1 ih2
  | @nextPanic i j w t1 j1 w1 v h1 ih1 =>
    intro e he
    have l1 := h1.idx_le
    refine ⟨fun h => (by cases h), ?_, ?_⟩
    · rintro i' hi'
      have hi' : i = i' := by simpa using hi'
      rcases List.mem_cons.1 he with rfl | he
      · left; exact hi'
      · right; have := (ih1 e he).1 rfl; omega
    · intro hi
      have hij := hi i rfl
      rcases List.mem_cons.1 he with rfl | he
      · simp only [owner]; omega
      · have := (ih1 e he).2.2 (fun _ h => by cases h); omega
  | nextRec h1 h2 ih1 ih2 => exact hnext rfl rfl h1.idx_le h2.idx_le ih1 ih2
  | ops _ _ ih => exact ih
  | @eff i j w e' t j' w' r h ih =>
    intro e he
    have l1 := h.idx_le
    rcases List.mem_cons.1 he with rfl | he
    · refine ⟨fun h => (by cases h), ?_, ?_⟩
      · rintro i' hi'; left; simpa [owner] using hi'
      · intro hi; have := hi i rfl; simp only [owner]; omega
    · exact ih e he
  | stop => simp
  | @step j w t1 m w1 t2 k w2 r hj h1 hw1 h2 ih1 ih2 =>
    intro e he
    have l1 := h1.idx_le
    have l2 := h2.idx_le
    have hb : j ≤ owner e ∧ owner e ≤ k := by
      rcases List.mem_append.1 he with he | he
      · rcases List.mem_cons.1 he with rfl | he
        · simp only [owner]; omega
        · have a := (ih1 e he).2.1 j rfl
          have b := (ih1 e he).2.2 (fun i' h => by
            have : j = i' := by simpa using h
            omega)
          omega
      · rcases List.mem_cons.1 he with rfl | he
        · simp only [owner]; omega
        · have a := (ih2 e he).1 rfl
          have b := (ih2 e he).2.2 (fun _ h => by cases h)
          omega
    exact ⟨fun _ => hb.1, fun i h => (by cases h), fun _ => hb.2⟩
  | @stepWritten j w t1 m w1 hj h1 hw1 ih1 =>
    intro e he
    have l1 := h1.idx_le
    have hb : j ≤ owner e ∧ owner e ≤ m + 1 := by
      rcases List.mem_append.1 he with he | he
      · rcases List.mem_cons.1 he with rfl | he
        · simp only [owner]; omega
        · have a := (ih1 e he).2.1 j rfl
          have b := (ih1 e he).2.2 (fun i' h => by
            have : j = i' := by simpa using h
            omega)
          omega
      · have : e = CEv.fin j true := by simpa using he
        subst this
        simp only [owner]; omega
    exact ⟨fun _ => hb.1, fun i h => (by cases h), fun _ => hb.2⟩
  | @stepPanic j w t1 m w1 v hj h1 ih1 =>
    intro e he
    have l1 := h1.idx_le
    have hb : j ≤ owner e ∧ owner e ≤ m := by
      rcases List.mem_cons.1 he with rfl | he
      · simp only [owner]; omega
      · have a := (ih1 e he).2.1 j rfl
        have b := (ih1 e he).2.2 (fun i' h => by
          have : j = i' := by simpa using h
          omega)
        omega
    exact ⟨fun _ => hb.1, fun i h => (by cases h), fun _ => hb.2⟩

/-- Splitting `l1 ++ x :: l2` at an element. -/
theorem split_mid {α : Type} {l1 l2 a c : List α} {x e : α} (h : l1 ++ x :: l2 = a ++ e :: c) :
    (∃ c', l1 = a ++ e :: c' ∧ c = c' ++ x :: l2) ∨ (a = l1 ∧ e = x ∧ c = l2) ∨
    (∃ a', a = l1 ++ x :: a' ∧ l2 = a' ++ e :: c) := by
  rcases List.append_eq_append_iff.1 h with ⟨b, h1, h2⟩ | ⟨b, h1, h2⟩
  · cases b with
    | nil => simp at h1 h2; exact Or.inr (Or.inl ⟨h1, h2.1.symm, h2.2.symm⟩)
    | cons y b =>
      simp only [List.cons_append, List.cons.injEq] at h2
      exact Or.inr (Or.inr ⟨b, by rw [h1, h2.1], h2.2⟩)
  · cases b with
    | nil => simp at h1 h2; exact Or.inr (Or.inl ⟨h1.symm, h2.1, h2.2⟩)
    | cons y b =>
      simp only [List.cons_append, List.cons.injEq] at h2
      exact Or.inl ⟨b, by rw [h1, h2.1], h2.2⟩

theorem split_cons {α : Type} {l2 a c : List α} {x e : α} (h : x :: l2 = a ++ e :: c) :
    (a = [] ∧ e = x ∧ c = l2) ∨ (∃ a', a = x :: a' ∧ l2 = a' ++ e :: c) := by
  rcases split_mid (l1 := []) h with ⟨c', h1, _⟩ | h | ⟨a', h1, h2⟩
  · simp at h1
  · exact Or.inl h
  · exact Or.inr ⟨a', h1, h2⟩

theorem Tr.returns {n m j w t j' w' r} (h : Tr n m j w t j' w' r) :
    (∀ i, m = some i → i ≤ j) → ∀ a i e c, t = a ++ e :: c → returnsTo i e →
      ∃ x, j ≤ x ∧ x ≤ j' ∧ (∀ f ∈ a, owner f ≤ x) ∧ i ≤ x ∧ ∀ f ∈ c, owner f ≤ i ∨ x < owner f := by
  have ow : ∀ {i e}, returnsTo i e → owner e = i := by
    rintro i e (rfl | ⟨v, w, rfl⟩) <;> rfl
  have hnext : ∀ {i j w t1 j1 w1 r1 t2 j2 w2 r2} {e0 e1 : CEv}, owner e0 = i → owner e1 = i →
      (∀ k, ¬ returnsTo k e0) →
      Tr n none (j + 1) w t1 j1 w1 r1 → Tr n (some i) j1 w1 t2 j2 w2 r2 →
      ((∀ i, (none : Option Nat) = some i → i ≤ j + 1) → ∀ a i e c, t1 = a ++ e :: c → returnsTo i e →
        ∃ x, j + 1 ≤ x ∧ x ≤ j1 ∧ (∀ f ∈ a, owner f ≤ x) ∧ i ≤ x ∧ ∀ f ∈ c, owner f ≤ i ∨ x < owner f) →
      ((∀ i', some i = some i' → i' ≤ j1) → ∀ a i e c, t2 = a ++ e :: c → returnsTo i e →
        ∃ x, j1 ≤ x ∧ x ≤ j2 ∧ (∀ f ∈ a, owner f ≤ x) ∧ i ≤ x ∧ ∀ f ∈ c, owner f ≤ i ∨ x < owner f) →
      i ≤ j → ∀ a i' e c, e0 :: t1 ++ e1 :: t2 = a ++ e :: c → returnsTo i' e →
        ∃ x, j ≤ x ∧ x ≤ j2 ∧ (∀ f ∈ a, owner f ≤ x) ∧ i' ≤ x ∧ ∀ f ∈ c, owner f ≤ i' ∨ x < owner f := by
    intro i j w t1 j1 w1 r1 t2 j2 w2 r2 e0 e1 h0 h1 hnr tr1 tr2 ih1 ih2 hij a i' e c heq hret
    have l1 := tr1.idx_le
    have l2 := tr2.idx_le
    have o1 := tr1.owners
    have o2 := tr2.owners
    have hlow : ∀ f ∈ t1, i < owner f ∧ owner f ≤ j1 := fun f hf => by
      have a := (o1 f hf).1 rfl
      have b := (o1 f hf).2.2 (fun _ h => by cases h)
      omega
    have hhi : ∀ f ∈ t2, owner f = i ∨ j1 < owner f := fun f hf => (o2 f hf).2.1 i rfl
    rcases split_mid heq with ⟨c', g1, g2⟩ | ⟨g1, g2, g3⟩ | ⟨a', g1, g2⟩
    · rcases split_cons g1 with ⟨-, q2, -⟩ | ⟨a'', q1, q2⟩
      · subst q2; exact absurd hret (hnr _)
      · obtain ⟨x, x1, x2, x3, x4, x5⟩ := ih1 (fun _ h => by cases h) _ _ _ _ q2 hret
        have hi'' : i < i' := by
          have := hlow e (by rw [q2]; simp)
          rw [ow hret] at this; exact this.1
        refine ⟨x, by omega, by omega, ?_, x4, ?_⟩
        · intro f hf
          rw [q1] at hf
          rcases List.mem_cons.1 hf with rfl | hf
          · omega
          · exact x3 f hf
        · intro f hf
          rw [g2] at hf
          rcases List.mem_append.1 hf with hf | hf
          · exact x5 f hf
          · rcases List.mem_cons.1 hf with rfl | hf
            · left; omega
            · rcases hhi f hf with h | h
              · left; omega
              · right; omega
    · subst g1 g2 g3
      have : i' = i := by rw [← ow hret, h1]
      subst this
      refine ⟨j1, by omega, by omega, ?_, by omega, ?_⟩
      · intro f hf
        rcases List.mem_cons.1 hf with rfl | hf
        · omega
        · exact (hlow f hf).2
      · intro f hf
        rcases hhi f hf with h | h
        · left; omega
        · right; exact h
    · obtain ⟨x, x1, x2, x3, x4, x5⟩ := ih2 (fun k h => by
        have : i = k := by simpa using h
        omega) _ _ _ _ g2 hret
      refine ⟨x, by omega, x2, ?_, x4, x5⟩
      intro f hf
      rw [g1] at hf
      rcases List.mem_append.1 hf with hf | hf
      · rcases List.mem_cons.1 hf with rfl | hf
        · omega
        · have := (hlow f hf).2; omega
      · rcases List.mem_cons.1 hf with rfl | hf
        · omega
        · exact x3 f hf
  induction h with
  | done => intro _ a i e c h; simp at h
  | panic => intro _ a i e c h; simp at h
  | next h1 h2 ih1 ih2 =>
    intro hi
    exact hnext rfl rfl (by rintro k (h | ⟨v, w, h⟩) <;> cases h) h1 h2 ih1 ih2 (hi _ rfl)
  | @nextPanic i j w t1 j1 w1 v h1 ih1 =>
    intro hi a i' e c heq hret
    have hij := hi i rfl
    rcases split_cons heq with ⟨-, q2, -⟩ | ⟨a'', q1, q2⟩
    · subst q2; rcases hret with h | ⟨v, w, h⟩ <;> cases h
    · obtain ⟨x, x1, x2, x3, x4, x5⟩ := ih1 (fun _ h => by cases h) _ _ _ _ q2 hret
      refine ⟨x, by omega, by omega, ?_, x4, x5⟩
      intro f hf
      rw [q1] at hf
      rcases List.mem_cons.1 hf with rfl | hf
      · simp only [owner]; omega
      · exact x3 f hf
  | nextRec h1 h2 ih1 ih2 =>
    intro hi
    exact hnext rfl rfl (by rintro k (h | ⟨v, w, h⟩) <;> cases h) h1 h2 ih1 ih2 (hi _ rfl)
  | ops _ _ ih => exact ih
  | @eff i j w e' t j' w' r h ih =>
    intro hi a i' e c heq hret
    have hij := hi i rfl
    rcases split_cons heq with ⟨-, q2, -⟩ | ⟨a'', q1, q2⟩
    · subst q2; rcases hret with h | ⟨v, w, h⟩ <;> cases h
    · obtain ⟨x, x1, x2, x3, x4, x5⟩ := ih hi _ _ _ _ q2 hret
      refine ⟨x, by omega, by omega, ?_, x4, x5⟩
      intro f hf
      rw [q1] at hf
      rcases List.mem_cons.1 hf with rfl | hf
      · simp only [owner]; omega
      · exact x3 f hf
  | stop => intro _ a i e c h; simp at h
  | @step j w t1 m w1 t2 k w2 r hj h1 hw1 h2 ih1 ih2 =>
    intro _ a i' e c heq hret
    have l1 := h1.idx_le
    have l2 := h2.idx_le
    have o1 := h1.owners
    have o2 := h2.owners
    have hj1 : ∀ i, some j = some i → i ≤ j := fun i h => by
      have : j = i := by simpa using h
      omega
    have hlow : ∀ f ∈ t1, j ≤ owner f ∧ owner f ≤ m := fun f hf => by
      have a := (o1 f hf).2.1 j rfl
      have b := (o1 f hf).2.2 hj1
      omega
    have hhi : ∀ f ∈ t2, m < owner f := fun f hf => by have := (o2 f hf).1 rfl; omega
    rcases split_mid heq with ⟨c', g1, g2⟩ | ⟨-, g2, -⟩ | ⟨a', g1, g2⟩
    · rcases split_cons g1 with ⟨-, q2, -⟩ | ⟨a'', q1, q2⟩
      · subst q2; rcases hret with h | ⟨v, w, h⟩ <;> cases h
      · obtain ⟨x, x1, x2, x3, x4, x5⟩ := ih1 hj1 _ _ _ _ q2 hret
        have hi'' : j ≤ i' := by
          have := hlow e (by rw [q2]; simp)
          rw [ow hret] at this; exact this.1
        refine ⟨x, by omega, by omega, ?_, x4, ?_⟩
        · intro f hf
          rw [q1] at hf
          rcases List.mem_cons.1 hf with rfl | hf
          · simp only [owner]; omega
          · exact x3 f hf
        · intro f hf
          rw [g2] at hf
          rcases List.mem_append.1 hf with hf | hf
          · exact x5 f hf
          · rcases List.mem_cons.1 hf with rfl | hf
            · left; simp only [owner]; omega
            · right; have := hhi f hf; omega
    · subst g2; rcases hret with h | ⟨v, w, h⟩ <;> cases h
    · obtain ⟨x, x1, x2, x3, x4, x5⟩ := ih2 (fun _ h => by cases h) _ _ _ _ g2 hret
      refine ⟨x, by omega, x2, ?_, x4, x5⟩
      intro f hf
      rw [g1] at hf
      rcases List.mem_append.1 hf with hf | hf
      · rcases List.mem_cons.1 hf with rfl | hf
        · simp only [owner]; omega
        · have := (hlow f hf).2; omega
      · rcases List.mem_cons.1 hf with rfl | hf
        · simp only [owner]; omega
        · exact x3 f hf
  | @stepWritten j w t1 m w1 hj h1 hw1 ih1 =>
    intro _ a i' e c heq hret
    have l1 := h1.idx_le
    have o1 := h1.owners
    have hj1 : ∀ i, some j = some i → i ≤ j := fun i h => by
      have : j = i := by simpa using h
      omega
    have hlow : ∀ f ∈ t1, j ≤ owner f ∧ owner f ≤ m := fun f hf => by
      have a := (o1 f hf).2.1 j rfl
      have b := (o1 f hf).2.2 hj1
      omega
    rcases split_mid heq with ⟨c', g1, g2⟩ | ⟨-, g2, -⟩ | ⟨a', g1, g2⟩
    · rcases split_cons g1 with ⟨-, q2, -⟩ | ⟨a'', q1, q2⟩
      · subst q2; rcases hret with h | ⟨v, w, h⟩ <;> cases h
      · obtain ⟨x, x1, x2, x3, x4, x5⟩ := ih1 hj1 _ _ _ _ q2 hret
        have hi'' : j ≤ i' := by
          have := hlow e (by rw [q2]; simp)
          rw [ow hret] at this; exact this.1
        refine ⟨x, by omega, by omega, ?_, x4, ?_⟩
        · intro f hf
          rw [q1] at hf
          rcases List.mem_cons.1 hf with rfl | hf
          · simp only [owner]; omega
          · exact x3 f hf
        · intro f hf
          rw [g2] at hf
          rcases List.mem_append.1 hf with hf | hf
          · exact x5 f hf
          · have : f = CEv.fin j true := by simpa using hf
            subst this
            left; simp only [owner]; omega
    · subst g2; rcases hret with h | ⟨v, w, h⟩ <;> cases h
    · simp at g2
  | @stepPanic j w t1 m w1 v hj h1 ih1 =>
    intro _ a i' e c heq hret
    have l1 := h1.idx_le
    have hj1 : ∀ i, some j = some i → i ≤ j := fun i h => by
      have : j = i := by simpa using h
      omega
    rcases split_cons heq with ⟨-, q2, -⟩ | ⟨a'', q1, q2⟩
    · subst q2; rcases hret with h | ⟨v, w, h⟩ <;> cases h
    · obtain ⟨x, x1, x2, x3, x4, x5⟩ := ih1 hj1 _ _ _ _ q2 hret
      refine ⟨x, by omega, by omega, ?_, x4, x5⟩
      intro f hf
      rw [q1] at hf
      rcases List.mem_cons.1 hf with rfl | hf
      · simp only [owner]; omega
      · exact x3 f hf

/-- **C15 (onion).** When a `Next` call of handler `i` returns (or its panic is recovered by `i`), every
later handler that has done anything before is over: none of its events follows. -/
theorem C15_onion (hs : List Act) (rw : RW) (a c : List CEv) (e : CEv) (i x : Nat)
    (h : (run hs rw).1.tr = a ++ e :: c) (he : returnsTo i e) (hx : i < x)
    (hb : ∃ f ∈ a, owner f = x) : ¬ ∃ f ∈ c, owner f = x := by
  obtain ⟨y, -, -, h1, h2, h3⟩ := (run_tr hs rw).returns (fun _ h => by cases h) a i e c h he
  obtain ⟨f, hf, rfl⟩ := hb
  rintro ⟨g, hg, hgo⟩
  have := h1 f hf
  have := h3 g hg
  omega

example : (run [.eff 1 (.next (.eff 2 .done)), .eff 3 (.next (.eff 4 .done)), .eff 5 .done] newRW).1.tr =
    [.start 0, .eff 0 1, .nextBeg 0 false, .start 1, .eff 1 3, .nextBeg 1 false, .start 2, .eff 2 5,
     .fin 2 false, .nextEnd 1, .eff 1 4, .fin 1 false, .nextEnd 0, .eff 0 2, .fin 0 false] := by decide

/-! ## C16 -/

/-- The end of one iteration of `run`. -/
def finish (L : S → Out) (s : S) : Out :=
  if (s.bump.push (.fin 0 s.rw.written)).rw.written then (s.bump.push (.fin 0 s.rw.written), none)
  else L (s.bump.push (.fin 0 s.rw.written))

theorem finish_pos {L : S → Out} {s : S} (h : s.rw.written = true) :
    finish L s = (⟨s.idx + 1, s.rw, s.tr ++ [.fin 0 true]⟩, none) := by
  unfold finish
  rw [if_pos (show (s.bump.push (.fin 0 s.rw.written)).rw.written = true from h), h]
  rfl

theorem finish_neg {L : S → Out} {s : S} (h : s.rw.written = false) :
    finish L s = L ⟨s.idx + 1, s.rw, s.tr ++ [.fin 0 false]⟩ := by
  unfold finish
  rw [if_neg (show ¬ (s.bump.push (.fin 0 s.rw.written)).rw.written = true from by
    intro h'; rw [show (s.bump.push (.fin 0 s.rw.written)).rw.written = s.rw.written from rfl, h] at h'; cases h'), h]
  rfl

theorem recovery_abs {lg : Bool} {dev : Option Str} {n : Nat} {nx L : S → Out} {R : Out} {rw w : RW}
    {t : List CEv} {j : Nat} {r : Option PVal}
    (hR : R = match interp (recovery lg dev) 0 nx ⟨0, rw, [.start 0]⟩ with
      | (s', some v) => (s', some v)
      | (s', none) => finish L s')
    (hnx : nx ⟨0, rw, [.start 0, .nextBeg 0 rw.written]⟩ =
      (⟨j, w, [CEv.start 0, CEv.nextBeg 0 rw.written] ++ t⟩, r))
    (hj : r = none → w.written = false → n ≤ j)
    (hfin : ∀ s : S, n ≤ s.idx → L s = (s, none))
    (hpre : ∀ s : S, j + 1 = s.idx → ∃ c, (L s).1.tr = s.tr ++ c) :
      (r = none → R.2 = none ∧ R.1.rw = w ∧
        R.1.tr = .start 0 :: .nextBeg 0 rw.written :: t ++ [.nextEnd 0, .fin 0 w.written]) ∧
      (∀ v, r = some v → ∃ c, R.1.tr = .start 0 :: .nextBeg 0 rw.written :: t ++ .nextRec 0 v w :: c) ∧
      (∀ v, r = some (some v) → lg = true →
        (w.written = true → R.2 = none ∧ R.1.rw = w ∧
          R.1.tr = .start 0 :: .nextBeg 0 rw.written :: t ++ [.nextRec 0 (some v) w, .fin 0 true]) ∧
        (w.written = false →
          (dev = none → R.2 = none ∧ R.1.rw = { w with status := 500 } ∧
            R.1.tr = .start 0 :: .nextBeg 0 rw.written :: t ++ [.nextRec 0 (some v) w, .fin 0 true]) ∧
          (∀ page, dev = some page →
            (({ w with status := 500 } : RW).write page page.length).2 = false →
            R.2 = none ∧ R.1.rw = (({ w with status := 500 } : RW).write page page.length).1 ∧
            R.1.tr = .start 0 :: .nextBeg 0 rw.written :: t ++ [.nextRec 0 (some v) w, .fin 0 true]))) := by
  have hnx' : nx (({ idx := 0, rw := rw, tr := [CEv.start 0] } : S).push (.nextBeg 0 rw.written)) =
      (⟨j, w, [CEv.start 0, CEv.nextBeg 0 rw.written] ++ t⟩, r) := hnx
  refine ⟨?_, ?_, ?_⟩
  · rintro rfl
    have hin : interp (recovery lg dev) 0 nx ⟨0, rw, [.start 0]⟩ =
        (⟨j, w, ([CEv.start 0, CEv.nextBeg 0 rw.written] ++ t) ++ [.nextEnd 0]⟩, none) := by
      simp only [recovery, interp, hnx']
      rfl
    rw [hin] at hR
    simp only [] at hR
    cases hw : w.written with
    | true => rw [finish_pos hw] at hR; subst hR; simp
    | false =>
      rw [finish_neg hw, hfin _ (Nat.le_succ_of_le (hj rfl hw))] at hR
      subst hR; simp
  · rintro v rfl
    have hin : ∃ w' p, interp (recovery lg dev) 0 nx ⟨0, rw, [.start 0]⟩ =
        (⟨j, w', ([CEv.start 0, CEv.nextBeg 0 rw.written] ++ t) ++ [.nextRec 0 v w]⟩, p) := by
      simp only [recovery, interp, hnx']
      cases v with
      | none => exact ⟨_, _, rfl⟩
      | some v =>
        cases lg with
        | false => exact ⟨_, _, rfl⟩
        | true =>
          simp only [Bool.not_true, Bool.false_eq_true, if_false, interp, S.push]
          cases w.written with
          | true => exact ⟨_, _, rfl⟩
          | false =>
            simp only [Bool.false_eq_true, if_false, interp, RW.op, RW.writeHeader]
            rw [if_neg (by decide)]
            simp only []
            cases dev with
            | none => exact ⟨_, _, rfl⟩
            | some page =>
              simp only [interp, RW.op]
              split
              · exact ⟨_, _, rfl⟩
              · exact ⟨_, _, rfl⟩
    obtain ⟨w', p, hin⟩ := hin
    rw [hin] at hR
    cases p with
    | some p => subst hR; exact ⟨[], by simp⟩
    | none =>
      simp only [] at hR
      cases hw : w'.written with
      | true => rw [finish_pos hw] at hR; subst hR; exact ⟨[.fin 0 true], by simp⟩
      | false =>
        rw [finish_neg hw] at hR
        obtain ⟨c, hc⟩ := hpre _ (Eq.refl (S.idx ⟨j + 1, w', ([CEv.start 0, CEv.nextBeg 0 rw.written] ++ t) ++ [.nextRec 0 v w] ++ [CEv.fin 0 false]⟩))
        rw [← hR] at hc
        exact ⟨.fin 0 false :: c, by rw [hc]; simp⟩
  · rintro v rfl rfl
    have hend : ∀ w' : RW, w'.written = true → interp (recovery true dev) 0 nx ⟨0, rw, [.start 0]⟩ =
        (⟨j, w', ([CEv.start 0, CEv.nextBeg 0 rw.written] ++ t) ++ [.nextRec 0 (some v) w]⟩, none) →
        R.2 = none ∧ R.1.rw = w' ∧
          R.1.tr = .start 0 :: .nextBeg 0 rw.written :: t ++ [.nextRec 0 (some v) w, .fin 0 true] := by
      intro w' hw hin
      rw [hin] at hR
      simp only [] at hR
      rw [finish_pos hw] at hR
      subst hR
      simp
    have h500 : ({ w with status := 500 } : RW).written = true := rfl
    refine ⟨fun hw => hend _ hw ?_, fun hw => ⟨?_, ?_⟩⟩
    · simp only [recovery, interp, hnx']
      simp only [Bool.not_true, Bool.false_eq_true, if_false, interp, S.push, hw, if_true]
    · rintro rfl
      refine hend _ h500 ?_
      simp only [recovery, interp, hnx']
      simp only [Bool.not_true, Bool.false_eq_true, if_false, interp, S.push, hw, RW.op, RW.writeHeader]
      rw [if_neg (by decide)]
    · rintro page rfl hpg
      refine hend _ (op_written _ (.write page page.length) h500) ?_
      simp only [recovery, interp, hnx']
      simp only [Bool.not_true, Bool.false_eq_true, if_false, interp, S.push, hw, RW.op, RW.writeHeader]
      rw [if_neg (by decide)]
      simp only []
      split
      · rename_i w' heq; rw [heq] at hpg; cases hpg
      · rename_i w' heq; rw [heq]

theorem Tr.end_idx {n m j w t j' w' r} (h : Tr n m j w t j' w' r) : m = none → r = none →
    w'.written = false → n ≤ j' := by
  induction h with
  | stop h => intro _ _ _; exact h
  | step _ _ _ _ _ ih2 => exact ih2
  | stepWritten _ _ hw1 => intro _ _ h; rw [hw1] at h; cases h
  | stepPanic => intro _ h; cases h
  | _ => intro h; cases h

/-- A run whose first handler is the recovery filter, unfolded once: `Next` runs the rest of the chain
from index 1. -/
theorem recovery_unfold (lg : Bool) (dev : Option Str) (rest : List Act) (rw : RW) :
    ∃ t j w r, Tr (rest.length + 1) none 1 rw t j w r ∧
      (r = none → (run (recovery lg dev :: rest) rw).2 = none ∧ (run (recovery lg dev :: rest) rw).1.rw = w ∧
        (run (recovery lg dev :: rest) rw).1.tr = .start 0 :: .nextBeg 0 rw.written :: t ++ [.nextEnd 0, .fin 0 w.written]) ∧
      (∀ v, r = some v → ∃ c, (run (recovery lg dev :: rest) rw).1.tr = .start 0 :: .nextBeg 0 rw.written :: t ++ .nextRec 0 v w :: c) ∧
      (∀ v, r = some (some v) → lg = true →
        (w.written = true → (run (recovery lg dev :: rest) rw).2 = none ∧ (run (recovery lg dev :: rest) rw).1.rw = w ∧
          (run (recovery lg dev :: rest) rw).1.tr = .start 0 :: .nextBeg 0 rw.written :: t ++ [.nextRec 0 (some v) w, .fin 0 true]) ∧
        (w.written = false →
          (dev = none → (run (recovery lg dev :: rest) rw).2 = none ∧ (run (recovery lg dev :: rest) rw).1.rw = { w with status := 500 } ∧
            (run (recovery lg dev :: rest) rw).1.tr = .start 0 :: .nextBeg 0 rw.written :: t ++ [.nextRec 0 (some v) w, .fin 0 true]) ∧
          (∀ page, dev = some page →
            (({ w with status := 500 } : RW).write page page.length).2 = false →
            (run (recovery lg dev :: rest) rw).2 = none ∧ (run (recovery lg dev :: rest) rw).1.rw = (({ w with status := 500 } : RW).write page page.length).1 ∧
            (run (recovery lg dev :: rest) rw).1.tr = .start 0 :: .nextBeg 0 rw.written :: t ++ [.nextRec 0 (some v) w, .fin 0 true]))) := by
  have hb := handlerOf_ok (rest.length + 1) (recovery lg dev :: rest)
  obtain ⟨t, g1, g2⟩ := loop_res hb rest.length ⟨1, rw, [.start 0, .nextBeg 0 rw.written]⟩ (by simp)
  have hrun : run (recovery lg dev :: rest) rw =
      match interp (recovery lg dev) 0
        (fun s' => loop (rest.length + 1) (handlerOf (recovery lg dev :: rest)) rest.length s'.bump)
        ⟨0, rw, [.start 0]⟩ with
      | (s', some v) => (s', some v)
      | (s', none) =>
        finish (loop (rest.length + 1) (handlerOf (recovery lg dev :: rest)) rest.length) s' := rfl
  generalize hL : loop (rest.length + 1) (handlerOf (recovery lg dev :: rest)) rest.length
    ⟨1, rw, [.start 0, .nextBeg 0 rw.written]⟩ = o at g1 g2
  obtain ⟨⟨j, w, tr⟩, r⟩ := o
  have g1' : tr = [CEv.start 0, CEv.nextBeg 0 rw.written] ++ t := g1
  have g2' : Tr (rest.length + 1) none 1 rw t j w r := g2
  clear g1 g2
  subst g1'
  refine ⟨t, j, w, r, g2', recovery_abs (n := rest.length + 1) hrun hL ?_ ?_ ?_⟩
  · intro hr hw; exact g2'.end_idx rfl hr hw
  · intro s hs
    have hl : ∀ f, loop (rest.length + 1) (handlerOf (recovery lg dev :: rest)) f s = (s, none) := by
      intro f
      cases f with
      | zero => rfl
      | succ f => unfold loop; rw [if_neg (by omega)]
    exact hl _
  · intro s hs
    have := g2'.idx_le
    obtain ⟨c, h, -⟩ := loop_res hb rest.length s (by omega)
    exact ⟨c, h⟩

/-- **C16 (partial, production mode).** With Recovery (and a logger to report to) as first handler, if
the panic it recovered was not `panic(nil)`, no panic escapes the context: with nothing written before,
the response becomes a 500 and nothing else changes; what had been written is left untouched.
Missing: `panic(nil)`, see `C16_recovery_violated`. -/
theorem C16_recovery_partial (rest : List Act) (rw : RW)
    (hnil : ∀ w, CEv.nextRec 0 none w ∉ (run (recovery true none :: rest) rw).1.tr) :
    (run (recovery true none :: rest) rw).2 = none ∧
    ∀ v w, CEv.nextRec 0 v w ∈ (run (recovery true none :: rest) rw).1.tr →
      (run (recovery true none :: rest) rw).1.rw = if w.written then w else { w with status := 500 } := by
  obtain ⟨t, j, w, r, htr, h1, h2, h3⟩ := recovery_unfold true none rest rw
  have hown := htr.owners
  have hnot : ∀ v w', CEv.nextRec 0 v w' ∉ t := fun v w' hm => by
    have := (hown _ hm).1 rfl
    simp [owner] at this
  cases r with
  | none =>
    obtain ⟨a, -, c⟩ := h1 rfl
    refine ⟨a, ?_⟩
    intro v w' hm
    rw [c] at hm
    simp [hnot] at hm
  | some pv =>
    obtain ⟨c, hc⟩ := h2 pv rfl
    cases pv with
    | none => exact absurd (by rw [hc]; simp) (hnil w)
    | some v =>
      obtain ⟨a, b⟩ := h3 v rfl rfl
      have hres : (run (recovery true none :: rest) rw).2 = none ∧
          (run (recovery true none :: rest) rw).1.rw = (if w.written then w else { w with status := 500 }) ∧
          (run (recovery true none :: rest) rw).1.tr = .start 0 :: .nextBeg 0 rw.written :: t ++
            [.nextRec 0 (some v) w, .fin 0 true] := by
        cases hw : w.written with
        | true => simpa using a hw
        | false => simpa using (b hw).1 rfl
      refine ⟨hres.1, ?_⟩
      intro v' w' hm
      rw [hres.2.2] at hm
      have : w' = w := by
        simp [hnot] at hm
        exact hm.2
      rw [this]
      exact hres.2.1

/-- **C16 (partial, development mode).** The same with the error page: it is written with the status 500
when nothing was written before. The callbacks registered on the writer must not panic. -/
theorem C16_recovery_dev_partial (page : Str) (rest : List Act) (rw : RW)
    (hnil : ∀ w, CEv.nextRec 0 none w ∉ (run (recovery true (some page) :: rest) rw).1.tr)
    (hcb : ∀ v w, CEv.nextRec 0 v w ∈ (run (recovery true (some page) :: rest) rw).1.tr →
      ∀ b ∈ w.befores, b.panics = false ∧ b.status = none) :
    (run (recovery true (some page) :: rest) rw).2 = none ∧
    ∀ v w, CEv.nextRec 0 v w ∈ (run (recovery true (some page) :: rest) rw).1.tr →
      if w.written then (run (recovery true (some page) :: rest) rw).1.rw = w
      else (run (recovery true (some page) :: rest) rw).1.rw.status = 500 ∧
        ∃ es, (run (recovery true (some page) :: rest) rw).1.rw.events = w.events ++ es ++ [.body page] ∧
          (w.once = false → w.hijacked = false → Ev.header 500 ∈ es) := by
  obtain ⟨t, j, w, r, htr, h1, h2, h3⟩ := recovery_unfold true (some page) rest rw
  have hown := htr.owners
  have hnot : ∀ v w', CEv.nextRec 0 v w' ∉ t := fun v w' hm => by
    have := (hown _ hm).1 rfl
    simp [owner] at this
  cases r with
  | none =>
    obtain ⟨a, -, c⟩ := h1 rfl
    refine ⟨a, ?_⟩
    intro v w' hm
    rw [c] at hm
    simp [hnot] at hm
  | some pv =>
    obtain ⟨c, hc⟩ := h2 pv rfl
    cases pv with
    | none => exact absurd (by rw [hc]; simp) (hnil w)
    | some v =>
      obtain ⟨a, b⟩ := h3 v rfl rfl
      have hcb := hcb (some v) w (by rw [hc]; simp)
      have hcall : ∀ (l : List BF) (u : RW), (∀ b ∈ l, b.panics = false ∧ b.status = none) →
          callBefore l u = ({ u with events := u.events ++ l.map (fun b => .before b.id) }, false) := by
        intro l
        induction l with
        | nil => intro u _; simp [callBefore]
        | cons b l ih =>
          intro u h
          obtain ⟨p1, p2⟩ := h b (by simp)
          unfold callBefore
          simp only [p1, p2, Bool.false_eq_true, if_false]
          rw [ih _ (fun x hx => h x (by simp [hx]))]
          simp
      have hwr : ∃ es, ({ w with status := 500 } : RW).write page page.length =
          ((({ w with status := 500 } : RW).write page page.length).1, false) ∧
          (({ w with status := 500 } : RW).write page page.length).1.status = 500 ∧
          (({ w with status := 500 } : RW).write page page.length).1.events = w.events ++ es ++ [.body page] ∧
          (w.once = false → w.hijacked = false → Ev.header 500 ∈ es) := by
        unfold RW.write
        cases ho : w.once with
        | true => exact ⟨[], by simp [writeBody]⟩
        | false =>
          simp only [Bool.false_eq_true, if_false, commit]
          rw [hcall _ _ (by simpa using hcb)]
          cases hh : w.hijacked with
          | true => exact ⟨w.befores.reverse.map (fun b => .before b.id), by simp [writeBody]⟩
          | false =>
            exact ⟨w.befores.reverse.map (fun b => .before b.id) ++ [.header 500], by simp [writeBody]⟩
      obtain ⟨es, e1, e2, e3, e4⟩ := hwr
      cases hw : w.written with
      | true =>
        obtain ⟨q1, q2, q3⟩ := a hw
        refine ⟨q1, ?_⟩
        intro v' w' hm
        rw [q3] at hm
        have : w' = w := by
          simp [hnot] at hm
          exact hm.2
        rw [this, if_pos hw]
        exact q2
      | false =>
        obtain ⟨q1, q2, q3⟩ := (b hw).2 page rfl (by rw [e1])
        refine ⟨q1, ?_⟩
        intro v' w' hm
        rw [q3] at hm
        have : w' = w := by
          simp [hnot] at hm
          exact hm.2
        rw [this, if_neg (by rw [hw]; simp), q2]
        exact ⟨e2, es, e3, e4⟩

/-- **C16 is false of the code** for `panic(nil)` (with the semantics of the Go version in `go.mod`):
Recovery swallows it without writing a response, the chain goes on outside of Recovery, and the next
handler's panic escapes to the server. -/
theorem C16_recovery_violated :
    ∃ rest v, (run (recovery true none :: rest) newRW).2 = some (some v) :=
  ⟨[.panic none, .panic (some 7)], 7, by decide⟩

example : (run [recovery true none, .eff 1 .done, .next .done, .panic (some 3)] newRW).1.rw.status = 500 ∧
    (run [recovery true none, .eff 1 .done, .next .done, .panic (some 3)] newRW).1.tr =
      [.start 0, .nextBeg 0 false, .start 1, .eff 1 1, .fin 1 false, .start 2, .nextBeg 2 false, .start 3,
       .nextRec 0 (some 3) newRW, .fin 0 true] := by decide

/-! ## C20 -/

theorem runOps_befores (os : List Op) : ∀ w : RW, (runOps os w).befores = w.befores ++ registered os ∧
    (runOps os w).hijacked = (w.hijacked || os.any Op.isHijack) := by
  have hcb : ∀ (bs : List BF) (w : RW), (callBefore bs w).1.befores = w.befores ∧
      (callBefore bs w).1.hijacked = w.hijacked := by
    intro bs
    induction bs with
    | nil => intro w; exact ⟨rfl, rfl⟩
    | cons b bs ih =>
      intro w
      unfold callBefore
      cases hs : b.status with
      | none =>
        simp only []
        split
        · exact ⟨rfl, rfl⟩
        · exact ih _
      | some s =>
        simp only [RW.writeHeader]
        by_cases h0 : s = 0
        · simp only [h0, if_true]; exact ⟨trivial, trivial⟩
        · simp only [h0, if_false]
          split
          · exact ⟨rfl, rfl⟩
          · exact ih _
  have hcm : ∀ w : RW, (commit w).1.befores = w.befores ∧ (commit w).1.hijacked = w.hijacked := by
    intro w
    have := hcb w.befores.reverse { w with once := true }
    unfold commit
    split
    · rename_i w' heq; rw [heq] at this; exact this
    · rename_i w' heq
      rw [heq] at this
      simp only [] at this ⊢
      split <;> split <;> exact this
  have hwr : ∀ (w : RW) bs n, (w.write bs n).1.befores = w.befores ∧ (w.write bs n).1.hijacked = w.hijacked := by
    intro w bs n
    unfold RW.write
    split
    · exact ⟨rfl, rfl⟩
    · have := hcm w
      split
      · rename_i heq; rw [heq] at this; exact this
      · rename_i heq; rw [heq] at this; exact this
  induction os with
  | nil => intro w; simp [runOps, registered]
  | cons o os ih =>
    intro w
    have := ih (w.op o).1
    unfold runOps
    rw [this.1, this.2]
    cases o with
    | writeHeader s =>
      have h : (w.writeHeader s).1.befores = w.befores ∧ (w.writeHeader s).1.hijacked = w.hijacked := by
        unfold RW.writeHeader; split <;> exact ⟨rfl, rfl⟩
      simp [RW.op, h, registered, Op.isHijack]
    | write bs n => simp [RW.op, hwr, registered, Op.isHijack]
    | flush => simp [RW.op, registered, Op.isHijack]
    | before b => simp [RW.op, registered, Op.isHijack]
    | hijack => simp [RW.op, registered, Op.isHijack]

/-- **C20.** When `ServeHTTP` returns without a panic, the connection was not hijacked and the
callbacks registered during the request neither panic nor set status 0, exactly one header has been
sent. -/
theorem C20_exactly_one_header (hs : List Act) (w : RW) (h : serveHTTP hs = (w, none))
    (hb : ∀ b ∈ w.befores, BFok b) (hh : w.hijacked = false) :
    Resp.Spec.headers w.events = 1 := by
  obtain ⟨os, hos⟩ := (run_tr hs newRW).ops_of
  have hw : w = runOps (os ++ [.write [] 0]) newRW := by
    unfold serveHTTP at h
    split at h
    · simp at h
    · rename_i s heq
      rw [heq] at hos
      rw [runOps_append, ← hos]
      split at h
      · simp at h
      · rename_i w' heq'
        simp only [Prod.mk.injEq, and_true] at h
        subst h
        simp [runOps, RW.op, heq']
  obtain ⟨b1, b2⟩ := runOps_befores (os ++ [.write [] 0]) newRW
  rw [← hw] at b1 b2
  have hh' : (os ++ [Op.write [] 0]).any Op.isHijack = false := by
    rw [hh] at b2
    simpa [newRW] using b2.symm
  have hb' : ∀ b ∈ registered (os ++ [Op.write [] 0]), BFok b := by
    intro b hbm
    apply hb
    rw [b1]
    simp [hbm]
  rw [hw]
  rcases C17_header_once hb' hh' with ⟨h1, -⟩ | ⟨pre, bs, n, post, es, rest, -, -, h3, h4, h5⟩
  · have := h1 (.write [] 0) (by simp)
    cases this
  · have happ : ∀ a b : List Ev, Resp.Spec.headers (a ++ b) = Resp.Spec.headers a + Resp.Spec.headers b := by
      intro a b; simp [Resp.Spec.headers]
    have hz : ∀ l : List Ev, (∀ e ∈ l, ∀ c, e ≠ .header c) → Resp.Spec.headers l = 0 := by
      intro l h
      unfold Resp.Spec.headers
      rw [List.length_eq_zero_iff, List.filter_eq_nil_iff]
      intro e he
      have := h e he
      cases e with
      | header c => exact absurd rfl (this c)
      | _ => simp
    have hcons : ∀ c (l : List Ev), Resp.Spec.headers (.header c :: l) = 1 + Resp.Spec.headers l := by
      intro c l; exact happ [.header c] l
    rw [h5, happ, happ, hcons, hz es, hz rest, hz ((registered pre).reverse.map _)]
    · intro e he c h
      obtain ⟨b, -, rfl⟩ := List.mem_map.1 he
      cases h
    · intro e he c h
      have := h4 e he
      subst h; exact this
    · intro e he c h
      have := h3 e he
      subst h; exact this

/-- When a panic escapes the handlers, `ServeHTTP` sends nothing more: the response is what the handlers
left (the final `Write(nil)` is not reached). -/
theorem C20_panic_sends_nothing (hs : List Act) (v : PVal) (h : (run hs newRW).2 = some v) :
    serveHTTP hs = ((run hs newRW).1.rw, some v) := by
  unfold serveHTTP
  cases hr : run hs newRW with
  | mk s o => rw [hr] at h; cases h; rfl

/-- Non-vacuity: a handler that sets a status and panics; no header is sent. -/
example : (run [.op (.writeHeader 201) (.panic (some 3))] newRW).2 = some (some 3) ∧
    (serveHTTP [.op (.writeHeader 201) (.panic (some 3))]).1.events = [] := by decide

/-- **Without the condition on the callbacks C20 is false**: a before-callback that panics in the first
write uses up the one chance to send the header. With the recovery filter and a logger, the 500 set by
the filter is never sent: no header goes out at all (so net/http answers 200), although `ServeHTTP`
returns normally and `Status()` says 500. -/
theorem C20_callback_panic_violated :
    ∃ hs w, serveHTTP (recovery true none :: hs) = (w, none) ∧ w.hijacked = false ∧
      w.status = 500 ∧ Resp.Spec.headers w.events = 0 :=
  ⟨[.op (.before ⟨1, none, true⟩) (.op (.write b!"a" 1) .done)], _, rfl, by decide, by decide, by decide⟩

/-- Non-vacuity: an unmatched request, and one with a written response, a callback and two bodies. -/
example : (serveHTTP []).2 = none ∧ Resp.Spec.headers (serveHTTP []).1.events = 1 ∧
    (serveHTTP [.op (.before ⟨1, some 201, false⟩) .done, .op (.write b!"a" 1) (.op (.write b!"b" 1) .done)]).1.events =
      [.before 1, .header 201, .body b!"a", .body b!"b", .body []] := by decide

end Verif.Ctx
