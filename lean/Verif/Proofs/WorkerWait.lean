import Verif.Proofs.Worker
/-! `Wait`, errors, termination and progress of the worker model (no property theorems here). -/
namespace Verif.Worker

/-- The task goroutines among the first `n` have finished their tasks. -/
def doneBelow (s : St) (n : Nat) : Prop := ∀ j < n, ∀ u, s.threads[j]? = some u → u.pending = false

def waitOk (s : St) (t : Thread) : Prop :=
  match t.pc with
  | .waiting n => n ≤ s.threads.length
  | .sleeping n => n ≤ s.threads.length ∧ 0 < s.wg
  | .woken n => n ≤ s.threads.length ∧ doneBelow s n
  | .readErr n => n ≤ s.threads.length ∧ doneBelow s n
  | .clearErr n _ => n ≤ s.threads.length ∧ doneBelow s n
  | _ => True

theorem get_set {l : List Thread} {i j : Nat} {t a u : Thread} (ht : l[i]? = some t) (h : (l.set i a)[j]? = some u) :
    (j = i ∧ u = a) ∨ (j ≠ i ∧ l[j]? = some u) := by
  by_cases hj : j = i
  · subst hj
    have hlt : j < l.length := by
      by_cases hlt : j < l.length
      · exact hlt
      · rw [List.getElem?_eq_none (by omega)] at ht; cases ht
    rw [List.getElem?_set_self hlt] at h
    simp only [Option.some.injEq] at h
    exact Or.inl ⟨rfl, h.symm⟩
  · rw [List.getElem?_set_ne (Ne.symm hj)] at h
    exact Or.inr ⟨hj, h⟩

theorem allDone {s : St} (h : Inv s) (hz : s.wg = 0) : ∀ u ∈ s.threads, u.pending = false := by
  intro u hu
  have hw := h.wg
  have : s.threads.countP Thread.pending = 0 := by omega
  have := List.countP_eq_zero.1 this u hu
  simpa using this

theorem winv_put {s s' : St} {i : Nat} {t a : Thread} {extra : List Thread} (ht : s.threads[i]? = some t)
    (h : ∀ u ∈ s.threads, waitOk s u) (hth : s'.threads = s.threads.set i a ++ extra)
    (hex : ∀ x ∈ extra, ∀ r, waitOk r x) (hp : t.pending = false → a.pending = false)
    (hwg : 0 < s.wg → 0 < s'.wg)
    (ha : waitOk s a ∨ (∃ n, a.pc = .sleeping n ∧ n ≤ s.threads.length ∧ 0 < s'.wg)) :
    ∀ u ∈ s'.threads, waitOk s' u := by
  have hlen : s.threads.length ≤ s'.threads.length := by rw [hth]; simp
  have hdone : ∀ n, n ≤ s.threads.length → doneBelow s n → doneBelow s' n := by
    intro n hn hd j hj u hu
    rw [hth, List.getElem?_append_left (by rw [List.length_set]; omega)] at hu
    rcases get_set ht hu with ⟨rfl, rfl⟩ | ⟨_, hu⟩
    · exact hp (hd j hj t ht)
    · exact hd j hj u hu
  have lift : ∀ u, waitOk s u → waitOk s' u := by
    intro u hu
    unfold waitOk at *
    cases hpc : u.pc <;> simp only [hpc] at hu ⊢ <;> first
      | omega
      | exact ⟨by omega, hwg hu.2⟩
      | exact ⟨by omega, hdone _ hu.1 hu.2⟩
  intro u hu
  rw [hth] at hu
  rcases List.mem_append.1 hu with hu | hu
  · rcases mem_set hu with hu | rfl
    · exact lift u (h u hu)
    · rcases ha with ha | ⟨n, h1, h2, h3⟩
      · exact lift _ ha
      · unfold waitOk; rw [h1]; exact ⟨by omega, h3⟩
  · exact hex u hu s'

theorem waitOk_crash {s : St} {t : Thread} (c : Option Crash) (h : waitOk s t) : waitOk { s with crash := c } t := h

macro "wmove" h:ident ht:ident ro:ident : tactic => `(tactic| (
  refine winv_put (extra := []) $ht $h (List.append_nil _).symm (by simp) ?_ (fun hh => hh) (Or.inl ?_)
  · rcases $ro:ident with _ | (_ | (_ | _) | _) <;> simp [Thread.pending, PC.past]
  · first | exact trivial | assumption | exact Nat.le_refl _))

theorem winv_step {s s' : St} {i : Nat} (hi : Inv s) (h : ∀ u ∈ s.threads, waitOk s u) (hs : step s i = some s') :
    ∀ u ∈ s'.threads, waitOk s' u := by
  have hi' := inv_step hi hs
  obtain ⟨hc, t, ht, hst⟩ := step_of hs
  have hmem : t ∈ s.threads := List.mem_of_getElem? ht
  have hto := h t hmem
  obtain ⟨ro, pc, ops⟩ := t
  unfold stepThread at hst
  cases pc with
  | ready =>
    simp only at hst
    cases ops with
    | nil => cases ro <;> cases hst
             · refine winv_put (extra := []) ht h (List.append_nil _).symm (by simp) ?_ (fun hh => hh) (Or.inl trivial)
               simp [Thread.pending]
             · refine winv_put (extra := []) ht h (List.append_nil _).symm (by simp) ?_ (fun hh => hh) (Or.inl trivial)
               simp [Thread.pending, PC.past]
    | cons o r =>
      cases o <;> cases hst <;> wmove h ht ro
  | rlock k b => simp only at hst; split at hst <;> cases hst; wmove h ht ro
  | check k b => simp only at hst; split at hst <;> cases hst <;> wmove h ht ro
  | dropped => cases hst; wmove h ht ro
  | add k b =>
    cases hst
    refine winv_put (extra := []) ht h (List.append_nil _).symm (by simp) ?_ (fun hh => by simp only; omega) (Or.inl trivial)
    rcases ro with _ | (_ | (_ | _) | _) <;> simp [Thread.pending, PC.past]
  | send k b =>
    simp only at hst
    split at hst
    · cases hst; exact fun u hu => h u hu
    · split at hst
      · cases hst; wmove h ht ro
      · cases hst
  | runlock k b => cases hst; wmove h ht ro
  | spawn k b =>
    cases hst
    refine winv_put (extra := [newTask k b]) ht h rfl ?_ ?_ (fun hh => hh) (Or.inl trivial)
    · intro x hx r
      rw [List.mem_singleton.1 hx]
      cases k <;> trivial
    · rcases ro with _ | (_ | (_ | _) | _) <;> simp [Thread.pending, PC.past]
  | waiting n =>
    simp only at hst
    by_cases hz : s.wg = 0
    · rw [if_pos hz] at hst
      cases hst
      refine winv_put (extra := []) ht h (List.append_nil _).symm (by simp) ?_ (fun hh => hh)
        (Or.inl ⟨hto, fun j _ u hu => allDone hi hz u (List.mem_of_getElem? hu)⟩)
      rcases ro with _ | (_ | (_ | _) | _) <;> simp [Thread.pending, PC.past]
    · rw [if_neg hz] at hst
      cases hst
      refine winv_put (extra := []) ht h (List.append_nil _).symm (by simp) ?_ (fun hh => hh)
        (Or.inr ⟨n, rfl, hto, by simp only [St.put]; omega⟩)
      rcases ro with _ | (_ | (_ | _) | _) <;> simp [Thread.pending, PC.past]
  | sleeping n => cases hst
  | woken n =>
    simp only at hst
    split at hst <;> cases hst
    · wmove h ht ro
    · exact fun u hu => h u hu
  | readErr n => cases hst; wmove h ht ro
  | clearErr n r => cases hst; wmove h ht ro
  | announce j => simp only at hst; split at hst <;> cases hst; cases j <;> wmove h ht ro
  | acquire j => simp only at hst; split at hst <;> cases hst; cases j <;> wmove h ht ro
  | inside j =>
    simp only at hst
    split at hst
    · cases hst; cases j <;> wmove h ht ro
    · split at hst
      · cases hst; exact fun u hu => h u hu
      · cases j <;> cases hst <;> wmove h ht ro
  | unlock j => cases j <;> cases hst <;> wmove h ht ro
  | recv =>
    simp only at hst
    split at hst
    · cases hst; wmove h ht ro
    · split at hst <;> cases hst; wmove h ht ro
  | wgDone =>
    simp only at hst
    split at hst
    · cases hst; exact fun u hu => h u hu
    · split at hst
      · cases hst
        intro u hu
        have hd := allDone hi' rfl
        obtain ⟨y, hy, rfl⟩ := mem_wake hu
        have hlen : ((s.threads.set i ⟨ro, afterDone ro, ops⟩).map wake).length = s.threads.length := by simp
        have hnd : ∀ n, doneBelow { s with wg := 0, threads := (s.threads.set i ⟨ro, afterDone ro, ops⟩).map wake } n :=
          fun n j _ u hu => hd u (List.mem_of_getElem? hu)
        rcases mem_set hy with hy | rfl
        · have hyo := h y hy
          obtain ⟨r', pc', o'⟩ := y
          unfold waitOk at hyo ⊢
          cases pc' <;> simp only [wake] at hyo ⊢ <;> first
            | (rw [hlen]; exact hyo)
            | exact ⟨by rw [hlen]; exact hyo.1, hnd _⟩
        · rcases ro with _ | (_ | (_ | _) | _) <;> simp [afterDone, wake, waitOk]
      · cases hst
        refine winv_put (extra := []) ht h (List.append_nil _).symm (by simp) ?_ (fun hh => by simp only; omega) (Or.inl ?_)
        · rcases ro with _ | (_ | (_ | _) | _) <;> simp [Thread.pending, PC.past, afterDone]
        · rcases ro with _ | (_ | (_ | _) | _) <;> simp [afterDone, waitOk]
  | finished => cases hst
  | leaked => cases hst

theorem winv_reach {cap : Nat} {progs : List (List Op)} {s : St} (h : Reach cap progs s) : ∀ u ∈ s.threads, waitOk s u := by
  induction h with
  | init =>
    intro u hu
    obtain ⟨q, _, rfl⟩ := List.mem_map.1 hu
    trivial
  | step i hr hs ih => exact winv_step (inv_reach hr) ih hs

end Verif.Worker
