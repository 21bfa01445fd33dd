import Verif.Proofs.WorkerWait
/-! Errors, termination and progress of the worker model (no property theorems here). -/
namespace Verif.Worker

/-! ## The shape of a step -/

theorem wake_role (x : Thread) : (wake x).role = x.role := by
  obtain ⟨r, p, o⟩ := x; cases p <;> rfl

theorem wake_pending (x : Thread) : (wake x).pending = x.pending := by
  obtain ⟨r, p, o⟩ := x; cases p <;> rfl

theorem step_threads {s s' : St} {i : Nat} (hs : step s i = some s') :
    s'.threads = s.threads ∨ ∃ t a extra f, s.threads[i]? = some t ∧ s'.threads = (s.threads.set i a ++ extra).map f ∧
      a.role = t.role ∧ (t.pending = false → a.pending = false) ∧
      (∀ x : Thread, (f x).role = x.role ∧ (f x).pending = x.pending ∧ (f x = x ∨ f x = wake x)) := by
  obtain ⟨hc, t, ht, hst⟩ := step_of hs
  have mk : ∀ (a : Thread) (extra : List Thread), s'.threads = s.threads.set i a ++ extra → a.role = t.role →
      (t.pending = false → a.pending = false) →
      ∃ t a extra f, s.threads[i]? = some t ∧ s'.threads = (s.threads.set i a ++ extra).map f ∧
      a.role = t.role ∧ (t.pending = false → a.pending = false) ∧
      (∀ x : Thread, (f x).role = x.role ∧ (f x).pending = x.pending ∧ (f x = x ∨ f x = wake x)) := by
    intro a extra h1 h2 h3
    exact ⟨t, a, extra, id, ht, by rw [List.map_id]; exact h1, h2, h3, fun x => ⟨rfl, rfl, Or.inl rfl⟩⟩
  obtain ⟨ro, pc, ops⟩ := t
  unfold stepThread at hst
  have nil : ∀ l : List Thread, l = l ++ [] := fun l => (List.append_nil l).symm
  cases pc with
  | ready =>
    simp only at hst
    cases ops with
    | nil =>
      cases ro <;> cases hst
      · exact Or.inr (mk _ [] (nil _) rfl (by simp [Thread.pending]))
      · exact Or.inr (mk _ [] (nil _) rfl (by simp [Thread.pending, PC.past]))
    | cons o r =>
      cases o <;> cases hst <;> exact Or.inr (mk _ [] (nil _) rfl (by cases ro <;> simp [Thread.pending, PC.past]))
  | rlock k b =>
    simp only at hst; split at hst <;> cases hst
    exact Or.inr (mk _ [] (nil _) rfl (by cases ro <;> simp [Thread.pending, PC.past]))
  | check k b =>
    simp only at hst
    split at hst <;> cases hst <;> exact Or.inr (mk _ [] (nil _) rfl (by cases ro <;> simp [Thread.pending, PC.past]))
  | dropped => cases hst; exact Or.inr (mk _ [] (nil _) rfl (by cases ro <;> simp [Thread.pending, PC.past]))
  | add k b => cases hst; exact Or.inr (mk _ [] (nil _) rfl (by cases ro <;> simp [Thread.pending, PC.past]))
  | send k b =>
    simp only at hst
    split at hst
    · cases hst; exact Or.inl rfl
    · split at hst <;> cases hst
      exact Or.inr (mk _ [] (nil _) rfl (by cases ro <;> simp [Thread.pending, PC.past]))
  | runlock k b => cases hst; exact Or.inr (mk _ [] (nil _) rfl (by cases ro <;> simp [Thread.pending, PC.past]))
  | spawn k b => cases hst; exact Or.inr (mk _ _ rfl rfl (by cases ro <;> simp [Thread.pending, PC.past]))
  | waiting n =>
    simp only at hst
    split at hst <;> cases hst <;> exact Or.inr (mk _ [] (nil _) rfl (by cases ro <;> simp [Thread.pending, PC.past]))
  | sleeping n => cases hst
  | woken n =>
    simp only at hst
    split at hst <;> cases hst
    · exact Or.inr (mk _ [] (nil _) rfl (by cases ro <;> simp [Thread.pending, PC.past]))
    · exact Or.inl rfl
  | readErr n => cases hst; exact Or.inr (mk _ [] (nil _) rfl (by cases ro <;> simp [Thread.pending, PC.past]))
  | clearErr n r => cases hst; exact Or.inr (mk _ [] (nil _) rfl (by cases ro <;> simp [Thread.pending, PC.past]))
  | announce j =>
    simp only at hst; split at hst <;> cases hst
    cases j <;> exact Or.inr (mk _ [] (nil _) rfl (by cases ro <;> simp [Thread.pending, PC.past]))
  | acquire j =>
    simp only at hst; split at hst <;> cases hst
    cases j <;> exact Or.inr (mk _ [] (nil _) rfl (by cases ro <;> simp [Thread.pending, PC.past]))
  | inside j =>
    simp only at hst
    split at hst
    · cases hst; cases j <;> exact Or.inr (mk _ [] (nil _) rfl (by cases ro <;> simp [Thread.pending, PC.past]))
    · split at hst
      · cases hst; exact Or.inl rfl
      · cases j <;> cases hst <;> exact Or.inr (mk _ [] (nil _) rfl (by cases ro <;> simp [Thread.pending, PC.past]))
  | unlock j =>
    cases j <;> cases hst <;> exact Or.inr (mk _ [] (nil _) rfl (by cases ro <;> simp [Thread.pending, PC.past]))
  | recv =>
    simp only at hst
    split at hst
    · cases hst; exact Or.inr (mk _ [] (nil _) rfl (by cases ro <;> simp [Thread.pending, PC.past]))
    · split at hst <;> cases hst
      exact Or.inr (mk _ [] (nil _) rfl (by cases ro <;> simp [Thread.pending, PC.past]))
  | wgDone =>
    simp only at hst
    split at hst
    · cases hst; exact Or.inl rfl
    · split at hst
      · cases hst
        refine Or.inr ⟨_, ⟨ro, afterDone ro, ops⟩, [], wake, ht, by rw [← nil], rfl, ?_, fun x => ⟨wake_role x, wake_pending x, Or.inr rfl⟩⟩
        rcases ro with _ | (_ | (_ | _) | _) <;> simp [Thread.pending, PC.past]
      · cases hst
        exact Or.inr (mk _ [] (nil _) rfl (by rcases ro with _ | (_ | (_ | _) | _) <;> simp [Thread.pending, PC.past]))
  | finished => cases hst
  | leaked => cases hst

/-- A task's goroutine stays, and stays finished. -/
theorem persist {s s' : St} {i : Nat} (hs : step s i = some s') (u : Thread) (hu : u ∈ s.threads) (hp : u.pending = false) :
    ∃ u' ∈ s'.threads, u'.role = u.role ∧ u'.pending = false := by
  rcases step_threads hs with h | ⟨t, a, extra, f, ht, hth, hr, hpa, hf⟩
  · exact ⟨u, by rw [h]; exact hu, rfl, hp⟩
  · obtain ⟨j, hj⟩ := List.mem_iff_getElem?.1 hu
    by_cases hij : j = i
    · subst hij
      rw [ht] at hj
      simp only [Option.some.injEq] at hj
      subst hj
      have hlt : j < s.threads.length := by
        by_cases hlt : j < s.threads.length
        · exact hlt
        · rw [List.getElem?_eq_none (by omega)] at ht; cases ht
      refine ⟨f a, ?_, by rw [(hf a).1, hr], by rw [(hf a).2.1, hpa hp]⟩
      rw [hth]
      exact List.mem_map_of_mem (List.mem_append_left _ (List.mem_set hlt a))
    · refine ⟨f u, ?_, (hf u).1, by rw [(hf u).2.1, hp]⟩
      rw [hth]
      refine List.mem_map_of_mem (List.mem_append_left _ (List.mem_iff_getElem?.2 ⟨j, ?_⟩))
      rw [List.getElem?_set_ne (Ne.symm hij)]
      exact hj

/-! ## Errors come from tasks -/

/-- A task that has finished returned the error. -/
def src (s : St) (e : Nat) : Prop := ∃ u ∈ s.threads, u.role = .task (.err (some e)) ∧ u.pending = false

theorem src_step {s s' : St} {i : Nat} (hs : step s i = some s') {e : Nat} (h : src s e) : src s' e := by
  obtain ⟨u, hu, hr, hp⟩ := h
  obtain ⟨u', h1, h2, h3⟩ := persist hs u hu hp
  exact ⟨u', h1, by rw [h2, hr], h3⟩

structure EInv (s : St) : Prop where
  err : ∀ e, s.err = some e → src s e
  held : ∀ t ∈ s.threads, ∀ n e, t.pc = .clearErr n (some e) → src s e
  ret : ∀ p ∈ s.returns, ∀ e, p.2 = some e → src s e

/-- How `err`, `returns` and the pending results change. -/
theorem einv_frame {s s' : St} {i : Nat} (h : EInv s) (hs : step s i = some s')
    (he : s'.err = s.err ∨ s'.err = none ∨ ∃ e, s'.err = some e ∧ src s' e)
    (hr : s'.returns = s.returns ∨ ∃ t n r, t ∈ s.threads ∧ t.pc = .clearErr n r ∧ s'.returns = s.returns ++ [(i, r)])
    (hh : ∀ t ∈ s'.threads, ∀ n e, t.pc = .clearErr n (some e) → s.err = some e ∨
      ∃ t' ∈ s.threads, ∃ m, t'.pc = .clearErr m (some e)) : EInv s' := by
  refine ⟨?_, ?_, ?_⟩
  · intro e h1
    rcases he with he | he | ⟨e', he, hsrc⟩
    · rw [he] at h1; exact src_step hs (h.err e h1)
    · rw [he] at h1; cases h1
    · rw [he] at h1; cases h1; exact hsrc
  · intro t ht n e h1
    rcases hh t ht n e h1 with h2 | ⟨t', h2, m, h3⟩
    · exact src_step hs (h.err e h2)
    · exact src_step hs (h.held t' h2 m e h3)
  · intro p hp e h1
    rcases hr with hr | ⟨t, n, r, h2, h3, h4⟩
    · rw [hr] at hp; exact src_step hs (h.ret p hp e h1)
    · rw [h4] at hp
      rcases List.mem_append.1 hp with hp | hp
      · exact src_step hs (h.ret p hp e h1)
      · rw [List.mem_singleton.1 hp] at h1
        simp only at h1
        subst h1
        exact src_step hs (h.held t h2 n e h3)

theorem held_set {l : List Thread} {i : Nat} {a : Thread} {extra : List Thread} (ha : ∀ n e, a.pc ≠ .clearErr n (some e))
    (hx : ∀ x ∈ extra, ∀ n e, x.pc ≠ .clearErr n (some e)) :
    ∀ t ∈ l.set i a ++ extra, ∀ n e, t.pc = .clearErr n (some e) → ∃ t' ∈ l, ∃ m, t'.pc = .clearErr m (some e) := by
  intro t ht n e h
  rcases List.mem_append.1 ht with ht | ht
  · rcases mem_set ht with ht | rfl
    · exact ⟨t, ht, n, h⟩
    · exact absurd h (ha n e)
  · exact absurd h (hx t ht n e)

theorem held_set' {l : List Thread} {i : Nat} {a : Thread} (ha : ∀ n e, a.pc ≠ .clearErr n (some e)) :
    ∀ t ∈ l.set i a, ∀ n e, t.pc = .clearErr n (some e) → ∃ t' ∈ l, ∃ m, t'.pc = .clearErr m (some e) := by
  intro t ht
  exact held_set (extra := []) ha (by simp) t (by simpa using ht)

macro "emove" h:ident hs:ident : tactic => `(tactic| (
  refine einv_frame $h $hs (Or.inl rfl) (Or.inl rfl) (fun t ht n e hp => Or.inr (held_set' (by simp) t ht n e hp))))

theorem einv_step {s s' : St} {i : Nat} (hi : Inv s) (h : EInv s) (hs : step s i = some s') : EInv s' := by
  obtain ⟨hc, t, ht, hst⟩ := step_of hs
  have hmem : t ∈ s.threads := List.mem_of_getElem? ht
  have htok := hi.ok t hmem
  have hlt : i < s.threads.length := by
    by_cases hlt : i < s.threads.length
    · exact hlt
    · rw [List.getElem?_eq_none (by omega)] at ht; cases ht
  have same : ∀ t ∈ s.threads, ∀ n e, t.pc = .clearErr n (some e) → s.err = some e ∨
      ∃ t' ∈ s.threads, ∃ m, t'.pc = .clearErr m (some e) := fun t ht n e h => Or.inr ⟨t, ht, n, h⟩
  obtain ⟨ro, pc, ops⟩ := t
  unfold stepThread at hst
  cases pc with
  | ready =>
    simp only at hst
    cases ops with
    | nil => cases ro <;> cases hst <;> emove h hs
    | cons o r => cases o <;> cases hst <;> emove h hs
  | rlock k b => simp only at hst; split at hst <;> cases hst; emove h hs
  | check k b => simp only at hst; split at hst <;> cases hst <;> emove h hs
  | dropped => cases hst; emove h hs
  | add k b => cases hst; emove h hs
  | send k b =>
    simp only at hst
    split at hst
    · cases hst; exact einv_frame h hs (Or.inl rfl) (Or.inl rfl) same
    · split at hst <;> cases hst; emove h hs
  | runlock k b => cases hst; emove h hs
  | spawn k b =>
    cases hst
    refine einv_frame h hs (Or.inl rfl) (Or.inl rfl) (fun t ht n e hp => Or.inr (held_set (by simp) ?_ t ht n e hp))
    intro x hx
    rw [List.mem_singleton.1 hx]
    cases k <;> simp [newTask]
  | waiting n => simp only at hst; split at hst <;> cases hst <;> emove h hs
  | sleeping n => cases hst
  | woken n =>
    simp only at hst
    split at hst <;> cases hst
    · emove h hs
    · exact einv_frame h hs (Or.inl rfl) (Or.inl rfl) same
  | readErr n =>
    cases hst
    refine einv_frame h hs (Or.inl rfl) (Or.inl rfl) (fun t ht m e hp => ?_)
    rcases mem_set ht with ht | rfl
    · exact Or.inr ⟨t, ht, m, hp⟩
    · simp only [PC.clearErr.injEq] at hp
      exact Or.inl hp.2
  | clearErr n r =>
    cases hst
    exact einv_frame h hs (Or.inr (Or.inl rfl)) (Or.inr ⟨_, n, r, hmem, rfl, rfl⟩)
      (fun t ht m e hp => Or.inr (held_set' (by simp) t ht m e hp))
  | announce j => simp only at hst; split at hst <;> cases hst; emove h hs
  | acquire j => simp only at hst; split at hst <;> cases hst; emove h hs
  | inside j =>
    simp only at hst
    split at hst
    · cases hst; emove h hs
    · split at hst
      · cases hst; exact einv_frame h hs (Or.inl rfl) (Or.inl rfl) same
      · cases j <;> cases hst
        · emove h hs
        · rename_i e
          refine einv_frame h hs (Or.inr (Or.inr ⟨e, rfl, ⟨ro, .unlock (.fail e), ops⟩, List.mem_set hlt _, ?_, ?_⟩))
            (Or.inl rfl) (fun t ht m e hp => Or.inr (held_set' (by simp) t ht m e hp))
          · rcases ro with _ | (_ | (_ | e') | _) <;> simp [Thread.ok] at htok
            rw [htok]
          · cases ro <;> rfl
  | unlock j => cases j <;> cases hst <;> emove h hs
  | recv =>
    simp only at hst
    split at hst
    · cases hst; emove h hs
    · split at hst <;> cases hst; emove h hs
  | wgDone =>
    have hne : ∀ n e, afterDone ro ≠ .clearErr n (some e) := by
      rcases ro with _ | (_ | (_ | e') | _) <;> simp [afterDone]
    simp only at hst
    split at hst
    · cases hst; exact einv_frame h hs (Or.inl rfl) (Or.inl rfl) same
    · split at hst
      · cases hst
        refine einv_frame h hs (Or.inl rfl) (Or.inl rfl) (fun t ht m e hp => Or.inr ?_)
        obtain ⟨y, hy, rfl⟩ := mem_wake ht
        have hy2 : y.pc = .clearErr m (some e) := by
          obtain ⟨r', p', o'⟩ := y
          cases p' <;> simp [wake] at hp ⊢
          exact hp
        exact held_set' hne y hy m e hy2
      · cases hst
        exact einv_frame h hs (Or.inl rfl) (Or.inl rfl) (fun t ht m e hp => Or.inr (held_set' hne t ht m e hp))
  | finished => cases hst
  | leaked => cases hst

theorem einv_reach {cap : Nat} {progs : List (List Op)} {s : St} (h : Reach cap progs s) : EInv s := by
  induction h with
  | init =>
    refine ⟨nofun, ?_, nofun⟩
    intro t ht n e h
    obtain ⟨q, _, rfl⟩ := List.mem_map.1 ht
    cases h
  | step i hr hs ih => exact einv_step (inv_reach hr) ih hs

end Verif.Worker
