import Verif.Proofs.WorkerMore
/-! Histories of the worker model (no property theorems here). -/
namespace Verif.Worker

/-- In a call of `Wait` that began when there were `n` goroutines. -/
def PC.inWait (n : Nat) : PC → Prop
  | .waiting m | .sleeping m | .woken m | .readErr m | .clearErr m _ => m = n
  | _ => False

theorem wake_inWait {n : Nat} {t : Thread} (h : t.pc.inWait n) : (wake t).pc.inWait n := by
  obtain ⟨r, p, o⟩ := t
  cases p <;> exact h

theorem lt_of_get {α : Type} {l : List α} {i : Nat} {t : α} (h : l[i]? = some t) : i < l.length := by
  by_cases hlt : i < l.length
  · exact hlt
  · rw [List.getElem?_eq_none (by omega)] at h; cases h

theorem persist_at {s s' : St} {i j : Nat} (hs : step s i = some s') {u : Thread} (hu : s.threads[j]? = some u) :
    ∃ u', s'.threads[j]? = some u' ∧ u'.role = u.role ∧ (u.pending = false → u'.pending = false) ∧
      (j ≠ i → u' = u ∨ u' = wake u) := by
  rcases step_threads hs with h | ⟨t, a, extra, f, ht, hth, hr, hpa, hf⟩
  · exact ⟨u, by rw [h]; exact hu, rfl, id, fun _ => Or.inl rfl⟩
  · have hlj := lt_of_get hu
    by_cases hij : j = i
    · subst hij
      rw [ht] at hu
      simp only [Option.some.injEq] at hu
      subst hu
      refine ⟨f a, ?_, by rw [(hf a).1, hr], fun h => by rw [(hf a).2.1, hpa h], fun h => absurd rfl h⟩
      rw [hth, List.getElem?_map, List.getElem?_append_left (by simpa using hlj), List.getElem?_set_self hlj]
      rfl
    · refine ⟨f u, ?_, (hf u).1, fun h => by rw [(hf u).2.1, h], fun _ => (hf u).2.2⟩
      rw [hth, List.getElem?_map, List.getElem?_append_left (by simpa using hlj), List.getElem?_set_ne (Ne.symm hij), hu]
      rfl

theorem doneBelow_step {s s' : St} {i n : Nat} (hs : step s i = some s') (hn : n ≤ s.threads.length) (h : doneBelow s n) :
    doneBelow s' n ∧ n ≤ s'.threads.length := by
  have key : ∀ j < n, ∃ u', s'.threads[j]? = some u' ∧ u'.pending = false := by
    intro j hj
    have hlt : j < s.threads.length := by omega
    obtain ⟨u', h1, _, h3, _⟩ := persist_at hs (List.getElem?_eq_getElem hlt)
    exact ⟨u', h1, h3 (h j hj _ (List.getElem?_eq_getElem hlt))⟩
  refine ⟨?_, ?_⟩
  · intro j hj u hu
    obtain ⟨u', h1, h2⟩ := key j hj
    rw [hu] at h1
    simp only [Option.some.injEq] at h1
    rw [h1]; exact h2
  · rcases step_threads hs with h | ⟨t, a, extra, f, ht, hth, hr, hpa, hf⟩
    · rw [h]; exact hn
    · rw [hth]; simp; omega

theorem wait_step {cap : Nat} {progs : List (List Op)} {s s' : St} {i j n : Nat} (hr : Reach cap progs s)
    (hs : step s j = some s') {t : Thread} (ht : s.threads[i]? = some t) (hw : t.pc.inWait n) :
    (∃ t', s'.threads[i]? = some t' ∧ t'.pc.inWait n) ∨ (doneBelow s' n ∧ n ≤ s'.threads.length) := by
  by_cases hij : i = j
  · subst hij
    obtain ⟨hc, t2, ht2, hst⟩ := step_of hs
    rw [ht] at ht2
    simp only [Option.some.injEq] at ht2
    subst ht2
    have hlt := lt_of_get ht
    have hok := winv_reach hr t (List.mem_iff_getElem?.2 ⟨i, ht⟩)
    have put : ∀ pc, pc.inWait n → (s.put i t pc).threads[i]? = some { t with pc := pc } ∧ ({ t with pc := pc } : Thread).pc.inWait n := by
      intro pc h
      exact ⟨by simp only [St.put]; rw [List.getElem?_set_self hlt], h⟩
    obtain ⟨ro, pc, ops⟩ := t
    cases pc <;> simp only [PC.inWait] at hw <;> subst hw <;> simp only [stepThread] at hst
    · split at hst <;> cases hst
      · exact Or.inl ⟨_, put _ rfl⟩
      · exact Or.inl ⟨_, put _ rfl⟩
    · cases hst
    · split at hst <;> cases hst
      · exact Or.inl ⟨_, put _ rfl⟩
      · exact Or.inl ⟨_, ht, rfl⟩
    · cases hst
      exact Or.inl ⟨_, put _ rfl⟩
    · exact Or.inr (doneBelow_step hs hok.1 hok.2)
  · obtain ⟨u', h1, _, _, h4⟩ := persist_at hs ht
    rcases h4 hij with rfl | rfl
    · exact Or.inl ⟨_, h1, hw⟩
    · exact Or.inl ⟨_, h1, wake_inWait hw⟩

theorem wait_exec {cap : Nat} {progs : List (List Op)} {i n : Nat} : ∀ (l : List Nat) (s s' : St), Reach cap progs s →
    exec l s = some s' →
    ((∃ t, s.threads[i]? = some t ∧ t.pc.inWait n) ∨ (doneBelow s n ∧ n ≤ s.threads.length)) →
    (∃ t, s'.threads[i]? = some t ∧ t.pc.inWait n) ∨ (doneBelow s' n ∧ n ≤ s'.threads.length)
  | [], s, s', _, he, h => by cases he; exact h
  | j :: l, s, s', hr, he, h => by
    unfold exec at he
    cases hs : step s j with
    | none => rw [hs] at he; cases he
    | some x =>
      rw [hs] at he
      refine wait_exec l x s' (Reach.step j hr hs) he ?_
      rcases h with ⟨t, ht, hw⟩ | h
      · exact wait_step hr hs ht hw
      · exact Or.inr (doneBelow_step hs h.2 h.1)

theorem exec_measure : ∀ (l : List Nat) (s s' : St), exec l s = some s' → measure s' + l.length ≤ measure s
  | [], s, s', h => by cases h; simp
  | j :: l, s, s', h => by
    unfold exec at h
    cases hs : step s j with
    | none => rw [hs] at h; cases h
    | some x =>
      rw [hs] at h
      have h1 := exec_measure l x s' h
      have h2 := measure_step hs
      simp only [List.length_cons]
      omega

end Verif.Worker
