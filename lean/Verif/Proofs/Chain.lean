import Verif.Props.App
import Verif.Proofs.Context
/-!
# Chains of handlers, up to what the client can see
-/
namespace Verif.App
open Verif.Resp Verif.Ctx Verif.Router

/-- Same response, index shifted by `k`, at or past `lo`. -/
def Sim (k lo : Nat) (s s' : S) : Prop := s.rw = s'.rw ∧ s.idx = s'.idx + k ∧ lo ≤ s'.idx

theorem interp_sim (a : Act) : ∀ (i i' k lo : Nat) (nxt nxt' : S → Out) (s s' : S),
    (∀ t t', Sim k lo t t' → Sim k lo (nxt t).1 (nxt' t').1 ∧ (nxt t).2 = (nxt' t').2) → Sim k lo s s' →
    Sim k lo (interp a i nxt s).1 (interp a i' nxt' s').1 ∧ (interp a i nxt s).2 = (interp a i' nxt' s').2 := by
  induction a with
  | done => intro i i' k lo nxt nxt' s s' _ h; exact ⟨h, rfl⟩
  | panic v => intro i i' k lo nxt nxt' s s' _ h; exact ⟨h, rfl⟩
  | next c ih =>
    intro i i' k lo nxt nxt' s s' hn h
    obtain ⟨h1, h2⟩ := hn (s.push (.nextBeg i s.rw.written)) (s'.push (.nextBeg i' s'.rw.written)) h
    simp only [interp]
    cases hx : nxt (s.push (.nextBeg i s.rw.written)) with
    | mk t r =>
      cases hy : nxt' (s'.push (.nextBeg i' s'.rw.written)) with
      | mk t' r' =>
        rw [hx, hy] at h1 h2
        simp only at h1 h2
        subst h2
        cases r with
        | some v => exact ⟨h1, rfl⟩
        | none => exact ih i i' k lo nxt nxt' _ _ hn h1
  | tryNext c ih =>
    intro i i' k lo nxt nxt' s s' hn h
    obtain ⟨h1, h2⟩ := hn (s.push (.nextBeg i s.rw.written)) (s'.push (.nextBeg i' s'.rw.written)) h
    simp only [interp]
    cases hx : nxt (s.push (.nextBeg i s.rw.written)) with
    | mk t r =>
      cases hy : nxt' (s'.push (.nextBeg i' s'.rw.written)) with
      | mk t' r' =>
        rw [hx, hy] at h1 h2
        simp only at h1 h2
        subst h2
        cases r with
        | some v => exact ih _ i i' k lo nxt nxt' _ _ hn h1
        | none => exact ih _ i i' k lo nxt nxt' _ _ hn h1
  | op o c ih =>
    intro i i' k lo nxt nxt' s s' hn h
    simp only [interp]
    rw [h.1]
    cases hx : s'.rw.op o with
    | mk w p =>
      cases p with
      | true => exact ⟨⟨rfl, h.2⟩, rfl⟩
      | false => exact ih i i' k lo nxt nxt' _ _ hn ⟨rfl, h.2⟩
  | written c ih =>
    intro i i' k lo nxt nxt' s s' hn h
    simp only [interp]
    rw [h.1]
    exact ih _ i i' k lo nxt nxt' _ _ hn h
  | stat c ih =>
    intro i i' k lo nxt nxt' s s' hn h
    simp only [interp]
    rw [h.1]
    exact ih _ _ i i' k lo nxt nxt' _ _ hn h
  | eff n c ih =>
    intro i i' k lo nxt nxt' s s' hn h
    simp only [interp]
    exact ih i i' k lo nxt nxt' _ _ hn h
  | nest n hs c ihs ih =>
    intro i i' k lo nxt nxt' s s' hn h
    simp only [interp]
    rw [h.1]
    split
    · exact ih i i' k lo nxt nxt' _ _ hn ⟨rfl, h.2⟩
    · exact ⟨⟨rfl, h.2⟩, rfl⟩

theorem Sim.mono {k lo lo' : Nat} {s s' : S} (h : Sim k lo s s') (hl : lo' ≤ lo) : Sim k lo' s s' := ⟨h.1, h.2.1, Nat.le_trans hl h.2.2⟩

theorem loop_sim (qs ts : List Act) : ∀ (f f' : Nat) (s s' : S), Sim qs.length 0 s s' →
    ts.length - s'.idx ≤ f → ts.length - s'.idx ≤ f' →
    Sim qs.length s'.idx (loop (qs ++ ts).length (handlerOf (qs ++ ts)) f s).1 (loop ts.length (handlerOf ts) f' s').1 ∧
    (loop (qs ++ ts).length (handlerOf (qs ++ ts)) f s).2 = (loop ts.length (handlerOf ts) f' s').2 := by
  intro f
  induction f with
  | zero =>
    intro f' s s' h hf hf'
    rw [loop_ge ts.length _ f' s' (by omega)]
    exact ⟨⟨h.1, h.2.1, Nat.le_refl _⟩, rfl⟩
  | succ f ih =>
    intro f' s s' h hf hf'
    by_cases hlt : s'.idx < ts.length
    · obtain ⟨g, rfl⟩ : ∃ g, f' = g + 1 := ⟨f' - 1, by omega⟩
      rw [loop_lt _ _ _ s (by rw [h.2.1, List.length_append]; omega), loop_lt _ _ _ s' hlt]
      have hb : handlerOf (qs ++ ts) s.idx = interp ts[s'.idx] s.idx := by
        funext nx t
        unfold handlerOf
        rw [h.2.1, List.getElem?_append_right (by omega), show s'.idx + qs.length - qs.length = s'.idx by omega,
          List.getElem?_eq_getElem hlt]
      have hb' : handlerOf ts s'.idx = interp ts[s'.idx] s'.idx := by
        funext nx t
        unfold handlerOf
        rw [List.getElem?_eq_getElem hlt]
      rw [hb, hb']
      have hnext : ∀ t t' : S, Sim qs.length s'.idx t t' →
          Sim qs.length s'.idx (loop (qs ++ ts).length (handlerOf (qs ++ ts)) f t.bump).1 (loop ts.length (handlerOf ts) g t'.bump).1 ∧
          (loop (qs ++ ts).length (handlerOf (qs ++ ts)) f t.bump).2 = (loop ts.length (handlerOf ts) g t'.bump).2 := by
        intro t t' ht
        have h3 := ht.2.2
        obtain ⟨a, b⟩ := ih g t.bump t'.bump ⟨ht.1, by simp only [S.bump]; rw [ht.2.1]; omega, Nat.zero_le _⟩
          (by simp only [S.bump]; omega) (by simp only [S.bump]; omega)
        exact ⟨a.mono (by simp only [S.bump]; omega), b⟩
      obtain ⟨h1, h2⟩ := interp_sim ts[s'.idx] s.idx s'.idx qs.length s'.idx
        (fun t => loop (qs ++ ts).length (handlerOf (qs ++ ts)) f t.bump) (fun t => loop ts.length (handlerOf ts) g t.bump)
        (s.push (.start s.idx)) (s'.push (.start s'.idx)) hnext ⟨h.1, h.2.1, Nat.le_refl _⟩
      cases hx : interp ts[s'.idx] s.idx (fun t => loop (qs ++ ts).length (handlerOf (qs ++ ts)) f t.bump) (s.push (.start s.idx)) with
      | mk t r =>
        cases hy : interp ts[s'.idx] s'.idx (fun t => loop ts.length (handlerOf ts) g t.bump) (s'.push (.start s'.idx)) with
        | mk t' r' =>
          rw [hx, hy] at h1 h2
          simp only at h1 h2
          subst h2
          cases r with
          | some v => exact ⟨h1, rfl⟩
          | none =>
            simp only
            rw [h1.1]
            by_cases hw : t'.rw.written = true
            · rw [if_pos hw, if_pos hw]
              exact ⟨⟨h1.1, by simp only [S.bump, S.push]; rw [h1.2.1]; omega, by simp only [S.bump, S.push]; have := h1.2.2; omega⟩, rfl⟩
            · rw [if_neg hw, if_neg hw]
              have h3 := h1.2.2
              obtain ⟨a, b⟩ := ih g (t.bump.push (.fin s.idx t.rw.written)) (t'.bump.push (.fin s'.idx t'.rw.written))
                ⟨h1.1, by simp only [S.bump, S.push]; rw [h1.2.1]; omega, Nat.zero_le _⟩
                (by simp only [S.bump, S.push]; omega) (by simp only [S.bump, S.push]; omega)
              rw [h1.1] at a b
              exact ⟨a.mono (by simp only [S.bump, S.push]; omega), b⟩
    · rw [loop_ge _ _ _ s (by rw [h.2.1, List.length_append]; omega), loop_ge _ _ _ s' (by omega)]
      exact ⟨⟨h.1, h.2.1, Nat.le_refl _⟩, rfl⟩

/-- The chain behind the first handler, entered by its `Next`. -/
theorem tail_run (h : Act) (ts : List Act) (s : S) (hi : s.idx = 1) :
    (loop (h :: ts).length (handlerOf (h :: ts)) ts.length s).1.rw = (run ts s.rw).1.rw ∧
    (loop (h :: ts).length (handlerOf (h :: ts)) ts.length s).2 = (run ts s.rw).2 ∧
    (loop (h :: ts).length (handlerOf (h :: ts)) ts.length s).1.idx = (run ts s.rw).1.idx + 1 := by
  obtain ⟨h1, h2⟩ := loop_sim [h] ts ts.length ts.length s ⟨0, s.rw, []⟩ ⟨rfl, by simp [hi], Nat.zero_le _⟩ (by simp) (by simp)
  exact ⟨h1.1, h2, h1.2.1⟩

/-- A chain ends when something was written, or at its end. -/
theorem loop_end (ts : List Act) : ∀ (f : Nat) (s : S), ts.length - s.idx ≤ f →
    (loop ts.length (handlerOf ts) f s).2 = none → (loop ts.length (handlerOf ts) f s).1.rw.written = false →
    ts.length ≤ (loop ts.length (handlerOf ts) f s).1.idx := by
  intro f
  induction f with
  | zero => intro s hf _ _; show ts.length ≤ s.idx; omega
  | succ f ih =>
    intro s hf
    by_cases hlt : s.idx < ts.length
    · have hmono := (loop_sim [] ts (f + 1) (f + 1) s s ⟨rfl, rfl, Nat.zero_le _⟩ hf hf).1.2.2
      rw [loop_lt _ _ _ s hlt]
      have hb' : handlerOf ts s.idx = interp ts[s.idx] s.idx := by
        funext nx t
        unfold handlerOf
        rw [List.getElem?_eq_getElem hlt]
      rw [hb']
      have hm := (interp_sim ts[s.idx] s.idx s.idx 0 s.idx
        (fun t => loop ts.length (handlerOf ts) f t.bump) (fun t => loop ts.length (handlerOf ts) f t.bump)
        (s.push (.start s.idx)) (s.push (.start s.idx)) (by
          intro t t' ht
          have h3 := ht.2.2
          have := (loop_sim [] ts f f t.bump t'.bump ⟨ht.1, by simp only [S.bump]; rw [ht.2.1]; rfl, Nat.zero_le _⟩
            (by simp only [S.bump]; omega) (by simp only [S.bump]; omega))
          exact ⟨this.1.mono (by simp only [S.bump]; omega), this.2⟩) ⟨rfl, rfl, Nat.le_refl _⟩).1.2.2
      cases hx : interp ts[s.idx] s.idx (fun t => loop ts.length (handlerOf ts) f t.bump) (s.push (.start s.idx)) with
      | mk t r =>
        rw [hx] at hm
        cases r with
        | some v => intro h; cases h
        | none =>
          simp only
          by_cases hw : t.rw.written = true
          · rw [if_pos hw]
            intro _ h
            have : t.rw.written = false := h
            rw [hw] at this; cases this
          · rw [if_neg hw]
            exact ih _ (by simp only [S.bump, S.push]; have : s.idx ≤ t.idx := hm; omega)
    · rw [loop_ge _ _ _ _ (by omega)]
      intro _ _
      show ts.length ≤ s.idx
      omega

theorem run_end (ts : List Act) (w : RW) (h : (run ts w).2 = none) (hw : (run ts w).1.rw.written = false) :
    ts.length ≤ (run ts w).1.idx := loop_end ts ts.length ⟨0, w, []⟩ (by simp) h hw

/-- A chain, from its first handler. -/
theorem run_cons (h : Act) (ts : List Act) (w : RW) :
    run (h :: ts) w = match interp h 0 (fun s' => loop (h :: ts).length (handlerOf (h :: ts)) ts.length s'.bump) ⟨0, w, [.start 0]⟩ with
      | (s', some v) => (s', some v)
      | (s', none) => if s'.rw.written then (s'.bump.push (.fin 0 s'.rw.written), none)
        else loop (h :: ts).length (handlerOf (h :: ts)) ts.length (s'.bump.push (.fin 0 s'.rw.written)) := rfl

end Verif.App
