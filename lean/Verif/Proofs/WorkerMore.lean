import Verif.Proofs.WorkerProg
/-! Programs without `Close`, and a single client (no property theorems here). -/
namespace Verif.Worker

mutual
/-- No `Close` in an operation, nor in the task it starts. -/
def Op.noClose : Op → Bool
  | .runTask _ b => opsNoClose b
  | .wait => true
  | .close => false
def opsNoClose : List Op → Bool
  | [] => true
  | o :: r => o.noClose && opsNoClose r
end

def PC.noClose : PC → Bool
  | .rlock _ b | .check _ b | .add _ b | .send _ b | .runlock _ b | .spawn _ b => opsNoClose b
  | .announce .close | .acquire .close | .inside .close | .unlock .close => false
  | _ => true

structure FInv (s : St) : Prop where
  free : ∀ t ∈ s.threads, opsNoClose t.ops = true ∧ t.pc.noClose = true
  fin : ∀ t ∈ s.threads, ∀ e, t.role = .task (.err (some e)) → (t.pc = .finished ∨ ∃ j, t.pc = .unlock j) → s.closed = true
  err : s.closed = true → s.err ≠ none ∨ s.returns ≠ []

theorem finv_put {s s' : St} {i : Nat} {a : Thread} {extra : List Thread} (h : FInv s)
    (hth : s'.threads = s.threads.set i a ++ extra)
    (hcl : s.closed = true → s'.closed = true)
    (hx : ∀ x ∈ extra, (opsNoClose x.ops = true ∧ x.pc.noClose = true) ∧ x.pc ≠ .finished ∧ ∀ j, x.pc ≠ .unlock j)
    (ha1 : opsNoClose a.ops = true) (ha2 : a.pc.noClose = true)
    (ha3 : ∀ e, a.role = .task (.err (some e)) → (a.pc = .finished ∨ ∃ j, a.pc = .unlock j) → s'.closed = true)
    (he : s'.closed = true → s'.err ≠ none ∨ s'.returns ≠ []) : FInv s' := by
  refine ⟨?_, ?_, he⟩
  · intro t ht
    rw [hth] at ht
    rcases List.mem_append.1 ht with ht | ht
    · rcases mem_set ht with ht | rfl
      · exact h.free t ht
      · exact ⟨ha1, ha2⟩
    · exact (hx t ht).1
  · intro t ht e hr hp
    rw [hth] at ht
    rcases List.mem_append.1 ht with ht | ht
    · rcases mem_set ht with ht | rfl
      · exact hcl (h.fin t ht e hr hp)
      · exact ha3 e hr hp
    · rcases hp with hp | ⟨j, hp⟩
      · exact absurd hp (hx t ht).2.1
      · exact absurd hp ((hx t ht).2.2 j)

macro "fmove" h:ident h1:ident h2:ident : tactic => `(tactic|
  refine finv_put (extra := []) $h (List.append_nil _).symm (fun hh => hh) (by simp) $h1 ?_ (by simp) ($h).err)

theorem finv_step {s s' : St} {i : Nat} (hi : Inv s) (h : FInv s) (hs : step s i = some s') : FInv s' := by
  obtain ⟨hc, t, ht, hst⟩ := step_of hs
  have hmem := List.mem_of_getElem? ht
  obtain ⟨h1, h2⟩ := h.free t hmem
  have hfin := h.fin t hmem
  have hok := hi.ok t hmem
  have crashed : ∀ c, FInv { s with crash := some c } := fun c => ⟨h.free, h.fin, h.err⟩
  obtain ⟨ro, pc, ops⟩ := t
  simp only at h1 h2 hfin
  unfold stepThread at hst
  cases pc with
  | ready =>
    simp only at hst
    cases ops with
    | nil =>
      cases ro <;> cases hst
      · refine finv_put (extra := []) h (List.append_nil _).symm (fun hh => hh) (by simp) h1 rfl (by simp) h.err
      · refine finv_put (extra := []) h (List.append_nil _).symm (fun hh => hh) (by simp) h1 rfl (by simp) h.err
    | cons o r =>
      simp only [opsNoClose, Bool.and_eq_true] at h1
      obtain ⟨ho, hr⟩ := h1
      cases o with
      | runTask k b => cases hst; exact finv_put (extra := []) h (List.append_nil _).symm (fun hh => hh) (by simp) hr ho (by simp) h.err
      | wait => cases hst; exact finv_put (extra := []) h (List.append_nil _).symm (fun hh => hh) (by simp) hr rfl (by simp) h.err
      | close => simp [Op.noClose] at ho
  | rlock k b => simp only at hst; split at hst <;> cases hst; fmove h h1 h2; exact h2
  | check k b => simp only at hst; split at hst <;> cases hst <;> fmove h h1 h2 <;> first | rfl | exact h2
  | dropped => cases hst; fmove h h1 h2; rfl
  | add k b => cases hst; fmove h h1 h2; exact h2
  | send k b =>
    simp only at hst
    split at hst
    · cases hst; exact crashed _
    · split at hst <;> cases hst; fmove h h1 h2; exact h2
  | runlock k b => cases hst; fmove h h1 h2; exact h2
  | spawn k b =>
    cases hst
    refine finv_put (extra := [newTask k b]) h rfl (fun hh => hh) ?_ h1 rfl (by simp) h.err
    intro x hx
    rw [List.mem_singleton.1 hx]
    cases k <;> simp [newTask, PC.noClose, opsNoClose] <;> exact h2
  | waiting n => simp only at hst; split at hst <;> cases hst <;> fmove h h1 h2 <;> rfl
  | sleeping n => cases hst
  | woken n =>
    simp only at hst
    split at hst <;> cases hst
    · fmove h h1 h2; rfl
    · exact crashed _
  | readErr n => cases hst; fmove h h1 h2; rfl
  | clearErr n r =>
    cases hst
    exact finv_put (extra := []) h (List.append_nil _).symm (fun hh => hh) (by simp) h1 rfl (by simp)
      (fun _ => Or.inr (by simp))
  | announce j =>
    simp only at hst; split at hst <;> cases hst
    cases j
    · cases h2
    · fmove h h1 h2; rfl
  | acquire j =>
    simp only at hst; split at hst <;> cases hst
    cases j
    · cases h2
    · fmove h h1 h2; rfl
  | inside j =>
    cases j with
    | close => cases h2
    | fail e =>
      simp only at hst
      split at hst
      · rename_i hcl
        cases hst
        exact finv_put (extra := []) h (List.append_nil _).symm (fun hh => hh) (by simp) h1 rfl (fun _ _ _ => hcl) h.err
      · split at hst
        · cases hst; exact crashed _
        · cases hst
          exact finv_put (extra := []) h (List.append_nil _).symm (fun _ => rfl) (by simp) h1 rfl (fun _ _ _ => rfl)
            (fun _ => Or.inl (by simp))
  | unlock j =>
    cases j with
    | close => cases h2
    | fail e =>
      cases hst
      exact finv_put (extra := []) h (List.append_nil _).symm (fun hh => hh) (by simp) h1 rfl
        (fun e' hr _ => hfin e' hr (Or.inr ⟨_, rfl⟩)) h.err
  | recv =>
    simp only at hst
    split at hst
    · cases hst; fmove h h1 h2; rfl
    · split at hst <;> cases hst; fmove h h1 h2; rfl
  | wgDone =>
    have ha2 : (afterDone ro).noClose = true := by rcases ro with _ | (_ | (_ | e') | _) <;> rfl
    have ha3 : ∀ e, ro = .task (.err (some e)) → (afterDone ro = .finished ∨ ∃ j, afterDone ro = .unlock j) → s.closed = true := by
      intro e hr; subst hr; simp [afterDone]
    simp only at hst
    split at hst
    · cases hst; exact crashed _
    · split at hst
      · cases hst
        have key : FInv { s with wg := 0, threads := s.threads.set i ⟨ro, afterDone ro, ops⟩ } :=
          finv_put (extra := []) h (List.append_nil _).symm (fun hh => hh) (by simp) h1 ha2 ha3 h.err
        refine ⟨?_, ?_, h.err⟩
        · intro x hx
          obtain ⟨y, hy, rfl⟩ := mem_wake hx
          have := key.free y hy
          obtain ⟨r', p', o'⟩ := y
          cases p' <;> exact this
        · intro x hx e hr hp
          obtain ⟨y, hy, rfl⟩ := mem_wake hx
          have := key.fin y hy e
          obtain ⟨r', p', o'⟩ := y
          cases p' <;> first | exact this hr hp | simp [wake] at hp
      · cases hst
        exact finv_put (extra := []) h (List.append_nil _).symm (fun hh => hh) (by simp) h1 ha2 ha3 h.err
  | finished => cases hst
  | leaked => cases hst

theorem finv_reach {cap : Nat} {progs : List (List Op)} (hp : ∀ p ∈ progs, opsNoClose p = true) {s : St}
    (h : Reach cap progs s) : FInv s := by
  induction h with
  | init =>
    refine ⟨?_, ?_, nofun⟩
    · intro t ht
      obtain ⟨q, hq, rfl⟩ := List.mem_map.1 ht
      exact ⟨hp q hq, rfl⟩
    · intro t ht e hr
      obtain ⟨q, hq, rfl⟩ := List.mem_map.1 ht
      cases hr
  | step i hr hs ih => exact finv_step (inv_reach hr) ih hs

/-! ## One client goroutine, simple tasks -/

structure OneInv (s : St) : Prop where
  /-- all the others are tasks -/
  one : ∀ i t, s.threads[i]? = some t → t.role = .client → i = 0
  woken : ∀ t ∈ s.threads, ∀ n, t.pc = .woken n → s.wg = 0

theorem client_of {t : Thread} (h : t.simple) (hp : ¬ t.pc.taskOnly) : t.role = .client := by
  cases hr : t.role with
  | client => rfl
  | task k => exact absurd (h.2.2 k hr).2 hp

theorem one_step {s s' : St} {i : Nat} (hi : Inv s) (hsm : ∀ t ∈ s.threads, t.simple) (h : OneInv s)
    (hs : step s i = some s') : OneInv s' ∧ s'.crash = none := by
  have hi' := inv_step hi hs
  obtain ⟨hc, t, ht, hst⟩ := step_of hs
  have hmem := List.mem_of_getElem? ht
  have hts := hsm t hmem
  have hok := hi.ok t hmem
  have put : ∀ (r : St) (a : Thread) (extra : List Thread), r.threads = s.threads.set i a ++ extra → a.role = t.role →
      (∀ x ∈ extra, x.role ≠ .client ∧ ∀ n, x.pc ≠ .woken n) → (∀ n, a.pc ≠ .woken n) →
      ((∃ u ∈ s.threads, u ≠ t ∧ ∃ n, u.pc = .woken n) → s.wg = 0 → r.wg = 0) →
      OneInv r := by
    intro r a extra hth har hx haw hwg
    refine ⟨?_, ?_⟩
    · intro j u hj hu
      rw [hth] at hj
      by_cases hlt : j < (s.threads.set i a).length
      · rw [List.getElem?_append_left hlt] at hj
        rcases get_set ht hj with ⟨rfl, rfl⟩ | ⟨_, hj⟩
        · exact h.one j t ht (by rw [← har]; exact hu)
        · exact h.one j u hj hu
      · rw [List.getElem?_append_right (by omega)] at hj
        exact absurd hu (hx u (List.mem_of_getElem? hj)).1
    · intro u hu n hn
      rw [hth] at hu
      rcases List.mem_append.1 hu with hu | hu
      · rcases mem_set hu with hu' | rfl
        · by_cases hut : u = t
          · subst hut
            -- the moved goroutine's old state: another copy of it
            obtain ⟨j, hj⟩ := List.mem_iff_getElem?.1 hu
            rcases get_set ht hj with ⟨rfl, he⟩ | ⟨hne, hj⟩
            · exact absurd (he ▸ hn) (haw n)
            · have hcl := client_of (hsm u hu') (by rw [hn]; simp [PC.taskOnly])
              have e1 := h.one j u hj hcl
              have e2 := h.one i u ht hcl
              omega
          · exact hwg ⟨u, hu', hut, n, hn⟩ (h.woken u hu' n hn)
        · exact absurd hn (haw n)
      · exact absurd hn ((hx u hu).2 n)
  obtain ⟨ro, pc, ops⟩ := t
  have simpleMove : ∀ (r : St) (a : Thread), r.threads = s.threads.set i a → r.wg = s.wg → a.role = ro →
      (∀ n, a.pc ≠ .woken n) → OneInv r := by
    intro r a h1 h2 h3 h4
    exact put r a [] (by rw [List.append_nil]; exact h1) h3 (by simp) h4 (fun _ hz => by rw [h2]; exact hz)
  unfold stepThread at hst
  cases pc with
  | ready =>
    simp only at hst
    cases ops with
    | nil => cases ro <;> cases hst <;> exact ⟨simpleMove _ _ rfl rfl rfl (by simp), hc⟩
    | cons o r => cases o <;> cases hst <;> exact ⟨simpleMove _ _ rfl rfl rfl (by simp), hc⟩
  | rlock k b => simp only at hst; split at hst <;> cases hst; exact ⟨simpleMove _ _ rfl rfl rfl (by simp), hc⟩
  | check k b => simp only at hst; split at hst <;> cases hst <;> exact ⟨simpleMove _ _ rfl rfl rfl (by simp), hc⟩
  | dropped => cases hst; exact ⟨simpleMove _ _ rfl rfl rfl (by simp), hc⟩
  | add k b =>
    cases hst
    refine ⟨put _ _ [] (List.append_nil _).symm rfl (by simp) (by simp) ?_, hc⟩
    rintro ⟨u, hu, hne, n, hn⟩ _
    exfalso
    obtain ⟨j, hj⟩ := List.mem_iff_getElem?.1 hu
    have e1 := h.one j u hj (client_of (hsm u hu) (by rw [hn]; simp [PC.taskOnly]))
    have e2 := h.one i _ ht (client_of hts (by simp [PC.taskOnly]))
    subst e1; subst e2
    rw [hj] at ht
    simp only [Option.some.injEq] at ht
    exact hne ht
  | send k b =>
    simp only at hst
    have hopen := hi.saw ⟨_, hmem, rfl⟩
    rw [hi.closed, hopen] at hst
    simp only [Bool.false_eq_true, if_false] at hst
    split at hst <;> cases hst
    exact ⟨simpleMove _ _ rfl rfl rfl (by simp), hc⟩
  | runlock k b => cases hst; exact ⟨simpleMove _ _ rfl rfl rfl (by simp), hc⟩
  | spawn k b =>
    cases hst
    refine ⟨put _ _ [newTask k b] rfl rfl ?_ (by simp) (fun _ hz => hz), hc⟩
    intro x hx
    rw [List.mem_singleton.1 hx]
    cases k <;> simp [newTask]
  | waiting n => simp only at hst; split at hst <;> cases hst <;> exact ⟨simpleMove _ _ rfl rfl rfl (by simp), hc⟩
  | sleeping n => cases hst
  | woken n =>
    simp only at hst
    rw [if_pos (h.woken _ hmem n rfl)] at hst
    cases hst
    exact ⟨simpleMove _ _ rfl rfl rfl (by simp), hc⟩
  | readErr n => cases hst; exact ⟨simpleMove _ _ rfl rfl rfl (by simp), hc⟩
  | clearErr n r => cases hst; exact ⟨simpleMove _ _ rfl rfl rfl (by simp), hc⟩
  | announce j => simp only at hst; split at hst <;> cases hst; exact ⟨simpleMove _ _ rfl rfl rfl (by simp), hc⟩
  | acquire j => simp only at hst; split at hst <;> cases hst; exact ⟨simpleMove _ _ rfl rfl rfl (by simp), hc⟩
  | inside j =>
    simp only at hst
    split at hst
    · cases hst; exact ⟨simpleMove _ _ rfl rfl rfl (by simp), hc⟩
    · rename_i hncl
      rw [hi.closed, if_neg hncl] at hst
      cases j <;> cases hst <;> exact ⟨simpleMove _ _ rfl rfl rfl (by simp), hc⟩
  | unlock j => cases j <;> cases hst <;> exact ⟨simpleMove _ _ rfl rfl rfl (by simp), hc⟩
  | recv =>
    simp only at hst
    split at hst
    · cases hst; exact ⟨simpleMove _ _ rfl rfl rfl (by simp), hc⟩
    · split at hst <;> cases hst; exact ⟨simpleMove _ _ rfl rfl rfl (by simp), hc⟩
  | wgDone =>
    simp only at hst
    have hro : (⟨ro, PC.wgDone, ops⟩ : Thread).pending = true := by
      rcases ro with _ | k
      · exact absurd hok (by simp [Thread.ok])
      · rfl
    have hpos := countP_pos_of (p := Thread.pending) ht hro
    have hw := hi.wg
    have hnw : ∀ n, afterDone ro ≠ .woken n := by rcases ro with _ | (_ | (_ | e') | _) <;> simp [afterDone]
    rw [if_neg (by omega)] at hst
    split at hst
    · cases hst
      refine ⟨⟨?_, fun _ _ _ _ => rfl⟩, hc⟩
      intro j u hj hu
      rw [List.getElem?_map] at hj
      cases hy : (s.threads.set i ⟨ro, afterDone ro, ops⟩)[j]? with
      | none => rw [hy] at hj; cases hj
      | some y =>
        rw [hy] at hj
        simp only [Option.map_some, Option.some.injEq] at hj
        subst hj
        rw [wake_role] at hu
        rcases get_set ht hy with ⟨rfl, rfl⟩ | ⟨_, hy⟩
        · exact h.one j _ ht hu
        · exact h.one j y hy hu
    · cases hst
      refine ⟨put _ _ [] (List.append_nil _).symm rfl (by simp) hnw ?_, hc⟩
      intro _ hz
      omega
  | finished => cases hst
  | leaked => cases hst

theorem one_reach {cap : Nat} {p : List Op} (hp : ∀ o ∈ p, o.simple) {s : St} (h : Reach cap [p] s) :
    OneInv s ∧ s.crash = none := by
  induction h with
  | init =>
    refine ⟨⟨?_, ?_⟩, rfl⟩
    · intro i t ht _
      match i, ht with
      | 0, _ => rfl
      | i + 1, ht => simp [init] at ht
    · intro t ht n hn
      obtain ⟨q, _, rfl⟩ := List.mem_map.1 ht
      cases hn
  | step i hr hs ih =>
    exact one_step (inv_reach hr) (simple_reach (by simpa using hp) hr) ih.1 hs

end Verif.Worker
