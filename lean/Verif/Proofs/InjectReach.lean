import Verif.Proofs.InjectTerm
import Verif.Props.InjectSpec
/-! # Proofs about the injector: histories -/
namespace Verif.Inj

theorem WF.empty : WF St.empty :=
  ⟨fun _ _ _ h => (by cases h), fun p pr h => (by simp [St.empty] at h), fun _ _ h => (by cases h), fun _ => rfl⟩

theorem WF.status {s : St} (w : WF s) (l : List Key) : WF { s with status := l } := ⟨w.vals, w.provs, w.parent, w.nil⟩

theorem getElem?_append_some {α : Type} {l : List α} {p : Nat} {a : α} (h : l[p]? = some a) (m : List α) :
    (l ++ m)[p]? = some a := by
  have := (List.getElem?_eq_some_iff.1 h).1
  rw [List.getElem?_append_left this]; exact h

theorem WF.prov {s : St} (w : WF s) (pr : Prov) (h : pr.Wf) : WF { s with provs := s.provs ++ [pr] } := by
  refine ⟨?_, ?_, w.parent, w.nil⟩
  · intro i k p hp
    obtain ⟨q, h1, h2⟩ := w.vals i k p hp
    exact ⟨q, getElem?_append_some h1 _, h2⟩
  · intro p q hq
    simp only at hq
    rw [List.getElem?_append] at hq
    split at hq
    · exact w.provs p q hq
    · rw [List.getElem?_singleton] at hq
      split at hq
      · injection hq with hq; subst hq; exact h
      · cases hq

theorem WF.provideAs {s : St} (w : WF s) (i : Nat) (pr : Prov) (h : pr.Wf) : WF (provideAs s i pr) := by
  have w1 := w.prov pr h
  refine ⟨?_, w1.provs, w.parent, ?_⟩
  · intro j k p hp
    simp only [Inj.provideAs] at hp ⊢
    by_cases hj : j = i
    · subst hj
      rw [upd_same] at hp
      by_cases hk : k = pr.name
      · subst hk
        rw [upd_same] at hp
        injection hp with hp; subst hp
        exact ⟨pr, by simp, rfl⟩
      · rw [upd_ne _ _ _ _ hk] at hp
        exact w1.vals j k p hp
    · rw [upd_ne _ _ _ _ hj] at hp
      exact w1.vals j k p hp
  · intro j
    simp only [Inj.provideAs]
    by_cases hj : j = i
    · subst hj
      rw [upd_same]
      by_cases hk : [] = pr.name
      · rw [hk, upd_same]
      · rw [upd_ne _ _ _ _ hk]; exact w.nil j
    · rw [upd_ne _ _ _ _ hj]; exact w.nil j

theorem WF.setParent {s : St} (w : WF s) (i j : Nat) : WF (setParent s i j) := by
  unfold Inj.setParent
  split
  · rename_i h
    refine ⟨w.vals, w.provs, ?_, w.nil⟩
    intro a b hab
    simp only at hab
    by_cases ha : a = i
    · subst ha; rw [upd_same] at hab; injection hab with hab; subst hab; exact h
    · rw [upd_ne _ _ _ _ ha] at hab; exact w.parent a b hab
  · exact w

/-- A new lookup starts with an empty `status`. -/
abbrev clr (s : St) : St := { s with status := [] }

theorem get_clr (s : St) (i : Nat) (k : Key) : get (clr s) i k = get s i k := get_congr (s := s) (s' := clr s) rfl rfl i k

theorem Lk.clr (i : Nat) (s : St) : Lk i (clr s) s [] :=
  ⟨⟨rfl, rfl, rfl, fun _ _ => rfl, fun _ _ h => h, fun _ => Nat.le_refl _, fun _ h => (by cases h), [], by simp⟩,
    by simp, by simp, by simp, by simp⟩

/-- What `Find` does to the state. -/
theorem find_lk (f : Nat) (s : St) (i : Nat) (k : Key) (w : WF s) (hk : k ≠ []) :
    ∃ l, Lk i (clr s) (find f s i k).2 l ∧ (l.map Call.name).Nodup := by
  unfold find
  cases hp : get s i k with
  | none => exact ⟨[], Lk.clr i s, by simp⟩
  | some p => exact invoke_nodup i f (clr s) k p (w.status []) ((get_clr s i k).trans hp) hk

/-- The state in which `Invoke(pr)` works. -/
abbrev withFn (s : St) (pr : Prov) : St := { s with provs := s.provs ++ [pr], status := [] }

theorem WF.withFn {s : St} (w : WF s) (pr : Prov) (h : pr.Wf) : WF (withFn s pr) :=
  (w.prov pr h).status []

theorem get_withFn (s : St) (pr : Prov) (i : Nat) (k : Key) : get (withFn s pr) i k = get s i k := get_congr (s := s) (s' := withFn s pr) rfl rfl i k

/-- Drop the cached value of type `k` in injector `i`. -/
abbrev drop (s : St) (i : Nat) (k : Key) : St := { s with caches := upd s.caches i (upd (s.caches i) k none) }

theorem withFn_prov (s : St) (pr : Prov) : (withFn s pr).provs[s.provs.length]? = some pr := by simp

theorem invokeFn_cached {f : Nat} {s : St} {i : Nat} {pr : Prov} {v : Val} (hc : s.caches i pr.name = some v) :
    invokeFn (f + 1) s i pr = (.ok v, drop (withFn s pr) i pr.name) := by
  have h := invoke_cached (i := i) (f := f) (s := withFn s pr) (p := s.provs.length) (withFn_prov s pr) hc
  simp only [invokeFn, List.length_append, List.length_singleton, Nat.add_sub_cancel]
  rw [h]

theorem invokeFn_func {f : Nat} {s : St} {i : Nat} {pr : Prov} {deps : List Key} {out : Bool} (hc : s.caches i pr.name = none)
    (hk : pr.kind = .func deps out) :
    invokeFn (f + 1) s i pr =
      match idep f i deps [] { withFn s pr with status := [pr.name] } with
      | (.ok args, s') => (.ok (.res s'.calls.length), drop (called i s.provs.length pr.name out args s') i pr.name)
      | (.err, s') => (.err, s')
      | (.diverge, s') => (.diverge, s') := by
  have h := invoke_func (i := i) (f := f) (s := withFn s pr) (p := s.provs.length) (withFn_prov s pr) hc hk
  simp only [invokeFn, List.length_append, List.length_singleton, Nat.add_sub_cancel]
  rw [h]
  simp only [idep]
  generalize invokeDeps (fun s q => invoke f i s q) i deps [] { withFn s pr with status := [pr.name] } = r
  obtain ⟨r, s'⟩ := r
  cases r <;> rfl

/-- What `Invoke` does to the state. -/
theorem invokeFn_lk (f : Nat) (s : St) (i : Nat) (pr : Prov) (w : WF s) (hw : pr.Wf) {deps : List Key} {out : Bool}
    (hk : pr.kind = .func deps out) :
    (∃ v, s.caches i pr.name = some v ∧ invokeFn f s i pr = (.ok v, drop (withFn s pr) i pr.name)) ∨
    ∃ l s2, Lk i (withFn s pr) s2 l ∧ (l.map Call.name).Nodup ∧
      (((invokeFn f s i pr).2 = s2 ∧ ∀ v, (invokeFn f s i pr).1 ≠ .ok v) ∨
       ∃ args, invokeFn f s i pr = (.ok (.res s2.calls.length), drop (called i s.provs.length pr.name out args s2) i pr.name)) := by
  cases f with
  | zero =>
    right
    exact ⟨[], withFn s pr, Lk.refl i _, by simp, .inl ⟨rfl, fun v h => by cases h⟩⟩
  | succ f =>
    cases hc : s.caches i pr.name with
    | some v => exact .inl ⟨v, rfl, invokeFn_cached hc⟩
    | none =>
      right
      have hpush : Lk i (withFn s pr) { withFn s pr with status := [pr.name] } [] := Lk.push (withFn s pr) pr.name
      have w1 := w.withFn pr hw
      obtain ⟨l, hl, hn⟩ := deps_nodup (i := i) (f := f) (fun s k q w hq hk => invoke_nodup i f s k q w hq hk) deps []
        { withFn s pr with status := [pr.name] } (hpush.wf w1) (Wf_deps hw hk)
      refine ⟨l, _, by simpa using hpush.trans hl, hn, ?_⟩
      rw [invokeFn_func hc hk]
      generalize idep f i deps [] { withFn s pr with status := [pr.name] } = r
      obtain ⟨r, s'⟩ := r
      cases r with
      | ok args => exact .inr ⟨args, rfl⟩
      | err => exact .inl ⟨rfl, fun v h => by cases h⟩
      | diverge => exact .inl ⟨rfl, fun v h => by cases h⟩

theorem WF.drop {s : St} (w : WF s) (i : Nat) (k : Key) : WF (drop s i k) := by
  refine ⟨w.vals, w.provs, w.parent, ?_⟩
  intro j
  simp only
  by_cases hj : j = i
  · subst hj
    rw [upd_same]
    by_cases hk : [] = k
    · rw [hk, upd_same]
    · rw [upd_ne _ _ _ _ hk]; exact w.nil j
  · rw [upd_ne _ _ _ _ hj]; exact w.nil j

/-- After a successful `Invoke` the cache is that before its function was called, without the result type. -/
theorem drop_called_caches (s : St) (i p : Nat) (k : Key) (out : Bool) (args : List Val) :
    (drop (called i p k out args s) i k).caches = (drop s i k).caches := by
  funext j x
  cases out
  · rfl
  · simp only [called, if_true]
    by_cases hj : j = i
    · subst hj
      rw [upd_same, upd_same, upd_same]
      by_cases hx : x = k
      · subst hx; rw [upd_same, upd_same]
      · rw [upd_ne _ _ _ _ hx, upd_ne _ _ _ _ hx, upd_ne _ _ _ _ hx]
    · rw [upd_ne _ _ _ _ hj, upd_ne _ _ _ _ hj, upd_ne _ _ _ _ hj]

theorem WF.dropCalled {s : St} (w : WF s) (i p : Nat) (k : Key) (out : Bool) (args : List Val) :
    WF (Inj.drop (called i p k out args s) i k) := by
  have := w.drop i k
  refine ⟨w.vals, w.provs, w.parent, ?_⟩
  intro j
  rw [drop_called_caches]
  exact this.nil j

theorem WF.run {s : St} (w : WF s) (f : Nat) (c : Cmd) (h : c.Wf) : WF (c.run f s) := by
  cases c with
  | provide i pr => exact w.provideAs i pr h
  | setParent i j => exact w.setParent i j
  | find i k =>
    obtain ⟨l, hl, _⟩ := find_lk f s i k w h
    exact hl.wf (w.status [])
  | invoke i pr =>
    obtain ⟨hw, deps, out, hk⟩ := h
    simp only [Cmd.run]
    rcases invokeFn_lk f s i pr w hw hk with ⟨v, _, h2⟩ | ⟨l, s2, hl, _, ⟨h2, _⟩ | ⟨args, h2⟩⟩
    · rw [h2]; exact (w.withFn pr hw).drop i pr.name
    · rw [h2]; exact hl.wf (w.withFn pr hw)
    · rw [h2]; exact (hl.wf (w.withFn pr hw)).dropCalled _ _ _ _ _

theorem reach_snoc (f : Nat) (cs : List Cmd) (c : Cmd) : reach f (cs ++ [c]) = c.run f (reach f cs) := by
  simp [reach]

theorem snoc_ind {α : Type} {P : List α → Prop} (h0 : P []) (h1 : ∀ l a, P l → P (l ++ [a])) : ∀ l, P l := by
  intro l
  have : ∀ m : List α, P m.reverse := by
    intro m
    induction m with
    | nil => exact h0
    | cons a m ih => rw [List.reverse_cons]; exact h1 _ _ ih
  have := this l.reverse
  rwa [List.reverse_reverse] at this

theorem Cmds.snoc {cs : List Cmd} {c : Cmd} (h : Cmds (cs ++ [c])) : Cmds cs ∧ c.Wf :=
  ⟨fun x hx => h x (by simp [hx]), h c (by simp)⟩

theorem WF.reach (f : Nat) : ∀ cs, Cmds cs → WF (reach f cs) := by
  intro cs
  refine snoc_ind (P := fun cs => Cmds cs → WF (Inj.reach f cs)) (fun _ => WF.empty) ?_ cs
  intro cs c ih h
  rw [reach_snoc]
  exact (ih h.snoc.1).run f c h.snoc.2

end Verif.Inj
