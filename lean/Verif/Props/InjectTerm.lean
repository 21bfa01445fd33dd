import Verif.Props.InjectOnce
/-! # The injector: C24 (termination), C25 (missing dependencies), C27 (`Invoke`) -/
namespace Verif.Inj

/-! ## C25 -/

theorem can_iff {f : Nat} {cs : List Cmd} (h : Cmds cs) (i : Nat) (k : Key) :
    Resolvable (reach f cs) i k ↔ Can cs (fun x => (reach f cs).caches i x ≠ none) i k := by
  constructor
  · intro hr
    induction hr with
    | cached k p h1 h2 =>
      obtain ⟨pr, hp, _⟩ := get_prov (WF.reach f cs h) h1
      exact .made k pr ((get_nearest h i k pr).1 ⟨p, h1, hp⟩) h2
    | value k p pr v h1 h2 h3 => exact .value k pr v ((get_nearest h i k pr).1 ⟨p, h1, h2⟩) h3
    | func k p pr deps out h1 h2 h3 _ ih => exact .func k pr deps out ((get_nearest h i k pr).1 ⟨p, h1, h2⟩) h3 ih
  · intro hr
    induction hr with
    | made k pr h1 h2 =>
      obtain ⟨p, hp, hpr⟩ := (get_nearest (f := f) h i k pr).2 h1
      exact .cached k p hp h2
    | value k pr v h1 h2 =>
      obtain ⟨p, hp, hpr⟩ := (get_nearest (f := f) h i k pr).2 h1
      exact .value k p pr v hp hpr h2
    | func k pr deps out h1 h2 _ ih =>
      obtain ⟨p, hp, hpr⟩ := (get_nearest (f := f) h i k pr).2 h1
      exact .func k p pr deps out hp hpr h2 ih

theorem Resolvable.clr {s : St} {i : Nat} {k : Key} (h : Resolvable s i k) : Resolvable (clr s) i k := by
  induction h with
  | cached k p h1 h2 => exact .cached k p ((get_clr s i k).trans h1) h2
  | value k p pr v h1 h2 h3 => exact .value k p pr v ((get_clr s i k).trans h1) h2 h3
  | func k p pr deps out h1 h2 h3 _ ih => exact .func k p pr deps out ((get_clr s i k).trans h1) h2 h3 ih

theorem Resolvable.unclr {s : St} {i : Nat} {k : Key} (h : Resolvable (Inj.clr s) i k) : Resolvable s i k := by
  induction h with
  | cached k p h1 h2 => exact .cached k p ((get_clr s i k).symm.trans h1) h2
  | value k p pr v h1 h2 h3 => exact .value k p pr v ((get_clr s i k).symm.trans h1) h2 h3
  | func k p pr deps out h1 h2 h3 _ ih => exact .func k p pr deps out ((get_clr s i k).symm.trans h1) h2 h3 ih

theorem find_complete {s : St} (w : WF s) {i : Nat} {k : Key} (hk : k ≠ []) (h : Resolvable s i k) :
    ∃ F, ∀ f', F ≤ f' → ∃ v, (find f' s i k).1 = .ok v := by
  obtain ⟨n, hn⟩ := (resolvable_iff (w.status [])).1 h.clr
  obtain ⟨p, hp⟩ := h.get
  refine ⟨n, ?_⟩
  intro f' hf
  obtain ⟨v, s', hv, _⟩ := invoke_complete (s0 := clr s) n f' (clr s) k p (w.status []) (Ext.refl i _)
    ((get_clr s i k).trans hp) hk hn hf (fun x hx => by cases hx)
  refine ⟨v, ?_⟩
  simp only [find, hp]
  rw [hv]

/-- **C25.** `Find` succeeds exactly when a value of the type can be made: the type, and everything needed for it, has
a provider, without a cycle. -/
theorem C25_find_iff {f : Nat} {cs : List Cmd} (h : Cmds cs) {i : Nat} {k : Key} (hk : k ≠ []) :
    (∃ f' v, (find f' (reach f cs) i k).1 = .ok v) ↔ Can cs (fun x => (reach f cs).caches i x ≠ none) i k := by
  have w := WF.reach f cs h
  rw [← can_iff h]
  constructor
  · rintro ⟨f', v, hv⟩
    cases hr : find f' (reach f cs) i k with
    | mk r s' =>
      rw [hr] at hv
      simp only at hv; subst hv
      obtain ⟨p, hp, hi⟩ := find_unfold hr
      have := (invoke_lk i f' (clr (reach f cs)) k p (w.status []) ((get_clr _ _ _).trans hp) hk).2 v (by rw [hi])
      exact this.unclr
  · intro hc
    obtain ⟨F, hF⟩ := find_complete w hk hc
    obtain ⟨v, hv⟩ := hF F (Nat.le_refl _)
    exact ⟨F, v, hv⟩

/-- **C25.** The result of `Find` does not depend on the bound on the nesting, once it is large enough. -/
theorem C25_find_stable {s : St} {i : Nat} {k : Key} {f' f'' : Nat} (h : (find f' s i k).1 ≠ .diverge) (hf : f' ≤ f'') :
    find f'' s i k = find f' s i k := by
  unfold find at h ⊢
  cases hp : get s i k with
  | none => rfl
  | some p =>
    rw [hp] at h
    exact invoke_mono hf (clr s) p h

/-- **C25.** Otherwise `Find` gives no value, makes none for the type, and calls none of its providers. -/
theorem C25_no_value {f f' : Nat} {cs : List Cmd} (h : Cmds cs) {i : Nat} {k : Key} (hk : k ≠ [])
    (hc : ¬ Can cs (fun x => (reach f cs).caches i x ≠ none) i k) {r : Res Val} {s' : St}
    (hf : find f' (reach f cs) i k = (r, s')) :
    (r = .err ∨ r = .diverge) ∧ s'.caches i k = (reach f cs).caches i k ∧
      ∃ new, s'.calls = (reach f cs).calls ++ new ∧ ∀ c ∈ new, c.name ≠ k := by
  have w := WF.reach f cs h
  obtain ⟨l, hl, _⟩ := find_lk f' (reach f cs) i k w hk
  rw [hf] at hl
  have hnew : ∀ c ∈ l, c.name ≠ k := by
    intro c hcl hn
    have := (hl.call c hcl).2.2.2.2
    rw [hn] at this
    exact hc ((can_iff h i k).1 this.unclr)
  refine ⟨?_, ?_, l, hl.calls, hnew⟩
  · cases r with
    | err => exact .inl rfl
    | diverge => exact .inr rfl
    | ok v => exact absurd ((C25_find_iff h hk).1 ⟨f', v, by rw [hf]⟩) hc
  · cases hx : (reach f cs).caches i k with
    | some v => exact hl.ext.mono k v hx
    | none =>
      cases hy : s'.caches i k with
      | none => rfl
      | some v =>
        rcases (hl.caches k).1 (by simp only; rw [hy]; exact fun h => nomatch h) with g | ⟨c, hcl, hn⟩
        · exact absurd hx g
        · exact absurd hn (hnew c hcl)

/-! ## C24 -/

theorem Acyclic.clr {s : St} {i : Nat} {k : Key} (h : Acyclic s i k) : Acyclic (Inj.clr s) i k := by
  induction h with
  | missing k h => exact .missing k ((get_clr s i k).trans h)
  | cached k h => exact .cached k h
  | value k p pr v h1 h2 h3 => exact .value k p pr v ((get_clr s i k).trans h1) h2 h3
  | func k p pr deps out h1 h2 h3 _ ih => exact .func k p pr deps out ((get_clr s i k).trans h1) h2 h3 ih

theorem find_terminates {s : St} (w : WF s) {i : Nat} (h : DoneAcyclic s i) (k : Key) : ∃ f', (find f' s i k).1 ≠ .diverge := by
  cases hp : get s i k with
  | none => exact ⟨0, by simp [find, hp]⟩
  | some p =>
    have hd : DoneAcyclic (clr s) i := fun x q hq hz => (h x q ((get_clr s i x).symm.trans hq) hz).clr
    obtain ⟨f', hf⟩ := terminates_aux (i := i) _ (clr s) k p (w.status []) hd (Nat.le_refl _) ((get_clr s i k).trans hp)
      (fun g => by cases g.2)
    exact ⟨f', by simpa [find, hp] using hf⟩

theorem invokeFn_terminates {s : St} (w : WF s) {i : Nat} (h : DoneAcyclic s i) {pr : Prov} (hw : pr.Wf) {deps : List Key} {out : Bool}
    (hk : pr.kind = .func deps out) : ∃ f', (invokeFn f' s i pr).1 ≠ .diverge := by
  cases hc : s.caches i pr.name with
  | some v => exact ⟨1, by rw [invokeFn_cached hc]; simp⟩
  | none =>
    have hpush : Lk i (withFn s pr) { withFn s pr with status := [pr.name] } [] := Lk.push (withFn s pr) pr.name
    have w1 := w.withFn pr hw
    have hd : DoneAcyclic (withFn s pr) i := by
      intro x q hq hz
      have hq' : get s i x = some q := (get_withFn s pr i x).symm.trans hq
      have := h x q hq' hz
      clear hq hz hq'
      induction this with
      | missing k h => exact .missing k ((get_withFn s pr i k).trans h)
      | cached k h => exact .cached k h
      | value k p pr' v h1 h2 h3 => exact .value k p pr' v ((get_withFn s pr i k).trans h1) (getElem?_append_some h2 _) h3
      | func k p pr' deps out h1 h2 h3 _ ih =>
        exact .func k p pr' deps out ((get_withFn s pr i k).trans h1) (getElem?_append_some h2 _) h3 ih
    obtain ⟨f', hf⟩ := deps_terminate (i := i) (I := fun t => WF t ∧ DoneAcyclic t i)
      (fun t d q f hI hq hd => by
        obtain ⟨l, hl⟩ := (invoke_lk i f t d q hI.1 hq hd).1
        exact ⟨hl.wf hI.1, hI.2.lk hI.1 hl⟩)
      deps [] { withFn s pr with status := [pr.name] } ⟨hpush.wf w1, hd.lk w1 hpush⟩ (Wf_deps hw hk)
      (fun d hd t q hI hq hcq => terminates_aux (i := i) _ t d q hI.1 hI.2 (Nat.le_refl _) hq hcq)
    refine ⟨f' + 1, ?_⟩
    rw [invokeFn_func hc hk]
    generalize idep f' i deps [] { withFn s pr with status := [pr.name] } = r at hf ⊢
    obtain ⟨r, s'⟩ := r
    cases r with
    | ok a => simp
    | err => simp
    | diverge => exact absurd rfl hf

/-- **C24 (partial).** The first lookup after any number of `Provide` and `SetParent` calls terminates, whatever cycles
there are among the providers. -/
theorem C24_first_lookup_terminates {f : Nat} {cs : List Cmd} (h : Cmds cs) (hs : ∀ c ∈ cs, ∀ i, ¬ Looks i c) (i : Nat) (k : Key) :
    ∃ f', (find f' (reach f cs) i k).1 ≠ .diverge := by
  refine find_terminates (WF.reach f cs h) ?_ k
  have hz : ∀ cs : List Cmd, (∀ c ∈ cs, ∀ i, ¬ Looks i c) → ∀ p, (reach f cs).done p = 0 := by
    refine snoc_ind ?_ ?_
    · intro _ p; rfl
    · intro cs c ih hl p
      rw [reach_snoc]
      have ih' := ih (fun x hx => hl x (by simp [hx])) p
      cases c with
      | provide j pr => exact ih'
      | setParent a b => simp only [Cmd.run, Inj.setParent]; split <;> exact ih'
      | find j x => exact absurd (.inl ⟨x, rfl⟩) (hl (.find j x) (by simp) j)
      | invoke j x => exact absurd (.inr ⟨x, rfl⟩) (hl (.invoke j x) (by simp) j)
  intro x p _ hd
  exact absurd (hz cs hs p) hd

/-- Whenever a function is given for a type, it is the only provider ever given for this type. -/
def OneFunc (cs : List Cmd) : Prop :=
  ∀ cs1 i pr cs2, cs = cs1 ++ .provide i pr :: cs2 → (∃ deps out, pr.kind = .func deps out) →
    ∀ j pr', Cmd.provide j pr' ∈ cs1 ++ cs2 → pr'.name ≠ pr.name

theorem OneFunc.snoc {cs : List Cmd} {c : Cmd} (h : OneFunc (cs ++ [c])) : OneFunc cs := by
  intro cs1 i pr cs2 e hf j pr' hm
  refine h cs1 i pr (cs2 ++ [c]) (by rw [e]; simp) hf j pr' ?_
  simp only [List.mem_append] at hm ⊢
  rcases hm with hm | hm
  · exact .inl hm
  · exact .inr (.inl hm)

theorem OneFunc.last {cs : List Cmd} {i : Nat} {pr : Prov} (h : OneFunc (cs ++ [.provide i pr])) {j : Nat} {pr' : Prov}
    (hm : .provide j pr' ∈ cs) (hn : pr'.name = pr.name) :
    (∃ v, pr.kind = .value v) ∧ ∃ v, pr'.kind = .value v := by
  constructor
  · cases hk : pr.kind with
    | value v => exact ⟨v, rfl⟩
    | func deps out => exact absurd hn (h cs i pr [] rfl ⟨deps, out, hk⟩ j pr' (by simpa using hm))
  · cases hk : pr'.kind with
    | value v => exact ⟨v, rfl⟩
    | func deps out =>
      obtain ⟨a, b, e⟩ := List.append_of_mem hm
      refine absurd hn.symm (h a j pr' (b ++ [.provide i pr]) (by rw [e]; simp) ⟨deps, out, hk⟩ i pr (by simp))

/-- No cycle below `k`, in whatever injector. -/
inductive GAcyclic (s : St) : Key → Prop where
  | value (i : Nat) (k : Key) (p : Nat) (pr : Prov) (v : Val) : s.values i k = some p → s.provs[p]? = some pr → pr.kind = .value v →
      GAcyclic s k
  | func (i : Nat) (k : Key) (p : Nat) (pr : Prov) (deps : List Key) (out : Bool) : s.values i k = some p → s.provs[p]? = some pr →
      pr.kind = .func deps out → (∀ d ∈ deps, GAcyclic s d) → GAcyclic s k

theorem GAcyclic.congr {s s' : St} (hv : s'.values = s.values) {m : List Prov} (hp : s'.provs = s.provs ++ m) {k : Key}
    (h : GAcyclic s k) : GAcyclic s' k := by
  induction h with
  | value i k p pr v h1 h2 h3 => exact .value i k p pr v (hv ▸ h1) (by rw [hp]; exact getElem?_append_some h2 _) h3
  | func i k p pr deps out h1 h2 h3 _ ih => exact .func i k p pr deps out (hv ▸ h1) (by rw [hp]; exact getElem?_append_some h2 _) h3 ih

theorem getN_values {s : St} {k : Key} {p : Nat} : ∀ n i, getN s n i k = some p → ∃ j, s.values j k = some p := by
  intro n
  induction n with
  | zero => intro i h; cases h
  | succ n ih =>
    intro i h
    simp only [getN] at h
    cases hv : s.values i k with
    | some q => rw [hv] at h; injection h with h; subst h; exact ⟨i, hv⟩
    | none =>
      rw [hv] at h
      simp only at h
      cases hp : s.parent i with
      | none => rw [hp] at h; cases h
      | some j => rw [hp] at h; exact ih j h

theorem get_values {s : St} {i : Nat} {k : Key} {p : Nat} (h : get s i k = some p) : ∃ j, s.values j k = some p :=
  getN_values _ i h

/-- What holds in histories with `OneFunc`. -/
structure Glob (cs : List Cmd) (s : St) : Prop where
  wf : WF s
  mem : ∀ i k p pr, s.values i k = some p → s.provs[p]? = some pr → Cmd.provide i pr ∈ cs
  uniq : ∀ i j k p q pr deps out, s.values i k = some p → s.values j k = some q → s.provs[p]? = some pr →
    pr.kind = .func deps out → p = q
  done : ∀ i k p, s.values i k = some p → s.done p ≠ 0 → GAcyclic s k
  caches : ∀ i k, s.caches i k ≠ none → GAcyclic s k
  fresh : ∀ p, s.provs.length ≤ p → s.done p = 0

theorem Glob.acyclic {cs : List Cmd} {s : St} (h : Glob cs s) (i : Nat) {k : Key} (hk : GAcyclic s k) : Acyclic s i k := by
  induction hk with
  | value j k p pr v h1 h2 h3 =>
    cases hg : get s i k with
    | none => exact .missing k hg
    | some q =>
      obtain ⟨pr', hpr', _⟩ := get_prov h.wf hg
      obtain ⟨j', hj'⟩ := get_values hg
      cases hk : pr'.kind with
      | value v' => exact .value k q pr' v' hg hpr' hk
      | func deps out =>
        have := h.uniq j' j k q p pr' deps out hj' h1 hpr' hk
        subst this
        rw [h2] at hpr'; injection hpr' with hpr'; subst hpr'
        rw [h3] at hk; cases hk
  | func j k p pr deps out h1 h2 h3 _ ih =>
    cases hg : get s i k with
    | none => exact .missing k hg
    | some q =>
      obtain ⟨j', hj'⟩ := get_values hg
      have := h.uniq j j' k p q pr deps out h1 hj' h2 h3
      subst this
      exact .func k p pr deps out hg h2 h3 ih

theorem Glob.doneAcyclic {cs : List Cmd} {s : St} (h : Glob cs s) (i : Nat) : DoneAcyclic s i := by
  intro k p hp hd
  obtain ⟨j, hj⟩ := get_values hp
  exact h.acyclic i (h.done j k p hj hd)

theorem Glob.resolvable {cs : List Cmd} {s : St} (h : Glob cs s) {i : Nat} {k : Key} (hr : Resolvable s i k) : GAcyclic s k := by
  induction hr with
  | cached k p _ h2 => exact h.caches i k h2
  | value k p pr v h1 h2 h3 =>
    obtain ⟨j, hj⟩ := get_values h1
    exact .value j k p pr v hj h2 h3
  | func k p pr deps out h1 h2 h3 _ ih =>
    obtain ⟨j, hj⟩ := get_values h1
    exact .func j k p pr deps out hj h2 h3 ih

theorem Glob.lk {cs : List Cmd} {i : Nat} {s s' : St} {l : List Call} (h : Glob cs s) (g : Lk i s s' l) : Glob cs s' := by
  have up : ∀ k, GAcyclic s k → GAcyclic s' k := fun k hk => hk.congr (m := []) g.ext.values (by rw [g.ext.provs]; simp)
  refine ⟨g.wf h.wf, ?_, ?_, ?_, ?_, ?_⟩
  · intro i k p pr h1 h2
    rw [g.ext.values] at h1; rw [g.ext.provs] at h2
    exact h.mem i k p pr h1 h2
  · intro i j k p q pr deps out h1 h2 h3
    rw [g.ext.values] at h1 h2; rw [g.ext.provs] at h3
    exact h.uniq i j k p q pr deps out h1 h2 h3
  · intro j k p h1 h2
    rw [g.ext.values] at h1
    by_cases hz : s.done p = 0
    · obtain ⟨k', hk', hr⟩ := g.dn p (by rw [hz]; exact h2)
      obtain ⟨pr, hpr, hn⟩ := h.wf.vals j k p h1
      have : k' = k := by rw [← get_nameOf h.wf hk', ← hn]; simp [nameOf, hpr]
      subst this
      exact up k' (h.resolvable hr)
    · exact up k (h.done j k p h1 hz)
  · intro j k hc
    by_cases hj : j = i
    · subst hj
      rcases (g.caches k).1 hc with h1 | ⟨c, hcl, rfl⟩
      · exact up k (h.caches j k h1)
      · exact up _ (h.resolvable (g.call c hcl).2.2.2.2)
    · rw [g.ext.others j hj] at hc
      exact up k (h.caches j k hc)
  · intro p hp
    rw [g.ext.provs] at hp
    apply Classical.byContradiction
    intro hd
    obtain ⟨k', hk', hr⟩ := g.dn p (by rw [h.fresh p hp]; exact hd)
    obtain ⟨pr, hpr, _⟩ := get_prov h.wf hk'
    have := (List.getElem?_eq_some_iff.1 hpr).1
    omega

theorem Glob.clr {cs : List Cmd} {s : St} (h : Glob cs s) : Glob cs (Inj.clr s) :=
  have up : ∀ k, GAcyclic s k → GAcyclic (Inj.clr s) k := fun _ hk => hk.congr (s := s) (s' := Inj.clr s) (m := []) rfl (by simp)
  ⟨h.wf.status [], h.mem, h.uniq, fun i k p h1 h2 => up k (h.done i k p h1 h2), fun i k h1 => up k (h.caches i k h1), h.fresh⟩

theorem Glob.withFn {cs : List Cmd} {s : St} (h : Glob cs s) (pr : Prov) (hw : pr.Wf) : Glob cs (withFn s pr) := by
  have up : ∀ k, GAcyclic s k → GAcyclic (Inj.withFn s pr) k := fun _ hk => hk.congr (s := s) (s' := Inj.withFn s pr) (m := [pr]) rfl rfl
  have lt : ∀ {i : Nat} {k : Key} {p : Nat} {q : Prov}, s.values i k = some p → (s.provs ++ [pr])[p]? = some q → s.provs[p]? = some q := by
    intro i k p q h1 h2
    obtain ⟨q', hq', _⟩ := h.wf.vals i k p h1
    rw [getElem?_append_some hq'] at h2; rw [hq']; exact h2
  refine ⟨h.wf.withFn pr hw, fun i k p q h1 h2 => h.mem i k p q h1 (lt h1 h2), ?_, fun i k p h1 h2 => up k (h.done i k p h1 h2),
    fun i k h1 => up k (h.caches i k h1), ?_⟩
  · intro i j k p q pr' deps out h1 h2 h3
    exact h.uniq i j k p q pr' deps out h1 h2 (lt h1 h3)
  · intro p hp
    exact h.fresh p (by simp at hp; omega)

theorem Glob.drop {cs : List Cmd} {s : St} (h : Glob cs s) (i : Nat) (k : Key) : Glob cs (Inj.drop s i k) := by
  have up : ∀ x, GAcyclic s x → GAcyclic (Inj.drop s i k) x := fun _ hk => hk.congr (s := s) (s' := Inj.drop s i k) (m := []) rfl (by simp)
  refine ⟨h.wf.drop i k, h.mem, h.uniq, fun i k p h1 h2 => up k (h.done i k p h1 h2), ?_, h.fresh⟩
  intro j x hc
  cases hv : (Inj.drop s i k).caches j x with
  | none => exact absurd hv hc
  | some v => exact up x (h.caches j x (by rw [(drop_caches hv).1]; exact fun h => nomatch h))

/-- The function passed to `Invoke` is no provider. -/
theorem Glob.dropCalled {cs : List Cmd} {s : St} (h : Glob cs s) (i : Nat) (p : Nat) (k : Key) (out : Bool) (args : List Val)
    (hp : p < s.provs.length) (hn : ∀ j x, s.values j x ≠ some p) : Glob cs (Inj.drop (called i p k out args s) i k) := by
  have h' := h.drop i k
  have up : ∀ x, GAcyclic s x → GAcyclic (Inj.drop (called i p k out args s) i k) x := fun _ hk =>
    hk.congr (s := s) (s' := Inj.drop (called i p k out args s) i k) (m := []) rfl (by simp [called])
  refine ⟨h.wf.dropCalled i p k out args, h.mem, h.uniq, ?_, ?_, ?_⟩
  · intro j x q h1 h2
    refine up x (h.done j x q h1 ?_)
    simp only [called] at h2
    rw [upd_ne _ _ _ _ (fun e => hn j x (by rw [← e]; exact h1))] at h2
    exact h2
  · intro j x hc
    rw [drop_called_caches] at hc
    have := h'.caches j x hc
    exact this.congr (s := Inj.drop s i k) (s' := Inj.drop (called i p k out args s) i k) (m := []) rfl (by simp [called])
  · intro q hq
    simp only [called] at hq ⊢
    rw [upd_ne _ _ _ _ (by omega)]
    exact h.fresh q hq

theorem Glob.mono {cs : List Cmd} {s : St} (h : Glob cs s) (c : Cmd) : Glob (cs ++ [c]) s :=
  ⟨h.wf, fun i k p pr h1 h2 => by simp only [List.mem_append]; exact .inl (h.mem i k p pr h1 h2), h.uniq, h.done, h.caches, h.fresh⟩

theorem Glob.provide {cs : List Cmd} {s : St} (h : Glob cs s) (i : Nat) (pr : Prov) (hw : pr.Wf)
    (ho : OneFunc (cs ++ [.provide i pr])) : Glob (cs ++ [.provide i pr]) (provideAs s i pr) := by
  have w' := h.wf.provideAs i pr hw
  -- slots of the new state
  have slot : ∀ j x p, (provideAs s i pr).values j x = some p →
      (j = i ∧ x = pr.name ∧ p = s.provs.length) ∨ (s.values j x = some p ∧ ¬ (j = i ∧ x = pr.name)) := by
    intro j x p hp
    simp only [provideAs] at hp
    by_cases hj : j = i
    · subst hj
      rw [upd_same] at hp
      by_cases hx : x = pr.name
      · subst hx; rw [upd_same] at hp; injection hp with hp; exact .inl ⟨rfl, rfl, hp.symm⟩
      · rw [upd_ne _ _ _ _ hx] at hp; exact .inr ⟨hp, fun g => hx g.2⟩
    · rw [upd_ne _ _ _ _ hj] at hp; exact .inr ⟨hp, fun g => hj g.1⟩
  have back : ∀ j x p, s.values j x = some p → ¬ (j = i ∧ x = pr.name) → (provideAs s i pr).values j x = some p := by
    intro j x p hp hne
    simp only [provideAs]
    by_cases hj : j = i
    · subst hj; rw [upd_same, upd_ne _ _ _ _ (fun g => hne ⟨rfl, g⟩)]; exact hp
    · rw [upd_ne _ _ _ _ hj]; exact hp
  have new : (provideAs s i pr).values i pr.name = some s.provs.length := by simp [provideAs, upd_same]
  have newp : (provideAs s i pr).provs[s.provs.length]? = some pr := by simp [provideAs]
  have oldp : ∀ {j : Nat} {x : Key} {p : Nat} {q : Prov}, s.values j x = some p → (provideAs s i pr).provs[p]? = some q →
      s.provs[p]? = some q := by
    intro j x p q h1 h2
    obtain ⟨q', hq', _⟩ := h.wf.vals j x p h1
    have : (provideAs s i pr).provs[p]? = some q' := getElem?_append_some hq' _
    rw [this] at h2; rw [hq']; exact h2
  have name : ∀ {j : Nat} {x : Key} {p : Nat} {q : Prov}, s.values j x = some p → s.provs[p]? = some q → q.name = x := by
    intro j x p q h1 h2
    obtain ⟨q', hq', hn⟩ := h.wf.vals j x p h1
    rw [hq'] at h2; injection h2 with h2; subst h2; exact hn
  have up : ∀ x, GAcyclic s x → GAcyclic (provideAs s i pr) x := by
    intro x hx
    induction hx with
    | value j k p q v h1 h2 h3 =>
      by_cases hslot : j = i ∧ k = pr.name
      · obtain ⟨rfl, rfl⟩ := hslot
        obtain ⟨⟨v', hv'⟩, _⟩ := ho.last (h.mem _ _ p q h1 h2) (name h1 h2)
        exact .value j pr.name s.provs.length pr v' new newp hv'
      · exact .value j k p q v (back j k p h1 hslot) (getElem?_append_some h2 _) h3
    | func j k p q deps out h1 h2 h3 _ ih =>
      by_cases hslot : k = pr.name
      · subst hslot
        obtain ⟨_, v, hv⟩ := ho.last (h.mem _ _ p q h1 h2) (name h1 h2)
        rw [h3] at hv; cases hv
      · exact .func j k p q deps out (back j k p h1 (fun g => hslot g.2)) (getElem?_append_some h2 _) h3 ih
  refine ⟨w', ?_, ?_, ?_, ?_, ?_⟩
  · intro j x p q h1 h2
    rcases slot j x p h1 with ⟨rfl, rfl, rfl⟩ | ⟨hs, _⟩
    · rw [newp] at h2; injection h2 with h2; subst h2; simp
    · simp only [List.mem_append]; exact .inl (h.mem j x p q hs (oldp hs h2))
  · intro j j' x p q pr' deps out h1 h2 h3 h4
    have sl2 := slot j' x q h2
    rcases slot j x p h1 with ⟨rfl, rfl, rfl⟩ | ⟨hs, hne⟩ <;> rcases sl2 with ⟨e1, e2, e3⟩ | ⟨hs', hne'⟩
    · exact e3.symm
    · rw [newp] at h3; injection h3 with h3; subst h3
      obtain ⟨q', hq', _⟩ := h.wf.vals j' _ q hs'
      obtain ⟨⟨v, hv⟩, _⟩ := ho.last (h.mem _ _ q q' hs' hq') (name hs' hq')
      rw [h4] at hv; cases hv
    · subst e1; subst e2; subst e3
      have h3' := oldp hs h3
      obtain ⟨_, v, hv⟩ := ho.last (h.mem _ _ p pr' hs h3') (name hs h3')
      rw [h4] at hv; cases hv
    · exact h.uniq j j' x p q pr' deps out hs hs' (oldp hs h3) h4
  · intro j x p h1 h2
    rcases slot j x p h1 with ⟨rfl, rfl, rfl⟩ | ⟨hs, _⟩
    · have : s.done s.provs.length = 0 := h.fresh _ (Nat.le_refl _)
      exact absurd this h2
    · exact up x (h.done j x p hs h2)
  · intro j x hc
    refine up x (h.caches j x ?_)
    intro hn
    apply hc
    simp only [provideAs]
    by_cases hj : j = i
    · subst hj
      rw [upd_same]
      by_cases hx : x = pr.name
      · rw [hx, upd_same]
      · rw [upd_ne _ _ _ _ hx]; exact hn
    · rw [upd_ne _ _ _ _ hj]; exact hn
  · intro p hp
    simp only [provideAs, List.length_append, List.length_singleton] at hp
    exact h.fresh p (by omega)

theorem glob_reach (f : Nat) : ∀ cs, Cmds cs → OneFunc cs → Glob cs (reach f cs) := by
  refine snoc_ind ?_ ?_
  · intro _ _
    exact ⟨WF.empty, fun i k p pr h => (by cases h), fun i j k p q pr d o h => (by cases h), fun i k p h => (by cases h),
      fun i k h => absurd rfl h, fun _ _ => rfl⟩
  · intro cs c ih hcm ho
    have ih' := ih hcm.snoc.1 ho.snoc
    rw [reach_snoc]
    generalize reach f cs = s at ih'
    cases c with
    | provide i pr => exact ih'.provide i pr hcm.snoc.2 ho
    | setParent a b =>
      refine Glob.mono ?_ _
      have w' := ih'.wf.setParent a b
      simp only [Cmd.run]
      simp only [Inj.setParent] at w' ⊢
      by_cases hab : b < a
      · rw [if_pos hab] at w' ⊢
        have up : ∀ x, GAcyclic s x → GAcyclic { s with parent := upd s.parent a (some b) } x :=
          fun _ hk => hk.congr (s := s) (s' := { s with parent := upd s.parent a (some b) }) (m := []) rfl (by simp)
        exact ⟨w', ih'.mem, ih'.uniq, fun i k p h1 h2 => up k (ih'.done i k p h1 h2), fun i k h1 => up k (ih'.caches i k h1), ih'.fresh⟩
      · rw [if_neg hab]; exact ih'
    | find j x =>
      obtain ⟨l, hl, _⟩ := find_lk f s j x ih'.wf hcm.snoc.2
      exact (ih'.clr.lk hl).mono _
    | invoke j pr =>
      obtain ⟨hw, deps, out, hkd⟩ := hcm.snoc.2
      simp only [Cmd.run]
      refine Glob.mono ?_ _
      rcases invokeFn_lk f s j pr ih'.wf hw hkd with ⟨v, _, h2⟩ | ⟨l, s2, hlk, hn, ⟨h2, _⟩ | ⟨args, h2⟩⟩
      · rw [h2]; exact (ih'.withFn pr hw).drop _ _
      · rw [h2]; exact (ih'.withFn pr hw).lk hlk
      · rw [h2]
        refine ((ih'.withFn pr hw).lk hlk).dropCalled _ _ _ _ _ ?_ ?_
        · rw [hlk.ext.provs]; simp
        · intro a x hx
          rw [hlk.ext.values] at hx
          obtain ⟨q, hq, _⟩ := ih'.wf.vals a x _ hx
          have := (List.getElem?_eq_some_iff.1 hq).1
          omega

/-- **C24 (partial).** If every type for which a function is provided has just this one provider in all injectors, every
`Find` and every `Invoke` terminates, after any history. -/
theorem C24_terminates_partial {f : Nat} {cs : List Cmd} (h : Cmds cs) (ho : OneFunc cs) (i : Nat) :
    (∀ k, ∃ f', (find f' (reach f cs) i k).1 ≠ .diverge) ∧
    ∀ pr deps out, pr.Wf → pr.kind = .func deps out → ∃ f', (invokeFn f' (reach f cs) i pr).1 ≠ .diverge := by
  have g := glob_reach f cs h ho
  exact ⟨fun k => find_terminates g.wf (g.doneAcyclic i) k, fun pr deps out hw hk => invokeFn_terminates g.wf (g.doneAcyclic i) hw hk⟩

/-- **C24 (partial).** Then a type which cannot be made — in particular one whose providers need each other — is reported as
an error. -/
theorem C24_cycle_is_error_partial {f : Nat} {cs : List Cmd} (h : Cmds cs) (ho : OneFunc cs) (i : Nat) {k : Key} (hk : k ≠ [])
    (hc : ¬ Can cs (fun x => (reach f cs).caches i x ≠ none) i k) : ∃ F, ∀ f', F ≤ f' → (find f' (reach f cs) i k).1 = .err := by
  obtain ⟨F, hF⟩ := (C24_terminates_partial (f := f) h ho i).1 k
  refine ⟨F, ?_⟩
  intro f' hf
  rw [C25_find_stable hF hf]
  cases hr : find F (reach f cs) i k with
  | mk r s' =>
    rw [hr] at hF
    rcases (C25_no_value h hk hc hr).1 with h1 | h1
    · exact h1
    · exact absurd h1 hF

/-- Two providers which need each other, both used before, none cached here: looking one up never ends. -/
theorem cycle_diverges {i p q : Nat} {A B : Key} :
    ∀ f s, s.provs[p]? = some ⟨A, .func [B] true⟩ → s.provs[q]? = some ⟨B, .func [A] true⟩ →
      get s i A = some p → get s i B = some q → s.done p ≠ 0 → s.done q ≠ 0 → s.caches i A = none → s.caches i B = none →
      (invoke f i s p).1 = .diverge ∧ (invoke f i s q).1 = .diverge := by
  intro f
  induction f with
  | zero => intro s _ _ _ _ _ _ _ _; exact ⟨rfl, rfl⟩
  | succ f ih =>
    intro s h1 h2 h3 h4 h5 h6 h7 h8
    constructor
    · rw [invoke_func (pr := ⟨A, .func [B] true⟩) (deps := [B]) (out := true) h1 h7 rfl]
      have hq : get { s with status := A :: s.status } i B = some q := (get_congr (s := s) (s' := { s with status := A :: s.status }) rfl rfl i B).trans h4
      have hp : get { s with status := A :: s.status } i A = some p := (get_congr (s := s) (s' := { s with status := A :: s.status }) rfl rfl i A).trans h3
      have ih' := (ih { s with status := A :: s.status } h1 h2 hp hq h5 h6 h7 h8).2
      simp only
      rw [invokeDeps_cons hq (fun g => h6 g.1)]
      generalize invoke f i { s with status := A :: s.status } q = r at ih' ⊢
      obtain ⟨r, s'⟩ := r
      simp only at ih'; subst ih'
      rfl
    · rw [invoke_func (pr := ⟨B, .func [A] true⟩) (deps := [A]) (out := true) h2 h8 rfl]
      have hq : get { s with status := B :: s.status } i B = some q := (get_congr (s := s) (s' := { s with status := B :: s.status }) rfl rfl i B).trans h4
      have hp : get { s with status := B :: s.status } i A = some p := (get_congr (s := s) (s' := { s with status := B :: s.status }) rfl rfl i A).trans h3
      have ih' := (ih { s with status := B :: s.status } h1 h2 hp hq h5 h6 h7 h8).1
      simp only
      rw [invokeDeps_cons hp (fun g => h5 g.1)]
      generalize invoke f i { s with status := B :: s.status } p = r at ih' ⊢
      obtain ⟨r, s'⟩ := r
      simp only at ih'; subst ih'
      rfl

/-- **C24 fails** in general: `A` and `B` need each other in the application's injector; one request overrides `A` and
finds `B`, another overrides `B` and finds `A`; a third request finding `A` never returns. -/
theorem C24_terminates_violated :
    ∃ (cs : List Cmd) (i : Nat) (k : Key), Cmds cs ∧ k ≠ [] ∧ ∀ f f', 2 ≤ f → (find f' (reach f cs) i k).1 = .diverge := by
  let A : Key := b!":A:"
  let B : Key := b!":B:"
  refine ⟨[.provide 0 ⟨A, .func [B] true⟩, .provide 0 ⟨B, .func [A] true⟩,
      .setParent 1 0, .provide 1 ⟨A, .value (.obj 0)⟩, .find 1 B,
      .setParent 2 0, .provide 2 ⟨B, .value (.obj 1)⟩, .find 2 A, .setParent 3 0], 3, A, ?_, by decide, ?_⟩
  · intro c hc
    simp only [List.mem_cons, List.not_mem_nil, or_false] at hc
    rcases hc with rfl | rfl | rfl | rfl | rfl | rfl | rfl | rfl | rfl
    · exact ⟨by decide, by decide⟩
    · exact ⟨by decide, by decide⟩
    · exact True.intro
    · exact (by decide : A ≠ [])
    · exact (by decide : B ≠ [])
    · exact True.intro
    · exact (by decide : B ≠ [])
    · exact (by decide : A ≠ [])
    · exact True.intro
  · intro f f' hf
    obtain ⟨g, rfl⟩ : ∃ g, f = g + 2 := ⟨f - 2, by omega⟩
    exact (cycle_diverges (i := 3) (p := 0) (q := 1) (A := A) (B := B) f' (clr (reach (g + 2) _)) rfl rfl rfl rfl
      (by show (1 : Nat) ≠ 0; decide) (by show (1 : Nat) ≠ 0; decide) rfl rfl).1

/-! ## C27 -/

/-- **C27 (partial).** `Invoke(f)` for a function without results, or whose result type has neither provider nor cached value:
it succeeds exactly when all arguments can be made, and then `f` is called exactly once, last, with the values of its argument types. -/
theorem C27_invoke_calls_partial {f : Nat} {cs : List Cmd} (h : Cmds cs) {i : Nat} {pr : Prov} {deps : List Key} {out : Bool}
    (hw : pr.Wf) (hk : pr.kind = .func deps out)
    (hn : pr.name = [] ∨ (∀ q, ¬ Nearest cs i pr.name q) ∧ (reach f cs).caches i pr.name = none) :
    ((∃ f' v, (invokeFn f' (reach f cs) i pr).1 = .ok v) ↔ ∀ d ∈ deps, Can cs (fun x => (reach f cs).caches i x ≠ none) i d) ∧
    ∀ f' v s', invokeFn f' (reach f cs) i pr = (.ok v, s') →
      ∃ new args, s'.calls = (reach f cs).calls ++ new ++ [⟨i, (reach f cs).provs.length, pr.name, args⟩] ∧
        v = .res (s'.calls.length - 1) ∧ (∀ c ∈ new, c.prov < (reach f cs).provs.length) ∧ args.length = deps.length ∧
        ∀ d a, (d, a) ∈ deps.zip args →
          s'.caches i d = some a ∨ (s'.caches i d = none ∧ ∃ pr', Nearest cs i d pr' ∧ pr'.kind = .value a) := by
  have w := WF.reach f cs h
  have w1 := w.withFn pr hw
  have hc : (reach f cs).caches i pr.name = none := by
    rcases hn with hn | hn
    · rw [hn]; exact w.nil i
    · exact hn.2
  have hdn := Wf_deps hw hk
  have hpush : Lk i (withFn (reach f cs) pr) { withFn (reach f cs) pr with status := [pr.name] } [] := Lk.push _ pr.name
  -- resolvability is not affected by the function passed in
  have res1 : ∀ d, Resolvable (reach f cs) i d → Resolvable { withFn (reach f cs) pr with status := [pr.name] } i d := by
    intro d hd
    have hg : ∀ x, get { withFn (reach f cs) pr with status := [pr.name] } i x = get (reach f cs) i x := fun x =>
      get_congr (s := reach f cs) (s' := { withFn (reach f cs) pr with status := [pr.name] }) rfl rfl i x
    induction hd with
    | cached k p h1 h2 => exact .cached k p ((hg k).trans h1) h2
    | value k p q v h1 h2 h3 => exact .value k p q v ((hg k).trans h1) (getElem?_append_some h2 _) h3
    | func k p q deps out h1 h2 h3 _ ih => exact .func k p q deps out ((hg k).trans h1) (getElem?_append_some h2 _) h3 ih
  have res2 : ∀ d, Resolvable { withFn (reach f cs) pr with status := [pr.name] } i d → Resolvable (reach f cs) i d := by
    intro d hd
    have hg : ∀ x, get { withFn (reach f cs) pr with status := [pr.name] } i x = get (reach f cs) i x := fun x =>
      get_congr (s := reach f cs) (s' := { withFn (reach f cs) pr with status := [pr.name] }) rfl rfl i x
    have old : ∀ {k : Key} {p : Nat} {q : Prov}, get (reach f cs) i k = some p → ((reach f cs).provs ++ [pr])[p]? = some q →
        (reach f cs).provs[p]? = some q := by
      intro k p q h1 h2
      obtain ⟨q', hq', _⟩ := get_prov w h1
      rw [getElem?_append_some hq'] at h2; rw [hq']; exact h2
    induction hd with
    | cached k p h1 h2 => exact .cached k p ((hg k).symm.trans h1) h2
    | value k p q v h1 h2 h3 => exact .value k p q v ((hg k).symm.trans h1) (old ((hg k).symm.trans h1) h2) h3
    | func k p q deps out h1 h2 h3 _ ih => exact .func k p q deps out ((hg k).symm.trans h1) (old ((hg k).symm.trans h1) h2) h3 ih
  have hget : ∀ x, get { withFn (reach f cs) pr with status := [pr.name] } i x = get (reach f cs) i x := fun x =>
    get_congr (s := reach f cs) (s' := { withFn (reach f cs) pr with status := [pr.name] }) rfl rfl i x
  constructor
  · constructor
    · rintro ⟨f', v, hv⟩ d hd
      rw [← can_iff h]
      apply res2
      cases f' with
      | zero => simp [invokeFn, invoke] at hv
      | succ f' =>
        rw [invokeFn_func hc hk] at hv
        have hok := (idep_lk i f' deps [] { withFn (reach f cs) pr with status := [pr.name] } (hpush.wf w1) hdn).2
        generalize idep f' i deps [] { withFn (reach f cs) pr with status := [pr.name] } = r at hv hok
        obtain ⟨r, s1⟩ := r
        cases r with
        | ok args => exact hok args rfl d hd
        | err => cases hv
        | diverge => cases hv
    · intro hall
      -- all dependencies are resolvable: the loop of `invoke_complete`
      have hall' : ∀ d ∈ deps, ∃ n, ResN { withFn (reach f cs) pr with status := [pr.name] } i n d := fun d hd =>
        (resolvable_iff (hpush.wf w1)).1 (res1 d ((can_iff h i d).2 (hall d hd)))
      obtain ⟨n, hn'⟩ := exists_bound (P := ResN { withFn (reach f cs) pr with status := [pr.name] } i) (fun n m k h hp => ResN.le h hp) deps hall'
      have hst0 : ∀ x ∈ ({ withFn (reach f cs) pr with status := [pr.name] } : St).status, x ≠ [] →
          ¬ ResN { withFn (reach f cs) pr with status := [pr.name] } i n x ∨ DoneKey { withFn (reach f cs) pr with status := [pr.name] } i x := by
        intro x hx hx0
        simp only [List.mem_singleton] at hx
        subst hx
        rcases hn with hn | hn
        · exact absurd hn hx0
        · left
          intro hr
          obtain ⟨p, hp⟩ := ((resolvable_iff (hpush.wf w1)).2 ⟨n, hr⟩).get
          rw [hget] at hp
          obtain ⟨q, hq, _⟩ := get_prov w hp
          exact hn.1 q ((get_nearest h i pr.name q).1 ⟨p, hp, hq⟩)
      obtain ⟨vs, s', hvs, _⟩ := idep_complete (s0 := { withFn (reach f cs) pr with status := [pr.name] }) (i := i) (n := n) (f := n)
        (fun s k p w e hp hk hr hst => invoke_complete n n s k p w e hp hk hr (Nat.le_refl _) hst) deps []
        { withFn (reach f cs) pr with status := [pr.name] } (hpush.wf w1) (Ext.refl i _) hdn hn' hst0
      refine ⟨n + 1, .res s'.calls.length, ?_⟩
      rw [invokeFn_func hc hk, hvs]
  · intro f' v s' hf
    cases f' with
    | zero => simp [invokeFn, invoke] at hf
    | succ f' =>
      rw [invokeFn_func hc hk] at hf
      obtain ⟨l, hl, hv⟩ := idep_val (i := i) (f := f') (fun s k q w hq hk => invoke_val i f' s k q w hq hk) deps []
        { withFn (reach f cs) pr with status := [pr.name] } (hpush.wf w1) hdn
      generalize idep f' i deps [] { withFn (reach f cs) pr with status := [pr.name] } = r at hf hl hv
      obtain ⟨r, s1⟩ := r
      cases r with
      | err => cases hf
      | diverge => cases hf
      | ok args =>
        injection hf with h1 h2
        injection h1 with h1
        subst h1; subst h2
        obtain ⟨ws, e1, e2, e3⟩ := hv args rfl
        simp only [List.nil_append] at e1
        subst e1
        have hcalls : s1.calls = (reach f cs).calls ++ l := hl.lk.calls
        refine ⟨l, args, ?_, ?_, ?_, e2, ?_⟩
        · simp only [called]; rw [hcalls]
        · simp [called]
        · intro c hcl
          have := (hl.lk.call c hcl).2.1
          rw [hget] at this
          obtain ⟨q, hq, _⟩ := get_prov w this
          exact (List.getElem?_eq_some_iff.1 hq).1
        · intro d a hda
          have hdk : d ≠ pr.name := by
            rintro rfl
            have hdm : pr.name ∈ deps := (List.of_mem_zip hda).1
            rcases hn with hn | hn
            · rw [hn] at hdm; exact hdn hdm
            · have hok := e3 pr.name a hda
              rcases hok with g | ⟨_, p, q, g1, g2, _⟩
              · rcases hl.cv _ _ g with g' | ⟨_, c, _, _, _, _, _, g'⟩
                · simp only at g'; rw [hc] at g'; cases g'
                · rw [hget] at g'
                  obtain ⟨q, hq, _⟩ := get_prov w g'
                  exact hn.1 q ((get_nearest h i pr.name q).1 ⟨_, g', hq⟩)
              · rw [hl.lk.ext.get, hget] at g1
                obtain ⟨q, hq, _⟩ := get_prov w g1
                exact hn.1 q ((get_nearest h i pr.name q).1 ⟨_, g1, hq⟩)
          have hca : (drop (called i (reach f cs).provs.length pr.name out args s1) i pr.name).caches i d = s1.caches i d := by
            rw [drop_called_caches]; exact drop_ne (fun g => hdk g.2)
          rcases e3 d a hda with g | ⟨g, p, q, g1, g2, g3⟩
          · exact .inl (hca.trans g)
          · refine .inr ⟨hca.trans g, q, (get_nearest (f := f) h i d q).1 ⟨p, ?_, ?_⟩, g3⟩
            · rw [hl.lk.ext.get, hget] at g1; exact g1
            · rw [hl.lk.ext.get, hget] at g1
              obtain ⟨q', hq', _⟩ := get_prov w g1
              rw [hl.lk.ext.provs] at g2
              have : (withFn (reach f cs) pr).provs[p]? = some q' := getElem?_append_some hq' _
              simp only at g2 this
              rw [this] at g2; rw [hq']; exact g2

/-- **C27 fails** in general: if a value of the function's result type was made before, the function is not called at all. -/
theorem C27_invoke_calls_violated :
    ∃ (cs : List Cmd) (i : Nat) (pr : Prov), Cmds cs ∧ pr.Wf ∧ pr.kind = .func [] true ∧
      ∀ f f', (invokeFn (f' + 1) (reach (f + 1) cs) i pr).1 = .ok (.res 0) ∧
        ∀ c ∈ (invokeFn (f' + 1) (reach (f + 1) cs) i pr).2.calls, c.prov ≠ (reach (f + 1) cs).provs.length := by
  let T : Key := b!":T:"
  refine ⟨[.provide 0 ⟨T, .func [] true⟩, .find 0 T], 0, ⟨T, .func [] true⟩, ?_, ⟨by decide, by decide⟩, rfl, ?_⟩
  · intro c hc
    simp only [List.mem_cons, List.not_mem_nil, or_false] at hc
    rcases hc with rfl | rfl
    · exact ⟨by decide, by decide⟩
    · exact (by decide : T ≠ [])
  · intro f f'
    refine ⟨rfl, ?_⟩
    intro c hc
    have : c ∈ [(⟨0, 0, T, []⟩ : Call)] := hc
    simp only [List.mem_singleton] at this
    subst this
    show (0 : Nat) ≠ 1
    decide

/-- **C27 fails** also when the function needs a value of its own result type: this is reported as a cycle although the
argument can be made. -/
theorem C27_own_result_violated :
    ∃ (cs : List Cmd) (i : Nat) (pr : Prov) (T : Key), Cmds cs ∧ pr.Wf ∧ pr.kind = .func [T] true ∧
      (∀ f, Can cs (fun x => (reach f cs).caches i x ≠ none) i T) ∧
      ∀ f f', (invokeFn (f' + 1) (reach f cs) i pr).1 = .err := by
  let T : Key := b!":T:"
  refine ⟨[.provide 0 ⟨T, .func [] true⟩], 0, ⟨T, .func [T] true⟩, T, ?_, ⟨by decide, by decide⟩, rfl, ?_, ?_⟩
  · intro c hc
    simp only [List.mem_cons, List.not_mem_nil, or_false] at hc
    subst hc
    exact ⟨by decide, by decide⟩
  · intro f
    exact .func T ⟨T, .func [] true⟩ [] true (.own 0 T _ rfl) rfl (by simp)
  · intro f f'
    rfl

/-- Non-vacuity: a handler `func(A)` where `A` needs `B`. -/
example : let A : Key := b!":A:"; let B : Key := b!":B:"
    let cs : List Cmd := [.setParent 1 0, .provide 0 ⟨A, .func [B] true⟩, .provide 1 ⟨B, .value (.obj 5)⟩]
    (invokeFn 9 (reach 9 cs) 1 ⟨[], .func [A] false⟩).2.calls = [⟨1, 0, A, [.obj 5]⟩, ⟨1, 2, [], [.res 0]⟩] ∧
    (find 9 (reach 9 (cs ++ [.provide 0 ⟨B, .func [A] true⟩])) 0 A).1 = .err := by
  refine ⟨by decide +kernel, by decide +kernel⟩

end Verif.Inj
