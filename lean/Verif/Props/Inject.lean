import Verif.Proofs.InjectVal
/-!
# The injector: C22 (nearest provider), C23 (at most once), C24 (termination), C25 (missing
dependencies), C27 (`Invoke`)

Histories and the notions `Nearest` and `Can` are in `Props/InjectSpec.lean`.  `f` bounds the depth of nested
calls during the history, `f'` during the lookup looked at.
-/
namespace Verif.Inj

/-! ## C22 -/

theorem find_unfold {f : Nat} {s : St} {i : Nat} {k : Key} {v : Val} {s' : St} (h : find f s i k = (.ok v, s')) :
    ∃ p, get s i k = some p ∧ invoke f i (clr s) p = (.ok v, s') := by
  unfold find at h
  cases hp : get s i k with
  | none => rw [hp] at h; cases h
  | some p => rw [hp] at h; exact ⟨p, rfl, h⟩

/-- **C22.** A successful `Find` gives what was made before in this injector; otherwise the value provided by the nearest
provider, or the result of calling the nearest provider's function, which is the last call made. -/
theorem C22_find_is_nearest {f f' : Nat} {cs : List Cmd} (h : Cmds cs) {i : Nat} {k : Key} {v : Val} {s' : St} (hk : k ≠ [])
    (hf : find f' (reach f cs) i k = (.ok v, s')) :
    ∃ pr, Nearest cs i k pr ∧
      match (reach f cs).caches i k with
      | some w => v = w ∧ s'.calls = (reach f cs).calls
      | none => (pr.kind = .value v ∧ s'.calls = (reach f cs).calls) ∨
          ∃ deps out p args new, pr.kind = .func deps out ∧ (reach f cs).provs[p]? = some pr ∧
            s'.calls = (reach f cs).calls ++ new ++ [⟨i, p, k, args⟩] ∧ v = .res (s'.calls.length - 1) := by
  have w := WF.reach f cs h
  obtain ⟨p, hp, hi⟩ := find_unfold hf
  obtain ⟨pr, hpr, hn⟩ := get_prov w hp
  subst hn
  refine ⟨pr, (get_nearest h i pr.name pr).1 ⟨p, hp, hpr⟩, ?_⟩
  cases f' with
  | zero => simp [invoke] at hi
  | succ f' =>
    cases hc : (reach f cs).caches i pr.name with
    | some v' =>
      rw [invoke_cached (s := clr (reach f cs)) hpr hc] at hi
      injection hi with h1 h2
      injection h1 with h1
      subst h1; subst h2
      exact ⟨rfl, rfl⟩
    | none =>
      simp only
      cases hkd : pr.kind with
      | value v' =>
        rw [invoke_value (s := clr (reach f cs)) hpr hc hkd] at hi
        injection hi with h1 h2
        injection h1 with h1
        subst h1; subst h2
        exact .inl ⟨rfl, rfl⟩
      | func deps out =>
        right
        rw [invoke_func (s := clr (reach f cs)) hpr hc hkd] at hi
        have hd := (idep_lk i f' deps [] { clr (reach f cs) with status := [pr.name] } ((w.status []).status _)
          (Wf_deps (w.provs p pr hpr) hkd)).1
        simp only [idep] at hd
        generalize invokeDeps (fun s q => invoke f' i s q) i deps [] { clr (reach f cs) with status := [pr.name] } = r at hi hd
        obtain ⟨r, s1⟩ := r
        obtain ⟨l, hl⟩ := hd
        cases r with
        | err => cases hi
        | diverge => cases hi
        | ok args =>
          injection hi with h1 h2
          injection h1 with h1
          subst h1; subst h2
          refine ⟨deps, out, p, args, l, rfl, hpr, ?_, ?_⟩
          · have := hl.calls
            simp only [called] at this ⊢
            rw [this]
          · simp [called]

/-- **C22.** Every argument a provider function is called with during a `Find` is the value of the argument's type in this
injector: the one made in it, or the one given by the nearest provider. -/
theorem C22_arguments {f f' : Nat} {cs : List Cmd} (h : Cmds cs) {i : Nat} {k : Key} (hk : k ≠ []) {r : Res Val} {s' : St}
    (hf : find f' (reach f cs) i k = (r, s')) :
    ∃ new, s'.calls = (reach f cs).calls ++ new ∧ ∀ c ∈ new, c.inj = i ∧
      ∃ pr deps out, Nearest cs i c.name pr ∧ pr.kind = .func deps out ∧ c.args.length = deps.length ∧
        ∀ d a, (d, a) ∈ deps.zip c.args →
          s'.caches i d = some a ∨ (s'.caches i d = none ∧ ∃ pr', Nearest cs i d pr' ∧ pr'.kind = .value a) := by
  have w := WF.reach f cs h
  unfold find at hf
  cases hp : get (reach f cs) i k with
  | none =>
    rw [hp] at hf; injection hf with _ hf; subst hf
    exact ⟨[], by simp, by simp⟩
  | some p =>
    rw [hp] at hf
    obtain ⟨l, hl, _⟩ := invoke_val i f' (clr (reach f cs)) k p (w.status []) ((get_clr _ i k).trans hp) hk
    have hf' : invoke f' i (clr (reach f cs)) p = (r, s') := hf
    rw [hf'] at hl
    refine ⟨l, hl.lk.calls, ?_⟩
    intro c hc
    obtain ⟨h1, h2, _, _, _⟩ := hl.lk.call c hc
    obtain ⟨pr, deps, out, g1, g2, g3, g4⟩ := hl.args c hc
    refine ⟨h1, pr, deps, out, ?_, g2, g3, ?_⟩
    · refine (get_nearest (f := f) h i c.name pr).1 ⟨c.prov, (get_clr _ _ _).symm.trans h2, ?_⟩
      have := hl.lk.ext.provs
      simp only at this
      rw [this] at g1; exact g1
    · intro d a hda
      rcases g4 d a hda with g | ⟨g, p', pr', e1, e2, e3⟩
      · exact .inl g
      · refine .inr ⟨g, pr', (get_nearest (f := f) h i d pr').1 ⟨p', ?_, ?_⟩, e3⟩
        · have := hl.lk.ext.get i d
          simp only at this
          rw [this] at e1; exact (get_clr _ _ _).symm.trans e1
        · have := hl.lk.ext.provs
          simp only at this
          rw [this] at e2; exact e2

/-- A call that does not give a provider for `k` to injector `i`. -/
def NoProvide (i : Nat) (k : Key) (c : Cmd) : Prop := ∀ pr, c = .provide i pr → pr.name ≠ k

theorem provided_noProvide {i : Nat} {k : Key} (cs : List Cmd) (c : Cmd) (h : NoProvide i k c) :
    provided (cs ++ [c]) i k = provided cs i k := by
  rw [provided_snoc]
  cases c with
  | provide j pr =>
    simp only
    by_cases hj : j = i ∧ pr.name = k
    · obtain ⟨rfl, h2⟩ := hj
      exact absurd h2 (h pr rfl)
    · rw [if_neg hj]
  | find _ _ => rfl
  | invoke _ _ => rfl
  | setParent _ _ => rfl

/-- The cache of `(i, k)` after a call, when it was empty and the nearest provider is a value given to `i` itself. -/
theorem own_value_uncached {f : Nat} {s : St} (w : WF s) {i : Nat} {k : Key} (hk : k ≠ []) {p : Nat} {pr : Prov} {v : Val}
    (h1 : s.values i k = some p) (h2 : s.provs[p]? = some pr) (h3 : pr.kind = .value v) (h4 : s.caches i k = none)
    (c : Cmd) (hc : c.Wf) (hn : NoProvide i k c) : (c.run f s).caches i k = none := by
  have hget : ∀ t : St, t.values = s.values → get t i k = some p := by
    intro t ht
    simp only [get, getN, ht, h1]
  have key : ∀ (j : Nat) (t s' : St) (l : List Call), t.values = s.values → (∃ m, t.provs = s.provs ++ m) →
      t.caches = s.caches → LkA j t s' l → s'.caches i k = none := by
    intro j t s' l e1 e2 e3 hl
    by_cases hj : i = j
    · subst hj
      cases hx : s'.caches i k with
      | none => rfl
      | some v' =>
        rcases (hl.lk.caches k).1 (by rw [hx]; exact fun h => nomatch h) with hy | ⟨c', hc', hcn⟩
        · rw [e3] at hy; exact absurd h4 hy
        · have g1 := (hl.lk.call c' hc').2.1
          rw [hcn, hget t e1] at g1
          injection g1 with g1
          obtain ⟨pr', deps, out, g2, g3, _⟩ := hl.args c' hc'
          obtain ⟨m, e2⟩ := e2
          rw [hl.lk.ext.provs, e2, ← g1, getElem?_append_some h2] at g2
          injection g2 with g2; subst g2
          rw [h3] at g3; cases g3
    · rw [hl.lk.ext.others i hj, e3]; exact h4
  cases c with
  | setParent a b =>
    simp only [Cmd.run, Inj.setParent]
    split <;> exact h4
  | provide j pr' =>
    simp only [Cmd.run, Inj.provideAs]
    by_cases hj : i = j
    · subst hj
      rw [upd_same, upd_ne _ _ _ _ (fun h => hn pr' rfl h.symm)]; exact h4
    · rw [upd_ne _ _ _ _ hj]; exact h4
  | find j x =>
    simp only [Cmd.run, find]
    cases hp : get s j x with
    | none => exact h4
    | some q =>
      obtain ⟨l, hl, _⟩ := invoke_val j f (clr s) x q (w.status []) ((get_clr _ _ _).trans hp) hc
      exact key j (clr s) _ l rfl ⟨[], by simp⟩ rfl hl
  | invoke j pr' =>
    obtain ⟨hw, deps, out, hkd⟩ := hc
    simp only [Cmd.run]
    cases f with
    | zero => exact h4
    | succ f =>
      cases hcc : s.caches j pr'.name with
      | some v' =>
        rw [invokeFn_cached hcc]
        simp only
        by_cases hj : i = j
        · subst hj
          rw [upd_same]
          by_cases hx : k = pr'.name
          · rw [hx, upd_same]
          · rw [upd_ne _ _ _ _ hx]; exact h4
        · rw [upd_ne _ _ _ _ hj]; exact h4
      | none =>
        rw [invokeFn_func hcc hkd]
        have hpush : Lk j (withFn s pr') { withFn s pr' with status := [pr'.name] } [] := Lk.push (withFn s pr') pr'.name
        obtain ⟨l, hl, _⟩ := idep_val (i := j) (f := f) (fun s k q w hq hk => invoke_val j f s k q w hq hk) deps []
          { withFn s pr' with status := [pr'.name] } (hpush.wf (w.withFn pr' hw)) (Wf_deps hw hkd)
        generalize idep f j deps [] { withFn s pr' with status := [pr'.name] } = r at hl ⊢
        obtain ⟨r, s1⟩ := r
        have h1n : s1.caches i k = none := key j { withFn s pr' with status := [pr'.name] } s1 l rfl ⟨[pr'], rfl⟩ rfl hl
        cases r with
        | err => exact h1n
        | diverge => exact h1n
        | ok args =>
          simp only
          have := drop_called_caches s1 j s.provs.length pr'.name out args
          simp only at this
          rw [this]
          by_cases hj : i = j
          · subst hj
            rw [upd_same]
            by_cases hx : k = pr'.name
            · rw [hx, upd_same]
            · rw [upd_ne _ _ _ _ hx]; exact h1n
          · rw [upd_ne _ _ _ _ hj]; exact h1n

/-- **C22.** Giving a value to an injector determines all later lookups of its type there, until another provider for
that type is given to it. -/
theorem C22_provided_value_wins {f f' : Nat} {cs cs' : List Cmd} {i : Nat} {k : Key} {v : Val}
    (h : Cmds (cs ++ .provide i ⟨k, .value v⟩ :: cs')) (hn : ∀ c ∈ cs', NoProvide i k c) :
    (find (f' + 1) (reach f (cs ++ .provide i ⟨k, .value v⟩ :: cs')) i k).1 = .ok v := by
  have hk : k ≠ [] := h (.provide i ⟨k, .value v⟩) (by simp)
  have inv : ∀ cs' : List Cmd, Cmds (cs ++ .provide i ⟨k, .value v⟩ :: cs') → (∀ c ∈ cs', NoProvide i k c) →
      ∃ p, (reach f (cs ++ .provide i ⟨k, .value v⟩ :: cs')).values i k = some p ∧
        (reach f (cs ++ .provide i ⟨k, .value v⟩ :: cs')).provs[p]? = some ⟨k, .value v⟩ ∧
        (reach f (cs ++ .provide i ⟨k, .value v⟩ :: cs')).caches i k = none := by
    refine snoc_ind (P := fun cs' => Cmds (cs ++ .provide i ⟨k, .value v⟩ :: cs') → (∀ c ∈ cs', NoProvide i k c) →
      ∃ p, (reach f (cs ++ .provide i ⟨k, .value v⟩ :: cs')).values i k = some p ∧
        (reach f (cs ++ .provide i ⟨k, .value v⟩ :: cs')).provs[p]? = some ⟨k, .value v⟩ ∧
        (reach f (cs ++ .provide i ⟨k, .value v⟩ :: cs')).caches i k = none) ?_ ?_
    · intro _ _
      rw [reach_snoc]
      refine ⟨(reach f cs).provs.length, ?_, ?_, ?_⟩
      · simp [Cmd.run, Inj.provideAs, upd_same]
      · simp [Cmd.run, Inj.provideAs]
      · simp [Cmd.run, Inj.provideAs, upd_same]
    · intro l c ih hcm hnp
      have e : cs ++ .provide i ⟨k, .value v⟩ :: (l ++ [c]) = (cs ++ .provide i ⟨k, .value v⟩ :: l) ++ [c] := by simp
      rw [e] at hcm ⊢
      obtain ⟨p, h1, h2, h3⟩ := ih hcm.snoc.1 (fun x hx => hnp x (by simp [hx]))
      rw [reach_snoc]
      have w := WF.reach f _ hcm.snoc.1
      have hc := hnp c (by simp)
      generalize reach f (cs ++ .provide i ⟨k, .value v⟩ :: l) = s at h1 h2 h3 w
      refine ⟨p, ?_, ?_, own_value_uncached w hk h1 h2 rfl h3 c hcm.snoc.2 hc⟩
      · cases c with
        | setParent a b => simp only [Cmd.run, Inj.setParent]; split <;> exact h1
        | provide j pr' =>
          simp only [Cmd.run, Inj.provideAs]
          by_cases hj : i = j
          · subst hj
            rw [upd_same, upd_ne _ _ _ _ (fun h => hc pr' rfl h.symm)]; exact h1
          · rw [upd_ne _ _ _ _ hj]; exact h1
        | find j x => rw [(run_static w f _ hcm.snoc.2 (.inl ⟨j, x, rfl⟩)).1]; exact h1
        | invoke j x => rw [(run_static w f _ hcm.snoc.2 (.inr ⟨j, x, rfl⟩)).1]; exact h1
      · cases c with
        | setParent a b => simp only [Cmd.run, Inj.setParent]; split <;> exact h2
        | provide j pr' => exact getElem?_append_some h2 _
        | find j x =>
          obtain ⟨m, hm⟩ := (run_static w f _ hcm.snoc.2 (.inl ⟨j, x, rfl⟩)).2.2
          rw [hm]; exact getElem?_append_some h2 _
        | invoke j x =>
          obtain ⟨m, hm⟩ := (run_static w f _ hcm.snoc.2 (.inr ⟨j, x, rfl⟩)).2.2
          rw [hm]; exact getElem?_append_some h2 _
  obtain ⟨p, h1, h2, h3⟩ := inv cs' h hn
  generalize reach f (cs ++ .provide i ⟨k, .value v⟩ :: cs') = s at h1 h2 h3
  have hg : get s i k = some p := by simp [get, getN, h1]
  simp only [find, hg]
  rw [invoke_value (s := clr s) (pr := ⟨k, .value v⟩) h2 h3 rfl]

/-- **C22.** Giving a provider to an injector replaces what was there, also a value already made: the next `Find` gives
the new provider's value, or a result of its function called now. -/
theorem C22_provide_replaces {f f' : Nat} {cs : List Cmd} {i : Nat} {pr : Prov} (h : Cmds (cs ++ [.provide i pr]))
    (hk : pr.name ≠ []) {v : Val} {s' : St} (hf : find f' (reach f (cs ++ [.provide i pr])) i pr.name = (.ok v, s')) :
    (pr.kind = .value v ∧ s'.calls = (reach f cs).calls) ∨
      ∃ deps out p args new, pr.kind = .func deps out ∧ (reach f (cs ++ [.provide i pr])).provs[p]? = some pr ∧
        s'.calls = (reach f cs).calls ++ new ++ [⟨i, p, pr.name, args⟩] ∧ v = .res (s'.calls.length - 1) := by
  obtain ⟨pr', hN, hrest⟩ := C22_find_is_nearest h hk hf
  have hc : (reach f (cs ++ [.provide i pr])).caches i pr.name = none := by
    rw [reach_snoc]; simp [Cmd.run, Inj.provideAs, upd_same]
  have hcalls : (reach f (cs ++ [.provide i pr])).calls = (reach f cs).calls := by rw [reach_snoc]; rfl
  have hpr : pr' = pr := by
    have hp : provided (cs ++ [.provide i pr]) i pr.name = some pr := by rw [provided_snoc]; simp
    cases hN with
    | own _ _ _ h => rw [hp] at h; injection h with h; exact h.symm
    | up _ _ _ _ h _ _ => rw [hp] at h; cases h
  subst hpr
  rw [hc] at hrest
  simp only [hcalls] at hrest
  exact hrest

end Verif.Inj
