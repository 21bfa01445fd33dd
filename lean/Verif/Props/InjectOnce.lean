import Verif.Props.Inject
/-! # The injector: C22 (stale values), C23 (providers run at most once) -/
namespace Verif.Inj

theorem LkA.clr (i : Nat) (s : St) : LkA i (clr s) s [] := ⟨Lk.clr i s, by simp, fun _ _ h => .inl h⟩

theorem find_lka (f : Nat) (s : St) (i : Nat) (k : Key) (w : WF s) (hk : k ≠ []) :
    ∃ l, LkA i (clr s) (find f s i k).2 l ∧ (l.map Call.name).Nodup := by
  obtain ⟨m, hm, hn⟩ := find_lk f s i k w hk
  refine ⟨m, ?_, hn⟩
  unfold find at hm ⊢
  cases hp : get s i k with
  | none =>
    rw [hp] at hm
    rw [hm.unique (Lk.clr i s)]
    exact LkA.clr i s
  | some p =>
    rw [hp] at hm
    obtain ⟨l, hl, _⟩ := invoke_val i f (Inj.clr s) k p (w.status []) ((get_clr s i k).trans hp) hk
    rw [hm.unique hl.lk]
    exact hl

theorem invokeFn_lka (f : Nat) (s : St) (i : Nat) (pr : Prov) (w : WF s) (hw : pr.Wf) {deps : List Key} {out : Bool}
    (hk : pr.kind = .func deps out) :
    (∃ v, s.caches i pr.name = some v ∧ invokeFn f s i pr = (.ok v, drop (withFn s pr) i pr.name)) ∨
    ∃ l s2, LkA i (withFn s pr) s2 l ∧ (l.map Call.name).Nodup ∧
      (((invokeFn f s i pr).2 = s2 ∧ ∀ v, (invokeFn f s i pr).1 ≠ .ok v) ∨
       ∃ args, invokeFn f s i pr = (.ok (.res s2.calls.length), drop (called i s.provs.length pr.name out args s2) i pr.name)) := by
  cases f with
  | zero =>
    right
    exact ⟨[], withFn s pr, LkA.refl i _, by simp, .inl ⟨rfl, fun v h => by cases h⟩⟩
  | succ f =>
    cases hc : s.caches i pr.name with
    | some v => exact .inl ⟨v, rfl, invokeFn_cached hc⟩
    | none =>
      right
      have hpush : Lk i (withFn s pr) { withFn s pr with status := [pr.name] } [] := Lk.push (withFn s pr) pr.name
      have w1 := w.withFn pr hw
      obtain ⟨l, hl, hn⟩ := deps_nodup (i := i) (f := f) (fun s k q w hq hk => invoke_nodup i f s k q w hq hk) deps []
        { withFn s pr with status := [pr.name] } (hpush.wf w1) (Wf_deps hw hk)
      obtain ⟨l', hl', _⟩ := idep_val (i := i) (f := f) (fun s k q w hq hk => invoke_val i f s k q w hq hk) deps []
        { withFn s pr with status := [pr.name] } (hpush.wf w1) (Wf_deps hw hk)
      have := hl.unique hl'.lk
      subst this
      have hpushA : LkA i (withFn s pr) { withFn s pr with status := [pr.name] } [] := ⟨hpush, by simp, fun _ _ h => .inl h⟩
      refine ⟨l, _, by simpa using hpushA.trans hl', hn, ?_⟩
      rw [invokeFn_func hc hk]
      generalize idep f i deps [] { withFn s pr with status := [pr.name] } = r
      obtain ⟨r, s'⟩ := r
      cases r with
      | ok args => exact .inr ⟨args, rfl⟩
      | err => exact .inl ⟨rfl, fun v h => by cases h⟩
      | diverge => exact .inl ⟨rfl, fun v h => by cases h⟩

theorem drop_caches {s : St} {i : Nat} {k : Key} {j : Nat} {x : Key} {v : Val} (h : (drop s i k).caches j x = some v) :
    s.caches j x = some v ∧ ¬ (j = i ∧ x = k) := by
  simp only at h
  by_cases hj : j = i
  · subst hj
    rw [upd_same] at h
    by_cases hx : x = k
    · subst hx; rw [upd_same] at h; cases h
    · rw [upd_ne _ _ _ _ hx] at h; exact ⟨h, fun g => hx g.2⟩
  · rw [upd_ne _ _ _ _ hj] at h; exact ⟨h, fun g => hj g.1⟩

theorem drop_ne {s : St} {i : Nat} {k : Key} {j : Nat} {x : Key} (h : ¬ (j = i ∧ x = k)) :
    (drop s i k).caches j x = s.caches j x := by
  simp only
  by_cases hj : j = i
  · subst hj
    rw [upd_same, upd_ne _ _ _ _ (fun g => h ⟨rfl, g⟩)]
  · rw [upd_ne _ _ _ _ hj]

theorem getN_congr_key {s s' : St} {k : Key} (h1 : ∀ j, s'.values j k = s.values j k) (h2 : s'.parent = s.parent) :
    ∀ f i, getN s' f i k = getN s f i k := by
  intro f
  induction f with
  | zero => intro i; rfl
  | succ f ih => intro i; simp only [getN, h1, h2, ih]

theorem get_provide_ne {s : St} {j : Nat} {pr : Prov} {k : Key} (h : pr.name ≠ k) (i : Nat) :
    get (provideAs s j pr) i k = get s i k := by
  refine getN_congr_key (s := s) (s' := provideAs s j pr) ?_ rfl _ i
  intro a
  simp only [provideAs]
  by_cases ha : a = j
  · subst ha; rw [upd_same, upd_ne _ _ _ _ (fun g => h g.symm)]
  · rw [upd_ne _ _ _ _ ha]

/-! ## C22: values made before -/

/-- Call `c` looks something up in injector `i`. -/
def Looks (i : Nat) (c : Cmd) : Prop := (∃ k, c = .find i k) ∨ ∃ pr, c = .invoke i pr

/-- Call `c` may change which provider is nearest to `i` for `k`, other than by giving one to `i` itself. -/
def Moves (i : Nat) (k : Key) (c : Cmd) : Prop := (∃ j pr, c = .provide j pr ∧ j ≠ i ∧ pr.name = k) ∨ ∃ a b, c = .setParent a b

/-- No such change after something was looked up in `i`. -/
def Quiet (i : Nat) (k : Key) (cs : List Cmd) : Prop :=
  ∀ cs1 c cs2, cs = cs1 ++ c :: cs2 → Moves i k c → ∀ x ∈ cs1, ¬ Looks i x

/-- What is cached for `(i, k)` is a result of the provider nearest now. -/
def FreshCache (s : St) (i : Nat) (k : Key) : Prop :=
  ∀ v, s.caches i k = some v → ∃ n c, v = .res n ∧ s.calls[n]? = some c ∧ c.inj = i ∧ c.name = k ∧ get s i k = some c.prov

theorem LkA.fresh {j : Nat} {t s' : St} {l : List Call} (h : LkA j t s' l) {i : Nat} {k : Key} (hf : FreshCache t i k) :
    FreshCache s' i k := by
  intro v hv
  have up : ∀ (n : Nat) (c : Call), t.calls[n]? = some c → s'.calls[n]? = some c := by
    intro n c hn; rw [h.lk.calls]; exact getElem?_append_some hn _
  have old : t.caches i k = some v → _ := fun ht => hf v ht
  by_cases hj : i = j
  · subst hj
    rcases h.cv k v hv with h1 | ⟨n, c, h1, h2, h3, h4, h5, h6⟩
    · obtain ⟨n, c, g1, g2, g3, g4, g5⟩ := old h1
      exact ⟨n, c, g1, up n c g2, g3, g4, (h.lk.ext.get i k).trans g5⟩
    · exact ⟨n, c, h1, h3, h4, h5, (h.lk.ext.get i k).trans h6⟩
  · rw [h.lk.ext.others i hj] at hv
    obtain ⟨n, c, g1, g2, g3, g4, g5⟩ := old hv
    exact ⟨n, c, g1, up n c g2, g3, g4, (h.lk.ext.get i k).trans g5⟩

theorem FreshCache.drop {s : St} {i : Nat} {k : Key} (h : FreshCache s i k) (j : Nat) (x : Key) : FreshCache (drop s j x) i k := by
  intro v hv
  obtain ⟨n, c, h1, h2, h3, h4, h5⟩ := h v (drop_caches hv).1
  exact ⟨n, c, h1, h2, h3, h4, (get_congr (s := s) (s' := Inj.drop s j x) rfl rfl i k).trans h5⟩

theorem FreshCache.dropCalled {s : St} {i : Nat} {k : Key} (h : FreshCache s i k) (j p : Nat) (x : Key) (out : Bool) (args : List Val) :
    FreshCache (Inj.drop (called j p x out args s) j x) i k := by
  intro v hv
  rw [drop_called_caches] at hv
  obtain ⟨n, c, h1, h2, h3, h4, h5⟩ := h v (drop_caches hv).1
  exact ⟨n, c, h1, getElem?_append_some h2 _, h3, h4,
    (get_congr (s := s) (s' := Inj.drop (called j p x out args s) j x) rfl rfl i k).trans h5⟩

theorem FreshCache.withFn {s : St} {i : Nat} {k : Key} (h : FreshCache s i k) (pr : Prov) : FreshCache (withFn s pr) i k := by
  intro v hv
  obtain ⟨n, c, h1, h2, h3, h4, h5⟩ := h v hv
  exact ⟨n, c, h1, h2, h3, h4, (get_withFn s pr i k).trans h5⟩

theorem FreshCache.clr {s : St} {i : Nat} {k : Key} (h : FreshCache s i k) : FreshCache (Inj.clr s) i k := by
  intro v hv
  obtain ⟨n, c, h1, h2, h3, h4, h5⟩ := h v hv
  exact ⟨n, c, h1, h2, h3, h4, (get_clr s i k).trans h5⟩

/-- Without lookups in `i`, nothing is cached there. -/
theorem no_looks_no_cache (f : Nat) (i : Nat) : ∀ cs, Cmds cs → (∀ x ∈ cs, ¬ Looks i x) → ∀ k, (reach f cs).caches i k = none := by
  refine snoc_ind ?_ ?_
  · intro _ _ k; rfl
  · intro cs c ih hcm hl k
    have w := WF.reach f cs hcm.snoc.1
    have ih' := ih hcm.snoc.1 (fun x hx => hl x (by simp [hx])) k
    have hc := hl c (by simp)
    rw [reach_snoc]
    generalize reach f cs = s at w ih'
    cases c with
    | setParent a b => simp only [Cmd.run, Inj.setParent]; split <;> exact ih'
    | provide j pr =>
      simp only [Cmd.run, Inj.provideAs]
      by_cases hj : i = j
      · subst hj
        rw [upd_same]
        by_cases hk : k = pr.name
        · rw [hk, upd_same]
        · rw [upd_ne _ _ _ _ hk]; exact ih'
      · rw [upd_ne _ _ _ _ hj]; exact ih'
    | find j x =>
      have hj : i ≠ j := fun h => hc (.inl ⟨x, by rw [h]⟩)
      obtain ⟨l, hlk, _⟩ := find_lka f s j x w hcm.snoc.2
      simp only [Cmd.run]
      rw [hlk.lk.ext.others i hj]; exact ih'
    | invoke j pr =>
      have hj : i ≠ j := fun h => hc (.inr ⟨pr, by rw [h]⟩)
      obtain ⟨hw, deps, out, hk⟩ := hcm.snoc.2
      simp only [Cmd.run]
      rcases invokeFn_lka f s j pr w hw hk with ⟨v, _, h2⟩ | ⟨l, s2, hlk, _, ⟨h2, _⟩ | ⟨args, h2⟩⟩
      · rw [h2]
        exact (drop_ne (fun g => hj g.1)).trans ih'
      · rw [h2, hlk.lk.ext.others i hj]; exact ih'
      · rw [h2]
        simp only
        have := drop_called_caches s2 j s.provs.length pr.name out args
        simp only at this
        rw [this, upd_ne _ _ _ _ hj, hlk.lk.ext.others i hj]; exact ih'

theorem quiet_fresh (f : Nat) (i : Nat) (k : Key) : ∀ cs, Cmds cs → Quiet i k cs → FreshCache (reach f cs) i k := by
  refine snoc_ind ?_ ?_
  · intro _ _ v hv; cases hv
  · intro cs c ih hcm hq
    have w := WF.reach f cs hcm.snoc.1
    have ih' := ih hcm.snoc.1 (fun cs1 c' cs2 e hm => hq cs1 c' (cs2 ++ [c]) (by rw [e]; simp) hm)
    by_cases hm : Moves i k c
    · -- nothing was looked up yet
      have hno := hq cs c [] rfl hm
      have hnc := no_looks_no_cache f i (cs ++ [c]) hcm (by
        intro x hx
        rcases List.mem_append.1 hx with hx | hx
        · exact hno x hx
        · simp only [List.mem_singleton] at hx
          subst hx
          rintro (⟨k', rfl⟩ | ⟨pr, rfl⟩)
          · rcases hm with ⟨_, _, h, _⟩ | ⟨_, _, h⟩ <;> cases h
          · rcases hm with ⟨_, _, h, _⟩ | ⟨_, _, h⟩ <;> cases h)
      intro v hv
      rw [hnc k] at hv; cases hv
    · rw [reach_snoc]
      generalize reach f cs = s at w ih'
      cases c with
      | setParent a b => exact absurd (.inr ⟨a, b, rfl⟩) hm
      | provide j pr =>
        simp only [Cmd.run]
        by_cases hk : pr.name = k
        · have hj : j = i := by
            apply Classical.byContradiction
            intro hj
            exact hm (.inl ⟨j, pr, rfl, hj, hk⟩)
          subst hj; subst hk
          intro v hv
          simp [Inj.provideAs, upd_same] at hv
        · intro v hv
          have hv' : s.caches i k = some v := by
            simp only [Inj.provideAs] at hv
            by_cases hj : i = j
            · subst hj
              rw [upd_same, upd_ne _ _ _ _ (fun g => hk g.symm)] at hv; exact hv
            · rw [upd_ne _ _ _ _ hj] at hv; exact hv
          obtain ⟨n, c, h1, h2, h3, h4, h5⟩ := ih' v hv'
          exact ⟨n, c, h1, h2, h3, h4, (get_provide_ne hk i).trans h5⟩
      | find j x =>
        obtain ⟨l, hlk, _⟩ := find_lka f s j x w hcm.snoc.2
        exact hlk.fresh ih'.clr
      | invoke j pr =>
        obtain ⟨hw, deps, out, hkd⟩ := hcm.snoc.2
        simp only [Cmd.run]
        rcases invokeFn_lka f s j pr w hw hkd with ⟨v, _, h2⟩ | ⟨l, s2, hlk, _, ⟨h2, _⟩ | ⟨args, h2⟩⟩
        · rw [h2]; exact (ih'.withFn pr).drop _ _
        · rw [h2]; exact hlk.fresh (ih'.withFn pr)
        · rw [h2]; exact (hlk.fresh (ih'.withFn pr)).dropCalled _ _ _ _ _

/-- **C22 (partial).** If, after the first lookup in `i`, no other injector is given a provider for `k` and no parent is set,
then `Find` always gives the value of the nearest provider or a result of its function called in this injector. -/
theorem C22_nearest_partial {f f' : Nat} {cs : List Cmd} (h : Cmds cs) {i : Nat} {k : Key} {v : Val} {s' : St} (hk : k ≠ [])
    (hq : Quiet i k cs) (hf : find f' (reach f cs) i k = (.ok v, s')) :
    ∃ pr, Nearest cs i k pr ∧ (pr.kind = .value v ∨
      ∃ n c, v = .res n ∧ s'.calls[n]? = some c ∧ c.inj = i ∧ (reach f cs).provs[c.prov]? = some pr) := by
  obtain ⟨pr, hN, hrest⟩ := C22_find_is_nearest h hk hf
  refine ⟨pr, hN, ?_⟩
  cases hc : (reach f cs).caches i k with
  | some v' =>
    rw [hc] at hrest
    obtain ⟨rfl, hcalls⟩ := hrest
    right
    obtain ⟨n, c, h1, h2, h3, h4, h5⟩ := quiet_fresh f i k cs h hq v hc
    refine ⟨n, c, h1, by rw [hcalls]; exact h2, h3, ?_⟩
    obtain ⟨p, hp, hpr⟩ := (get_nearest (f := f) h i k pr).2 hN
    rw [hp] at h5; injection h5 with h5; rw [← h5]; exact hpr
  | none =>
    rw [hc] at hrest
    rcases hrest with ⟨h1, _⟩ | ⟨deps, out, p, args, new, h1, h2, h3, h4⟩
    · exact .inl h1
    · refine .inr ⟨_, ⟨i, p, k, args⟩, h4, ?_, rfl, h2⟩
      rw [h3]
      simp

/-- **C22 fails** in general: a value made in a child injector stays although the parent, which has the nearest provider,
was given another value. -/
theorem C22_nearest_violated :
    ∃ (cs : List Cmd) (i : Nat) (k : Key) (w : Val), Cmds cs ∧ k ≠ [] ∧ Nearest cs i k ⟨k, .value w⟩ ∧
      ∀ f f', (find (f' + 1) (reach (f + 1) cs) i k).1 = .ok (.res 0) ∧ w ≠ .res 0 := by
  let T : Key := b!":T:"
  refine ⟨[.setParent 1 0, .provide 0 ⟨T, .func [] true⟩, .find 1 T, .provide 0 ⟨T, .value (.obj 7)⟩], 1, T, .obj 7, ?_, by decide, ?_, ?_⟩
  · intro c hc
    simp only [List.mem_cons, List.not_mem_nil, or_false] at hc
    rcases hc with rfl | rfl | rfl | rfl
    · exact True.intro
    · exact ⟨by decide, by decide⟩
    · exact (by decide : T ≠ [])
    · exact (by decide : T ≠ [])
  · exact .up 1 0 T _ (by decide) (by decide) (.own 0 T _ (by decide))
  · intro f f'
    exact ⟨by rfl, by decide⟩

/-! ## C23 -/

/-- Number of calls made by injector `i` of providers for `k`. -/
def timesRun (l : List Call) (i : Nat) (k : Key) : Nat := (l.filter (fun c => decide (c.inj = i ∧ c.name = k))).length

theorem timesRun_append (l m : List Call) (i : Nat) (k : Key) : timesRun (l ++ m) i k = timesRun l i k + timesRun m i k := by
  simp [timesRun]

theorem timesRun_nodup {l : List Call} (h : (l.map Call.name).Nodup) (i : Nat) (k : Key) : timesRun l i k ≤ 1 := by
  induction l with
  | nil => simp [timesRun]
  | cons c l ih =>
    simp only [List.map_cons, List.nodup_cons] at h
    have := ih h.2
    by_cases hc : c.inj = i ∧ c.name = k
    · have hz : timesRun l i k = 0 := by
        unfold timesRun
        rw [List.length_eq_zero_iff, List.filter_eq_nil_iff]
        intro x hx
        simp only [decide_eq_true_eq]
        rintro ⟨_, hx2⟩
        exact h.1 (List.mem_map.2 ⟨x, hx, by rw [hx2, hc.2]⟩)
      have : timesRun (c :: l) i k = timesRun l i k + 1 := by simp [timesRun, hc]
      omega
    · have : timesRun (c :: l) i k = timesRun l i k := by
        unfold timesRun
        rw [List.filter_cons, if_neg (by simpa using hc)]
      omega

theorem timesRun_pos {l : List Call} {i : Nat} {k : Key} (h : timesRun l i k ≠ 0) : ∃ c ∈ l, c.inj = i ∧ c.name = k := by
  unfold timesRun at h
  have : l.filter (fun c => decide (c.inj = i ∧ c.name = k)) ≠ [] := fun e => h (by rw [e]; rfl)
  obtain ⟨c, hc⟩ := List.exists_mem_of_ne_nil _ this
  simp only [List.mem_filter, decide_eq_true_eq] at hc
  exact ⟨c, hc.1, hc.2⟩

/-- **C23.** In one `Find`, no type's provider is called twice, and none whose value was made before in this injector. -/
theorem C23_once_per_lookup {f f' : Nat} {cs : List Cmd} (h : Cmds cs) {i : Nat} {k : Key} (hk : k ≠ []) :
    ∃ new, (find f' (reach f cs) i k).2.calls = (reach f cs).calls ++ new ∧
      (∀ x, timesRun new i x ≤ 1) ∧ ∀ c ∈ new, c.inj = i ∧ (reach f cs).caches i c.name = none := by
  obtain ⟨l, hl, hn⟩ := find_lka f' (reach f cs) i k (WF.reach f cs h) hk
  exact ⟨l, hl.lk.calls, fun x => timesRun_nodup hn i x, fun c hc => ⟨(hl.lk.call c hc).1, (hl.lk.call c hc).2.2.1⟩⟩

/-- Call `c` discards what injector `i` made for `k`: a new provider for it, or `Invoke` of a function with that result. -/
def Resets (i : Nat) (k : Key) (c : Cmd) : Prop := ∃ pr, pr.name = k ∧ (c = .provide i pr ∨ c = .invoke i pr)

/-- Effect of one call on the runs and the cache of `(i, k)`. -/
def OnceEff (i : Nat) (k : Key) (s s' : St) (l : List Call) : Prop :=
  s'.calls = s.calls ++ l ∧ timesRun l i k ≤ 1 ∧ (∀ v, s.caches i k = some v → timesRun l i k = 0 ∧ s'.caches i k = some v) ∧
    (timesRun l i k ≠ 0 → s'.caches i k ≠ none)

theorem LkA.once {j : Nat} {t s' : St} {l : List Call} (h : LkA j t s' l) (hn : (l.map Call.name).Nodup) (i : Nat) (k : Key) :
    OnceEff i k t s' l := by
  refine ⟨h.lk.calls, timesRun_nodup hn i k, ?_, ?_⟩
  · intro v hv
    by_cases hj : i = j
    · subst hj
      refine ⟨?_, h.lk.ext.mono k v hv⟩
      apply Classical.byContradiction
      intro hne
      obtain ⟨c, hc, _, h2⟩ := timesRun_pos hne
      have := (h.lk.call c hc).2.2.1
      rw [h2, hv] at this; cases this
    · refine ⟨?_, by rw [h.lk.ext.others i hj]; exact hv⟩
      apply Classical.byContradiction
      intro hne
      obtain ⟨c, hc, h1, _⟩ := timesRun_pos hne
      exact hj (h1.symm.trans (h.lk.call c hc).1)
  · intro hne
    obtain ⟨c, hc, h1, h2⟩ := timesRun_pos hne
    have hj : i = j := h1.symm.trans (h.lk.call c hc).1
    subst hj
    exact (h.lk.caches k).2 (.inr ⟨c, hc, h2⟩)

theorem run_once {f : Nat} {s : St} (w : WF s) {c : Cmd} (hc : c.Wf) {i : Nat} {k : Key} (hr : ¬ Resets i k c) :
    ∃ l, OnceEff i k s (c.run f s) l := by
  cases c with
  | setParent a b =>
    refine ⟨[], ?_, by simp [timesRun], ?_, by simp [timesRun]⟩
    · simp only [Cmd.run, Inj.setParent, List.append_nil]; split <;> rfl
    · intro v hv
      refine ⟨by simp [timesRun], ?_⟩
      simp only [Cmd.run, Inj.setParent]; split <;> exact hv
  | provide j pr =>
    refine ⟨[], by simp [Cmd.run, Inj.provideAs], by simp [timesRun], ?_, by simp [timesRun]⟩
    intro v hv
    refine ⟨by simp [timesRun], ?_⟩
    simp only [Cmd.run, Inj.provideAs]
    by_cases hj : i = j
    · subst hj
      rw [upd_same, upd_ne _ _ _ _ (fun g => hr ⟨pr, g.symm, .inl rfl⟩)]; exact hv
    · rw [upd_ne _ _ _ _ hj]; exact hv
  | find j x =>
    obtain ⟨l, hl, hn⟩ := find_lka f s j x w hc
    exact ⟨l, hl.once hn i k⟩
  | invoke j pr =>
    obtain ⟨hw, deps, out, hkd⟩ := hc
    have hne : ¬ (i = j ∧ k = pr.name) := fun ⟨g1, g2⟩ => hr ⟨pr, g2.symm, .inr (by rw [g1])⟩
    simp only [Cmd.run]
    rcases invokeFn_lka f s j pr w hw hkd with ⟨v, _, h2⟩ | ⟨l, s2, hlk, hn, ⟨h2, _⟩ | ⟨args, h2⟩⟩
    · rw [h2]
      refine ⟨[], by simp, by simp [timesRun], ?_, by simp [timesRun]⟩
      intro v' hv'
      exact ⟨by simp [timesRun], (drop_ne hne).trans hv'⟩
    · rw [h2]; exact ⟨l, hlk.once hn i k⟩
    · rw [h2]
      obtain ⟨e1, e2, e3, e4⟩ := hlk.once hn i k
      have hlast : timesRun [⟨j, s.provs.length, pr.name, args⟩] i k = 0 := by
        unfold timesRun
        rw [List.length_eq_zero_iff, List.filter_eq_nil_iff]
        intro x hx
        simp only [List.mem_singleton] at hx
        subst hx
        simp only [decide_eq_true_eq]
        exact fun ⟨g1, g2⟩ => hne ⟨g1.symm, g2.symm⟩
      have hca : (drop (called j s.provs.length pr.name out args s2) j pr.name).caches i k = s2.caches i k := by
        rw [drop_called_caches]; exact drop_ne hne
      refine ⟨l ++ [⟨j, s.provs.length, pr.name, args⟩], ?_, ?_, ?_, ?_⟩
      · simp only [called]; rw [e1, List.append_assoc]
      · rw [timesRun_append, hlast]; omega
      · intro v hv
        obtain ⟨a, b⟩ := e3 v hv
        exact ⟨by rw [timesRun_append, hlast]; omega, hca.trans b⟩
      · intro hz
        rw [timesRun_append, hlast, Nat.add_zero] at hz
        rw [show (Res.ok (Val.res s2.calls.length), drop (called j s.provs.length pr.name out args s2) j pr.name).2.caches i k
          = s2.caches i k from hca]
        exact e4 hz

theorem reach_append (f : Nat) (cs cs' : List Cmd) : reach f (cs ++ cs') = cs'.foldl (Cmd.run f) (reach f cs) := by
  simp [reach]

theorem segment_once (f : Nat) (cs : List Cmd) (i : Nat) (k : Key) : ∀ cs' : List Cmd, Cmds (cs ++ cs') → (∀ c ∈ cs', ¬ Resets i k c) →
    ∃ l, OnceEff i k (reach f cs) (reach f (cs ++ cs')) l := by
  refine snoc_ind ?_ ?_
  · intro _ _
    exact ⟨[], by simp, by simp [timesRun], fun v hv => ⟨by simp [timesRun], by simpa using hv⟩, by simp [timesRun]⟩
  · intro cs' c ih hcm hr
    rw [← List.append_assoc] at hcm ⊢
    obtain ⟨l, e1, e2, e3, e4⟩ := ih hcm.snoc.1 (fun x hx => hr x (by simp [hx]))
    rw [reach_snoc]
    obtain ⟨m, g1, g2, g3, g4⟩ := run_once (f := f) (WF.reach f _ hcm.snoc.1) hcm.snoc.2 (hr c (by simp))
    refine ⟨l ++ m, by rw [g1, e1, List.append_assoc], ?_, ?_, ?_⟩
    · rw [timesRun_append]
      by_cases hz : timesRun l i k = 0
      · omega
      · have h0 := e4 hz
        cases hx : (reach f (cs ++ cs')).caches i k with
        | none => exact absurd hx h0
        | some v => have := (g3 v hx).1; omega
    · intro v hv
      obtain ⟨a, b⟩ := e3 v hv
      obtain ⟨a', b'⟩ := g3 v b
      exact ⟨by rw [timesRun_append]; omega, b'⟩
    · rw [timesRun_append]
      intro hz
      by_cases hm : timesRun m i k = 0
      · have h0 := e4 (by omega)
        cases hx : (reach f (cs ++ cs')).caches i k with
        | none => exact absurd hx h0
        | some v => rw [(g3 v hx).2]; exact fun h => nomatch h
      · exact g4 hm

/-- **C23 (partial).** As long as injector `i` is given no new provider for `k` and no function with result `k` is passed to its
`Invoke`, the providers for `k` are run at most once by `i`, over any number of lookups; not at all if a value was there. -/
theorem C23_at_most_once_partial {f : Nat} {cs cs' : List Cmd} {i : Nat} {k : Key} (h : Cmds (cs ++ cs')) (hr : ∀ c ∈ cs', ¬ Resets i k c) :
    timesRun ((reach f (cs ++ cs')).calls.drop (reach f cs).calls.length) i k ≤ 1 ∧
    ((reach f cs).caches i k ≠ none → timesRun ((reach f (cs ++ cs')).calls.drop (reach f cs).calls.length) i k = 0) := by
  obtain ⟨l, e1, e2, e3, e4⟩ := segment_once f cs i k cs' h hr
  rw [e1, List.drop_left]
  refine ⟨e2, ?_⟩
  intro hne
  cases hx : (reach f cs).caches i k with
  | none => exact absurd hx hne
  | some v => exact (e3 v hx).1

theorem get_run_static {f : Nat} {s : St} (w : WF s) {c : Cmd} (hc : c.Wf) (h : ¬ ∃ a b, c = .setParent a b) {i : Nat} {k : Key}
    (hg : get s i k ≠ none) : get (c.run f s) i k ≠ none := by
  cases c with
  | setParent a b => exact absurd ⟨a, b, rfl⟩ h
  | find j x =>
    obtain ⟨h1, h2, _⟩ := run_static w f _ hc (.inl ⟨j, x, rfl⟩)
    rw [get_congr h1 h2]; exact hg
  | invoke j x =>
    obtain ⟨h1, h2, _⟩ := run_static w f _ hc (.inr ⟨j, x, rfl⟩)
    rw [get_congr h1 h2]; exact hg
  | provide j pr =>
    have key : ∀ n i, getN s n i k ≠ none → getN (provideAs s j pr) n i k ≠ none := by
      intro n
      induction n with
      | zero => intro i h; exact absurd rfl h
      | succ n ih =>
        intro i hi
        simp only [getN] at hi ⊢
        cases hv : (provideAs s j pr).values i k with
        | some p => exact fun h => nomatch h
        | none =>
          have hv' : s.values i k = none := by
            simp only [provideAs] at hv
            by_cases hj : i = j
            · subst hj
              rw [upd_same] at hv
              by_cases hk : k = pr.name
              · rw [hk, upd_same] at hv; cases hv
              · rw [upd_ne _ _ _ _ hk] at hv; exact hv
            · rw [upd_ne _ _ _ _ hj] at hv; exact hv
          rw [hv'] at hi
          simp only at hi ⊢
          show (match s.parent i with | some j' => getN (provideAs s j pr) n j' k | none => none) ≠ none
          cases hp : s.parent i with
          | none => rw [hp] at hi; exact hi
          | some j' => rw [hp] at hi; exact ih j' hi
    exact key _ i hg

/-- **C23.** Later lookups return the same value: what a provider function returned to a `Find` is returned by every later
`Find` of that type in that injector, as long as it is not reset (see `Resets`) and no parent is changed. -/
theorem C23_same_value {f f' : Nat} {cs cs' : List Cmd} {i : Nat} {k : Key} {n : Nat} (hk : k ≠ [])
    (h : Cmds (cs ++ .find i k :: cs')) (hf : (find f (reach f cs) i k).1 = .ok (.res n))
    (hN : ∃ pr deps out, Nearest cs i k pr ∧ pr.kind = .func deps out)
    (hr : ∀ c ∈ cs', ¬ Resets i k c ∧ ¬ ∃ a b, c = .setParent a b) :
    find (f' + 1) (reach f (cs ++ .find i k :: cs')) i k = (.ok (.res n), clr (reach f (cs ++ .find i k :: cs'))) := by
  have e : cs ++ .find i k :: cs' = (cs ++ [.find i k]) ++ cs' := by simp
  rw [e] at h ⊢
  have h1 : Cmds (cs ++ [.find i k]) := fun c hc => h c (by simp only [List.mem_append] at hc ⊢; exact .inl hc)
  have w := WF.reach f cs h1.snoc.1
  obtain ⟨pr, deps, out, hNr, hkd⟩ := hN
  obtain ⟨p, hp, hpr⟩ := (get_nearest (f := f) h1.snoc.1 i k pr).2 hNr
  -- the value is cached after the first lookup
  have hc1 : (reach f (cs ++ [.find i k])).caches i k = some (.res n) := by
    rw [reach_snoc]
    simp only [Cmd.run]
    have hff : find f (reach f cs) i k = invoke f i (clr (reach f cs)) p := by
      unfold find; rw [hp]
    rw [hff] at hf ⊢
    obtain ⟨l, hl, hh⟩ := invoke_val i f (clr (reach f cs)) k p (w.status []) ((get_clr _ _ _).trans hp) hk
    rcases hh _ hf with g | ⟨_, p', pr', g1, g2, g3⟩
    · exact g
    · rw [hl.lk.ext.get, get_clr, hp] at g1; injection g1 with g1; subst g1
      rw [hl.lk.ext.provs] at g2
      have g2' : (reach f cs).provs[p]? = some pr' := g2
      rw [hpr] at g2'; injection g2' with g2'; subst g2'
      rw [hkd] at g3; cases g3
  have hg1 : get (reach f (cs ++ [.find i k])) i k ≠ none := by
    rw [reach_snoc]
    exact get_run_static w h1.snoc.2 (fun ⟨a, b, h⟩ => by cases h) (by rw [hp]; exact fun h => nomatch h)
  obtain ⟨l, _, _, e3, _⟩ := segment_once f (cs ++ [.find i k]) i k cs' h (fun c hc => (hr c hc).1)
  have hc2 := (e3 _ hc1).2
  have hg2 : ∀ cs' : List Cmd, Cmds ((cs ++ [.find i k]) ++ cs') → (∀ c ∈ cs', ¬ ∃ a b, c = .setParent a b) →
      get (reach f ((cs ++ [.find i k]) ++ cs')) i k ≠ none := by
    refine snoc_ind ?_ ?_
    · intro _ _; simpa using hg1
    · intro cs2 c ih hcm hs
      rw [← List.append_assoc] at hcm ⊢
      rw [reach_snoc]
      exact get_run_static (WF.reach f _ hcm.snoc.1) hcm.snoc.2 (hs c (by simp)) (ih hcm.snoc.1 (fun x hx => hs x (by simp [hx])))
  have hg3 := hg2 cs' h (fun c hc => (hr c hc).2)
  have w2 := WF.reach f _ h
  generalize reach f ((cs ++ [.find i k]) ++ cs') = s at hc2 hg3 w2
  cases hq : get s i k with
  | none => exact absurd hq hg3
  | some q =>
    obtain ⟨prq, hprq, hnq⟩ := get_prov w2 hq
    subst hnq
    simp only [find, hq]
    rw [invoke_cached (s := clr s) hprq hc2]

/-- **C23 fails** in general: passing a function with result type `k` to `Invoke` discards the value made for `k`, so the
next lookup runs the provider again although no provider was given in between. -/
theorem C23_at_most_once_violated :
    ∃ (cs : List Cmd) (i : Nat) (k : Key), Cmds cs ∧ (∀ pr, .provide i pr ∉ cs.drop 1) ∧
      ∀ f, timesRun ((reach (f + 1) cs).calls) i k = 2 := by
  let T : Key := b!":T:"
  refine ⟨[.provide 0 ⟨T, .func [] true⟩, .find 0 T, .invoke 0 ⟨T, .func [] true⟩, .find 0 T], 0, T, ?_, ?_, ?_⟩
  · intro c hc
    simp only [List.mem_cons, List.not_mem_nil, or_false] at hc
    rcases hc with rfl | rfl | rfl | rfl
    · exact ⟨by decide, by decide⟩
    · exact (by decide : T ≠ [])
    · exact ⟨⟨by decide, by decide⟩, [], true, rfl⟩
    · exact (by decide : T ≠ [])
  · intro pr h
    simp at h
  · intro f
    rfl

/-- The hypotheses are met: a provider with a dependency, found twice. -/
example : let A : Key := b!":A:"; let B : Key := b!":B:"
    let cs : List Cmd := [.setParent 1 0, .provide 0 ⟨A, .func [B] true⟩, .provide 0 ⟨B, .func [] true⟩, .find 1 A, .find 1 B, .find 1 A]
    Cmds cs ∧ Quiet 1 A cs ∧ (find 9 (reach 9 cs) 1 A).1 = .ok (.res 1) ∧
      (reach 9 cs).calls = [⟨1, 1, B, []⟩, ⟨1, 0, A, [.res 0]⟩] := by
  refine ⟨?_, ?_, by decide +kernel, by decide +kernel⟩
  · intro c hc
    simp only [List.mem_cons, List.not_mem_nil, or_false] at hc
    rcases hc with rfl | rfl | rfl | rfl | rfl | rfl
    · exact True.intro
    · exact ⟨by decide, by decide⟩
    · exact ⟨by decide, by decide⟩
    all_goals (simp only [Cmd.Wf]; decide)
  · intro cs1 c cs2 e hm x hx
    -- a disturbing call is among the first three, and these are no lookups
    have : ∀ n, n < 3 → ∀ y, ([.setParent 1 0, .provide 0 ⟨b!":A:", .func [b!":B:"] true⟩, .provide 0 ⟨b!":B:", .func [] true⟩,
        .find 1 b!":A:", .find 1 b!":B:", .find 1 b!":A:"] : List Cmd)[n]? = some y → ¬ Looks 1 y := by
      intro n hn y hy
      rcases n with _ | _ | _ | n
      · injection hy with hy; subst hy; rintro (⟨_, h⟩ | ⟨_, h⟩) <;> cases h
      · injection hy with hy; subst hy; rintro (⟨_, h⟩ | ⟨_, h⟩) <;> cases h
      · injection hy with hy; subst hy; rintro (⟨_, h⟩ | ⟨_, h⟩) <;> cases h
      · omega
    have hlen : cs1.length < 3 := by
      apply Classical.byContradiction
      intro hge
      have hcn : ([.setParent 1 0, .provide 0 ⟨b!":A:", .func [b!":B:"] true⟩, .provide 0 ⟨b!":B:", .func [] true⟩,
        .find 1 b!":A:", .find 1 b!":B:", .find 1 b!":A:"] : List Cmd)[cs1.length]? = some c := by
        rw [e]; simp
      have hl := congrArg List.length e
      simp only [List.length_cons, List.length_nil, List.length_append] at hl
      have : cs1.length = 3 ∨ cs1.length = 4 ∨ cs1.length = 5 := by omega
      rcases this with h | h | h <;> rw [h] at hcn <;> injection hcn with hcn <;> subst hcn <;>
        rcases hm with ⟨_, _, h, _⟩ | ⟨_, _, h⟩ <;> cases h
    obtain ⟨n, hn, hx'⟩ := List.getElem_of_mem hx
    refine this n (by omega) x ?_
    have h0 : cs1[n]? = some x := by rw [List.getElem?_eq_getElem hn, hx']
    rw [e]; exact getElem?_append_some h0 _

end Verif.Inj
