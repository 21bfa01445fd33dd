import Verif.Proofs.Inject
/-! # Proofs about the injector: each provider once, completeness, termination -/
namespace Verif.Inj

/-- The state after a provider function was called. -/
def called (i p : Nat) (k : Key) (out : Bool) (args : List Val) (s : St) : St :=
  { s with
    calls := s.calls ++ [⟨i, p, k, args⟩]
    caches := if out then upd s.caches i (upd (s.caches i) k (some (.res s.calls.length))) else s.caches
    done := upd s.done p (s.done p + 1) }

/-- `invoke` on an uncached function provider. -/
theorem invoke_func {i f : Nat} {s : St} {p : Nat} {pr : Prov} {deps : List Key} {out : Bool} (hpr : s.provs[p]? = some pr)
    (hc : s.caches i pr.name = none) (hk : pr.kind = .func deps out) :
    invoke (f + 1) i s p =
      match invokeDeps (fun s q => invoke f i s q) i deps [] { s with status := pr.name :: s.status } with
      | (.ok args, s') => (.ok (.res s'.calls.length), called i p pr.name out args s')
      | (.err, s') => (.err, s')
      | (.diverge, s') => (.diverge, s') := by
  simp only [invoke, hpr, hc, hk]
  rfl

theorem invoke_value {i f : Nat} {s : St} {p : Nat} {pr : Prov} {v : Val} (hpr : s.provs[p]? = some pr)
    (hc : s.caches i pr.name = none) (hk : pr.kind = .value v) :
    invoke (f + 1) i s p = (.ok v, { s with status := pr.name :: s.status, done := upd s.done p (s.done p + 1) }) := by
  simp only [invoke, hpr, hc, hk]

theorem invoke_cached {i f : Nat} {s : St} {p : Nat} {pr : Prov} {v : Val} (hpr : s.provs[p]? = some pr)
    (hc : s.caches i pr.name = some v) : invoke (f + 1) i s p = (.ok v, s) := by
  simp only [invoke, hpr, hc]

/-- The loop up to and including one dependency. -/
theorem invokeDeps_cons {inv : St → Nat → Res Val × St} {i : Nat} {d : Key} {ds : List Key} {acc : List Val} {s : St} {q : Nat}
    (hq : get s i d = some q) (hn : ¬ (s.done q = 0 ∧ nameOf s q ∈ s.status)) :
    invokeDeps inv i (d :: ds) acc s =
      match inv s q with
      | (.ok v, s') => invokeDeps inv i ds (acc ++ [v]) s'
      | (.err, s') => (.err, s')
      | (.diverge, s') => (.diverge, s') := by
  simp only [invokeDeps, hq, if_neg hn]
  rfl

/-- If the loop succeeds, so does its first step. -/
theorem invokeDeps_cons_ok {inv : St → Nat → Res Val × St} {i : Nat} {d : Key} {ds : List Key} {acc : List Val} {s s' : St}
    {vs : List Val} (h : invokeDeps inv i (d :: ds) acc s = (.ok vs, s')) :
    ∃ q v s1, get s i d = some q ∧ ¬ (s.done q = 0 ∧ nameOf s q ∈ s.status) ∧ inv s q = (.ok v, s1) ∧
      invokeDeps inv i ds (acc ++ [v]) s1 = (.ok vs, s') := by
  simp only [invokeDeps] at h
  split at h
  · cases h
  · rename_i q hq
    split at h
    · cases h
    · rename_i hn
      cases hr : inv s q with
      | mk r s1 =>
        rw [hr] at h
        cases r with
        | ok v => exact ⟨q, v, s1, hq, hn, hr, h⟩
        | err => cases h
        | diverge => cases h

theorem append_split {α : Type} {a l m1 m2 : List α} (h : a ++ l = (a ++ m1) ++ m2) : l = m1 ++ m2 := by
  rw [List.append_assoc] at h
  exact List.append_cancel_left h

/-- The dependency loop of `invoke`. -/
abbrev idep (f i : Nat) (ds : List Key) (acc : List Val) (s : St) : Res (List Val) × St :=
  invokeDeps (fun s q => invoke f i s q) i ds acc s

theorem idep_lk (i f : Nat) (ds : List Key) (acc : List Val) (s : St) (w : WF s) (hne : [] ∉ ds) :
    (∃ l, Lk i s (idep f i ds acc s).2 l) ∧ ∀ vs, (idep f i ds acc s).1 = .ok vs → ∀ d ∈ ds, Resolvable s i d :=
  invokeDeps_lk (i := i) (fun s k q w hq hk => invoke_lk i f s k q w hq hk) ds acc s w hne

/-! ## Calls of a successful lookup are at most as deep as the key looked up -/

theorem deps_rank {s0 : St} {i n f : Nat}
    (hinv : ∀ s k q v s' l, WF s → Ext i s0 s → get s i k = some q → k ≠ [] → ResN s0 i n k → invoke f i s q = (.ok v, s') →
      s'.calls = s.calls ++ l → ∀ c ∈ l, ResN s0 i n c.name) :
    ∀ ds acc s vs s' l, WF s → Ext i s0 s → [] ∉ ds → (∀ d ∈ ds, ResN s0 i n d) → idep f i ds acc s = (.ok vs, s') →
      s'.calls = s.calls ++ l → ∀ c ∈ l, ResN s0 i n c.name := by
  intro ds
  induction ds with
  | nil =>
    intro acc s vs s' l w e _ hres h hl c hc
    simp only [idep, invokeDeps] at h
    injection h with h1 h2
    subst h2
    have : l = [] := List.self_eq_append_right.mp hl
    subst this
    cases hc
  | cons d ds ih =>
    intro acc s vs s' l w e hne hres h hl c hc
    have hd : d ≠ [] := fun h => hne (by simp [h])
    have hds : [] ∉ ds := fun h => hne (by simp [h])
    obtain ⟨q, v, s1, hq, _, hr, hrest⟩ := invokeDeps_cons_ok h
    obtain ⟨⟨l1, hl1⟩, _⟩ := invoke_lk i f s d q w hq hd
    rw [hr] at hl1
    obtain ⟨⟨l2, hl2⟩, _⟩ := idep_lk i f ds (acc ++ [v]) s1 (hl1.wf w) hds
    have hrest' : idep f i ds (acc ++ [v]) s1 = (.ok vs, s') := hrest
    rw [hrest'] at hl2
    have h12 : l = l1 ++ l2 := append_split (a := s.calls) (by
      have h1 := hl1.calls
      have h2 := hl2.calls
      simp only at h1 h2
      rw [← hl, h2, h1])
    subst h12
    rcases List.mem_append.1 hc with hc | hc
    · exact hinv s d q v s1 l1 w e hq hd (hres d (by simp)) hr hl1.calls c hc
    · exact ih (acc ++ [v]) s1 vs s' l2 (hl1.wf w) (e.trans hl1.ext) hds (fun x hx => hres x (by simp [hx])) hrest hl2.calls c hc

theorem invoke_rank {s0 : St} {i : Nat} : ∀ n f s k p v s' l, WF s → Ext i s0 s → get s i k = some p → k ≠ [] → ResN s0 i n k →
    invoke f i s p = (.ok v, s') → s'.calls = s.calls ++ l → ∀ c ∈ l, ResN s0 i n c.name := by
  intro n
  induction n with
  | zero => intro f s k p v s' l _ _ _ _ h; exact absurd h id
  | succ n ih =>
    intro f s k p v s' l w e hp hk hres h hl c hc
    cases f with
    | zero => simp [invoke] at h
    | succ f =>
      have hres0 := hres
      obtain ⟨p', pr, h1, h2, h3⟩ := hres
      rw [← e.get i k, hp] at h1
      injection h1 with h1; subst h1
      rw [← e.provs] at h2
      obtain ⟨pr', hpr', hn⟩ := get_prov w hp
      rw [h2] at hpr'; injection hpr' with hpr'; subst hpr'
      cases hcc : s.caches i pr.name with
      | some v' =>
        rw [invoke_cached h2 hcc] at h
        injection h with _ h; subst h
        have : l = [] := List.self_eq_append_right.mp hl
        subst this; cases hc
      | none =>
        cases hkd : pr.kind with
        | value v' =>
          rw [invoke_value h2 hcc hkd] at h
          injection h with _ h; subst h
          have : l = [] := List.self_eq_append_right.mp hl
          subst this; cases hc
        | func deps out =>
          have hdeps : ∀ d ∈ deps, ResN s0 i n d := by
            rcases h3 with h3 | ⟨v', h3⟩ | ⟨deps', out', h3, h4⟩
            · rw [hn] at hcc
              exact absurd (none_of_ext e hcc) h3
            · rw [hkd] at h3; cases h3
            · rw [hkd] at h3; cases h3; exact h4
          rw [invoke_func h2 hcc hkd] at h
          have hpush : Lk i s { s with status := pr.name :: s.status } [] := Lk.push s pr.name
          have hlk := (idep_lk i f deps [] { s with status := pr.name :: s.status } (hpush.wf w)
            (Wf_deps (w.provs p pr h2) hkd)).1
          cases hr : idep f i deps [] { s with status := pr.name :: s.status } with
          | mk r s1 =>
            simp only [idep] at hr
            rw [hr] at h
            simp only [idep, hr] at hlk
            obtain ⟨l1, hl1⟩ := hlk
            cases r with
            | err => cases h
            | diverge => cases h
            | ok args =>
              injection h with _ h
              subst h
              have h12 : l = l1 ++ [⟨i, p, pr.name, args⟩] := append_split (a := s.calls) (by
                have h1 := hl1.calls
                simp only [called] at h1 hl
                rw [← hl, h1])
              subst h12
              rcases List.mem_append.1 hc with hc | hc
              · exact (deps_rank (fun s k q v s' l => ih f s k q v s' l) deps [] _ args s1 l1 (hpush.wf w) (e.trans hpush.ext)
                  (Wf_deps (w.provs p pr h2) hkd) hdeps hr hl1.calls c hc).succ
              · simp only [List.mem_singleton] at hc
                subst hc
                rw [hn]; exact hres0

/-! ## Every provider is called at most once in a lookup -/

theorem first_rank {P : Nat → Prop} (h0 : ¬ P 0) (h : ∃ n, P n) : ∃ n, ¬ P n ∧ P (n + 1) := by
  obtain ⟨n, hn⟩ := h
  induction n with
  | zero => exact absurd hn h0
  | succ n ih =>
    by_cases h : P n
    · exact ih h
    · exact ⟨n, h, hn⟩

theorem nodup_trans {i : Nat} {s s1 s2 : St} {l m : List Call} (h : Lk i s s1 l) (g : Lk i s1 s2 m)
    (hl : (l.map Call.name).Nodup) (hm : (m.map Call.name).Nodup) : ((l ++ m).map Call.name).Nodup := by
  rw [List.map_append, List.nodup_append]
  refine ⟨hl, hm, ?_⟩
  intro a ha b hb hab
  subst hab
  obtain ⟨c, hc, rfl⟩ := List.mem_map.1 ha
  obtain ⟨c', hc', hcc⟩ := List.mem_map.1 hb
  have h1 := (h.caches c.name).2 (.inr ⟨c, hc, rfl⟩)
  have h2 := (g.call c' hc').2.2.1
  rw [hcc] at h2
  exact h1 h2

theorem deps_nodup {i f : Nat}
    (hinv : ∀ s k q, WF s → get s i k = some q → k ≠ [] → ∃ l, Lk i s (invoke f i s q).2 l ∧ (l.map Call.name).Nodup) :
    ∀ ds acc s, WF s → [] ∉ ds → ∃ l, Lk i s (idep f i ds acc s).2 l ∧ (l.map Call.name).Nodup := by
  intro ds
  induction ds with
  | nil => intro acc s w _; exact ⟨[], Lk.refl i s, by simp⟩
  | cons d ds ih =>
    intro acc s w hne
    have hd : d ≠ [] := fun h => hne (by simp [h])
    have hds : [] ∉ ds := fun h => hne (by simp [h])
    simp only [idep, invokeDeps]
    split
    · exact ⟨[], Lk.refl i s, by simp⟩
    · rename_i q hq
      split
      · exact ⟨[], Lk.refl i s, by simp⟩
      · obtain ⟨l, hl, hln⟩ := hinv s d q w hq hd
        cases hr : invoke f i s q with
        | mk r s' =>
          rw [hr] at hl
          cases r with
          | ok v =>
            obtain ⟨m, hm, hmn⟩ := ih (acc ++ [v]) s' (hl.wf w) hds
            exact ⟨l ++ m, hl.trans hm, nodup_trans hl hm hln hmn⟩
          | err => exact ⟨l, hl, hln⟩
          | diverge => exact ⟨l, hl, hln⟩

theorem Lk.unique {i : Nat} {s s' : St} {l m : List Call} (h : Lk i s s' l) (g : Lk i s s' m) : l = m := by
  have := h.calls.symm.trans g.calls
  exact List.append_cancel_left this

theorem invoke_nodup (i : Nat) : ∀ f s k p, WF s → get s i k = some p → k ≠ [] →
    ∃ l, Lk i s (invoke f i s p).2 l ∧ (l.map Call.name).Nodup := by
  intro f
  induction f with
  | zero => intro s k p w hp hk; exact ⟨[], Lk.refl i s, by simp⟩
  | succ f ih =>
    intro s k p w hp hk
    obtain ⟨⟨l, hl⟩, hok⟩ := invoke_lk i (f + 1) s k p w hp hk
    refine ⟨l, hl, ?_⟩
    obtain ⟨pr, hpr, hn⟩ := get_prov w hp
    cases hcc : s.caches i pr.name with
    | some v' =>
      rw [invoke_cached hpr hcc] at hl
      rw [hl.unique (Lk.refl i s)]; simp
    | none =>
      cases hkd : pr.kind with
      | value v' =>
        rw [invoke_value hpr hcc hkd] at hl
        have := hl.calls
        have : l = [] := List.self_eq_append_right.mp this
        rw [this]; simp
      | func deps out =>
        have hpush : Lk i s { s with status := pr.name :: s.status } [] := Lk.push s pr.name
        have hdn := Wf_deps (w.provs p pr hpr) hkd
        rw [invoke_func hpr hcc hkd] at hl hok
        obtain ⟨m, hm, hmn⟩ := deps_nodup (i := i) (f := f) ih deps [] { s with status := pr.name :: s.status } (hpush.wf w) hdn
        have hres := (idep_lk i f deps [] { s with status := pr.name :: s.status } (hpush.wf w) hdn).2
        have hrk := fun n => deps_rank (s0 := s) (i := i) (n := n) (f := f) (fun s' k q v s'' l => invoke_rank n f s' k q v s'' l)
          deps [] { s with status := pr.name :: s.status }
        cases hr : idep f i deps [] { s with status := pr.name :: s.status } with
        | mk r s1 =>
          rw [hr] at hm hres hrk
          simp only [idep] at hr
          rw [hr] at hl hok
          cases r with
          | err =>
            have := hl.unique (hpush.trans hm)
            rw [this]; simpa using hmn
          | diverge =>
            have := hl.unique (hpush.trans hm)
            rw [this]; simpa using hmn
          | ok args =>
            have h12 : l = m ++ [⟨i, p, pr.name, args⟩] := append_split (a := s.calls) (by
              have h1 := hm.calls
              have h2 := hl.calls
              simp only [called] at h1 h2
              rw [← h2, h1])
            subst h12
            have hR : Resolvable s i k := hok _ rfl
            obtain ⟨n, hn1, hn2⟩ := first_rank (P := fun n => ResN s i n k) id ((resolvable_iff w).1 hR)
            have hdeps : ∀ d ∈ deps, ResN s i n d := by
              obtain ⟨p', pr', h1, h2, h3⟩ := hn2
              rw [hp] at h1; injection h1 with h1; subst h1
              rw [hpr] at h2; injection h2 with h2; subst h2
              rcases h3 with h3 | ⟨v', h3⟩ | ⟨deps', out', h3, h4⟩
              · rw [hn] at hcc; exact absurd hcc h3
              · rw [hkd] at h3; cases h3
              · rw [hkd] at h3; cases h3; exact h4
            have hall := hrk n args s1 m (hpush.wf w) hpush.ext hdn hdeps rfl hm.calls
            rw [List.map_append, List.nodup_append]
            refine ⟨hmn, by simp, ?_⟩
            intro a ha b hb hab
            simp only [List.map_cons, List.map_nil, List.mem_singleton] at hb
            obtain ⟨c, hc, rfl⟩ := List.mem_map.1 ha
            have := hall c hc
            rw [hab, hb, hn] at this
            exact hn1 this

end Verif.Inj
