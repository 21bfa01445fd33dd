import Verif.Proofs.InjectRank
/-! # Proofs about the injector: completeness and termination -/
namespace Verif.Inj

/-- The provider found for `x` has already succeeded once. -/
def DoneKey (s : St) (i : Nat) (x : Key) : Prop := ∀ p, get s i x = some p → s.done p ≠ 0

theorem DoneKey.ext {i : Nat} {s s' : St} (e : Ext i s s') {x : Key} (h : DoneKey s i x) : DoneKey s' i x := by
  intro p hp
  rw [e.get] at hp
  have := e.done p
  have := h p hp
  omega

/-- The dependency loop succeeds if all dependencies are resolvable. -/
theorem idep_complete {s0 : St} {i n f : Nat} (ih : ∀ s k p, WF s → Ext i s0 s → get s i k = some p → k ≠ [] → ResN s0 i n k →
    (∀ x ∈ s.status, x ≠ [] → ¬ ResN s0 i n x ∨ DoneKey s i x) →
    ∃ v s', invoke f i s p = (.ok v, s') ∧ ∀ x ∈ s'.status, x ∈ s.status ∨ DoneKey s' i x) : ∀ ds acc s1, WF s1 → Ext i s0 s1 → [] ∉ ds → (∀ d ∈ ds, ResN s0 i n d) →
    (∀ x ∈ s1.status, x ≠ [] → ¬ ResN s0 i n x ∨ DoneKey s1 i x) →
    ∃ vs s', idep f i ds acc s1 = (.ok vs, s') ∧ ∀ x ∈ s'.status, x ∈ s1.status ∨ DoneKey s' i x := by
  intro ds
  induction ds with
  | nil => intro acc s1 _ _ _ _ _; exact ⟨acc, s1, rfl, fun x hx => .inl hx⟩
  | cons d ds ihd =>
    intro acc s1 w1 e1 hne hall hst1
    have hd : d ≠ [] := fun h => hne (by simp [h])
    have hds : [] ∉ ds := fun h => hne (by simp [h])
    have hrd := hall d (by simp)
    have w0 : WF s0 := ⟨fun i k p h => by rw [← e1.provs]; exact w1.vals i k p (e1.values ▸ h),
          fun p pr h => w1.provs p pr (e1.provs ▸ h), fun a b h => w1.parent a b (e1.parent ▸ h),
          fun j => by
            by_cases hj : j = i
            · subst hj; exact none_of_ext e1 (w1.nil j)
            · rw [← e1.others j hj]; exact w1.nil j⟩
    have hg : ∃ q, get s1 i d = some q := by
      obtain ⟨q, hq⟩ := ((resolvable_iff w0).2 ⟨n, hrd⟩).get
      exact ⟨q, (e1.get i d).trans hq⟩
    obtain ⟨q, hq⟩ := hg
    have hcheck : ¬ (s1.done q = 0 ∧ nameOf s1 q ∈ s1.status) := by
      rintro ⟨hz, hmem⟩
      rw [get_nameOf w1 hq] at hmem
      rcases hst1 d hmem hd with h | h
      · exact h hrd
      · exact h q hq hz
    obtain ⟨v, s2, hr, hst2⟩ := ih s1 d q w1 e1 hq hd hrd hst1
    have hlk := (invoke_lk i f s1 d q w1 hq hd).1
    rw [hr] at hlk
    obtain ⟨l, hl⟩ := hlk
    obtain ⟨vs, s', hrest, hst'⟩ := ihd (acc ++ [v]) s2 (hl.wf w1) (e1.trans hl.ext) hds
      (fun x hx => hall x (by simp [hx])) (by
        intro x hx hx0
        rcases hst2 x hx with h | h
        · exact (hst1 x h hx0).imp id (fun h => h.ext hl.ext)
        · exact .inr h)
    have hlk' := (idep_lk i f ds (acc ++ [v]) s2 (hl.wf w1) hds).1
    rw [hrest] at hlk'
    obtain ⟨l', hl'⟩ := hlk'
    refine ⟨vs, s', ?_, ?_⟩
    · simp only [idep]
      rw [invokeDeps_cons hq hcheck, hr]
      exact hrest
    · intro x hx
      rcases hst' x hx with h | h
      · exact (hst2 x h).imp id (fun h => h.ext hl'.ext)
      · exact .inr h

theorem invoke_complete {s0 : St} {i : Nat} : ∀ n f s k p, WF s → Ext i s0 s → get s i k = some p → k ≠ [] → ResN s0 i n k →
    n ≤ f → (∀ x ∈ s.status, x ≠ [] → ¬ ResN s0 i n x ∨ DoneKey s i x) →
    ∃ v s', invoke f i s p = (.ok v, s') ∧ ∀ x ∈ s'.status, x ∈ s.status ∨ DoneKey s' i x := by
  intro n
  induction n with
  | zero => intro f s k p _ _ _ _ h; exact absurd h id
  | succ n ih =>
    intro f s k p w e hp hk hres hf hst
    by_cases hsmall : ResN s0 i n k
    · exact ih f s k p w e hp hk hsmall (by omega) (fun x hx hx0 => (hst x hx hx0).imp (fun h g => h g.succ) id)
    cases f with
    | zero => omega
    | succ f =>
      obtain ⟨p', pr, h1, h2, h3⟩ := hres
      rw [← e.get i k, hp] at h1
      injection h1 with h1; subst h1
      rw [← e.provs] at h2
      obtain ⟨pr', hpr', hn⟩ := get_prov w hp
      rw [h2] at hpr'; injection hpr' with hpr'; subst hpr'
      cases hcc : s.caches i pr.name with
      | some v' => exact ⟨v', s, invoke_cached h2 hcc, fun x hx => .inl hx⟩
      | none =>
        cases hkd : pr.kind with
        | value v' =>
          refine ⟨v', _, invoke_value h2 hcc hkd, ?_⟩
          intro x hx
          simp only [List.mem_cons] at hx
          rcases hx with hx | hx
          · right
            intro q hq
            have : get s i x = some q := (get_congr (s := s) (s' := { s with status := pr.name :: s.status, done := upd s.done p (s.done p + 1) }) rfl rfl i x).symm.trans hq
            rw [hx, hn, hp] at this
            injection this with this; subst this
            simp [upd_same]
          · exact .inl hx
        | func deps out =>
          have hdeps : ∀ d ∈ deps, ResN s0 i n d := by
            rcases h3 with h3 | ⟨v', h3⟩ | ⟨deps', out', h3, h4⟩
            · rw [hn] at hcc
              exact absurd (none_of_ext e hcc) h3
            · rw [hkd] at h3; cases h3
            · rw [hkd] at h3; cases h3; exact h4
          have hpush : Lk i s { s with status := pr.name :: s.status } [] := Lk.push s pr.name
          have hdn := Wf_deps (w.provs p pr h2) hkd
          obtain ⟨args, s1, hr, hst1⟩ := idep_complete (s0 := s0) (i := i) (n := n) (f := f) (fun s k p w e hp hk hr hst => ih f s k p w e hp hk hr (by omega) hst) deps [] { s with status := pr.name :: s.status } (hpush.wf w) (e.trans hpush.ext)
            hdn hdeps (by
              intro x hx hx0
              simp only [List.mem_cons] at hx
              rcases hx with hx | hx
              · left; rw [hx, hn]; exact hsmall
              · rcases hst x hx hx0 with h | h
                · exact .inl (fun g => h g.succ)
                · exact .inr (h.ext hpush.ext))
          have hext := invoke_ext i (f + 1) s p
          have hinv : invoke (f + 1) i s p = (.ok (.res s1.calls.length), called i p pr.name out args s1) := by
            rw [invoke_func h2 hcc hkd]
            simp only [idep] at hr
            rw [hr]
          refine ⟨_, _, hinv, ?_⟩
          rw [hinv] at hext
          intro x hx
          simp only [called] at hx
          have hdk : DoneKey (called i p pr.name out args s1) i k := by
            intro q hq
            rw [hext.get, hp] at hq
            injection hq with hq; subst hq
            simp [called, upd_same]
          rcases hst1 x hx with h | h
          · simp only [List.mem_cons] at h
            rcases h with h | h
            · right; rw [show x = k from h.trans hn]; exact hdk
            · exact .inl h
          · right
            intro q hq
            rw [hext.get] at hq
            have hlk1 := (idep_lk i f deps [] { s with status := pr.name :: s.status } (hpush.wf w) hdn).1
            rw [hr] at hlk1
            obtain ⟨l1, hl1⟩ := hlk1
            have hz := h q (by rw [hl1.ext.get, hpush.ext.get]; exact hq)
            simp only [called]
            by_cases hqp : q = p
            · subst hqp; simp [upd_same]
            · rw [upd_ne _ _ _ _ hqp]; exact hz

/-! ## Termination -/

/-- The providers needed for `k` form no cycle (providers may be missing). -/
inductive Acyclic (s : St) (i : Nat) : Key → Prop where
  | missing (k : Key) : get s i k = none → Acyclic s i k
  | cached (k : Key) : s.caches i k ≠ none → Acyclic s i k
  | value (k : Key) (p : Nat) (pr : Prov) (v : Val) : get s i k = some p → s.provs[p]? = some pr → pr.kind = .value v →
      Acyclic s i k
  | func (k : Key) (p : Nat) (pr : Prov) (deps : List Key) (out : Bool) : get s i k = some p → s.provs[p]? = some pr →
      pr.kind = .func deps out → (∀ d ∈ deps, Acyclic s i d) → Acyclic s i k

theorem Acyclic.ext {i : Nat} {s s' : St} (e : Ext i s s') {k : Key} (h : Acyclic s i k) : Acyclic s' i k := by
  induction h with
  | missing k h => exact .missing k ((e.get i k).trans h)
  | cached k h => exact .cached k (fun hn => h (none_of_ext e hn))
  | value k p pr v h1 h2 h3 => exact .value k p pr v ((e.get i k).trans h1) (e.provs ▸ h2) h3
  | func k p pr deps out h1 h2 h3 _ ih => exact .func k p pr deps out ((e.get i k).trans h1) (e.provs ▸ h2) h3 ih

theorem Resolvable.acyclic {i : Nat} {s : St} {k : Key} (h : Resolvable s i k) : Acyclic s i k := by
  induction h with
  | cached k p _ h => exact .cached k h
  | value k p pr v h1 h2 h3 => exact .value k p pr v h1 h2 h3
  | func k p pr deps out h1 h2 h3 _ ih => exact .func k p pr deps out h1 h2 h3 ih

theorem idep_mono {i f f' : Nat} (hf : f ≤ f') (ds : List Key) (acc : List Val) (s : St) (h : (idep f i ds acc s).1 ≠ .diverge) :
    idep f' i ds acc s = idep f i ds acc s :=
  invokeDeps_mono (i := i) (fun s q hq => invoke_mono hf s q hq) ds acc s h

/-- The loop terminates if every lookup in it does; `I` holds along the way. -/
theorem deps_terminate {i : Nat} {I : St → Prop} (hI : ∀ s d q f, I s → get s i d = some q → d ≠ [] → I (invoke f i s q).2) :
    ∀ ds acc s, I s → [] ∉ ds →
      (∀ d ∈ ds, ∀ s' q, I s' → get s' i d = some q → ¬ (s'.done q = 0 ∧ nameOf s' q ∈ s'.status) →
        ∃ f, (invoke f i s' q).1 ≠ .diverge) →
      ∃ f, (idep f i ds acc s).1 ≠ .diverge := by
  intro ds
  induction ds with
  | nil => intro acc s _ _ _; exact ⟨0, by simp [idep, invokeDeps]⟩
  | cons d ds ih =>
    intro acc s hs hne h
    have hd : d ≠ [] := fun h => hne (by simp [h])
    have hds : [] ∉ ds := fun h => hne (by simp [h])
    cases hq : get s i d with
    | none => exact ⟨0, by simp [idep, invokeDeps, hq]⟩
    | some q =>
      by_cases hc : s.done q = 0 ∧ nameOf s q ∈ s.status
      · exact ⟨0, by simp [idep, invokeDeps, hq, hc]⟩
      · obtain ⟨f1, hf1⟩ := h d (by simp) s q hs hq hc
        cases hr : invoke f1 i s q with
        | mk r s1 =>
          rw [hr] at hf1
          cases r with
          | diverge => exact absurd rfl hf1
          | err =>
            refine ⟨f1, ?_⟩
            simp only [idep]
            rw [invokeDeps_cons hq hc, hr]
            simp
          | ok v =>
            have hs1 := hI s d q f1 hs hq hd
            rw [hr] at hs1
            obtain ⟨f2, hf2⟩ := ih (acc ++ [v]) s1 hs1 hds (fun x hx => h x (by simp [hx]))
            refine ⟨max f1 f2, ?_⟩
            simp only [idep]
            rw [invokeDeps_cons hq hc, invoke_mono (Nat.le_max_left f1 f2) s q (by rw [hr]; simp), hr]
            have := idep_mono (i := i) (Nat.le_max_right f1 f2) ds (acc ++ [v]) s1 hf2
            simp only [idep] at this
            simp only
            rw [this]
            exact hf2

theorem invoke_func_diverge {i f : Nat} {s : St} {p : Nat} {pr : Prov} {deps : List Key} {out : Bool}
    (hpr : s.provs[p]? = some pr) (hc : s.caches i pr.name = none) (hk : pr.kind = .func deps out)
    (h : (idep f i deps [] { s with status := pr.name :: s.status }).1 ≠ .diverge) : (invoke (f + 1) i s p).1 ≠ .diverge := by
  rw [invoke_func hpr hc hk]
  simp only [idep] at h
  generalize invokeDeps (fun s q => invoke f i s q) i deps [] { s with status := pr.name :: s.status } = r at h ⊢
  obtain ⟨r, s'⟩ := r
  cases r with
  | ok a => simp
  | err => simp
  | diverge => exact absurd rfl h

theorem acyclic_terminates {i : Nat} {s : St} {k : Key} (h : Acyclic s i k) :
    ∀ s' p, WF s' → Ext i s s' → get s' i k = some p → ∃ f, (invoke f i s' p).1 ≠ .diverge := by
  induction h with
  | missing k h =>
    intro s' p w e hp
    rw [e.get, h] at hp; cases hp
  | cached k h =>
    intro s' p w e hp
    obtain ⟨pr, hpr, hn⟩ := get_prov w hp
    cases hc : s'.caches i pr.name with
    | none => rw [hn] at hc; exact absurd (none_of_ext e hc) h
    | some v => exact ⟨1, by rw [invoke_cached hpr hc]; simp⟩
  | value k p pr v h1 h2 h3 =>
    intro s' p' w e hp
    rw [e.get, h1] at hp; injection hp with hp; subst hp
    rw [← e.provs] at h2
    cases hc : s'.caches i pr.name with
    | none => exact ⟨1, by rw [invoke_value h2 hc h3]; simp⟩
    | some v => exact ⟨1, by rw [invoke_cached h2 hc]; simp⟩
  | func k p pr deps out h1 h2 h3 _ ih =>
    intro s' p' w e hp
    rw [e.get, h1] at hp; injection hp with hp; subst hp
    rw [← e.provs] at h2
    cases hc : s'.caches i pr.name with
    | some v => exact ⟨1, by rw [invoke_cached h2 hc]; simp⟩
    | none =>
      have hpush : Lk i s' { s' with status := pr.name :: s'.status } [] := Lk.push s' pr.name
      have hdn := Wf_deps (w.provs p pr h2) h3
      obtain ⟨f, hf⟩ := deps_terminate (i := i) (I := fun t => WF t ∧ Ext i s t)
        (fun t d q f hI hq hd => by
          obtain ⟨l, hl⟩ := (invoke_lk i f t d q hI.1 hq hd).1
          exact ⟨hl.wf hI.1, hI.2.trans hl.ext⟩)
        deps [] { s' with status := pr.name :: s'.status } ⟨hpush.wf w, e.trans hpush.ext⟩ hdn
        (fun d hd t q hI hq _ => ih d hd t q hI.1 hI.2 hq)
      exact ⟨f + 1, invoke_func_diverge h2 hc h3 hf⟩

/-- Providers that succeeded before have no cycle below them (in injector `i`). -/
def DoneAcyclic (s : St) (i : Nat) : Prop := ∀ k p, get s i k = some p → s.done p ≠ 0 → Acyclic s i k

theorem DoneAcyclic.lk {i : Nat} {s s' : St} {l : List Call} (w : WF s) (h : DoneAcyclic s i) (g : Lk i s s' l) : DoneAcyclic s' i := by
  intro k p hp hd
  rw [g.ext.get] at hp
  by_cases hz : s.done p = 0
  · obtain ⟨k', hk', hr⟩ := g.dn p (by rw [hz]; exact hd)
    have : k = k' := by rw [← get_nameOf w hp, get_nameOf w hk']
    subst this
    exact hr.acyclic.ext g.ext
  · exact (h k p hp hz).ext g.ext

theorem filter_length_le {α : Type} {p q : α → Bool} (hpq : ∀ a, q a = true → p a = true) :
    ∀ (l : List α), (l.filter q).length ≤ (l.filter p).length := by
  intro l
  induction l with
  | nil => simp
  | cons b l ih =>
    simp only [List.filter_cons]
    by_cases hqb : q b = true
    · simp [hqb, hpq b hqb]; exact ih
    · simp only [hqb]
      by_cases hpb : p b = true
      · simp [hpb]; omega
      · simp [hpb]; exact ih

/-- Number of providers whose type was not yet visited by the lookup. -/
def unseen (s : St) : Nat := (s.provs.filter (fun pr => decide (pr.name ∉ s.status))).length

theorem unseen_mono {i : Nat} {s s' : St} (e : Ext i s s') : unseen s' ≤ unseen s := by
  unfold unseen
  rw [e.provs]
  apply filter_length_le
  intro pr h
  simp only [decide_eq_true_eq] at h ⊢
  exact fun hm => h (e.status _ hm)

theorem filter_length_lt {α : Type} {p q : α → Bool} (hpq : ∀ a, q a = true → p a = true) :
    ∀ (l : List α) (a : α), a ∈ l → p a = true → q a = false → (l.filter q).length < (l.filter p).length := by
  intro l
  induction l with
  | nil => intro a h; cases h
  | cons b l ih =>
    intro a ha hp hq
    have hle : (l.filter q).length ≤ (l.filter p).length :=
      filter_length_le hpq l
    rcases List.mem_cons.1 ha with h | h
    · subst h
      simp only [List.filter_cons, hp, hq, if_true]
      simp only [List.length_cons]
      simp
      omega
    · have := ih a h hp hq
      simp only [List.filter_cons]
      by_cases hqb : q b = true
      · simp [hqb, hpq b hqb]; exact this
      · simp only [hqb]
        by_cases hpb : p b = true
        · simp [hpb]; omega
        · simp [hpb]; exact this

theorem unseen_push {s : St} {p : Nat} {pr : Prov} (hp : s.provs[p]? = some pr) (hn : pr.name ∉ s.status) :
    unseen { s with status := pr.name :: s.status } < unseen s := by
  unfold unseen
  refine filter_length_lt ?_ s.provs pr (List.mem_of_getElem? hp) ?_ ?_
  · intro a h
    simp only [decide_eq_true_eq, List.mem_cons, not_or] at h ⊢
    exact h.2
  · simpa using hn
  · simp

theorem terminates_aux {i : Nat} : ∀ m s k p, WF s → DoneAcyclic s i → unseen s ≤ m → get s i k = some p →
    ¬ (s.done p = 0 ∧ nameOf s p ∈ s.status) → ∃ f, (invoke f i s p).1 ≠ .diverge := by
  intro m
  induction m with
  | zero =>
    intro s k p w h hu hp hc
    by_cases hd : s.done p = 0
    · obtain ⟨pr, hpr, hn⟩ := get_prov w hp
      have : pr.name ∉ s.status := fun hm => hc ⟨hd, by rw [get_nameOf w hp, ← hn]; exact hm⟩
      have := unseen_push hpr this
      omega
    · exact acyclic_terminates (h k p hp hd) s p w (Ext.refl i s) hp
  | succ m ih =>
    intro s k p w h hu hp hc
    by_cases hd : s.done p = 0
    · obtain ⟨pr, hpr, hn⟩ := get_prov w hp
      have hns : pr.name ∉ s.status := fun hm => hc ⟨hd, by rw [get_nameOf w hp, ← hn]; exact hm⟩
      have hlt := unseen_push hpr hns
      cases hcc : s.caches i pr.name with
      | some v => exact ⟨1, by rw [invoke_cached hpr hcc]; simp⟩
      | none =>
        cases hkd : pr.kind with
        | value v => exact ⟨1, by rw [invoke_value hpr hcc hkd]; simp⟩
        | func deps out =>
          have hpush : Lk i s { s with status := pr.name :: s.status } [] := Lk.push s pr.name
          have hdn := Wf_deps (w.provs p pr hpr) hkd
          obtain ⟨f, hf⟩ := deps_terminate (i := i) (I := fun t => WF t ∧ DoneAcyclic t i ∧ unseen t ≤ m)
            (fun t d q f hI hq hd => by
              obtain ⟨l, hl⟩ := (invoke_lk i f t d q hI.1 hq hd).1
              exact ⟨hl.wf hI.1, hI.2.1.lk hI.1 hl, Nat.le_trans (unseen_mono hl.ext) hI.2.2⟩)
            deps [] { s with status := pr.name :: s.status } ⟨hpush.wf w, h.lk w hpush, by omega⟩ hdn
            (fun d hd t q hI hq hcq => ih t d q hI.1 hI.2.1 hI.2.2 hq hcq)
          exact ⟨f + 1, invoke_func_diverge hpr hcc hkd hf⟩
    · exact acyclic_terminates (h k p hp hd) s p w (Ext.refl i s) hp

end Verif.Inj
