import Verif.Model.Inject
/-! # Proofs about the injector: frame, fuel, resolvability -/
namespace Verif.Inj

theorem upd_same {α β : Type} [DecidableEq α] (f : α → β) (a : α) (b : β) : upd f a b a = b := by simp [upd]
theorem upd_ne {α β : Type} [DecidableEq α] (f : α → β) (a x : α) (b : β) (h : x ≠ a) : upd f a b x = f x := by
  simp [upd, h]

/-- What a lookup in injector `i` may change. -/
structure Ext (i : Nat) (s s' : St) : Prop where
  values : s'.values = s.values
  parent : s'.parent = s.parent
  provs : s'.provs = s.provs
  others : ∀ j, j ≠ i → s'.caches j = s.caches j
  mono : ∀ k v, s.caches i k = some v → s'.caches i k = some v
  done : ∀ p, s.done p ≤ s'.done p
  status : ∀ x, x ∈ s.status → x ∈ s'.status
  calls : ∃ l, s'.calls = s.calls ++ l

theorem Ext.refl (i : Nat) (s : St) : Ext i s s :=
  ⟨rfl, rfl, rfl, fun _ _ => rfl, fun _ _ h => h, fun _ => Nat.le_refl _, fun _ h => h, [], by simp⟩

theorem Ext.trans {i : Nat} {a b c : St} (h : Ext i a b) (g : Ext i b c) : Ext i a c := by
  obtain ⟨l, hl⟩ := h.calls
  obtain ⟨m, hm⟩ := g.calls
  exact ⟨g.values.trans h.values, g.parent.trans h.parent, g.provs.trans h.provs,
    fun j hj => (g.others j hj).trans (h.others j hj), fun k v hv => g.mono k v (h.mono k v hv),
    fun p => Nat.le_trans (h.done p) (g.done p), fun x hx => g.status x (h.status x hx),
    l ++ m, by rw [hm, hl, List.append_assoc]⟩

theorem getN_congr {s s' : St} (h1 : s'.values = s.values) (h2 : s'.parent = s.parent) :
    ∀ f i k, getN s' f i k = getN s f i k := by
  intro f
  induction f with
  | zero => intro i k; rfl
  | succ f ih => intro i k; simp only [getN, h1, h2, ih]

theorem get_congr {s s' : St} (h1 : s'.values = s.values) (h2 : s'.parent = s.parent) (i : Nat) (k : Key) :
    get s' i k = get s i k := getN_congr h1 h2 _ i k

theorem Ext.get {i : Nat} {s s' : St} (h : Ext i s s') (j : Nat) (k : Key) : get s' j k = get s j k :=
  get_congr h.values h.parent j k

/-- The step of the dependency loop. -/
theorem invokeDeps_nil (inv : St → Nat → Res Val × St) (i : Nat) (acc : List Val) (s : St) :
    invokeDeps inv i [] acc s = (.ok acc, s) := rfl

/-- Properties of the loop: induction over the dependencies. -/
theorem invokeDeps_ext {inv : St → Nat → Res Val × St} {i : Nat} (hinv : ∀ s q, Ext i s (inv s q).2) :
    ∀ ds acc s, Ext i s (invokeDeps inv i ds acc s).2 := by
  intro ds
  induction ds with
  | nil => intro acc s; exact Ext.refl i s
  | cons d ds ih =>
    intro acc s
    simp only [invokeDeps]
    split
    · exact Ext.refl i s
    · rename_i q _
      split
      · exact Ext.refl i s
      · have h := hinv s q
        cases hr : inv s q with
        | mk r s' =>
          rw [hr] at h
          cases r with
          | ok v => exact h.trans (ih _ _)
          | err => exact h
          | diverge => exact h

theorem invoke_ext (i : Nat) : ∀ f s p, Ext i s (invoke f i s p).2 := by
  intro f
  induction f with
  | zero => intro s p; exact Ext.refl i s
  | succ f ih =>
    intro s p
    simp only [invoke]
    split
    · exact Ext.refl i s
    · rename_i pr hpr
      split
      · exact Ext.refl i s
      · rename_i hc
        have hst : Ext i s { s with status := pr.name :: s.status } :=
          ⟨rfl, rfl, rfl, fun _ _ => rfl, fun _ _ h => h, fun _ => Nat.le_refl _,
            fun x h => List.mem_cons_of_mem _ h, [], by simp⟩
        split
        · refine hst.trans ⟨rfl, rfl, rfl, fun _ _ => rfl, fun _ _ h => h, ?_, fun x h => h, [], by simp⟩
          intro q
          by_cases hq : q = p
          · subst hq; simp [upd_same]
          · simp [upd_ne _ _ _ _ hq]
        · rename_i deps out hk
          have hd := invokeDeps_ext (i := i) (inv := fun s q => invoke f i s q) (fun s q => ih s q) deps []
            { s with status := pr.name :: s.status }
          generalize hr : invokeDeps (fun s q => invoke f i s q) i deps [] { s with status := pr.name :: s.status } = r at hd ⊢
          obtain ⟨r, s'⟩ := r
          have hd' := hst.trans hd
          cases r with
          | ok args =>
            obtain ⟨l, hl⟩ := hd'.calls
            refine ⟨hd'.values, hd'.parent, hd'.provs, ?_, ?_, ?_, hd'.status, l ++ [⟨i, p, pr.name, args⟩], ?_⟩
            · intro j hj
              cases out
              · exact hd'.others j hj
              · simp only [if_true, upd_ne _ _ _ _ hj]
                exact hd'.others j hj
            · intro k v hv
              have := hd'.mono k v hv
              cases out
              · exact this
              · simp only [if_true, upd_same]
                by_cases hkn : k = pr.name
                · subst hkn; rw [hc] at hv; cases hv
                · rw [upd_ne _ _ _ _ hkn]; exact this
            · intro q
              refine Nat.le_trans (hd'.done q) ?_
              by_cases hq : q = p
              · subst hq; simp [upd_same]
              · simp [upd_ne _ _ _ _ hq]
            · simp only at hl ⊢
              rw [hl]
              simp
          | err => exact hd'
          | diverge => exact hd'

/-! ## More nested calls allowed do not change a result -/

theorem invokeDeps_mono {inv inv' : St → Nat → Res Val × St} {i : Nat}
    (h : ∀ s q, (inv s q).1 ≠ .diverge → inv' s q = inv s q) :
    ∀ ds acc s, (invokeDeps inv i ds acc s).1 ≠ .diverge → invokeDeps inv' i ds acc s = invokeDeps inv i ds acc s := by
  intro ds
  induction ds with
  | nil => intro acc s _; rfl
  | cons d ds ih =>
    intro acc s
    simp only [invokeDeps]
    split
    · intro _; rfl
    · rename_i q _
      split
      · intro _; rfl
      · intro hne
        cases hr : inv s q with
        | mk r s' =>
          have hd : r ≠ .diverge := by
            intro hrd; subst hrd; rw [hr] at hne; exact hne rfl
          rw [h s q (by rw [hr]; exact hd), hr]
          rw [hr] at hne
          cases r with
          | ok v => exact ih _ _ hne
          | err => rfl
          | diverge => rfl

theorem invoke_mono1 (i : Nat) : ∀ f s p, (invoke f i s p).1 ≠ .diverge → invoke (f + 1) i s p = invoke f i s p := by
  intro f
  induction f with
  | zero => intro s p h; exact absurd rfl h
  | succ f ih =>
    intro s p h
    rw [invoke] at h ⊢
    rw [invoke.eq_def (f + 1)]
    simp only at h ⊢
    split
    · rfl
    · rename_i pr hpr
      rw [hpr] at h
      simp only at h
      split
      · rfl
      · rename_i hc
        rw [hc] at h
        simp only at h
        split
        · rfl
        · rename_i deps out hk
          rw [hk] at h
          simp only at h
          have hm := invokeDeps_mono (i := i) (inv := fun s q => invoke f i s q) (inv' := fun s q => invoke (f+1) i s q)
            (fun s q hq => ih s q hq) deps [] { s with status := pr.name :: s.status }
          have hne : (invokeDeps (fun s q => invoke f i s q) i deps [] { s with status := pr.name :: s.status }).1 ≠ .diverge := by
            intro hd
            apply h
            generalize invokeDeps (fun s q => invoke f i s q) i deps [] { s with status := pr.name :: s.status } = r at hd ⊢
            obtain ⟨r, s'⟩ := r
            simp only at hd
            subst hd
            rfl
          rw [hm hne]

theorem invoke_mono {i f f' : Nat} (hf : f ≤ f') (s : St) (p : Nat) (h : (invoke f i s p).1 ≠ .diverge) :
    invoke f' i s p = invoke f i s p := by
  induction hf with
  | refl => rfl
  | step _ ih => rw [← ih]; exact invoke_mono1 i _ s p (by rw [ih]; exact h)

/-! ## Well-formed states -/

structure WF (s : St) : Prop where
  vals : ∀ i k p, s.values i k = some p → ∃ pr, s.provs[p]? = some pr ∧ pr.name = k
  provs : ∀ (p : Nat) (pr : Prov), s.provs[p]? = some pr → pr.Wf
  parent : ∀ i j, s.parent i = some j → j < i
  nil : ∀ i, s.caches i [] = none

theorem getN_prov {s : St} (w : WF s) : ∀ f i k p, getN s f i k = some p → ∃ pr, s.provs[p]? = some pr ∧ pr.name = k := by
  intro f
  induction f with
  | zero => intro i k p h; cases h
  | succ f ih =>
    intro i k p h
    simp only [getN] at h
    split at h
    · rename_i q hq
      injection h with h; subst h
      exact w.vals i k _ hq
    · split at h
      · exact ih _ _ _ h
      · cases h

theorem get_prov {s : St} (w : WF s) {i : Nat} {k : Key} {p : Nat} (h : get s i k = some p) :
    ∃ pr, s.provs[p]? = some pr ∧ pr.name = k := getN_prov w _ _ _ _ h

theorem get_nameOf {s : St} (w : WF s) {i : Nat} {k : Key} {p : Nat} (h : get s i k = some p) : nameOf s p = k := by
  obtain ⟨pr, hp, hn⟩ := get_prov w h
  simp [nameOf, hp, hn]

theorem Wf_deps {pr : Prov} (h : pr.Wf) {deps : List Key} {out : Bool} (hk : pr.kind = .func deps out) : [] ∉ deps := by
  simp only [Prov.Wf, hk] at h; exact h.2

theorem Wf_out {pr : Prov} (h : pr.Wf) {deps : List Key} {out : Bool} (hk : pr.kind = .func deps out) (hn : pr.name ≠ []) :
    out = true := by
  simp only [Prov.Wf, hk] at h
  cases out with
  | true => rfl
  | false => exact absurd (h.1.2 rfl) hn

/-! ## Resolvable keys -/

/-- Everything needed for a value of type `k` in injector `i` is there: a provider, and it is a value, or its
result is cached, or it is a function all whose arguments are resolvable (a cycle is never resolvable). -/
inductive Resolvable (s : St) (i : Nat) : Key → Prop where
  | cached (k : Key) (p : Nat) : get s i k = some p → s.caches i k ≠ none → Resolvable s i k
  | value (k : Key) (p : Nat) (pr : Prov) (v : Val) : get s i k = some p → s.provs[p]? = some pr → pr.kind = .value v →
      Resolvable s i k
  | func (k : Key) (p : Nat) (pr : Prov) (deps : List Key) (out : Bool) : get s i k = some p → s.provs[p]? = some pr →
      pr.kind = .func deps out → (∀ d ∈ deps, Resolvable s i d) → Resolvable s i k

/-- The same with a bound on the nesting. -/
def ResN (s : St) (i : Nat) : Nat → Key → Prop
  | 0, _ => False
  | n + 1, k => ∃ p pr, get s i k = some p ∧ s.provs[p]? = some pr ∧
      (s.caches i k ≠ none ∨ (∃ v, pr.kind = .value v) ∨ ∃ deps out, pr.kind = .func deps out ∧ ∀ d ∈ deps, ResN s i n d)

theorem ResN.succ {s : St} {i : Nat} : ∀ {n : Nat} {k : Key}, ResN s i n k → ResN s i (n + 1) k := by
  intro n
  induction n with
  | zero => intro k h; exact absurd h id
  | succ n ih =>
    intro k h
    obtain ⟨p, pr, h1, h2, h3⟩ := h
    refine ⟨p, pr, h1, h2, ?_⟩
    rcases h3 with h3 | h3 | ⟨deps, out, h3, h4⟩
    · exact .inl h3
    · exact .inr (.inl h3)
    · exact .inr (.inr ⟨deps, out, h3, fun d hd => ih (h4 d hd)⟩)

theorem ResN.le {s : St} {i n m : Nat} {k : Key} (hnm : n ≤ m) (h : ResN s i n k) : ResN s i m k := by
  induction hnm with
  | refl => exact h
  | step _ ih => exact ih.succ

theorem exists_bound {P : Nat → Key → Prop} (hmono : ∀ n m k, n ≤ m → P n k → P m k) (ds : List Key)
    (h : ∀ d ∈ ds, ∃ n, P n d) : ∃ n, ∀ d ∈ ds, P n d := by
  induction ds with
  | nil => exact ⟨0, by simp⟩
  | cons d ds ih =>
    obtain ⟨n, hn⟩ := h d (by simp)
    obtain ⟨m, hm⟩ := ih (fun x hx => h x (by simp [hx]))
    refine ⟨max n m, ?_⟩
    intro x hx
    rcases List.mem_cons.1 hx with hx | hx
    · subst hx; exact hmono _ _ _ (Nat.le_max_left _ _) hn
    · exact hmono _ _ _ (Nat.le_max_right _ _) (hm x hx)

theorem resolvable_iff {s : St} (w : WF s) {i : Nat} {k : Key} : Resolvable s i k ↔ ∃ n, ResN s i n k := by
  constructor
  · intro h
    induction h with
    | cached k p h1 h2 =>
      obtain ⟨pr, hp, _⟩ := get_prov w h1
      exact ⟨1, p, pr, h1, hp, .inl h2⟩
    | value k p pr v h1 h2 h3 => exact ⟨1, p, pr, h1, h2, .inr (.inl ⟨v, h3⟩)⟩
    | func k p pr deps out h1 h2 h3 _ ih =>
      obtain ⟨n, hn⟩ := exists_bound (P := ResN s i) (fun n m k h hp => ResN.le h hp) deps ih
      exact ⟨n + 1, p, pr, h1, h2, .inr (.inr ⟨deps, out, h3, hn⟩)⟩
  · rintro ⟨n, h⟩
    induction n generalizing k with
    | zero => exact absurd h id
    | succ n ih =>
      obtain ⟨p, pr, h1, h2, h3⟩ := h
      rcases h3 with h3 | ⟨v, h3⟩ | ⟨deps, out, h3, h4⟩
      · exact .cached k p h1 h3
      · exact .value k p pr v h1 h2 h3
      · exact .func k p pr deps out h1 h2 h3 (fun d hd => ih (h4 d hd))

theorem Resolvable.get {s : St} {i : Nat} {k : Key} (h : Resolvable s i k) : ∃ p, get s i k = some p := by
  cases h with
  | cached _ p h1 _ => exact ⟨p, h1⟩
  | value _ p _ _ h1 _ _ => exact ⟨p, h1⟩
  | func _ p _ _ _ h1 _ _ _ => exact ⟨p, h1⟩

/-- If every extra cached key of `s1` was resolvable in `s`, then `s1` resolves no more than `s`. -/
theorem Resolvable.back {s s1 : St} {i : Nat} (e : Ext i s s1)
    (hc : ∀ k, s1.caches i k ≠ none → s.caches i k = none → Resolvable s i k) {k : Key}
    (h : Resolvable s1 i k) : Resolvable s i k := by
  induction h with
  | cached k p h1 h2 =>
    by_cases hs : s.caches i k = none
    · exact hc k h2 hs
    · exact .cached k p ((e.get i k) ▸ h1) hs
  | value k p pr v h1 h2 h3 => exact .value k p pr v ((e.get i k) ▸ h1) (e.provs ▸ h2) h3
  | func k p pr deps out h1 h2 h3 _ ih => exact .func k p pr deps out ((e.get i k) ▸ h1) (e.provs ▸ h2) h3 ih

/-! ## What a lookup does, whatever its outcome -/

/-- From `s` to `s'` the providers in `l` were called. -/
structure Lk (i : Nat) (s s' : St) (l : List Call) : Prop where
  ext : Ext i s s'
  calls : s'.calls = s.calls ++ l
  call : ∀ c ∈ l, c.inj = i ∧ get s i c.name = some c.prov ∧ s.caches i c.name = none ∧ c.name ≠ [] ∧ Resolvable s i c.name
  caches : ∀ k, s'.caches i k ≠ none ↔ s.caches i k ≠ none ∨ ∃ c ∈ l, c.name = k
  dn : ∀ p, s'.done p ≠ s.done p → ∃ k, get s i k = some p ∧ Resolvable s i k

theorem Lk.refl (i : Nat) (s : St) : Lk i s s [] := ⟨Ext.refl i s, by simp, by simp, by simp, by simp⟩

theorem Lk.back {i : Nat} {s s1 : St} {l : List Call} (h : Lk i s s1 l) {k : Key} (hr : Resolvable s1 i k) : Resolvable s i k := by
  refine hr.back h.ext ?_
  intro k h1 h2
  rcases (h.caches k).1 h1 with h3 | ⟨c, hc, rfl⟩
  · exact absurd h2 h3
  · exact (h.call c hc).2.2.2.2

theorem none_of_ext {i : Nat} {s s' : St} (e : Ext i s s') {k : Key} (h : s'.caches i k = none) : s.caches i k = none := by
  cases hk : s.caches i k with
  | none => rfl
  | some v => rw [e.mono k v hk] at h; cases h

theorem Lk.trans {i : Nat} {s s1 s2 : St} {l m : List Call} (h : Lk i s s1 l) (g : Lk i s1 s2 m) : Lk i s s2 (l ++ m) := by
  refine ⟨h.ext.trans g.ext, by rw [g.calls, h.calls, List.append_assoc], ?_, ?_, ?_⟩
  · intro c hc
    rcases List.mem_append.1 hc with hc | hc
    · exact h.call c hc
    · obtain ⟨h1, h2, h3, h4, h5⟩ := g.call c hc
      exact ⟨h1, (h.ext.get _ _) ▸ h2, none_of_ext h.ext h3, h4, h.back h5⟩
  · intro k
    rw [g.caches, h.caches]
    simp only [List.mem_append]
    constructor
    · rintro ((h1 | ⟨c, h1, h2⟩) | ⟨c, h1, h2⟩)
      · exact .inl h1
      · exact .inr ⟨c, .inl h1, h2⟩
      · exact .inr ⟨c, .inr h1, h2⟩
    · rintro (h1 | ⟨c, h1 | h1, h2⟩)
      · exact .inl (.inl h1)
      · exact .inl (.inr ⟨c, h1, h2⟩)
      · exact .inr ⟨c, h1, h2⟩
  · intro p hp
    by_cases h1 : s1.done p = s.done p
    · obtain ⟨k, hk, hr⟩ := g.dn p (by rw [h1]; exact hp)
      exact ⟨k, (h.ext.get _ _) ▸ hk, h.back hr⟩
    · exact h.dn p h1

theorem WF.ext {i : Nat} {s s' : St} (w : WF s) (e : Ext i s s') (hn : s'.caches i [] = none) : WF s' :=
  ⟨fun j k p h => by rw [e.provs]; exact w.vals j k p (e.values ▸ h), fun p pr h => w.provs p pr (e.provs ▸ h),
    fun a b h => w.parent a b (e.parent ▸ h), fun j => by
      by_cases hj : j = i
      · subst hj; exact hn
      · rw [e.others j hj]; exact w.nil j⟩

theorem Lk.wf {i : Nat} {s s' : St} {l : List Call} (h : Lk i s s' l) (w : WF s) : WF s' := by
  refine w.ext h.ext ?_
  cases hn : s'.caches i [] with
  | none => rfl
  | some v =>
    rcases (h.caches []).1 (by rw [hn]; exact fun h => nomatch h) with h1 | ⟨c, hc, h1⟩
    · exact absurd (w.nil i) h1
    · exact absurd h1 (h.call c hc).2.2.2.1

/-- The dependency loop, for any treatment of single providers with the right effect. -/
theorem invokeDeps_lk {inv : St → Nat → Res Val × St} {i : Nat}
    (hinv : ∀ s k q, WF s → get s i k = some q → k ≠ [] →
      (∃ l, Lk i s (inv s q).2 l) ∧ ∀ v, (inv s q).1 = .ok v → Resolvable s i k) :
    ∀ ds acc s, WF s → [] ∉ ds →
      (∃ l, Lk i s (invokeDeps inv i ds acc s).2 l) ∧
      ∀ vs, (invokeDeps inv i ds acc s).1 = .ok vs → ∀ d ∈ ds, Resolvable s i d := by
  intro ds
  induction ds with
  | nil => intro acc s w _; exact ⟨⟨[], Lk.refl i s⟩, by simp⟩
  | cons d ds ih =>
    intro acc s w hne
    have hd : d ≠ [] := fun h => hne (by simp [h])
    have hds : [] ∉ ds := fun h => hne (by simp [h])
    simp only [invokeDeps]
    split
    · exact ⟨⟨[], Lk.refl i s⟩, by simp⟩
    · rename_i q hq
      split
      · exact ⟨⟨[], Lk.refl i s⟩, by simp⟩
      · obtain ⟨⟨l, hl⟩, hok⟩ := hinv s d q w hq hd
        cases hr : inv s q with
        | mk r s' =>
          rw [hr] at hl hok
          cases r with
          | ok v =>
            obtain ⟨⟨m, hm⟩, hok'⟩ := ih (acc ++ [v]) s' (hl.wf w) hds
            refine ⟨⟨l ++ m, hl.trans hm⟩, ?_⟩
            intro vs hvs x hx
            rcases List.mem_cons.1 hx with hx | hx
            · subst hx; exact hok v rfl
            · exact hl.back (hok' vs hvs x hx)
          | err => exact ⟨⟨l, hl⟩, by simp⟩
          | diverge => exact ⟨⟨l, hl⟩, by simp⟩

theorem Lk.push {i : Nat} (s : St) (k : Key) : Lk i s { s with status := k :: s.status } [] :=
  ⟨⟨rfl, rfl, rfl, fun _ _ => rfl, fun _ _ h => h, fun _ => Nat.le_refl _,
    fun x h => List.mem_cons_of_mem _ h, [], by simp⟩, by simp, by simp, by simp, by simp⟩

theorem Lk.done {i : Nat} (s : St) (p : Nat) (k : Key) (hk : get s i k = some p) (hr : Resolvable s i k) :
    Lk i s { s with done := upd s.done p (s.done p + 1) } [] := by
  refine ⟨⟨rfl, rfl, rfl, fun _ _ => rfl, fun _ _ h => h, ?_, fun x h => h, [], by simp⟩, by simp, by simp, by simp, ?_⟩
  · intro q
    by_cases hq : q = p
    · subst hq; simp [upd_same]
    · simp [upd_ne _ _ _ _ hq]
  · intro q
    by_cases hq : q = p
    · subst hq; exact fun _ => ⟨k, hk, hr⟩
    · simp [upd_ne _ _ _ _ hq]

theorem invoke_lk (i : Nat) : ∀ f s k p, WF s → get s i k = some p → k ≠ [] →
    (∃ l, Lk i s (invoke f i s p).2 l) ∧ ∀ v, (invoke f i s p).1 = .ok v → Resolvable s i k := by
  intro f
  induction f with
  | zero => intro s k p w hp hk; exact ⟨⟨[], Lk.refl i s⟩, by simp [invoke]⟩
  | succ f ih =>
    intro s k p w hp hk
    obtain ⟨pr, hpr, hn⟩ := get_prov w hp
    simp only [invoke, hpr, hn]
    split
    · rename_i v hc
      exact ⟨⟨[], Lk.refl i s⟩, fun _ _ => .cached k p hp (by simp [hc])⟩
    · rename_i hc
      split
      · rename_i v hv
        refine ⟨⟨[], (Lk.push s k).trans (Lk.done _ p k ((Lk.push s k).ext.get (i := i) i k ▸ hp) ?_)⟩,
          fun _ _ => .value k p pr v hp hpr hv⟩
        exact .value k p pr v ((Lk.push s k).ext.get (i := i) i k ▸ hp) hpr hv
      · rename_i deps out hf
        have hout := Wf_out (w.provs p pr hpr) hf (hn ▸ hk)
        subst hout
        have hpush : Lk i s { s with status := k :: s.status } [] := Lk.push s k
        obtain ⟨⟨l, hl⟩, hok⟩ := invokeDeps_lk (i := i) (inv := fun s q => invoke f i s q)
          (fun s k q w hq hk => ih s k q w hq hk) deps [] { s with status := k :: s.status } (hpush.wf w)
          (Wf_deps (w.provs p pr hpr) hf)
        generalize hr : invokeDeps (fun s q => invoke f i s q) i deps [] { s with status := k :: s.status } = r at hl hok ⊢
        obtain ⟨r, s'⟩ := r
        have hl' := hpush.trans hl
        simp only [List.nil_append] at hl'
        cases r with
        | ok args =>
          have hres : Resolvable s i k :=
            .func k p pr deps true hp hpr hf (fun d hd => hpush.back (hok args rfl d hd))
          refine ⟨⟨l ++ [⟨i, p, k, args⟩], ?_⟩, fun _ _ => hres⟩
          refine ⟨⟨hl'.ext.values, hl'.ext.parent, hl'.ext.provs, ?_, ?_, ?_, hl'.ext.status, l ++ [⟨i, p, k, args⟩], ?_⟩, ?_, ?_, ?_, ?_⟩
          · intro j hj
            simp only [if_true, upd_ne _ _ _ _ hj]
            exact hl'.ext.others j hj
          · intro x v hv
            simp only [if_true, upd_same]
            by_cases hkn : x = k
            · subst hkn; rw [hc] at hv; cases hv
            · rw [upd_ne _ _ _ _ hkn]; exact hl'.ext.mono x v hv
          · intro q
            refine Nat.le_trans (hl'.ext.done q) ?_
            by_cases hq : q = p
            · subst hq; simp [upd_same]
            · simp [upd_ne _ _ _ _ hq]
          · show s'.calls ++ [_] = _
            have := hl'.calls
            rw [this, List.append_assoc]
          · show s'.calls ++ [_] = _
            have := hl'.calls
            rw [this, List.append_assoc]
          · intro c hc'
            rcases List.mem_append.1 hc' with h | h
            · exact hl'.call c h
            · simp only [List.mem_singleton] at h
              subst h
              exact ⟨rfl, hp, hc, hk, hres⟩
          · intro x
            simp only [if_true, upd_same]
            have := hl'.caches x
            by_cases hx : x = k
            · subst hx
              simp [upd_same]
            · rw [upd_ne _ _ _ _ hx, this]
              simp only [List.mem_append, List.mem_singleton]
              constructor
              · rintro (h | ⟨c, h, h'⟩)
                · exact .inl h
                · exact .inr ⟨c, .inl h, h'⟩
              · rintro (h | ⟨c, h | h, h'⟩)
                · exact .inl h
                · exact .inr ⟨c, h, h'⟩
                · subst h; exact absurd h'.symm hx
          · intro q
            by_cases hq : q = p
            · subst hq; exact fun _ => ⟨k, hp, hres⟩
            · simp only [upd_ne _ _ _ _ hq]
              exact hl'.dn q
        | err => exact ⟨⟨l, hl'⟩, by simp⟩
        | diverge => exact ⟨⟨l, hl'⟩, by simp⟩

end Verif.Inj
