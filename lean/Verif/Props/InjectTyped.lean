import Verif.Model.InjectTyped
import Verif.Props.InjectOrigin
/-! # C118, C119: types and panics in the injector -/
namespace Verif.InjT
open Verif.Inj

/-! ## Without panics, the model with types is the model without -/

/-- A provider without types. -/
def eProv (pr : TProv) : Prov :=
  ⟨pr.name, match pr.kind with
    | .value x => .value x.v
    | .func ins out => .func (ins.map (fun d => slotOf d.1 d.2)) out.isSome⟩

/-- A call without types. -/
def eCall (c : TCall) : Call := ⟨c.inj, c.prov, c.name, c.args.map TVal.v⟩

/-- A state without types. -/
def erase (s : TSt) : St :=
  ⟨s.values, fun i k => (s.caches i k).map TVal.v, s.parent, s.provs.map eProv, s.done, s.status, s.calls.map eCall⟩

/-- A user call without types. -/
def eCmd : TCmd → Cmd
  | .provide i pr => .provide i (eProv pr)
  | .find i t nm => .find i (slotOf t nm)
  | .invoke i ins out => .invoke i (eProv (fnOf ins out))
  | .setParent i j => .setParent i j

/-- An outcome without types (`panic` has no counterpart). -/
def eRes : TRes TVal → Res Val
  | .ok x => .ok x.v
  | .err => .err
  | .panic => .err
  | .diverge => .diverge

theorem getN_erase (s : TSt) (k : Key) : ∀ f i, Inj.getN (erase s) f i k = getN s f i k := by
  intro f
  induction f with
  | zero => intro i; rfl
  | succ f ih =>
    intro i
    have e1 : (erase s).values = s.values := rfl
    have e2 : (erase s).parent = s.parent := rfl
    simp only [Inj.getN, getN, e1, e2]
    cases s.values i k with
    | some p => rfl
    | none =>
      cases s.parent i with
      | none => rfl
      | some j => exact ih j

theorem get_erase (s : TSt) (i : Nat) (k : Key) : Inj.get (erase s) i k = get s i k := getN_erase s k (i + 1) i

theorem nameOf_erase (s : TSt) (q : Nat) : Inj.nameOf (erase s) q = nameOf s q := by
  have e1 : (erase s).provs = s.provs.map eProv := rfl
  unfold Inj.nameOf nameOf
  rw [e1, List.getElem?_map]
  cases s.provs[q]? <;> rfl

theorem invokeDeps_sim {inv : TSt → Nat → TRes TVal × TSt} {inv' : St → Nat → Res Val × St} {i : Nat}
    (h : ∀ s q, (inv s q).1 ≠ .panic → inv' (erase s) q = (eRes (inv s q).1, erase (inv s q).2)) :
    ∀ ds acc s, (invokeDeps inv i ds acc s).1 ≠ .panic →
      Inj.invokeDeps inv' i (ds.map (fun d => slotOf d.1 d.2)) (acc.map TVal.v) (erase s) =
        ((match (invokeDeps inv i ds acc s).1 with
          | .ok as => .ok (as.map TVal.v)
          | .err => .err
          | .panic => .err
          | .diverge => .diverge), erase (invokeDeps inv i ds acc s).2) := by
  intro ds
  induction ds with
  | nil => intro acc s _; rfl
  | cons d ds ih =>
    intro acc s hp
    simp only [List.map_cons, Inj.invokeDeps, get_erase]
    simp only [invokeDeps] at hp ⊢
    cases hg : get s i (slotOf d.1 d.2) with
    | none => rfl
    | some q =>
      rw [hg] at hp
      simp only [nameOf_erase] at hp ⊢
      have e1 : (erase s).done = s.done := rfl
      have e2 : (erase s).status = s.status := rfl
      rw [e1, e2]
      by_cases hc : s.done q = 0 ∧ nameOf s q ∈ s.status
      · rw [if_pos hc, if_pos hc]
      · rw [if_neg hc] at hp
        rw [if_neg hc, if_neg hc]
        have hi := h s q
        generalize inv s q = o at hp hi ⊢
        obtain ⟨r, s'⟩ := o
        cases r with
        | panic => exact absurd rfl hp
        | err => rw [hi (by simp)]; rfl
        | diverge => rw [hi (by simp)]; rfl
        | ok v =>
          rw [hi (by simp)]
          have := ih (acc ++ [v]) s' hp
          rw [List.map_append] at this
          exact this

theorem erase_mark (s : TSt) (p : Nat) : erase (mark s p) = { erase s with done := upd s.done p (s.done p + 1) } := rfl

theorem erase_caches_upd (s : TSt) (i : Nat) (k : Key) (x : Option TVal) :
    (fun j k' => (upd s.caches i (upd (s.caches i) k x) j k').map TVal.v) =
      upd (erase s).caches i (upd ((erase s).caches i) k (x.map TVal.v)) := by
  funext j k'
  by_cases h1 : j = i
  · by_cases h2 : k' = k
    · simp [upd, erase, h1, h2]
    · simp [upd, erase, h1, h2]
  · simp [upd, erase, h1]

theorem invoke_sim (w : World) : ∀ f i s p, (invoke w f i s p).1 ≠ .panic →
    Inj.invoke f i (erase s) p = (eRes (invoke w f i s p).1, erase (invoke w f i s p).2) := by
  intro f
  induction f with
  | zero => intro i s p _; rfl
  | succ f ih =>
    intro i s p hp
    have e1 : (erase s).provs = s.provs.map eProv := rfl
    simp only [Inj.invoke, e1, List.getElem?_map]
    simp only [invoke] at hp ⊢
    cases hq : s.provs[p]? with
    | none => rfl
    | some pr =>
      rw [hq] at hp
      simp only [Option.map_some] at hp ⊢
      have e2 : (erase s).caches i (eProv pr).name = (s.caches i pr.name).map TVal.v := rfl
      rw [e2]
      cases hc : s.caches i pr.name with
      | some v => rfl
      | none =>
        rw [hc] at hp
        simp only [Option.map_none] at hp ⊢
        obtain ⟨kind, as, nm⟩ := pr
        cases kind with
        | value x => rfl
        | func ins out =>
          simp only at hp ⊢
          generalize hn : TProv.name ⟨.func ins out, as, nm⟩ = name at hp ⊢
          have hn' : (eProv ⟨.func ins out, as, nm⟩).name = name := hn
          have hk : (eProv ⟨.func ins out, as, nm⟩).kind = .func (ins.map (fun d => slotOf d.1 d.2)) out.isSome := rfl
          rw [hk, hn']
          simp only
          have hs := invokeDeps_sim (inv := fun s q => invoke w f i s q) (inv' := fun s q => Inj.invoke f i s q) (i := i) (fun s q => ih i s q)
            ins [] { s with status := name :: s.status }
          have e3 : erase { s with status := name :: s.status } =
              (⟨(erase s).values, (erase s).caches, (erase s).parent, s.provs.map eProv, (erase s).done, name :: s.status, (erase s).calls⟩ : St) := rfl
          have e4 : (erase s).status = s.status := rfl
          rw [e3] at hs
          rw [e4]
          generalize invokeDeps (fun s q => invoke w f i s q) i ins [] { s with status := name :: s.status } = o at hp hs ⊢
          obtain ⟨r, s'⟩ := o
          simp only at hs
          cases r with
          | panic => exact absurd rfl hp
          | err =>
            have := hs (by simp)
            simp only [List.map_nil] at this
            rw [this]; rfl
          | diverge =>
            have := hs (by simp)
            simp only [List.map_nil] at this
            rw [this]; rfl
          | ok args =>
            have := hs (by simp)
            simp only [List.map_nil] at this
            rw [this]
            simp only at hp ⊢
            by_cases hf : fits w args ins = false
            · rw [if_pos hf] at hp; exact absurd rfl hp
            · rw [if_neg hf] at hp
              rw [if_neg hf]
              by_cases hb : w.boom s'.calls.length = true
              · rw [if_pos hb] at hp; exact absurd rfl hp
              · rw [if_neg hb]
                have el : (erase s').calls.length = s'.calls.length := by simp [erase]
                cases out with
                | none =>
                  simp only [Option.isSome_none, Bool.false_eq_true, if_false, el, eRes, erase_mark]
                  congr 1
                  simp [erase, eCall]
                | some o =>
                  simp only [Option.isSome_some, if_true, el, eRes, erase_mark]
                  congr 1
                  have h5 := erase_caches_upd s' i name (some ⟨.res s'.calls.length, o⟩)
                  simp only [Option.map_some] at h5
                  rw [← h5]
                  simp [erase, eCall]

/-! ## Invariants, also when lookups panic -/

/-- The type of what a provider gives. -/
def TProv.gives (pr : TProv) : Option GoType :=
  match pr.kind with
  | .value x => some x.ty
  | .func _ out => out

theorem slotOf_ne_nil (t : GoType) (nm : Str) : slotOf t nm ≠ [] := by
  unfold slotOf createName
  intro h
  simp at h

/-- Whatever one of the offered providers (`P`) gives can be assigned to every parameter that asks for the same slot. -/
def CoherentProvs (w : World) (P : TProv → Prop) (provs : List TProv) : Prop :=
  ∀ pr, P pr → ∀ t, pr.gives = some t → ∀ pr' ∈ provs, ∀ ins out, pr'.kind = .func ins out → ∀ d ∈ ins, slotOf d.1 d.2 = pr.name → w.asg t d.1 = true

/-- A value of a type some offered provider of slot `k` gives. -/
def FromSlot (P : TProv → Prop) (k : Key) (x : TVal) : Prop := ∃ pr, P pr ∧ pr.name = k ∧ pr.gives = some x.ty

/-- The value of an offered provider, or the result of a call that did not panic. -/
def Genuine (w : World) (P : TProv → Prop) (x : TVal) : Prop := (∃ pr, P pr ∧ pr.kind = .value x) ∨ ∃ n, x.v = .res n ∧ w.boom n = false

/-- Invariant of all states; `P` are the providers ever offered by `Provide`. -/
structure TI (w : World) (P : TProv → Prop) (s : TSt) : Prop where
  vals : ∀ i k p, s.values i k = some p → ∃ pr, s.provs[p]? = some pr ∧ pr.name = k ∧ P pr
  cached : ∀ i k x, s.caches i k = some x → k ≠ [] ∧ FromSlot P k x ∧ ∃ n, x.v = .res n ∧ n < s.calls.length ∧ w.boom n = false
  parent : ∀ i j, s.parent i = some j → j < i
  typed : ∀ c ∈ s.calls, ∃ pr ins out, s.provs[c.prov]? = some pr ∧ pr.kind = .func ins out ∧ fits w c.args ins = true

/-- Arguments from the slots of the parameters. -/
inductive ArgsFrom (P : TProv → Prop) : List TVal → List (GoType × Str) → Prop where
  | nil : ArgsFrom P [] []
  | cons (a : TVal) (d : GoType × Str) (as : List TVal) (ds : List (GoType × Str)) :
      FromSlot P (slotOf d.1 d.2) a → ArgsFrom P as ds → ArgsFrom P (a :: as) (d :: ds)

/-- What a lookup does not change, and the invariant. -/
structure Post (w : World) (P : TProv → Prop) (s s' : TSt) : Prop where
  values : s'.values = s.values
  parent : s'.parent = s.parent
  provs : s'.provs = s.provs
  calls : ∃ l, s'.calls = s.calls ++ l
  ti : TI w P s'

theorem Post.trans {w : World} {P : TProv → Prop} {a b c : TSt} (h : Post w P a b) (g : Post w P b c) : Post w P a c := by
  obtain ⟨l, hl⟩ := h.calls
  obtain ⟨m, hm⟩ := g.calls
  exact ⟨g.values.trans h.values, g.parent.trans h.parent, g.provs.trans h.provs, ⟨l ++ m, by rw [hm, hl, List.append_assoc]⟩, g.ti⟩

theorem TI.status {w : World} {P : TProv → Prop} {s : TSt} (h : TI w P s) (x : List Key) : TI w P { s with status := x } := ⟨h.vals, h.cached, h.parent, h.typed⟩

theorem TI.mark {w : World} {P : TProv → Prop} {s : TSt} (h : TI w P s) (p : Nat) : TI w P (mark s p) := ⟨h.vals, h.cached, h.parent, h.typed⟩

theorem TI.call {w : World} {P : TProv → Prop} {s : TSt} (h : TI w P s) (c : TCall)
    (hc : ∃ pr ins out, s.provs[c.prov]? = some pr ∧ pr.kind = .func ins out ∧ fits w c.args ins = true) : TI w P { s with calls := s.calls ++ [c] } :=
  ⟨h.vals, fun i k x hx => by
    obtain ⟨h1, h2, n, h3, h4, h5⟩ := h.cached i k x hx
    exact ⟨h1, h2, n, h3, by simp; omega, h5⟩, h.parent, fun c' hc' => by
    rcases List.mem_append.1 hc' with h1 | h1
    · exact h.typed c' h1
    · rw [List.mem_singleton.1 h1]; exact hc⟩

theorem Post.refl {w : World} {P : TProv → Prop} {s : TSt} (h : TI w P s) : Post w P s s := ⟨rfl, rfl, rfl, ⟨[], by simp⟩, h⟩

theorem Post.mark {w : World} {P : TProv → Prop} {s s' : TSt} (h : Post w P s s') (p : Nat) : Post w P s (mark s' p) :=
  ⟨h.values, h.parent, h.provs, h.calls, h.ti.mark p⟩

theorem getN_prov {w : World} {P : TProv → Prop} {s : TSt} (h : TI w P s) (k : Key) :
    ∀ f i p, getN s f i k = some p → ∃ pr, s.provs[p]? = some pr ∧ pr.name = k ∧ P pr := by
  intro f
  induction f with
  | zero => intro i p hp; cases hp
  | succ f ih =>
    intro i p hp
    simp only [getN] at hp
    cases hv : s.values i k with
    | some q =>
      rw [hv] at hp
      injection hp with hp; subst hp
      exact h.vals i k q hv
    | none =>
      rw [hv] at hp
      cases hj : s.parent i with
      | none => rw [hj] at hp; cases hp
      | some j => rw [hj] at hp; exact ih j p hp

theorem get_prov {w : World} {P : TProv → Prop} {s : TSt} (h : TI w P s) {i p : Nat} {k : Key} (hp : get s i k = some p) :
    ∃ pr, s.provs[p]? = some pr ∧ pr.name = k ∧ P pr :=
  getN_prov h k (i + 1) i p hp

theorem ArgsFrom.fits {w : World} {P : TProv → Prop} {provs : List TProv} (hc : CoherentProvs w P provs) {pr : TProv} (hm : pr ∈ provs)
    {ins : List (GoType × Str)} {out : Option GoType}
    (hk : pr.kind = .func ins out) : ∀ as ds, (∀ d ∈ ds, d ∈ ins) → ArgsFrom P as ds → fits w as ds = true := by
  intro as ds hds h
  induction h with
  | nil => rfl
  | cons a d as ds h1 _ ih =>
    obtain ⟨pr', g1, g2, g3⟩ := h1
    unfold InjT.fits
    rw [hc pr' g1 _ g3 pr hm ins out hk d (hds d (by simp)) g2.symm, ih (fun d hd => hds d (by simp [hd]))]
    rfl

theorem invokeDeps_post {w : World} {P : TProv → Prop} {inv : TSt → Nat → TRes TVal × TSt} {i : Nat}
    (h : ∀ s q pr, TI w P s → s.provs[q]? = some pr → P pr →
      Post w P s (inv s q).2 ∧ (∀ x, (inv s q).1 = .ok x → pr.name ≠ [] → FromSlot P pr.name x ∧ Genuine w P x) ∧
      ((inv s q).1 = .panic → CoherentProvs w P s.provs → ∃ n, w.boom n = true)) :
    ∀ ds acc s, TI w P s →
      Post w P s (invokeDeps inv i ds acc s).2 ∧
      (∀ as, (invokeDeps inv i ds acc s).1 = .ok as → ∃ bs, as = acc ++ bs ∧ ArgsFrom P bs ds) ∧
      ((invokeDeps inv i ds acc s).1 = .panic → CoherentProvs w P s.provs → ∃ n, w.boom n = true) := by
  intro ds
  induction ds with
  | nil =>
    intro acc s hs
    refine ⟨Post.refl hs, fun as ha => ⟨[], ?_, .nil⟩, fun hp => by cases hp⟩
    simp only [invokeDeps, TRes.ok.injEq] at ha
    rw [← ha]; simp
  | cons d ds ih =>
    intro acc s hs
    simp only [invokeDeps]
    cases hg : get s i (slotOf d.1 d.2) with
    | none => exact ⟨Post.refl hs, fun as ha => (by cases ha), fun hp => (by cases hp)⟩
    | some q =>
      simp only
      by_cases hc : s.done q = 0 ∧ nameOf s q ∈ s.status
      · rw [if_pos hc]; exact ⟨Post.refl hs, fun as ha => (by cases ha), fun hp => (by cases hp)⟩
      · rw [if_neg hc]
        obtain ⟨pr, hpr, hn, hP⟩ := get_prov hs hg
        obtain ⟨h1, h2, h3⟩ := h s q pr hs hpr hP
        generalize inv s q = o at h1 h2 h3 ⊢
        obtain ⟨r, s'⟩ := o
        simp only at h1 h2 h3
        cases r with
        | err => exact ⟨h1, fun as ha => (by cases ha), fun hp => (by cases hp)⟩
        | diverge => exact ⟨h1, fun as ha => (by cases ha), fun hp => (by cases hp)⟩
        | panic => exact ⟨h1, fun as ha => (by cases ha), fun _ => h3 rfl⟩
        | ok v =>
          obtain ⟨g1, g2, g3⟩ := ih (acc ++ [v]) s' h1.ti
          refine ⟨h1.trans g1, ?_, ?_⟩
          · intro as ha
            obtain ⟨bs, e1, e2⟩ := g2 as ha
            refine ⟨v :: bs, by rw [e1]; simp, .cons v d bs ds ?_ e2⟩
            have := (h2 v rfl (by rw [hn]; exact slotOf_ne_nil _ _)).1
            rw [hn] at this
            exact this
          · intro hp hco
            exact g3 hp (by rw [h1.provs]; exact hco)

/-- The state after a successful call of function `pr` as provider `p` in `i`, before its `done` mark. -/
def cacheResult (s : TSt) (i : Nat) (name : Key) : Option GoType → Val → TSt
  | none, _ => s
  | some o, v => { s with caches := upd s.caches i (upd (s.caches i) name (some ⟨v, o⟩)) }

/-- A function provider, whether offered or given to `Invoke`. -/
theorem func_post {w : World} {P : TProv → Prop} {f : Nat} (ih : ∀ i s q pr, TI w P s → s.provs[q]? = some pr → P pr →
      Post w P s (invoke w f i s q).2 ∧ (∀ x, (invoke w f i s q).1 = .ok x → pr.name ≠ [] → FromSlot P pr.name x ∧ Genuine w P x) ∧
      ((invoke w f i s q).1 = .panic → CoherentProvs w P s.provs → ∃ n, w.boom n = true))
    {i p : Nat} {s : TSt} {pr : TProv} (hs : TI w P s) (hpr : s.provs[p]? = some pr) {ins : List (GoType × Str)} {out : Option GoType}
    (hk : pr.kind = .func ins out) (hc : s.caches i pr.name = none) :
    ((invoke w (f + 1) i s p).1 = .panic → CoherentProvs w P s.provs → ∃ n, w.boom n = true) ∧
    ((∃ x s1 n, (invoke w (f + 1) i s p).1 = .ok x ∧ Post w P s s1 ∧ (invoke w (f + 1) i s p).2 = mark (cacheResult s1 i pr.name out (.res n)) p ∧
        x = ⟨.res n, out.getD (.lit 0)⟩ ∧ n < s1.calls.length ∧ w.boom n = false ∧ s.calls.length ≤ n) ∨
     ((∀ x, (invoke w (f + 1) i s p).1 ≠ .ok x) ∧ Post w P s (invoke w (f + 1) i s p).2)) := by
  have hmem := List.mem_of_getElem? hpr
  simp only [invoke, hpr, hc, hk]
  obtain ⟨h1, h2, h3⟩ := invokeDeps_post (w := w) (inv := fun s q => invoke w f i s q) (i := i) (fun s q pr => ih i s q pr)
    ins [] { s with status := pr.name :: s.status } (hs.status _)
  have h0 : Post w P s { s with status := pr.name :: s.status } := ⟨rfl, rfl, rfl, ⟨[], by simp⟩, hs.status _⟩
  replace h1 := h0.trans h1
  simp only at h2 h3
  generalize invokeDeps (fun s q => invoke w f i s q) i ins [] { s with status := pr.name :: s.status } = o at h1 h2 h3 ⊢
  obtain ⟨r, s'⟩ := o
  simp only at h1 h2 h3
  cases r with
  | err => exact ⟨fun hp => (by cases hp), .inr ⟨fun x hx => (by cases hx), h1⟩⟩
  | diverge => exact ⟨fun hp => (by cases hp), .inr ⟨fun x hx => (by cases hx), h1⟩⟩
  | panic => exact ⟨fun _ => h3 rfl, .inr ⟨fun x hx => (by cases hx), h1.mark p⟩⟩
  | ok args =>
    obtain ⟨bs, e1, e2⟩ := h2 args rfl
    simp only [List.nil_append] at e1
    subst e1
    simp only
    by_cases hf : fits w args ins = false
    · rw [if_pos hf]
      refine ⟨fun _ hco => ?_, .inr ⟨fun x hx => (by cases hx), h1.mark p⟩⟩
      rw [ArgsFrom.fits hco hmem hk args ins (fun d hd => hd) e2] at hf
      cases hf
    · rw [if_neg hf]
      have hcall : Post w P s { s' with calls := s'.calls ++ [⟨i, p, pr.name, args⟩] } :=
        h1.trans ⟨rfl, rfl, rfl, ⟨_, rfl⟩, h1.ti.call _ ⟨pr, ins, out, by rw [h1.provs]; exact hpr, hk, by simpa using hf⟩⟩
      by_cases hb : w.boom s'.calls.length = true
      · rw [if_pos hb]
        exact ⟨fun _ _ => ⟨_, hb⟩, .inr ⟨fun x hx => (by cases hx), hcall.mark p⟩⟩
      · rw [if_neg hb]
        have hlen : s.calls.length ≤ s'.calls.length := by
          obtain ⟨l, hl⟩ := h1.calls
          rw [hl]; simp
        cases out with
        | none => exact ⟨fun hp => (by cases hp), .inl ⟨_, _, s'.calls.length, rfl, hcall, rfl, rfl, by simp, by simpa using hb, hlen⟩⟩
        | some o => exact ⟨fun hp => (by cases hp), .inl ⟨_, _, s'.calls.length, rfl, hcall, rfl, rfl, by simp, by simpa using hb, hlen⟩⟩

theorem invoke_post (w : World) (P : TProv → Prop) : ∀ f i s p pr, TI w P s → s.provs[p]? = some pr → P pr →
    Post w P s (invoke w f i s p).2 ∧ (∀ x, (invoke w f i s p).1 = .ok x → pr.name ≠ [] → FromSlot P pr.name x ∧ Genuine w P x) ∧
      ((invoke w f i s p).1 = .panic → CoherentProvs w P s.provs → ∃ n, w.boom n = true) := by
  intro f
  induction f with
  | zero => intro i s p pr hs _ _; exact ⟨Post.refl hs, fun x hx => (by cases hx), fun hp => (by cases hp)⟩
  | succ f ih =>
    intro i s p pr hs hpr hP
    cases hc : s.caches i pr.name with
    | some v =>
      simp only [invoke, hpr, hc]
      refine ⟨Post.refl hs, ?_, fun hp => (by cases hp)⟩
      intro x hx _
      injection hx with hx; subst hx
      obtain ⟨_, g1, n, g2, _, g3⟩ := hs.cached i _ v hc
      exact ⟨g1, .inr ⟨n, g2, g3⟩⟩
    | none =>
      cases hk : pr.kind with
      | value x =>
        simp only [invoke, hpr, hc, hk]
        refine ⟨⟨rfl, rfl, rfl, ⟨[], by simp [InjT.mark]⟩, (hs.status _).mark p⟩, ?_, fun hp => (by cases hp)⟩
        intro y hy _
        injection hy with hy; subst hy
        exact ⟨⟨pr, hP, rfl, by unfold TProv.gives; rw [hk]⟩, .inl ⟨pr, hP, hk⟩⟩
      | func ins out =>
        obtain ⟨h1, h2⟩ := func_post ih hs hpr hk hc
        rcases h2 with ⟨x, s1, n, e1, e2, e3, e4, e5, e6, _⟩ | ⟨e1, e2⟩
        · rw [e1, e3]
          cases out with
          | none =>
            refine ⟨e2.mark p, fun y _ hne => absurd ?_ hne, fun hp => (by cases hp)⟩
            unfold TProv.name; rw [hk]
          | some o =>
            have hname : pr.name ≠ [] := by unfold TProv.name; rw [hk]; exact slotOf_ne_nil _ _
            have hgives : pr.gives = some o := by unfold TProv.gives; rw [hk]
            refine ⟨Post.mark (s' := cacheResult s1 i pr.name (some o) (.res n)) ⟨e2.values, e2.parent, e2.provs, e2.calls, ⟨e2.ti.vals, ?_, e2.ti.parent, e2.ti.typed⟩⟩ p, ?_, fun hp => (by cases hp)⟩
            · intro j k y hy
              by_cases hjk : j = i ∧ k = pr.name
              · obtain ⟨rfl, rfl⟩ := hjk
                simp only [cacheResult, upd, if_true, Option.some.injEq] at hy
                subst hy
                exact ⟨hname, ⟨pr, hP, rfl, hgives⟩, n, rfl, e5, e6⟩
              · refine e2.ti.cached j k y ?_
                simp only [cacheResult, upd] at hy
                by_cases hj : j = i
                · rw [if_pos hj] at hy
                  simp only [upd] at hy
                  rw [if_neg (fun h => hjk ⟨hj, h⟩)] at hy
                  rw [hj]; exact hy
                · rw [if_neg hj] at hy; exact hy
            · intro y hy _
              injection hy with hy; subst hy
              rw [e4]
              exact ⟨⟨pr, hP, rfl, hgives⟩, .inr ⟨n, rfl, e6⟩⟩
        · exact ⟨e2, fun x hx => absurd hx (e1 x), h1⟩

/-! ## Histories -/

/-- The provider a user call offers to other functions. -/
def TCmd.offer : TCmd → Option TProv
  | .provide _ pr => if pr.valid then some pr else none
  | _ => none

/-- The functions whose arguments the injector looks up: provided or invoked. -/
def TCmd.uses : TCmd → Option TProv
  | .provide _ pr => if pr.valid then some pr else none
  | .invoke _ ins out => some (fnOf ins out)
  | _ => none

/-- The providers ever offered. -/
def Offered (cs : List TCmd) (pr : TProv) : Prop := ∃ c ∈ cs, c.offer = some pr

theorem TI.mono {w : World} {P Q : TProv → Prop} {s : TSt} (h : TI w P s) (hm : ∀ pr, P pr → Q pr) : TI w Q s := by
  refine ⟨?_, ?_, h.parent, h.typed⟩
  · intro i k p hp
    obtain ⟨pr, h1, h2, h3⟩ := h.vals i k p hp
    exact ⟨pr, h1, h2, hm _ h3⟩
  · intro i k x hx
    obtain ⟨h1, ⟨pr, h2, h3⟩, h4⟩ := h.cached i k x hx
    exact ⟨h1, ⟨pr, hm _ h2, h3⟩, h4⟩

theorem lookup_post (w : World) (P : TProv → Prop) (f : Nat) (s : TSt) (i : Nat) (t : GoType) (nm : Str) (h : TI w P s) :
    Post w P s (lookup w f s i t nm).2 ∧ (∀ x, (lookup w f s i t nm).1 = .ok x → FromSlot P (slotOf t nm) x ∧ Genuine w P x) ∧
      ((lookup w f s i t nm).1 = .panic → CoherentProvs w P s.provs → ∃ n, w.boom n = true) := by
  unfold lookup
  cases hg : get s i (slotOf t nm) with
  | none => exact ⟨Post.refl h, fun x hx => (by cases hx), fun hp => (by cases hp)⟩
  | some p =>
    simp only
    obtain ⟨pr, h1, h2, h3⟩ := get_prov h hg
    obtain ⟨g1, g2, g3⟩ := invoke_post w P f i { s with status := [] } p pr (h.status []) h1 h3
    have h0 : Post w P s { s with status := [] } := ⟨rfl, rfl, rfl, ⟨[], by simp⟩, h.status _⟩
    refine ⟨h0.trans g1, fun x hx => ?_, g3⟩
    rw [← h2]
    exact g2 x hx (by rw [h2]; exact slotOf_ne_nil _ _)

theorem find_snd (w : World) (f : Nat) (s : TSt) (i : Nat) (t : GoType) (nm : Str) : (find w f s i t nm).2 = (lookup w f s i t nm).2 := by
  unfold find
  generalize lookup w f s i t nm = o
  obtain ⟨r, s'⟩ := o
  cases r <;> rfl

theorem TI.append {w : World} {P : TProv → Prop} {s : TSt} (h : TI w P s) (pr : TProv) : TI w P { s with provs := s.provs ++ [pr], status := [] } := by
  refine ⟨?_, h.cached, h.parent, ?_⟩
  · intro i k p hp
    obtain ⟨pr', h1, h2⟩ := h.vals i k p hp
    exact ⟨pr', getElem?_append_some h1 _, h2⟩
  · intro c hc
    obtain ⟨pr', ins, out, h1, h2⟩ := h.typed c hc
    exact ⟨pr', ins, out, getElem?_append_some h1 _, h2⟩

theorem invokeFn_post (w : World) (P : TProv → Prop) (f : Nat) (s : TSt) (i : Nat) (ins : List (GoType × Str)) (out : Option GoType) (h : TI w P s) :
    TI w P (invokeFn w f s i (fnOf ins out)).2 ∧
    ((invokeFn w f s i (fnOf ins out)).2.values = s.values ∧ (invokeFn w f s i (fnOf ins out)).2.parent = s.parent ∧
      (invokeFn w f s i (fnOf ins out)).2.provs = s.provs ++ [fnOf ins out] ∧ ∃ l, (invokeFn w f s i (fnOf ins out)).2.calls = s.calls ++ l) ∧
    ((invokeFn w f s i (fnOf ins out)).1 = .panic → CoherentProvs w P (s.provs ++ [fnOf ins out]) → ∃ n, w.boom n = true) := by
  have hb := h.append (fnOf ins out)
  have hpr : ({ s with provs := s.provs ++ [fnOf ins out], status := [] } : TSt).provs[s.provs.length]? = some (fnOf ins out) := by simp
  unfold invokeFn
  cases f with
  | zero => exact ⟨hb, ⟨rfl, rfl, rfl, [], by simp [invoke]⟩, fun hp => (by cases hp)⟩
  | succ f =>
    -- removing an entry of the cache
    have drop : ∀ s1 : TSt, (∀ j k x, ¬ (j = i ∧ k = (fnOf ins out).name) → s1.caches j k = some x →
        k ≠ [] ∧ FromSlot P k x ∧ ∃ n, x.v = .res n ∧ n < s1.calls.length ∧ w.boom n = false) → (∀ i k p, s1.values i k = some p → ∃ pr, s1.provs[p]? = some pr ∧ pr.name = k ∧ P pr) →
        (∀ i j, s1.parent i = some j → j < i) →
        (∀ c ∈ s1.calls, ∃ pr ins out, s1.provs[c.prov]? = some pr ∧ pr.kind = .func ins out ∧ fits w c.args ins = true) →
        TI w P { s1 with caches := upd s1.caches i (upd (s1.caches i) (fnOf ins out).name none) } := by
      intro s1 hc hv hpa hty
      refine ⟨hv, ?_, hpa, hty⟩
      intro j k x hx
      by_cases hjk : j = i ∧ k = (fnOf ins out).name
      · obtain ⟨rfl, rfl⟩ := hjk
        simp [upd] at hx
      · refine hc j k x hjk ?_
        simp only [upd] at hx
        by_cases hj : j = i
        · rw [if_pos hj] at hx
          simp only [upd] at hx
          rw [if_neg (fun h => hjk ⟨hj, h⟩)] at hx
          rw [hj]; exact hx
        · rw [if_neg hj] at hx; exact hx
    cases hc : s.caches i (fnOf ins out).name with
    | some v =>
      have e : invoke w (f + 1) i { s with provs := s.provs ++ [fnOf ins out], status := [] } s.provs.length =
          (.ok v, { s with provs := s.provs ++ [fnOf ins out], status := [] }) := by
        simp only [invoke, hpr, hc]
      rw [e]
      exact ⟨drop _ (fun j k x _ hx => hb.cached j k x hx) hb.vals hb.parent hb.typed, ⟨rfl, rfl, rfl, [], by simp⟩, fun hp => (by cases hp)⟩
    | none =>
      obtain ⟨h1, h2⟩ := func_post (i := i) (p := s.provs.length) (fun i s q pr => invoke_post w P f i s q pr) hb hpr (rfl : (fnOf ins out).kind = .func ins out) hc
      generalize invoke w (f + 1) i { s with provs := s.provs ++ [fnOf ins out], status := [] } s.provs.length = o at h1 h2 ⊢
      obtain ⟨r, s'⟩ := o
      simp only at h1 h2
      rcases h2 with ⟨x, s1, n, e1, e2, e3, e4, e5, e6, _⟩ | ⟨e1, e2⟩
      · subst e1 e3
        simp only
        refine ⟨drop _ ?_ ?_ ?_ ?_, ⟨?_, ?_, ?_, ?_⟩, fun hp => (by cases hp)⟩
        · intro j k y hjk hy
          have hcalls : (mark (cacheResult s1 i (fnOf ins out).name out (.res n)) s.provs.length).calls = s1.calls := by cases out <;> rfl
          rw [hcalls]
          refine e2.ti.cached j k y ?_
          cases out with
          | none => exact hy
          | some o =>
            simp only [InjT.mark, cacheResult, upd] at hy
            by_cases hj : j = i
            · rw [if_pos hj] at hy
              simp only [upd] at hy
              rw [if_neg (fun h => hjk ⟨hj, h⟩)] at hy
              rw [hj]; exact hy
            · rw [if_neg hj] at hy; exact hy
        · have : (mark (cacheResult s1 i (fnOf ins out).name out (.res n)) s.provs.length).values = s1.values := by cases out <;> rfl
          rw [this]
          have : (mark (cacheResult s1 i (fnOf ins out).name out (.res n)) s.provs.length).provs = s1.provs := by cases out <;> rfl
          rw [this]
          exact e2.ti.vals
        · have : (mark (cacheResult s1 i (fnOf ins out).name out (.res n)) s.provs.length).parent = s1.parent := by cases out <;> rfl
          rw [this]
          exact e2.ti.parent
        · cases out <;> exact e2.ti.typed
        · cases out <;> exact e2.values
        · cases out <;> exact e2.parent
        · cases out <;> exact e2.provs
        · cases out <;> exact e2.calls
      · cases r with
        | ok x => exact absurd rfl (e1 x)
        | err => exact ⟨e2.ti, ⟨e2.values, e2.parent, e2.provs, e2.calls⟩, h1⟩
        | panic => exact ⟨e2.ti, ⟨e2.values, e2.parent, e2.provs, e2.calls⟩, h1⟩
        | diverge => exact ⟨e2.ti, ⟨e2.values, e2.parent, e2.provs, e2.calls⟩, h1⟩

theorem reach_snoc (w : World) (f : Nat) (cs : List TCmd) (c : TCmd) : reach w f (cs ++ [c]) = (c.run w f (reach w f cs)).2 := by
  simp [reach]

theorem run_find (w : World) (f : Nat) (s : TSt) (i : Nat) (t : GoType) (nm : Str) :
    (TCmd.run w f s (.find i t nm)).2 = (lookup w f s i t nm).2 ∧
    ((TCmd.run w f s (.find i t nm)).1 = true ↔ (lookup w f s i t nm).1 = .panic) := by
  simp only [TCmd.run, find]
  generalize lookup w f s i t nm = o
  obtain ⟨r, s'⟩ := o
  cases r <;> simp

theorem run_invoke (w : World) (f : Nat) (s : TSt) (i : Nat) (ins : List (GoType × Str)) (out : Option GoType) :
    (TCmd.run w f s (.invoke i ins out)).2 = (invokeFn w f s i (fnOf ins out)).2 ∧
    ((TCmd.run w f s (.invoke i ins out)).1 = true ↔ (invokeFn w f s i (fnOf ins out)).1 = .panic) := by
  simp only [TCmd.run]
  generalize invokeFn w f s i (fnOf ins out) = o
  obtain ⟨r, s'⟩ := o
  cases r <;> simp

theorem TI.run {w : World} {P : TProv → Prop} {s : TSt} (h : TI w P s) (f : Nat) (c : TCmd) (hP : ∀ pr, c.offer = some pr → P pr) :
    TI w P (c.run w f s).2 ∧ (c.run w f s).2.provs = s.provs ++ c.uses.toList := by
  cases c with
  | find i t nm =>
    rw [(run_find w f s i t nm).1]
    have := (lookup_post w P f s i t nm h).1
    exact ⟨this.ti, by rw [this.provs]; simp [TCmd.uses]⟩
  | invoke i ins out =>
    rw [(run_invoke w f s i ins out).1]
    have := invokeFn_post w P f s i ins out h
    exact ⟨this.1, by rw [this.2.1.2.2.1]; simp [TCmd.uses]⟩
  | setParent i j =>
    show TI w P (InjT.setParent s i j) ∧ (InjT.setParent s i j).provs = s.provs ++ []
    unfold InjT.setParent
    by_cases hj : j < i
    · rw [if_pos hj]
      refine ⟨⟨h.vals, h.cached, ?_, h.typed⟩, by simp⟩
      intro a b hab
      simp only [upd] at hab
      by_cases ha : a = i
      · rw [if_pos ha] at hab
        injection hab with hab
        omega
      · rw [if_neg ha] at hab; exact h.parent a b hab
    · rw [if_neg hj]; exact ⟨h, by simp⟩
  | provide i pr =>
    simp only [TCmd.run, provideAs, TCmd.uses]
    cases hv : pr.valid with
    | false => simpa using h
    | true =>
      simp only [if_true, Option.toList_some]
      have hPr : P pr := hP pr (by simp [TCmd.offer, hv])
      refine ⟨⟨?_, ?_, h.parent, ?_⟩, trivial⟩
      · intro j k p hp
        by_cases hjk : j = i ∧ k = pr.name
        · obtain ⟨rfl, rfl⟩ := hjk
          simp only [upd, if_true, Option.some.injEq] at hp
          subst hp
          exact ⟨pr, by simp, rfl, hPr⟩
        · have hp' : s.values j k = some p := by
            simp only [upd] at hp
            by_cases hj : j = i
            · rw [if_pos hj] at hp
              simp only [upd] at hp
              rw [if_neg (fun h => hjk ⟨hj, h⟩)] at hp
              rw [hj]; exact hp
            · rw [if_neg hj] at hp; exact hp
          obtain ⟨pr', h1, h2⟩ := h.vals j k p hp'
          exact ⟨pr', getElem?_append_some h1 _, h2⟩
      · intro j k x hx
        by_cases hjk : j = i ∧ k = pr.name
        · obtain ⟨rfl, rfl⟩ := hjk
          simp [upd] at hx
        · refine h.cached j k x ?_
          simp only [upd] at hx
          by_cases hj : j = i
          · rw [if_pos hj] at hx
            simp only [upd] at hx
            rw [if_neg (fun h => hjk ⟨hj, h⟩)] at hx
            rw [hj]; exact hx
          · rw [if_neg hj] at hx; exact hx
      · intro c hc
        obtain ⟨pr', ins, out, h1, h2⟩ := h.typed c hc
        exact ⟨pr', ins, out, getElem?_append_some h1 _, h2⟩

theorem TI.reach (w : World) (f : Nat) : ∀ cs, TI w (Offered cs) (reach w f cs) ∧ (InjT.reach w f cs).provs = cs.filterMap TCmd.uses := by
  refine snoc_ind ?_ ?_
  · exact ⟨⟨fun i k p h => (by cases h), fun i k x h => (by cases h), fun i j h => (by cases h), fun c h => (by cases h)⟩, rfl⟩
  · intro cs c ih
    rw [reach_snoc]
    have h1 := ih.1.mono (Q := Offered (cs ++ [c])) (fun pr ⟨c', h1, h2⟩ => ⟨c', List.mem_append_left _ h1, h2⟩)
    obtain ⟨g1, g2⟩ := h1.run f c (fun pr hpr => ⟨c, by simp, hpr⟩)
    refine ⟨g1, ?_⟩
    rw [g2, ih.2, List.filterMap_append]
    cases h : c.uses <;> simp [h]

/-! ## C118 -/

/-- The types (with slot names) a user call asks for: the parameters of the function it provides or invokes, the variable of a `Find`. -/
def TCmd.asks : TCmd → List (GoType × Str)
  | .provide _ ⟨.func ins _, _, _⟩ => ins
  | .provide _ ⟨.value _, _, _⟩ => []
  | .find _ t nm => [(t, nm)]
  | .invoke _ ins _ => ins
  | .setParent _ _ => []

/-- Whatever is offered for a slot can be assigned to everything that asks for the slot. -/
def Coherent (w : World) (cs : List TCmd) : Prop :=
  ∀ pr t, Offered cs pr → pr.gives = some t → ∀ c ∈ cs, ∀ d ∈ c.asks, slotOf d.1 d.2 = pr.name → w.asg t d.1 = true

theorem Coherent.provs {w : World} {cs ds : List TCmd} (h : Coherent w cs) (hd : ∀ c ∈ ds, c ∈ cs) {P : TProv → Prop} (hP : ∀ pr, P pr → Offered cs pr) :
    CoherentProvs w P (ds.filterMap TCmd.uses) := by
  intro pr hpr t ht pr' hm ins out hk d hdm hs
  obtain ⟨c, hc, hu⟩ := List.mem_filterMap.1 hm
  refine h pr t (hP pr hpr) ht c (hd c hc) d ?_ hs
  cases c with
  | provide i q =>
    simp only [TCmd.uses] at hu
    by_cases hv : q.valid = true
    · rw [if_pos hv] at hu
      injection hu with hu; subst hu
      obtain ⟨kind, as, nm⟩ := q
      simp only at hk
      subst hk
      exact hdm
    · rw [if_neg hv] at hu; cases hu
  | find i t nm => cases hu
  | invoke i a b =>
    simp only [TCmd.uses, Option.some.injEq] at hu
    subst hu
    simp only [fnOf, TKind.func.injEq] at hk
    rw [hk.1]; exact hdm
  | setParent i j => cases hu

/-- **C118.** If everything offered for a slot can be assigned to everything that asks for it, the provided values are pointers and no provider
function panics by itself, then no call of the injector in the history panics. -/
theorem C118_coherent_never_panics (w : World) (f : Nat) (cs : List TCmd) (hc : Coherent w cs) (hb : ∀ n, w.boom n = false)
    (hv : ∀ i pr, TCmd.provide i pr ∈ cs → pr.valid = true) (cs1 : List TCmd) (c : TCmd) (cs2 : List TCmd) (he : cs = cs1 ++ c :: cs2) :
    (c.run w f (reach w f cs1)).1 = false := by
  obtain ⟨h1, h2⟩ := TI.reach w f cs1
  have hoff : ∀ pr, Offered cs1 pr → Offered cs pr := fun pr ⟨c', g1, g2⟩ => ⟨c', by rw [he]; simp [g1], g2⟩
  have noboom : ¬ ∃ n, w.boom n = true := fun ⟨n, hn⟩ => by rw [hb] at hn; cases hn
  cases c with
  | setParent i j => rfl
  | provide i pr =>
    have := hv i pr (by rw [he]; simp)
    simp [TCmd.run, provideAs, this]
  | find i t nm =>
    cases hr : (TCmd.run w f (reach w f cs1) (.find i t nm)).1 with
    | false => rfl
    | true =>
      have := (lookup_post w (Offered cs1) f (reach w f cs1) i t nm h1).2.2 ((run_find w f _ i t nm).2.1 hr)
      rw [h2] at this
      exact absurd (this (hc.provs (fun c hc => by rw [he]; simp [hc]) hoff)) noboom
  | invoke i ins out =>
    cases hr : (TCmd.run w f (reach w f cs1) (.invoke i ins out)).1 with
    | false => rfl
    | true =>
      have := (invokeFn_post w (Offered cs1) f (reach w f cs1) i ins out h1).2.2 ((run_invoke w f _ i ins out).2.1 hr)
      rw [h2] at this
      have hx : cs1.filterMap TCmd.uses ++ [fnOf ins out] = (cs1 ++ [TCmd.invoke i ins out]).filterMap TCmd.uses := by
        rw [List.filterMap_append]; rfl
      rw [hx] at this
      refine absurd (this (hc.provs (fun c hc => ?_) hoff)) noboom
      rw [he]
      rcases List.mem_append.1 hc with hc | hc
      · simp [hc]
      · simp [List.mem_singleton.1 hc]

/-- **C118.** Then a `Find` that finds something sets the variable to it. -/
theorem C118_coherent_find_sets (w : World) (f : Nat) (cs : List TCmd) (i : Nat) (t : GoType) (nm : Str) (hc : Coherent w (cs ++ [.find i t nm]))
    (a : Assigned) (s' : TSt) (hf : find w f (reach w f cs) i t nm = (.ok a, s')) : ∃ v, a = .set v := by
  obtain ⟨h1, h2⟩ := TI.reach w f cs
  have h3 := (lookup_post w (Offered cs) f (reach w f cs) i t nm h1).2.1
  unfold find at hf
  generalize lookup w f (reach w f cs) i t nm = o at h3 hf
  obtain ⟨r, s''⟩ := o
  cases r with
  | ok x =>
    obtain ⟨⟨pr, ⟨c, hcm, hco⟩, g2, g3⟩, _⟩ := h3 x rfl
    have := hc pr x.ty ⟨c, by simp [hcm], hco⟩ g3 (.find i t nm) (by simp) (t, nm) (by simp [TCmd.asks]) g2.symm
    simp only [assignValue, this, if_true, Prod.mk.injEq, TRes.ok.injEq] at hf
    exact ⟨x.v, hf.1.symm⟩
  | err => cases hf
  | panic => cases hf
  | diverge => cases hf

/-- **C118.** In every history — coherent or not, with panics or without — every provider function is only ever called with as many
arguments as it has parameters, each assignable to its parameter. -/
theorem C118_calls_are_typed (w : World) (f : Nat) (cs : List TCmd) (c : TCall) (hc : c ∈ (reach w f cs).calls) :
    ∃ pr ins out, (reach w f cs).provs[c.prov]? = some pr ∧ pr.kind = .func ins out ∧ c.args.length = ins.length ∧
      ∀ a d, (a, d) ∈ c.args.zip ins → w.asg a.ty d.1 = true := by
  obtain ⟨pr, ins, out, h1, h2, h3⟩ := (TI.reach w f cs).1.typed c hc
  refine ⟨pr, ins, out, h1, h2, ?_⟩
  have : ∀ (as : List TVal) (ds : List (GoType × Str)), fits w as ds = true → as.length = ds.length ∧ ∀ a d, (a, d) ∈ as.zip ds → w.asg a.ty d.1 = true := by
    intro as
    induction as with
    | nil =>
      intro ds h
      cases ds with
      | nil => exact ⟨rfl, fun a d h => by cases h⟩
      | cons d ds => cases h
    | cons a as ih =>
      intro ds h
      cases ds with
      | nil => cases h
      | cons d ds =>
        simp only [fits, Bool.and_eq_true] at h
        obtain ⟨g1, g2⟩ := ih ds h.2
        refine ⟨by simp [g1], ?_⟩
        intro b e hbe
        rcases List.mem_cons.1 hbe with hbe | hbe
        · injection hbe with e1 e2; subst e1 e2; exact h.1
        · exact g2 b e hbe
  exact this _ _ h3

theorem eProv_wf (pr : TProv) : (eProv pr).Wf := by
  obtain ⟨kind, as, nm⟩ := pr
  cases kind with
  | value x => exact slotOf_ne_nil _ _
  | func ins out =>
    refine ⟨?_, ?_⟩
    · cases out with
      | none => exact ⟨fun _ => rfl, fun _ => rfl⟩
      | some o => exact ⟨fun h => absurd h (slotOf_ne_nil _ _), fun h => by cases h⟩
    · intro h
      obtain ⟨d, _, hd⟩ := List.mem_map.1 h
      exact slotOf_ne_nil _ _ hd

theorem eCmd_wf (c : TCmd) : (eCmd c).Wf := by
  cases c with
  | provide i pr => exact eProv_wf pr
  | find i t nm => exact slotOf_ne_nil _ _
  | invoke i ins out => exact ⟨eProv_wf _, _, _, rfl⟩
  | setParent i j => trivial

/-! ## C118: the model without types is right for panic-free histories -/

theorem lookup_sim (w : World) (f : Nat) (s : TSt) (i : Nat) (t : GoType) (nm : Str) (h : (lookup w f s i t nm).1 ≠ .panic) :
    Inj.find f (erase s) i (slotOf t nm) = (eRes (lookup w f s i t nm).1, erase (lookup w f s i t nm).2) := by
  unfold lookup Inj.find at *
  rw [get_erase]
  cases hg : get s i (slotOf t nm) with
  | none => rfl
  | some p =>
    rw [hg] at h
    exact invoke_sim w f i { s with status := [] } p h

theorem invokeFn_sim (w : World) (f : Nat) (s : TSt) (i : Nat) (pr : TProv) (h : (invokeFn w f s i pr).1 ≠ .panic) :
    Inj.invokeFn f (erase s) i (eProv pr) = (eRes (invokeFn w f s i pr).1, erase (invokeFn w f s i pr).2) := by
  have e0 : (erase { s with provs := s.provs ++ [pr], status := [] } : St) =
      (⟨(erase s).values, (erase s).caches, (erase s).parent, (erase s).provs ++ [eProv pr], (erase s).done, [], (erase s).calls⟩ : St) := by
    simp [erase]
  have el : ((erase s).provs ++ [eProv pr]).length - 1 = s.provs.length := by simp [erase]
  have hs := invoke_sim w f i { s with provs := s.provs ++ [pr], status := [] } s.provs.length
  rw [e0] at hs
  unfold invokeFn Inj.invokeFn at *
  simp only [el]
  generalize invoke w f i { s with provs := s.provs ++ [pr], status := [] } s.provs.length = o at hs h ⊢
  obtain ⟨r, s'⟩ := o
  cases r with
  | panic => exact absurd rfl h
  | err => rw [hs (by simp)]; rfl
  | diverge => rw [hs (by simp)]; rfl
  | ok x =>
    rw [hs (by simp)]
    simp only [eRes]
    congr 1
    have h5 := erase_caches_upd s' i pr.name none
    simp only [Option.map_none] at h5
    have hn : (eProv pr).name = pr.name := rfl
    rw [hn, ← h5]
    rfl

/-- **C118.** A call that does not panic does what `Model/Inject.lean` says. -/
theorem run_sim (w : World) (f : Nat) (s : TSt) (c : TCmd) (h : (c.run w f s).1 = false) :
    (eCmd c).run f (erase s) = erase (c.run w f s).2 := by
  cases c with
  | setParent i j =>
    show Inj.setParent (erase s) i j = erase (InjT.setParent s i j)
    unfold Inj.setParent InjT.setParent
    by_cases hj : j < i
    · rw [if_pos hj, if_pos hj]; rfl
    · rw [if_neg hj, if_neg hj]
  | provide i pr =>
    simp only [TCmd.run, provideAs] at h ⊢
    cases hv : pr.valid with
    | false => rw [hv] at h; simp at h
    | true =>
      simp only [if_true]
      show Inj.provideAs (erase s) i (eProv pr) = _
      unfold Inj.provideAs
      have h5 := erase_caches_upd s i pr.name none
      simp only [Option.map_none] at h5
      have hn : (eProv pr).name = pr.name := rfl
      rw [hn, ← h5]
      simp [erase]
  | find i t nm =>
    rw [(run_find w f s i t nm).1]
    show (Inj.find f (erase s) i (slotOf t nm)).2 = _
    rw [lookup_sim w f s i t nm]
    intro hp
    rw [(run_find w f s i t nm).2.2 hp] at h; cases h
  | invoke i ins out =>
    rw [(run_invoke w f s i ins out).1]
    show (Inj.invokeFn f (erase s) i (eProv (fnOf ins out))).2 = _
    rw [invokeFn_sim w f s i (fnOf ins out)]
    intro hp
    rw [(run_invoke w f s i ins out).2.2 hp] at h; cases h

/-- No call of the history panics. -/
def NoPanic (w : World) (f : Nat) (cs : List TCmd) : Prop :=
  ∀ cs1 c cs2, cs = cs1 ++ c :: cs2 → (c.run w f (reach w f cs1)).1 = false

/-- **C118.** Up to types, the states of panic-free histories are those of `Model/Inject.lean`: what is proved there holds of them. -/
theorem C118_same_as_untyped (w : World) (f : Nat) (cs : List TCmd) (h : NoPanic w f cs) :
    Inj.reach f (cs.map eCmd) = erase (reach w f cs) ∧ Cmds (cs.map eCmd) := by
  refine ⟨?_, ?_⟩
  · revert h
    refine snoc_ind (P := fun cs => NoPanic w f cs → Inj.reach f (cs.map eCmd) = erase (reach w f cs)) ?_ ?_ cs
    · intro _; rfl
    · intro cs c ih h
      rw [List.map_append, reach_snoc]
      show Inj.reach f (cs.map eCmd ++ [eCmd c]) = _
      rw [Inj.reach_snoc, ih (fun cs1 c' cs2 he => h cs1 c' (cs2 ++ [c]) (by rw [he]; simp))]
      exact run_sim w f _ c (h cs c [] (by simp))
  · intro c hc
    obtain ⟨c', _, rfl⟩ := List.mem_map.1 hc
    exact eCmd_wf c'

/-! ## Examples -/

/-- A logger `*L` for everyone who asks for the interface `I`, and a handler asking for it and for a request value `*R`. -/
example : let L : GoType := .ptr (.decl b!"m" b!"L" 0)
    let I : GoType := .decl b!"m" b!"I" 0
    let R : GoType := .ptr (.decl b!"m" b!"R" 0)
    let w : World := ⟨fun t u => t = u ∨ (t = L ∧ u = I), fun _ => false, fun _ => false⟩
    let cs : List TCmd := [.provide 0 ⟨.value ⟨.obj 1, L⟩, some (.ptr I), []⟩, .provide 0 ⟨.func [(I, [])] (some R), none, []⟩, .setParent 1 0,
      .invoke 1 [(R, []), (I, [])] none, .find 1 I []]
    (∀ i pr, TCmd.provide i pr ∈ cs → pr.valid = true) ∧
    (∀ pr t, Offered cs pr → pr.gives = some t → ∀ c ∈ cs, ∀ d ∈ c.asks, slotOf d.1 d.2 = pr.name → w.asg t d.1 = true) ∧
    (reach w 9 cs).calls.length = 2 ∧ (find w 9 (reach w 9 cs) 1 I []).1 = .ok (.set (.obj 1)) := by
  refine ⟨?_, ?_, by decide +kernel, by decide +kernel⟩
  · intro i pr h
    simp only [List.mem_cons, List.not_mem_nil, or_false, TCmd.provide.injEq, reduceCtorEq, false_or] at h
    rcases h with ⟨_, rfl⟩ | ⟨_, rfl⟩ <;> rfl
  · rintro pr t ⟨c, hc, ho⟩ hg c' hc' d hd hs
    simp only [List.mem_cons, List.not_mem_nil, or_false] at hc
    rcases hc with rfl | rfl | rfl | rfl | rfl
    · simp only [TCmd.offer, TProv.valid, if_true, Option.some.injEq] at ho
      subst ho
      simp only [TProv.gives, Option.some.injEq] at hg
      subst hg
      simp only [List.mem_cons, List.not_mem_nil, or_false] at hc'
      rcases hc' with rfl | rfl | rfl | rfl | rfl <;> simp only [TCmd.asks, List.mem_cons, List.not_mem_nil, or_false] at hd
      · subst hd; decide
      · rcases hd with rfl | rfl
        · revert hs; decide
        · decide
      · subst hd; decide
    · simp only [TCmd.offer, TProv.valid, if_true, Option.some.injEq] at ho
      subst ho
      simp only [TProv.gives, Option.some.injEq] at hg
      subst hg
      simp only [List.mem_cons, List.not_mem_nil, or_false] at hc'
      rcases hc' with rfl | rfl | rfl | rfl | rfl <;> simp only [TCmd.asks, List.mem_cons, List.not_mem_nil, or_false] at hd
      · subst hd; revert hs; decide
      · rcases hd with rfl | rfl
        · decide
        · revert hs; decide
      · subst hd; revert hs; decide
    · cases ho
    · cases ho
    · cases ho

/-- Without coherence: a handler that asks for `T` where `*T` is provided panics, and is not called. -/
example : let T : GoType := .decl b!"m" b!"T" 0
    let w : World := ⟨fun t u => t = u, fun _ => false, fun _ => false⟩
    let s := reach w 9 [.provide 0 ⟨.value ⟨.obj 1, .ptr T⟩, none, []⟩]
    (invokeFn w 9 s 0 (fnOf [(T, [])] none)).1 = .panic ∧ (invokeFn w 9 s 0 (fnOf [(T, [])] none)).2.calls = [] ∧
    (find w 9 s 0 T []).1 = .ok (.setElem (.obj 1)) ∧ (find w 9 s 0 (.ptr (.ptr T)) []).1 = .ok .mismatch := by decide +kernel

end Verif.InjT
