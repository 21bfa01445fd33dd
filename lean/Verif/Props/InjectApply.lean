import Verif.Props.InjectTerm
import Verif.Model.InjectApply
/-! # C28: `Apply` fills exactly the tagged fields -/
namespace Verif.Inj

/-- Elementwise relation of two lists. -/
inductive All2 {α β : Type} (R : α → β → Prop) : List α → List β → Prop where
  | nil : All2 R [] []
  | cons (a : α) (b : β) (as : List α) (bs : List β) : R a b → All2 R as bs → All2 R (a :: as) (b :: bs)

/-- Specification of `Apply` on one field, structs being entered `n` levels deep: settable fields with an `inject` tag get the
value of their type (if it can be assigned), the others are unchanged, except that structs are entered. -/
def Filled (holds : Key → Val → Prop) (asg : Val → Nat → Bool) : Nat → Field → Field → Prop
  | n, x, y =>
    (x.settable = false ∨ x.tag = .dash → y = x) ∧
    (x.settable = true → x.tag = .inject → ∃ v, holds x.key v ∧ y = if asg v x.ty then x.assign v else x) ∧
    (x.settable = true → x.tag = .none → match n with
      | 0 => y = x
      | m + 1 => ∃ fs, y = x.withSub fs ∧ All2 (Filled holds asg m) x.sub fs)

/-- The same after an error: some tagged fields may have been left alone. -/
def FilledSome (holds : Key → Val → Prop) (asg : Val → Nat → Bool) : Nat → Field → Field → Prop
  | n, x, y => y = x ∨
    (x.settable = true ∧ x.tag = .inject ∧ ∃ v, holds x.key v ∧ y = if asg v x.ty then x.assign v else x) ∨
    (x.settable = true ∧ x.tag = .none ∧ match n with
      | 0 => y = x
      | m + 1 => ∃ fs, y = x.withSub fs ∧ All2 (FilledSome holds asg m) x.sub fs)

/-- The types of the tagged fields. -/
def needs : Nat → Field → List Key
  | n, x =>
    if x.settable = false ∨ x.tag = .dash then []
    else if x.tag = .inject then [x.key]
    else match n with
      | 0 => []
      | m + 1 => x.sub.flatMap (needs m)

theorem All2.mono {α β : Type} {R R' : α → β → Prop} (h : ∀ a b, R a b → R' a b) {as : List α} {bs : List β} (ha : All2 R as bs) :
    All2 R' as bs := by
  induction ha with
  | nil => exact .nil
  | cons a b as bs h1 _ ih => exact .cons a b as bs (h a b h1) ih

theorem All2.mono_mem {α β : Type} {R R' : α → β → Prop} {as : List α} {bs : List β} (ha : All2 R as bs)
    (h : ∀ a ∈ as, ∀ b, R a b → R' a b) : All2 R' as bs := by
  induction ha with
  | nil => exact .nil
  | cons a b as bs h1 _ ih => exact .cons a b as bs (h a (by simp) b h1) (ih (fun c hc => h c (by simp [hc])))

theorem Filled.mono {h h' : Key → Val → Prop} {asg : Val → Nat → Bool} (hm : ∀ k v, h k v → h' k v) :
    ∀ n x y, Filled h asg n x y → Filled h' asg n x y := by
  intro n
  induction n with
  | zero =>
    intro x y hf
    unfold Filled at hf ⊢
    exact ⟨hf.1, fun h1 h2 => let ⟨v, h3, h4⟩ := hf.2.1 h1 h2; ⟨v, hm _ _ h3, h4⟩, hf.2.2⟩
  | succ n ih =>
    intro x y hf
    unfold Filled at hf ⊢
    exact ⟨hf.1, fun h1 h2 => let ⟨v, h3, h4⟩ := hf.2.1 h1 h2; ⟨v, hm _ _ h3, h4⟩,
      fun h1 h2 => let ⟨fs, h3, h4⟩ := hf.2.2 h1 h2; ⟨fs, h3, h4.mono ih⟩⟩

theorem FilledSome.mono {h h' : Key → Val → Prop} {asg : Val → Nat → Bool} (hm : ∀ k v, h k v → h' k v) :
    ∀ n x y, FilledSome h asg n x y → FilledSome h' asg n x y := by
  intro n
  induction n with
  | zero =>
    intro x y hf
    unfold FilledSome at hf ⊢
    rcases hf with hf | ⟨h1, h2, v, h3, h4⟩ | hf
    · exact .inl hf
    · exact .inr (.inl ⟨h1, h2, v, hm _ _ h3, h4⟩)
    · exact .inr (.inr hf)
  | succ n ih =>
    intro x y hf
    unfold FilledSome at hf ⊢
    rcases hf with hf | ⟨h1, h2, v, h3, h4⟩ | ⟨h1, h2, fs, h3, h4⟩
    · exact .inl hf
    · exact .inr (.inl ⟨h1, h2, v, hm _ _ h3, h4⟩)
    · exact .inr (.inr ⟨h1, h2, fs, h3, h4.mono ih⟩)

theorem All2.refl {α : Type} {R : α → α → Prop} (h : ∀ a, R a a) : ∀ as : List α, All2 R as as
  | [] => .nil
  | a :: as => .cons a a as as (h a) (All2.refl h as)

theorem FilledSome.refl {h : Key → Val → Prop} {asg : Val → Nat → Bool} (n : Nat) (x : Field) : FilledSome h asg n x x := by
  unfold FilledSome; exact .inl rfl

/-- All keys in the struct are slots. -/
def FieldsOk (n : Nat) (fs : List Field) : Prop := ∀ x ∈ fs, [] ∉ needs n x

/-- What one step of `Apply` must satisfy. -/
def StepOk (i : Nat) (asg : Val → Nat → Bool) (n : Nat) (x : Field) (s : St) (out : Res Unit × Field × St) : Prop :=
  (∃ l, LkA i s out.2.2 l) ∧ FilledSome (Holds out.2.2 i) asg n x out.2.1 ∧
  (out.1 = .ok () → Filled (Holds out.2.2 i) asg n x out.2.1 ∧ ∀ k ∈ needs n x, Resolvable s i k)

theorem fillList_ok {i : Nat} {asg : Val → Nat → Bool} {n : Nat} {step : Field → St → Res Unit × Field × St}
    (hs : ∀ x s, WF s → [] ∉ needs n x → StepOk i asg n x s (step x s)) :
    ∀ fs s, WF s → FieldsOk n fs →
      (∃ l, LkA i s (fillList step fs s).2.2 l) ∧
      All2 (FilledSome (Holds (fillList step fs s).2.2 i) asg n) fs (fillList step fs s).2.1 ∧
      ((fillList step fs s).1 = .ok () → All2 (Filled (Holds (fillList step fs s).2.2 i) asg n) fs (fillList step fs s).2.1 ∧
        ∀ x ∈ fs, ∀ k ∈ needs n x, Resolvable s i k) := by
  intro fs
  induction fs with
  | nil => intro s w _; exact ⟨⟨[], LkA.refl i s⟩, .nil, fun _ => ⟨.nil, by simp⟩⟩
  | cons x xs ih =>
    intro s w hf
    have h1 := hs x s w (hf x (by simp))
    simp only [fillList]
    generalize step x s = o at h1 ⊢
    obtain ⟨r, x', s'⟩ := o
    obtain ⟨⟨l, hl⟩, hsome, hok⟩ := h1
    simp only at hl hsome hok
    have stop : All2 (FilledSome (Holds s' i) asg n) (x :: xs) (x' :: xs) :=
      .cons _ _ _ _ hsome (All2.refl (fun a => FilledSome.refl n a) xs)
    cases r with
    | err => exact ⟨⟨l, hl⟩, stop, fun h => by cases h⟩
    | diverge => exact ⟨⟨l, hl⟩, stop, fun h => by cases h⟩
    | ok u =>
      obtain ⟨⟨m, hm⟩, hsome', hok'⟩ := ih s' (hl.lk.wf w) (fun y hy => hf y (by simp [hy]))
      simp only
      generalize fillList step xs s' = o at hm hsome' hok' ⊢
      obtain ⟨r, xs', s''⟩ := o
      simp only at hm hsome' hok' ⊢
      have up : ∀ k v, Holds s' i k v → Holds s'' i k v := fun k v h => h.lk hm.lk hm.args
      refine ⟨⟨l ++ m, hl.trans hm⟩, .cons _ _ _ _ (FilledSome.mono up n x x' hsome) hsome', ?_⟩
      intro hr
      obtain ⟨h2, h3⟩ := hok' hr
      obtain ⟨h4, h5⟩ := hok rfl
      refine ⟨.cons _ _ _ _ (Filled.mono up n x x' h4) h2, ?_⟩
      intro y hy k hk
      rcases List.mem_cons.1 hy with hy | hy
      · subst hy; exact h5 k hk
      · exact hl.lk.back (h3 y hy k hk)

theorem fillField_ok {f i : Nat} {asg : Val → Nat → Bool} : ∀ n x s, WF s → [] ∉ needs n x → StepOk i asg n x s (fillField f i asg n x s) := by
  have base : ∀ n x s, WF s → (x.settable = false ∨ x.tag = .dash) → StepOk i asg n x s (.ok (), x, s) := by
    intro n x s w h
    refine ⟨⟨[], LkA.refl i s⟩, FilledSome.refl n x, fun _ => ⟨?_, ?_⟩⟩
    · unfold Filled
      refine ⟨fun _ => rfl, ?_, ?_⟩
      · intro h1 h2
        rcases h with h | h
        · rw [h1] at h; cases h
        · rw [h2] at h; cases h
      · intro h1 h2
        rcases h with h | h
        · rw [h1] at h; cases h
        · rw [h2] at h; cases h
    · intro k hk
      unfold needs at hk
      rw [if_pos h] at hk
      cases hk
  have inj : ∀ n x s, WF s → ¬ (x.settable = false ∨ x.tag = .dash) → x.tag = .inject → [] ∉ needs n x →
      StepOk i asg n x s (match get s i x.key with
        | none => (.err, x, s)
        | some p => match invoke f i s p with
          | (.ok v, s') => (.ok (), if asg v x.ty then x.assign v else x, s')
          | (.err, s') => (.err, x, s')
          | (.diverge, s') => (.diverge, x, s')) := by
    intro n x s w hn ht hne
    have hs : x.settable = true := by
      cases h : x.settable with
      | true => rfl
      | false => exact absurd (.inl h) hn
    have hneeds : needs n x = [x.key] := by unfold needs; rw [if_neg hn, if_pos ht]
    rw [hneeds] at hne
    have hk : x.key ≠ [] := fun h => hne (by simp [h])
    cases hp : get s i x.key with
    | none => exact ⟨⟨[], LkA.refl i s⟩, FilledSome.refl n x, fun h => by cases h⟩
    | some p =>
      obtain ⟨l, hl, hv⟩ := invoke_val i f s x.key p w hp hk
      have hr := (invoke_lk i f s x.key p w hp hk).2
      simp only
      generalize invoke f i s p = o at hl hv hr ⊢
      obtain ⟨r, s'⟩ := o
      cases r with
      | err => exact ⟨⟨l, hl⟩, FilledSome.refl n x, fun h => by cases h⟩
      | diverge => exact ⟨⟨l, hl⟩, FilledSome.refl n x, fun h => by cases h⟩
      | ok v =>
        refine ⟨⟨l, hl⟩, ?_, fun _ => ⟨?_, ?_⟩⟩
        · unfold FilledSome
          exact .inr (.inl ⟨hs, ht, v, hv v rfl, rfl⟩)
        · unfold Filled
          refine ⟨fun h => absurd h hn, fun _ _ => ⟨v, hv v rfl, rfl⟩, ?_⟩
          intro _ h; rw [ht] at h; cases h
        · intro k hk
          rw [hneeds] at hk
          simp only [List.mem_singleton] at hk
          subst hk
          exact hr v rfl
  have plain : ∀ x : Field, ¬ (x.settable = false ∨ x.tag = .dash) → x.tag ≠ .inject → x.settable = true ∧ x.tag = .none := by
    intro x h1 h2
    constructor
    · cases h : x.settable with
      | true => rfl
      | false => exact absurd (.inl h) h1
    · cases h : x.tag with
      | none => rfl
      | dash => exact absurd (.inr h) h1
      | inject => exact absurd h h2
  intro n
  induction n with
  | zero =>
    intro x s w hne
    unfold fillField
    by_cases h1 : x.settable = false ∨ x.tag = .dash
    · rw [if_pos h1]; exact base 0 x s w h1
    · rw [if_neg h1]
      by_cases h2 : x.tag = .inject
      · rw [if_pos h2]; exact inj 0 x s w h1 h2 hne
      · rw [if_neg h2]
        obtain ⟨hs, ht⟩ := plain x h1 h2
        refine ⟨⟨[], LkA.refl i s⟩, FilledSome.refl 0 x, fun _ => ⟨?_, ?_⟩⟩
        · unfold Filled
          exact ⟨fun _ => rfl, fun _ h => absurd h h2, fun _ _ => rfl⟩
        · unfold needs; rw [if_neg h1, if_neg h2]; simp
  | succ n ih =>
    intro x s w hne
    unfold fillField
    by_cases h1 : x.settable = false ∨ x.tag = .dash
    · rw [if_pos h1]; exact base (n + 1) x s w h1
    · rw [if_neg h1]
      by_cases h2 : x.tag = .inject
      · rw [if_pos h2]; exact inj (n + 1) x s w h1 h2 hne
      · rw [if_neg h2]
        obtain ⟨hs, ht⟩ := plain x h1 h2
        have hneeds : needs (n + 1) x = x.sub.flatMap (needs n) := by rw [needs, if_neg h1, if_neg h2]
        rw [hneeds] at hne
        have hf : FieldsOk n x.sub := fun y hy hk => hne (List.mem_flatMap.2 ⟨y, hy, hk⟩)
        obtain ⟨⟨l, hl⟩, hsome, hok⟩ := fillList_ok ih x.sub s w hf
        simp only
        generalize fillList (fillField f i asg n) x.sub s = o at hl hsome hok ⊢
        obtain ⟨r, fs, s'⟩ := o
        simp only at hl hsome hok ⊢
        refine ⟨⟨l, hl⟩, ?_, ?_⟩
        · unfold FilledSome
          exact .inr (.inr ⟨hs, ht, fs, rfl, hsome⟩)
        · intro hr
          obtain ⟨g1, g2⟩ := hok hr
          refine ⟨?_, ?_⟩
          · unfold Filled
            exact ⟨fun h => absurd h h1, fun _ h => absurd h h2, fun _ _ => ⟨fs, rfl, g1⟩⟩
          · intro k hk
            rw [hneeds] at hk
            obtain ⟨y, hy, hky⟩ := List.mem_flatMap.1 hk
            exact g2 y hy k hky

/-! Completeness: all needed types can be made, so `Apply` succeeds. -/

theorem fillField_complete {s0 : St} {f i N : Nat} {asg : Val → Nat → Bool} (hN : N ≤ f) :
    ∀ n x s, WF s → Ext i s0 s → [] ∉ needs n x → (∀ k ∈ needs n x, ResN s0 i N k) → (∀ y ∈ s.status, DoneKey s i y) →
      (fillField f i asg n x s).1 = .ok () ∧ ∀ y ∈ (fillField f i asg n x s).2.2.status, DoneKey (fillField f i asg n x s).2.2 i y := by
  have list : ∀ n, (∀ x s, WF s → Ext i s0 s → [] ∉ needs n x → (∀ k ∈ needs n x, ResN s0 i N k) → (∀ y ∈ s.status, DoneKey s i y) →
      (fillField f i asg n x s).1 = .ok () ∧ ∀ y ∈ (fillField f i asg n x s).2.2.status, DoneKey (fillField f i asg n x s).2.2 i y) →
      ∀ fs s, WF s → Ext i s0 s → FieldsOk n fs → (∀ x ∈ fs, ∀ k ∈ needs n x, ResN s0 i N k) → (∀ y ∈ s.status, DoneKey s i y) →
        (fillList (fillField f i asg n) fs s).1 = .ok () ∧
          ∀ y ∈ (fillList (fillField f i asg n) fs s).2.2.status, DoneKey (fillList (fillField f i asg n) fs s).2.2 i y := by
    intro n ih fs
    induction fs with
    | nil => intro s w e _ _ hst; exact ⟨rfl, hst⟩
    | cons x xs ihl =>
      intro s w e hf hr hst
      obtain ⟨g1, g2⟩ := ih x s w e (hf x (by simp)) (hr x (by simp)) hst
      obtain ⟨l, hl⟩ := (fillField_ok (f := f) (i := i) (asg := asg) n x s w (hf x (by simp))).1
      simp only [fillList]
      generalize fillField f i asg n x s = o at g1 g2 hl ⊢
      obtain ⟨r, x', s'⟩ := o
      simp only at g1 g2 hl
      subst g1
      obtain ⟨g3, g4⟩ := ihl s' (hl.lk.wf w) (e.trans hl.lk.ext) (fun y hy => hf y (by simp [hy])) (fun y hy => hr y (by simp [hy])) g2
      exact ⟨g3, g4⟩
  have inj : ∀ n x s, WF s → Ext i s0 s → ¬ (x.settable = false ∨ x.tag = .dash) → x.tag = .inject → [] ∉ needs n x →
      (∀ k ∈ needs n x, ResN s0 i N k) → (∀ y ∈ s.status, DoneKey s i y) →
      (fillField f i asg n x s).1 = .ok () ∧ ∀ y ∈ (fillField f i asg n x s).2.2.status, DoneKey (fillField f i asg n x s).2.2 i y := by
    intro n x s w e h1 h2 hne hr hst
    have hneeds : needs n x = [x.key] := by unfold needs; rw [if_neg h1, if_pos h2]
    rw [hneeds] at hne hr
    have hk : x.key ≠ [] := fun h => hne (by simp [h])
    have hrk := hr x.key (by simp)
    have w0 : WF s0 := ⟨fun i k p h => by rw [← e.provs]; exact w.vals i k p (e.values ▸ h),
      fun p pr h => w.provs p pr (e.provs ▸ h), fun a b h => w.parent a b (e.parent ▸ h),
      fun j => by
        by_cases hj : j = i
        · subst hj; exact none_of_ext e (w.nil j)
        · rw [← e.others j hj]; exact w.nil j⟩
    obtain ⟨p, hp0⟩ := ((resolvable_iff w0).2 ⟨N, hrk⟩).get
    have hp : get s i x.key = some p := (e.get i x.key).trans hp0
    obtain ⟨v, s', hv, hst'⟩ := invoke_complete (s0 := s0) N f s x.key p w e hp hk hrk hN (fun y hy _ => .inr (hst y hy))
    have hlk := (invoke_lk i f s x.key p w hp hk).1
    rw [hv] at hlk
    obtain ⟨l, hl⟩ := hlk
    unfold fillField
    rw [if_neg h1, if_pos h2]
    simp only [hp, hv]
    refine ⟨trivial, ?_⟩
    intro y hy
    rcases hst' y hy with g | g
    · exact (hst y g).ext hl.ext
    · exact g
  intro n
  induction n with
  | zero =>
    intro x s w e hne hr hst
    by_cases h1 : x.settable = false ∨ x.tag = .dash
    · unfold fillField; rw [if_pos h1]; exact ⟨rfl, hst⟩
    · by_cases h2 : x.tag = .inject
      · exact inj 0 x s w e h1 h2 hne hr hst
      · unfold fillField; rw [if_neg h1, if_neg h2]; exact ⟨rfl, hst⟩
  | succ n ih =>
    intro x s w e hne hr hst
    by_cases h1 : x.settable = false ∨ x.tag = .dash
    · unfold fillField; rw [if_pos h1]; exact ⟨rfl, hst⟩
    · by_cases h2 : x.tag = .inject
      · exact inj (n + 1) x s w e h1 h2 hne hr hst
      · have hneeds : needs (n + 1) x = x.sub.flatMap (needs n) := by rw [needs, if_neg h1, if_neg h2]
        rw [hneeds] at hne hr
        have hf : FieldsOk n x.sub := fun y hy hk => hne (List.mem_flatMap.2 ⟨y, hy, hk⟩)
        obtain ⟨g1, g2⟩ := list n ih x.sub s w e hf (fun y hy k hk => hr k (List.mem_flatMap.2 ⟨y, hy, hk⟩)) hst
        unfold fillField
        rw [if_neg h1, if_neg h2]
        simp only
        generalize fillList (fillField f i asg n) x.sub s = o at g1 g2 ⊢
        obtain ⟨r, fs, s'⟩ := o
        exact ⟨g1, g2⟩

/-- The value `Find` gives for a type in state `s`. -/
def FindGives (s : St) (i : Nat) (k : Key) (v : Val) : Prop := ∀ f, (find (f + 1) s i k).1 = .ok v

theorem holds_find {s : St} (w : WF s) {i : Nat} {k : Key} {v : Val} {p : Nat} (hp : get s i k = some p) (h : Holds s i k v) : FindGives s i k v := by
  intro f
  obtain ⟨pr, hpr, hn⟩ := get_prov w hp
  subst hn
  simp only [find, hp]
  rcases h with h | ⟨h, p', pr', h1, h2, h3⟩
  · rw [invoke_cached (s := clr s) hpr h]
  · rw [hp] at h1; injection h1 with h1; subst h1
    rw [hpr] at h2; injection h2 with h2; subst h2
    rw [invoke_value (s := clr s) hpr h h3]

/-- **C28 (partial: `Apply` ignores that a value cannot be assigned, `asg`).** A successful `Apply` gives every settable field with an
`inject` tag, down to two struct levels below the top, the value `Find` gives for its type, and leaves every other field
as it was. -/
theorem C28_apply_fills_partial {f f' : Nat} {cs : List Cmd} (h : Cmds cs) {i : Nat} {asg : Val → Nat → Bool} {fs fs' : List Field} {s' : St}
    (hk : FieldsOk 2 fs) (ha : applyStruct f' (reach f cs) i asg fs = (.ok (), fs', s')) :
    All2 (Filled (FindGives s' i) asg 2) fs fs' := by
  have w := WF.reach f cs h
  obtain ⟨⟨l, hl⟩, _, hok⟩ := fillList_ok (n := 2) (fillField_ok (f := f') (i := i) (asg := asg) 2) fs (clr (reach f cs)) (w.status []) hk
  have ha' : fillList (fillField f' i asg 2) fs (clr (reach f cs)) = (.ok (), fs', s') := ha
  rw [ha'] at hl hok
  simp only at hl hok
  obtain ⟨h1, h2⟩ := hok trivial
  have w' := hl.lk.wf (w.status [])
  -- `Holds` is only used for types with a provider
  have conv : ∀ n x y, (∀ k ∈ needs n x, Resolvable (clr (reach f cs)) i k) → Filled (Holds s' i) asg n x y → Filled (FindGives s' i) asg n x y := by
    have hf : ∀ k v, Resolvable (clr (reach f cs)) i k → Holds s' i k v → FindGives s' i k v := by
      intro k v hr hh
      obtain ⟨p, hp⟩ := hr.get
      exact holds_find w' ((hl.lk.ext.get i k).trans hp) hh
    intro n
    induction n with
    | zero =>
      intro x y hn hF
      unfold Filled at hF ⊢
      refine ⟨hF.1, ?_, hF.2.2⟩
      intro g1 g2
      obtain ⟨v, g3, g4⟩ := hF.2.1 g1 g2
      refine ⟨v, hf _ _ (hn _ ?_) g3, g4⟩
      unfold needs
      rw [if_neg (by rw [g1, g2]; simp), if_pos g2]; simp
    | succ n ih =>
      intro x y hn hF
      unfold Filled at hF ⊢
      refine ⟨hF.1, ?_, ?_⟩
      · intro g1 g2
        obtain ⟨v, g3, g4⟩ := hF.2.1 g1 g2
        refine ⟨v, hf _ _ (hn _ ?_) g3, g4⟩
        unfold needs
        rw [if_neg (by rw [g1, g2]; simp), if_pos g2]; simp
      · intro g1 g2
        obtain ⟨gs, g3, g4⟩ := hF.2.2 g1 g2
        refine ⟨gs, g3, ?_⟩
        have hneeds : needs (n + 1) x = x.sub.flatMap (needs n) := by
          rw [needs, if_neg (by rw [g1, g2]; simp), if_neg (by rw [g2]; simp)]
        rw [hneeds] at hn
        have hn' : ∀ a ∈ x.sub, ∀ k ∈ needs n a, Resolvable (clr (reach f cs)) i k := fun a ha k hk => hn k (List.mem_flatMap.2 ⟨a, ha, hk⟩)
        exact g4.mono_mem (fun a ha b r => ih a b (hn' a ha) r)
  exact h1.mono_mem (fun a ha b r => conv 2 a b (h2 a ha) r)

/-- **C28.** `Apply` succeeds exactly when the types of all tagged fields can be made. -/
theorem C28_apply_iff {f : Nat} {cs : List Cmd} (h : Cmds cs) {i : Nat} {asg : Val → Nat → Bool} {fs : List Field} (hk : FieldsOk 2 fs) :
    (∃ f', (applyStruct f' (reach f cs) i asg fs).1 = .ok ()) ↔
      ∀ x ∈ fs, ∀ k ∈ needs 2 x, Can cs (fun y => (reach f cs).caches i y ≠ none) i k := by
  have w := WF.reach f cs h
  constructor
  · rintro ⟨f', hf⟩ x hx k hkx
    rw [← can_iff h]
    have := (fillList_ok (n := 2) (fillField_ok (f := f') (i := i) (asg := asg) 2) fs (clr (reach f cs)) (w.status []) hk).2.2 hf
    exact (this.2 x hx k hkx).unclr
  · intro hall
    have h1 : ∀ k ∈ fs.flatMap (needs 2), ∃ n, ResN (clr (reach f cs)) i n k := by
      intro k hk
      obtain ⟨x, hx, hkx⟩ := List.mem_flatMap.1 hk
      exact (resolvable_iff (w.status [])).1 (((can_iff h i k).2 (hall x hx k hkx)).clr)
    obtain ⟨N, hN⟩ := exists_bound (P := ResN (clr (reach f cs)) i) (fun n m k h hp => ResN.le h hp) _ h1
    refine ⟨N, ?_⟩
    have key : ∀ fs s, WF s → Ext i (clr (reach f cs)) s → FieldsOk 2 fs → (∀ x ∈ fs, ∀ k ∈ needs 2 x, ResN (clr (reach f cs)) i N k) →
        (∀ y ∈ s.status, DoneKey s i y) → (fillList (fillField N i asg 2) fs s).1 = .ok () := by
      intro fs
      induction fs with
      | nil => intro s _ _ _ _ _; rfl
      | cons x xs ihl =>
        intro s w e hf hr hst
        obtain ⟨g1, g2⟩ := fillField_complete (asg := asg) (Nat.le_refl N) 2 x s w e (hf x (by simp)) (hr x (by simp)) hst
        obtain ⟨l, hl⟩ := (fillField_ok (f := N) (i := i) (asg := asg) 2 x s w (hf x (by simp))).1
        simp only [fillList]
        generalize fillField N i asg 2 x s = o at g1 g2 hl ⊢
        obtain ⟨r, x', s'⟩ := o
        simp only at g1 g2 hl
        subst g1
        exact ihl s' (hl.lk.wf w) (e.trans hl.lk.ext) (fun y hy => hf y (by simp [hy])) (fun y hy => hr y (by simp [hy])) g2
    exact key fs (clr (reach f cs)) (w.status []) (Ext.refl i _) hk (fun x hx k hkx => hN k (List.mem_flatMap.2 ⟨x, hx, hkx⟩)) (fun y hy => by cases hy)

/-- **C28.** Also when `Apply` fails, only tagged fields have changed. -/
theorem C28_error_keeps_others {f f' : Nat} {cs : List Cmd} (h : Cmds cs) {i : Nat} {asg : Val → Nat → Bool} {fs fs' : List Field} {r : Res Unit} {s' : St}
    (hk : FieldsOk 2 fs) (ha : applyStruct f' (reach f cs) i asg fs = (r, fs', s')) :
    All2 (FilledSome (Holds s' i) asg 2) fs fs' := by
  have w := WF.reach f cs h
  have := (fillList_ok (n := 2) (fillField_ok (f := f') (i := i) (asg := asg) 2) fs (clr (reach f cs)) (w.status []) hk).2.1
  have ha' : fillList (fillField f' i asg 2) fs (clr (reach f cs)) = (r, fs', s') := ha
  rw [ha'] at this
  exact this

/-- **C28 fails** when the value cannot be assigned (a function returning `T` for a field of type `*T`): `Apply` succeeds and the
tagged field keeps its old value. -/
theorem C28_apply_fills_violated :
    ∃ (cs : List Cmd) (i : Nat) (asg : Val → Nat → Bool) (x : Field), Cmds cs ∧ x.settable = true ∧ x.tag = .inject ∧
      ∀ f f', ∃ s', applyStruct (f' + 1) (reach f cs) i asg [x] = (.ok (), [x], s') ∧ FindGives s' i x.key (.res 0) ∧ x.val = .obj 9 := by
  let T : Key := b!":T:"
  refine ⟨[.provide 0 ⟨T, .func [] true⟩], 0, fun _ _ => false, .mk true .inject T 0 (.obj 9) [], ?_, rfl, rfl, ?_⟩
  · intro c hc
    simp only [List.mem_cons, List.not_mem_nil, or_false] at hc
    subst hc
    exact ⟨by decide, by decide⟩
  · intro f f'
    exact ⟨_, rfl, fun _ => rfl, rfl⟩

/-- Non-vacuity: a struct with a tagged field, an untagged one, a `-` field and a nested struct. -/
example : let T : Key := b!":T:"
    let cs : List Cmd := [.provide 0 ⟨T, .value (.obj 1)⟩]
    let fs : List Field := [.mk true .inject T 0 (.obj 9) [], .mk true .none T 0 (.obj 8) [], .mk true .dash T 0 (.obj 7) [],
      .mk true .none [] 0 (.obj 6) [.mk true .inject T 0 (.obj 5) [], .mk false .inject T 0 (.obj 4) []]]
    FieldsOk 2 fs ∧ (applyStruct 3 (reach 3 cs) 0 (fun _ _ => true) fs).2.1 =
      [.mk true .inject T 0 (.obj 1) [], .mk true .none T 0 (.obj 8) [], .mk true .dash T 0 (.obj 7) [],
      .mk true .none [] 0 (.obj 6) [.mk true .inject T 0 (.obj 1) [], .mk false .inject T 0 (.obj 4) []]] := by
  refine ⟨?_, rfl⟩
  intro x hx
  simp only [List.mem_cons, List.not_mem_nil, or_false] at hx
  rcases hx with rfl | rfl | rfl | rfl <;> decide

end Verif.Inj
