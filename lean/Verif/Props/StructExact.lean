import Verif.Props.BindStruct
/-!
# C137: binding parameters to a struct, exactly
-/
namespace Verif.Params
open Verif.Go Verif.Conv

/-! ## Specification -/

/-- The embedded pointer that takes part at a path (it and the fields it is in are not tagged "-"): whether it is exported,
and the fields of its struct. -/
def Spec.pointerAt : List SF → List Nat → Option (Bool × List SF)
  | _, [] => none
  | fs, i :: q =>
    match fs[i]?, q with
    | some (.embPtr exported tag _ gs), [] => if tag = b!"-" then none else some (exported, gs)
    | some (.emb _ tag gs), _ :: _ => if tag = b!"-" then none else Spec.pointerAt gs q
    | some (.embPtr _ tag _ gs), _ :: _ => if tag = b!"-" then none else Spec.pointerAt gs q
    | _, _ => none

/-- Whether the embedded pointer at a path is nil. -/
def Spec.nilAt : List SF → List Nat → Option Bool
  | _, [] => none
  | fs, i :: q =>
    match fs[i]?, q with
    | some (.embPtr _ _ isNil _), [] => some isNil
    | some (.emb _ _ gs), _ :: _ => Spec.nilAt gs q
    | some (.embPtr _ _ _ gs), _ :: _ => Spec.nilAt gs q
    | _, _ => none

mutual
/-- A struct type: what a field is, without its value. -/
def Spec.outlineF : SF → SF
  | .leaf exported tag name t _ => .leaf exported tag name t .nil
  | .emb exported tag fs => .emb exported tag (Spec.outline fs)
  | .embPtr exported tag _ fs => .embPtr exported tag true (Spec.outline fs)
  | .embOther v => .embOther v
def Spec.outline : List SF → List SF
  | [] => []
  | f :: fs => Spec.outlineF f :: Spec.outline fs
end

/-! ## Field by field -/

theorem bindSFs_some (x : Ext) (it : Order) (p : P) (path : List Nat) :
    ∀ (fs : List SF) (n : Nat) (gs : List SF), bindSFs x it p path n fs = some gs → ∀ i : Nat,
      (fs[i]? = none → gs[i]? = none) ∧
      (∀ f, fs[i]? = some f → ∃ g, gs[i]? = some g ∧ bindSF x it p ((n + i) :: path) f = some g)
  | [], n, gs, h, i => by
    unfold bindSFs at h; cases h; simp
  | f :: fs, n, gs, h, i => by
    unfold bindSFs at h
    cases h1 : bindSF x it p (n :: path) f with
    | none => rw [h1] at h; cases h
    | some g =>
      cases h2 : bindSFs x it p path (n + 1) fs with
      | none => rw [h1, h2] at h; cases h
      | some gs' =>
        rw [h1, h2] at h
        cases h
        cases i with
        | succ i =>
          have := bindSFs_some x it p path fs (n + 1) gs' h2 i
          rw [show n + (i + 1) = n + 1 + i by omega]
          simpa using this
        | zero =>
          refine ⟨fun e => by simp at e, fun f' e => ?_⟩
          simp only [List.getElem?_cons_zero, Option.some.injEq] at e
          subst e
          exact ⟨g, by simp, h1⟩

theorem bindSFs_none (x : Ext) (it : Order) (p : P) (path : List Nat) :
    ∀ (fs : List SF) (n : Nat), bindSFs x it p path n fs = none ↔
      ∃ (i : Nat) (f : SF), fs[i]? = some f ∧ bindSF x it p ((n + i) :: path) f = none
  | [], n => by unfold bindSFs; simp
  | f :: fs, n => by
    have ih := bindSFs_none x it p path fs (n + 1)
    unfold bindSFs
    constructor
    · intro h
      cases h1 : bindSF x it p (n :: path) f with
      | none => exact ⟨0, f, by simp, h1⟩
      | some g =>
        cases h2 : bindSFs x it p path (n + 1) fs with
        | none =>
          obtain ⟨i, f', hf, hb⟩ := ih.1 h2
          exact ⟨i + 1, f', by simpa using hf, by rw [show n + (i + 1) = n + 1 + i by omega]; exact hb⟩
        | some gs => rw [h1, h2] at h; cases h
    · rintro ⟨i, f', hf, hb⟩
      cases i with
      | zero =>
        simp only [List.getElem?_cons_zero, Option.some.injEq] at hf
        subst hf
        rw [show n + 0 = n from rfl] at hb
        rw [hb]
      | succ i =>
        have h2 := ih.2 ⟨i, f', by simpa using hf, by rw [show n + 1 + i = n + (i + 1) by omega]; exact hb⟩
        rw [h2]
        cases bindSF x it p (n :: path) f <;> rfl

/-! ## When it panics -/

/-- Why a binding panics: the binder of a field panics, or an unexported embedded pointer would have to be set. -/
def Spec.Trouble (x : Ext) (it : Order) (p : P) (path : List Nat) (fs : List SF) : Prop :=
  (∃ q t v n, Spec.fieldAt fs q = some (t, v) ∧ Spec.nameAt fs q = some n ∧ bind x it t (q.reverse ++ path) p n = none) ∨
  ∃ q ks, Spec.pointerAt fs q = some (false, ks) ∧ Spec.hasParam p ks

def SFTrouble (x : Ext) (it : Order) (p : P) (path : List Nat) (f : SF) (i : Nat) (fs : List SF) : Prop :=
  bindSF x it p (i :: path) f = none ↔
      (∃ q t v n, Spec.fieldAt fs (i :: q) = some (t, v) ∧ Spec.nameAt fs (i :: q) = some n ∧
        bind x it t ((i :: q).reverse ++ path) p n = none) ∨
      ∃ q ks, Spec.pointerAt fs (i :: q) = some (false, ks) ∧ Spec.hasParam p ks

theorem bindSFs_of_each (x : Ext) (it : Order) (p : P) (path : List Nat) (fs : List SF)
    (each : ∀ f ∈ fs, ∀ (i : Nat) (fs' : List SF), fs'[i]? = some f → SFTrouble x it p path f i fs') :
    bindSFs x it p path 0 fs = none ↔ Spec.Trouble x it p path fs := by
  rw [bindSFs_none]
  unfold Spec.Trouble
  constructor
  · rintro ⟨i, f, hf, hb⟩
    rw [Nat.zero_add] at hb
    rcases (each f (List.mem_of_getElem? hf) i fs hf).1 hb with ⟨q, t', v', n, h⟩ | ⟨q, ks, h⟩
    · exact .inl ⟨i :: q, t', v', n, h⟩
    · exact .inr ⟨i :: q, ks, h⟩
  · rintro (⟨q, t', v', n, h⟩ | ⟨q, ks, h⟩)
    · cases q with
      | nil => cases h.1
      | cons i q =>
        cases hf : fs[i]? with
        | none => have := h.1; cases q <;> simp only [Spec.fieldAt, hf] at this <;> cases this
        | some f =>
          refine ⟨i, f, hf, ?_⟩
          rw [Nat.zero_add]
          exact (each f (List.mem_of_getElem? hf) i fs hf).2 (.inl ⟨q, t', v', n, h⟩)
    · cases q with
      | nil => cases h.1
      | cons i q =>
        cases hf : fs[i]? with
        | none => have := h.1; cases q <;> simp only [Spec.pointerAt, hf] at this <;> cases this
        | some f =>
          refine ⟨i, f, hf, ?_⟩
          rw [Nat.zero_add]
          exact (each f (List.mem_of_getElem? hf) i fs hf).2 (.inr ⟨q, ks, h⟩)

mutual
theorem bindSF_trouble (x : Ext) (it : Order) (p : P) (path : List Nat) : ∀ (f : SF) (i : Nat) (fs : List SF), fs[i]? = some f →
    SFTrouble x it p path f i fs
  | .leaf e tag name t v, i, fs, hf => by
    unfold SFTrouble
    constructor
    · intro h
      unfold bindSF at h
      by_cases hc : e = false ∨ tag = b!"-"
      · rw [if_pos hc] at h; cases h
      · rw [if_neg hc] at h
        left
        refine ⟨[], t, v, paramName tag name, ?_, ?_, ?_⟩
        · simp only [Spec.fieldAt, hf]
        · simp only [Spec.nameAt, hf]
          rw [if_pos ⟨by simpa using fun h => hc (.inl h), fun h => hc (.inr h)⟩, paramName_spec]
        · simpa using h
    · rintro (⟨q, t', v', n, h1, h2, h3⟩ | ⟨q, ks, h1, h2⟩)
      · cases q with
        | cons a q => simp only [Spec.fieldAt, hf] at h1; cases h1
        | nil =>
          simp only [Spec.fieldAt, hf, Option.some.injEq, Prod.mk.injEq] at h1
          obtain ⟨rfl, rfl⟩ := h1
          simp only [Spec.nameAt, hf] at h2
          by_cases hc : e = true ∧ tag ≠ b!"-"
          · rw [if_pos hc, ← paramName_spec] at h2
            cases h2
            unfold bindSF
            rw [if_neg (by simp [hc.1, hc.2])]
            simpa using h3
          · rw [if_neg hc] at h2; cases h2
      · cases q <;> simp only [Spec.pointerAt, hf] at h1 <;> cases h1
  | .emb e tag ks, i, fs, hf => by
    have ih := bindSFs_of_each x it p (i :: path) ks (eachSF_trouble x it p (i :: path) ks)
    unfold SFTrouble
    unfold bindSF
    by_cases hc : tag = b!"-"
    · rw [if_pos hc]
      constructor
      · intro h; cases h
      · rintro (⟨q, t', v', n, h1, h2, h3⟩ | ⟨q, ks', h1, h2⟩)
        · cases q <;> simp only [Spec.nameAt, hf] at h2
          · cases h2
          · rw [if_pos hc] at h2; cases h2
        · cases q <;> simp only [Spec.pointerAt, hf] at h1
          · cases h1
          · rw [if_pos hc] at h1; cases h1
    · rw [if_neg hc, Option.map_eq_none_iff, ih]
      constructor
      · rintro (⟨q, t', v', n, h1, h2, h3⟩ | ⟨q, ks', h1, h2⟩)
        · cases q with
          | nil => cases h1
          | cons a q =>
            left
            refine ⟨a :: q, t', v', n, ?_, ?_, by simpa using h3⟩
            · simpa only [Spec.fieldAt, hf] using h1
            · simp only [Spec.nameAt, hf]; rw [if_neg hc]; exact h2
        · cases q with
          | nil => cases h1
          | cons a q =>
            right
            refine ⟨a :: q, ks', ?_, h2⟩
            simp only [Spec.pointerAt, hf]; rw [if_neg hc]; exact h1
      · rintro (⟨q, t', v', n, h1, h2, h3⟩ | ⟨q, ks', h1, h2⟩)
        · cases q with
          | nil => simp only [Spec.fieldAt, hf] at h1; cases h1
          | cons a q =>
            left
            simp only [Spec.fieldAt, hf] at h1
            simp only [Spec.nameAt, hf] at h2
            rw [if_neg hc] at h2
            exact ⟨a :: q, t', v', n, h1, h2, by simpa using h3⟩
        · cases q with
          | nil => simp only [Spec.pointerAt, hf] at h1; cases h1
          | cons a q =>
            right
            simp only [Spec.pointerAt, hf] at h1
            rw [if_neg hc] at h1
            exact ⟨a :: q, ks', h1, h2⟩
  | .embPtr e tag isNil ks, i, fs, hf => by
    have ih := bindSFs_of_each x it p (i :: path) ks (eachSF_trouble x it p (i :: path) ks)
    unfold SFTrouble
    unfold bindSF
    by_cases hc : tag = b!"-"
    · rw [if_pos hc]
      constructor
      · intro h; cases h
      · rintro (⟨q, t', v', n, h1, h2, h3⟩ | ⟨q, ks', h1, h2⟩)
        · cases q <;> simp only [Spec.nameAt, hf] at h2
          · cases h2
          · rw [if_pos hc] at h2; cases h2
        · cases q <;> simp only [Spec.pointerAt, hf] at h1
          · rw [if_pos hc] at h1; cases h1
          · rw [if_pos hc] at h1; cases h1
    · rw [if_neg hc]
      constructor
      · intro h
        cases hk : bindSFs x it p (i :: path) 0 ks with
        | none =>
          rcases ih.1 hk with ⟨q, t', v', n, h1, h2, h3⟩ | ⟨q, ks', h1, h2⟩
          · cases q with
            | nil => cases h1
            | cons a q =>
              left
              refine ⟨a :: q, t', v', n, ?_, ?_, by simpa using h3⟩
              · simpa only [Spec.fieldAt, hf] using h1
              · simp only [Spec.nameAt, hf]; rw [if_neg hc]; exact h2
          · cases q with
            | nil => cases h1
            | cons a q =>
              right
              refine ⟨a :: q, ks', ?_, h2⟩
              simp only [Spec.pointerAt, hf]; rw [if_neg hc]; exact h1
        | some gs =>
          rw [hk] at h
          simp only at h
          by_cases ha : anyParam p ks = true
          · rw [if_pos ha] at h
            cases e with
            | true => simp at h
            | false =>
              right
              refine ⟨[], ks, ?_, (anyParam_iff p ks).1 ha⟩
              simp only [Spec.pointerAt, hf]; rw [if_neg hc]
          · rw [if_neg ha] at h
            cases isNil <;> simp at h
      · rintro (⟨q, t', v', n, h1, h2, h3⟩ | ⟨q, ks', h1, h2⟩)
        · cases q with
          | nil => simp only [Spec.fieldAt, hf] at h1; cases h1
          | cons a q =>
            simp only [Spec.fieldAt, hf] at h1
            simp only [Spec.nameAt, hf] at h2
            rw [if_neg hc] at h2
            rw [ih.2 (.inl ⟨a :: q, t', v', n, h1, h2, by simpa using h3⟩)]
        · cases q with
          | nil =>
            simp only [Spec.pointerAt, hf] at h1
            rw [if_neg hc] at h1
            simp only [Option.some.injEq, Prod.mk.injEq] at h1
            obtain ⟨rfl, rfl⟩ := h1
            cases bindSFs x it p (i :: path) 0 ks with
            | none => rfl
            | some gs =>
              simp only
              rw [if_pos ((anyParam_iff p ks).2 h2)]
              rfl
          | cons a q =>
            simp only [Spec.pointerAt, hf] at h1
            rw [if_neg hc] at h1
            rw [ih.2 (.inr ⟨a :: q, ks', h1, h2⟩)]
  | .embOther v, i, fs, hf => by
    unfold SFTrouble
    unfold bindSF
    constructor
    · intro h; cases h
    · rintro (⟨q, t', v', n, h1, h2, h3⟩ | ⟨q, ks, h1, h2⟩)
      · cases q <;> simp only [Spec.fieldAt, hf] at h1 <;> cases h1
      · cases q <;> simp only [Spec.pointerAt, hf] at h1 <;> cases h1
theorem eachSF_trouble (x : Ext) (it : Order) (p : P) (path : List Nat) : ∀ (l : List SF), ∀ f ∈ l, ∀ (i : Nat) (fs : List SF), fs[i]? = some f →
    SFTrouble x it p path f i fs
  | [], f, hm, _, _, _ => nomatch hm
  | g :: l, f, hm, i, fs, hf => by
    rcases List.mem_cons.1 hm with h | h
    · rw [h] at hf ⊢
      exact bindSF_trouble x it p path g i fs hf
    · exact eachSF_trouble x it p path l f h i fs hf
end

/-- **C137**, panics: binding the parameters to a struct panics exactly when the binder of one of the fields that take part panics, or
when an embedded pointer that takes part is unexported and one of the plain fields of its struct has a parameter. -/
theorem C137_panics (x : Ext) (it : Order) (p : P) (path : List Nat) (fs : List SF) :
    bindSFs x it p path 0 fs = none ↔ Spec.Trouble x it p path fs :=
  bindSFs_of_each x it p path fs (eachSF_trouble x it p path fs)

/-! ## The result -/

/-- **C137**, fields: otherwise every plain field that takes part and is reached gets what the binder of its type makes of the
parameter of its name, and the other plain fields stay as they are. -/
theorem C137_fields (x : Ext) (it : Order) (p : P) : ∀ (q path : List Nat) (fs gs : List SF), bindSFs x it p path 0 fs = some gs →
    ∀ t v, Spec.fieldAt fs q = some (t, v) →
      (Spec.nameAt fs q = none ∨ ¬ Spec.reached p fs q → Spec.fieldAt gs q = some (t, v)) ∧
      (∀ n, Spec.nameAt fs q = some n → Spec.reached p fs q →
        ∃ w, bind x it t (q.reverse ++ path) p n = some w ∧ Spec.fieldAt gs q = some (t, w))
  | [], path, fs, gs, _, t, v, hf => nomatch hf
  | i :: q, path, fs, gs, h, t, v, hf => by
    cases hi : fs[i]? with
    | none => cases q <;> simp only [Spec.fieldAt, hi] at hf <;> cases hf
    | some f =>
      obtain ⟨g, hg, hb⟩ := (bindSFs_some x it p path fs 0 gs h i).2 f hi
      rw [Nat.zero_add] at hb
      cases f with
      | leaf e tag name t' v' =>
        cases q with
        | cons a q => simp only [Spec.fieldAt, hi] at hf; cases hf
        | nil =>
          simp only [Spec.fieldAt, hi, Option.some.injEq, Prod.mk.injEq] at hf
          obtain ⟨rfl, rfl⟩ := hf
          unfold bindSF at hb
          simp only [Spec.nameAt, hi, Spec.reached, not_true, or_false, true_implies]
          by_cases hc : e = false ∨ tag = b!"-"
          · rw [if_pos hc] at hb
            cases hb
            have hc' : ¬ (e = true ∧ tag ≠ b!"-") := by
              rintro ⟨h1, h2⟩
              rcases hc with h | h
              · rw [h1] at h; cases h
              · exact h2 h
            rw [if_neg hc']
            refine ⟨fun _ => ?_, fun _ h => nomatch h⟩
            simp only [Spec.fieldAt, hg]
          · rw [if_neg hc] at hb
            have hc' : e = true ∧ tag ≠ b!"-" := ⟨by simpa using fun h => hc (.inl h), fun h => hc (.inr h)⟩
            rw [if_pos hc']
            refine ⟨fun h => (nomatch h), fun n hn => ?_⟩
            rw [← paramName_spec] at hn
            cases hn
            cases hw : bind x it t' (i :: path) p (paramName tag name) with
            | none => rw [hw] at hb; cases hb
            | some w =>
              rw [hw] at hb
              cases hb
              refine ⟨w, by simpa using hw, ?_⟩
              simp only [Spec.fieldAt, hg]
      | emb e tag ks =>
        cases q with
        | nil => simp only [Spec.fieldAt, hi] at hf; cases hf
        | cons a q =>
          unfold bindSF at hb
          simp only [Spec.nameAt, hi, Spec.reached]
          simp only [Spec.fieldAt, hi] at hf
          by_cases hc : tag = b!"-"
          · rw [if_pos hc] at hb
            cases hb
            rw [if_pos hc]
            refine ⟨fun _ => ?_, fun _ h => nomatch h⟩
            simp only [Spec.fieldAt, hg, hf]
          · rw [if_neg hc] at hb
            cases hk : bindSFs x it p (i :: path) 0 ks with
            | none => rw [hk] at hb; cases hb
            | some ks' =>
              rw [hk] at hb
              cases hb
              rw [if_neg hc]
              have ih := C137_fields x it p (a :: q) (i :: path) ks ks' hk t v hf
              rw [show (i :: a :: q).reverse ++ path = (a :: q).reverse ++ i :: path by simp]
              simp only [Spec.fieldAt, hg]
              exact ih
      | embPtr e tag isNil ks =>
        cases q with
        | nil => simp only [Spec.fieldAt, hi] at hf; cases hf
        | cons a q =>
          unfold bindSF at hb
          simp only [Spec.nameAt, hi, Spec.reached]
          simp only [Spec.fieldAt, hi] at hf
          by_cases hc : tag = b!"-"
          · rw [if_pos hc] at hb
            cases hb
            rw [if_pos hc]
            refine ⟨fun _ => ?_, fun _ h => nomatch h⟩
            simp only [Spec.fieldAt, hg, hf]
          · rw [if_neg hc] at hb
            rw [if_neg hc]
            rw [show (i :: a :: q).reverse ++ path = (a :: q).reverse ++ i :: path by simp]
            cases hk : bindSFs x it p (i :: path) 0 ks with
            | none => rw [hk] at hb; cases hb
            | some ks' =>
              rw [hk] at hb
              simp only at hb
              have ih := C137_fields x it p (a :: q) (i :: path) ks ks' hk t v hf
              by_cases ha : anyParam p ks = true
              · have hp := (anyParam_iff p ks).1 ha
                rw [if_pos ha] at hb
                cases e with
                | false => simp at hb
                | true =>
                  simp only [if_true] at hb
                  cases hb
                  simp only [Spec.fieldAt, hg]
                  refine ⟨fun h => ih.1 ?_, fun n hn hr => ih.2 n hn hr.2⟩
                  rcases h with h | h
                  · exact .inl h
                  · exact .inr fun hr => h ⟨fun _ => hp, hr⟩
              · have hp : ¬ Spec.hasParam p ks := fun h => ha ((anyParam_iff p ks).2 h)
                rw [if_neg ha] at hb
                cases isNil with
                | true =>
                  simp only [if_true] at hb
                  cases hb
                  simp only [Spec.fieldAt, hg]
                  exact ⟨fun _ => hf, fun n hn hr => absurd (hr.1 trivial) hp⟩
                | false =>
                  simp only [Bool.false_eq_true, if_false] at hb
                  cases hb
                  simp only [Spec.fieldAt, hg]
                  refine ⟨fun h => ih.1 ?_, fun n hn hr => ih.2 n hn hr.2⟩
                  rcases h with h | h
                  · exact .inl h
                  · exact .inr fun hr => h ⟨(fun e => by cases e), hr⟩
      | embOther v' => cases q <;> simp only [Spec.fieldAt, hi] at hf <;> cases hf

/-- **C137**, pointers: a nil embedded pointer becomes a pointer to a struct exactly when it takes part, is reached, and one of the plain
fields of its struct has a parameter; a pointer that is not nil stays. -/
theorem C137_pointers (x : Ext) (it : Order) (p : P) : ∀ (q path : List Nat) (fs gs : List SF), bindSFs x it p path 0 fs = some gs →
    ∀ b, Spec.nilAt fs q = some b → ∃ b', Spec.nilAt gs q = some b' ∧
      (b' = true ↔ b = true ∧ ¬ ((∃ e ks, Spec.pointerAt fs q = some (e, ks) ∧ Spec.hasParam p ks) ∧ Spec.reached p fs q))
  | [], path, fs, gs, _, b, hf => nomatch hf
  | i :: q, path, fs, gs, h, b, hf => by
    cases hi : fs[i]? with
    | none => cases q <;> simp only [Spec.nilAt, hi] at hf <;> cases hf
    | some f =>
      obtain ⟨g, hg, hb⟩ := (bindSFs_some x it p path fs 0 gs h i).2 f hi
      rw [Nat.zero_add] at hb
      cases f with
      | leaf e tag name t' v' => cases q <;> simp only [Spec.nilAt, hi] at hf <;> cases hf
      | emb e tag ks =>
        cases q with
        | nil => simp only [Spec.nilAt, hi] at hf; cases hf
        | cons a q =>
          unfold bindSF at hb
          simp only [Spec.pointerAt, hi, Spec.reached]
          simp only [Spec.nilAt, hi] at hf
          by_cases hc : tag = b!"-"
          · rw [if_pos hc] at hb
            cases hb
            rw [if_pos hc]
            refine ⟨b, by simp only [Spec.nilAt, hg, hf], ?_⟩
            simp
          · rw [if_neg hc] at hb
            cases hk : bindSFs x it p (i :: path) 0 ks with
            | none => rw [hk] at hb; cases hb
            | some ks' =>
              rw [hk] at hb
              cases hb
              rw [if_neg hc]
              simp only [Spec.nilAt, hg]
              exact C137_pointers x it p (a :: q) (i :: path) ks ks' hk b hf
      | embPtr e tag isNil ks =>
        unfold bindSF at hb
        by_cases hc : tag = b!"-"
        · rw [if_pos hc] at hb
          cases hb
          cases q with
          | nil =>
            simp only [Spec.nilAt, hi, Option.some.injEq] at hf
            subst hf
            refine ⟨isNil, by simp only [Spec.nilAt, hg], ?_⟩
            simp [Spec.pointerAt, hi, hc]
          | cons a q =>
            simp only [Spec.nilAt, hi] at hf
            refine ⟨b, by simp only [Spec.nilAt, hg, hf], ?_⟩
            simp [Spec.pointerAt, hi, hc]
        · rw [if_neg hc] at hb
          cases hk : bindSFs x it p (i :: path) 0 ks with
          | none => rw [hk] at hb; cases hb
          | some ks' =>
            rw [hk] at hb
            simp only at hb
            cases q with
            | nil =>
              simp only [Spec.nilAt, hi, Option.some.injEq] at hf
              subst hf
              simp only [Spec.pointerAt, hi, Spec.reached, and_true]
              rw [if_neg hc]
              have eh : (∃ e' ks', some (e, ks) = some (e', ks') ∧ Spec.hasParam p ks') ↔ anyParam p ks = true := by
                rw [anyParam_iff]
                constructor
                · rintro ⟨e', ks', h, hp⟩; cases h; exact hp
                · exact fun hp => ⟨e, ks, rfl, hp⟩
              rw [eh]
              by_cases ha : anyParam p ks = true
              · rw [if_pos ha] at hb
                cases e with
                | false => simp at hb
                | true =>
                  simp only [if_true] at hb
                  cases hb
                  exact ⟨false, by simp only [Spec.nilAt, hg], by simp [ha]⟩
              · rw [if_neg ha] at hb
                cases isNil with
                | true =>
                  simp only [if_true] at hb
                  cases hb
                  exact ⟨true, by simp only [Spec.nilAt, hg], by simp [ha]⟩
                | false =>
                  simp only [Bool.false_eq_true, if_false] at hb
                  cases hb
                  exact ⟨false, by simp only [Spec.nilAt, hg], by simp⟩
            | cons a q =>
              simp only [Spec.nilAt, hi] at hf
              simp only [Spec.pointerAt, hi, Spec.reached]
              rw [if_neg hc]
              obtain ⟨b', e1, e2⟩ := C137_pointers x it p (a :: q) (i :: path) ks ks' hk b hf
              by_cases ha : anyParam p ks = true
              · have hp := (anyParam_iff p ks).1 ha
                rw [if_pos ha] at hb
                cases e with
                | false => simp at hb
                | true =>
                  simp only [if_true] at hb
                  cases hb
                  refine ⟨b', by simp only [Spec.nilAt, hg]; exact e1, ?_⟩
                  rw [e2]
                  simp [Spec.pointerAt, Spec.reached, hp]
              · have hp : ¬ Spec.hasParam p ks := fun h => ha ((anyParam_iff p ks).2 h)
                rw [if_neg ha] at hb
                cases isNil with
                | true =>
                  simp only [if_true] at hb
                  cases hb
                  refine ⟨b, by simp only [Spec.nilAt, hg, hf], ?_⟩
                  simp [hp]
                | false =>
                  simp only [Bool.false_eq_true, if_false] at hb
                  cases hb
                  refine ⟨b', by simp only [Spec.nilAt, hg]; exact e1, ?_⟩
                  rw [e2]
                  simp [Spec.pointerAt, Spec.reached]
      | embOther v' => cases q <;> simp only [Spec.nilAt, hi] at hf <;> cases hf

mutual
theorem outlineF_eq (x : Ext) (it : Order) (p : P) : ∀ (f : SF) (path : List Nat) (g : SF), bindSF x it p path f = some g →
    Spec.outlineF g = Spec.outlineF f
  | .leaf e tag name t v, path, g, h => by
    unfold bindSF at h
    split at h
    · cases h; rfl
    · cases hw : bind x it t path p (paramName tag name) with
      | none => rw [hw] at h; cases h
      | some w => rw [hw] at h; cases h; simp [Spec.outlineF]
  | .emb e tag ks, path, g, h => by
    unfold bindSF at h
    split at h
    · cases h; rfl
    · cases hk : bindSFs x it p path 0 ks with
      | none => rw [hk] at h; cases h
      | some ks' =>
        rw [hk] at h
        cases h
        simp only [Spec.outlineF, outline_eq x it p ks path 0 ks' hk]
  | .embPtr e tag isNil ks, path, g, h => by
    unfold bindSF at h
    split at h
    · cases h; rfl
    · cases hk : bindSFs x it p path 0 ks with
      | none => rw [hk] at h; cases h
      | some ks' =>
        rw [hk] at h
        have ih := outline_eq x it p ks path 0 ks' hk
        simp only at h
        split at h
        · split at h
          · cases h; simp only [Spec.outlineF, ih]
          · cases h
        · split at h
          · cases h; simp only [Spec.outlineF]
          · cases h; simp only [Spec.outlineF, ih]
  | .embOther v, path, g, h => by
    unfold bindSF at h; cases h; rfl
theorem outline_eq (x : Ext) (it : Order) (p : P) : ∀ (fs : List SF) (path : List Nat) (n : Nat) (gs : List SF), bindSFs x it p path n fs = some gs →
    Spec.outline gs = Spec.outline fs
  | [], path, n, gs, h => by unfold bindSFs at h; cases h; rfl
  | f :: fs, path, n, gs, h => by
    unfold bindSFs at h
    cases h1 : bindSF x it p (n :: path) f with
    | none => rw [h1] at h; cases h
    | some g =>
      cases h2 : bindSFs x it p path (n + 1) fs with
      | none => rw [h1, h2] at h; cases h
      | some gs' =>
        rw [h1, h2] at h
        cases h
        simp only [Spec.outline, outlineF_eq x it p f _ g h1, outline_eq x it p fs path (n + 1) gs' h2]
end

/-- **C137**: the struct keeps its type (and its other embedded fields). -/
theorem C137_type_kept (x : Ext) (it : Order) (p : P) (path : List Nat) (fs gs : List SF) (h : bindSFs x it p path 0 fs = some gs) :
    Spec.outline gs = Spec.outline fs := outline_eq x it p fs path 0 gs h

mutual
theorem sameF : ∀ (f g : SF), Spec.outlineF f = Spec.outlineF g →
    (∀ q, Spec.fieldAt [f] (0 :: q) = Spec.fieldAt [g] (0 :: q)) → (∀ q, Spec.nilAt [f] (0 :: q) = Spec.nilAt [g] (0 :: q)) → f = g
  | .leaf e tag name t v, g, h, hf, hn => by
    cases g with
    | leaf e' tag' name' t' v' =>
      have := hf []
      simp only [Spec.fieldAt, List.getElem?_cons_zero, Option.some.injEq, Prod.mk.injEq] at this
      simp only [Spec.outlineF, SF.leaf.injEq] at h
      obtain ⟨rfl, rfl, rfl, -⟩ := h
      obtain ⟨rfl, rfl⟩ := this
      rfl
    | emb _ _ _ => simp [Spec.outlineF] at h
    | embPtr _ _ _ _ => simp [Spec.outlineF] at h
    | embOther _ => simp [Spec.outlineF] at h
  | .emb e tag ks, g, h, hf, hn => by
    cases g with
    | emb e' tag' ks' =>
      simp only [Spec.outlineF, SF.emb.injEq] at h
      obtain ⟨rfl, rfl, h⟩ := h
      rw [sameL ks ks' h (fun q => ?_) (fun q => ?_)]
      · cases q with
        | nil => rfl
        | cons a q => simpa only [Spec.fieldAt, List.getElem?_cons_zero] using hf (a :: q)
      · cases q with
        | nil => rfl
        | cons a q => simpa only [Spec.nilAt, List.getElem?_cons_zero] using hn (a :: q)
    | leaf _ _ _ _ _ => simp [Spec.outlineF] at h
    | embPtr _ _ _ _ => simp [Spec.outlineF] at h
    | embOther _ => simp [Spec.outlineF] at h
  | .embPtr e tag b ks, g, h, hf, hn => by
    cases g with
    | embPtr e' tag' b' ks' =>
      simp only [Spec.outlineF, SF.embPtr.injEq, true_and] at h
      obtain ⟨rfl, rfl, h⟩ := h
      have := hn []
      simp only [Spec.nilAt, List.getElem?_cons_zero, Option.some.injEq] at this
      subst this
      rw [sameL ks ks' h (fun q => ?_) (fun q => ?_)]
      · cases q with
        | nil => rfl
        | cons a q => simpa only [Spec.fieldAt, List.getElem?_cons_zero] using hf (a :: q)
      · cases q with
        | nil => rfl
        | cons a q => simpa only [Spec.nilAt, List.getElem?_cons_zero] using hn (a :: q)
    | leaf _ _ _ _ _ => simp [Spec.outlineF] at h
    | emb _ _ _ => simp [Spec.outlineF] at h
    | embOther _ => simp [Spec.outlineF] at h
  | .embOther v, g, h, hf, hn => by
    cases g with
    | embOther v' => simpa [Spec.outlineF] using h
    | leaf _ _ _ _ _ => simp [Spec.outlineF] at h
    | emb _ _ _ => simp [Spec.outlineF] at h
    | embPtr _ _ _ _ => simp [Spec.outlineF] at h
theorem sameL : ∀ (fs gs : List SF), Spec.outline fs = Spec.outline gs →
    (∀ q, Spec.fieldAt fs q = Spec.fieldAt gs q) → (∀ q, Spec.nilAt fs q = Spec.nilAt gs q) → fs = gs
  | [], [], _, _, _ => rfl
  | [], g :: gs, h, _, _ => by simp [Spec.outline] at h
  | f :: fs, [], h, _, _ => by simp [Spec.outline] at h
  | f :: fs, g :: gs, h, hf, hn => by
    simp only [Spec.outline, List.cons.injEq] at h
    have h1 := sameF f g h.1 (fun q => ?_) (fun q => ?_)
    have h2 := sameL fs gs h.2 (fun q => ?_) (fun q => ?_)
    · rw [h1, h2]
    · cases q with
      | nil => rfl
      | cons i q => have := hf ((i + 1) :: q); cases q <;> simpa only [Spec.fieldAt, List.getElem?_cons_succ] using this
    · cases q with
      | nil => rfl
      | cons i q => have := hn ((i + 1) :: q); cases q <;> simpa only [Spec.nilAt, List.getElem?_cons_succ] using this
    · have := hf (0 :: q); cases q <;> simpa only [Spec.fieldAt, List.getElem?_cons_zero] using this
    · have := hn (0 :: q); cases q <;> simpa only [Spec.nilAt, List.getElem?_cons_zero] using this
end

/-- **C137**: the type, the plain fields and the pointers are all there is: the theorems above fix the result. -/
theorem C137_complete (fs gs : List SF) (h : Spec.outline fs = Spec.outline gs) (hf : ∀ q, Spec.fieldAt fs q = Spec.fieldAt gs q)
    (hn : ∀ q, Spec.nilAt fs q = Spec.nilAt gs q) : fs = gs := sameL fs gs h hf hn

/-! ### Examples -/

/-- an unexported embedded pointer, with the parameter for a field of its struct, and an embedded struct next to it -/
example : Spec.pointerAt [.emb true [] [.embPtr false [] true [.leaf true [] b!"A" .string (.str [])]]] [0, 0] =
      some (false, [.leaf true [] b!"A" .string (.str [])]) ∧
    Spec.hasParam ⟨[(b!"A", [b!"1"])], []⟩ [.leaf true [] b!"A" .string (.str [])] ∧
    bindSFs Spec.toyExt Spec.asIs ⟨[(b!"A", [b!"1"])], []⟩ [] 0
      [.emb true [] [.embPtr false [] true [.leaf true [] b!"A" .string (.str [])]]] = none :=
  ⟨rfl, ⟨0, b!"A", b!"1", rfl, rfl⟩, rfl⟩

/-- pointers: one that is allocated, one that stays nil, one that was there and keeps the value of its skipped field -/
example : (bindSFs Spec.toyExt Spec.asIs ⟨[(b!"A", [b!"1"])], []⟩ [] 0
      [.embPtr true [] true [.leaf true [] b!"A" .string (.str [])], .embPtr true [] true [.leaf true [] b!"B" .string (.str [])],
       .embPtr false [] false [.leaf true [] b!"B" .string (.str b!"old"), .leaf false [] b!"c" .string (.str b!"kept")]]) =
    some [.embPtr true [] false [.leaf true [] b!"A" .string (.str b!"1")], .embPtr true [] true [.leaf true [] b!"B" .string (.str [])],
       .embPtr false [] false [.leaf true [] b!"B" .string (.str []), .leaf false [] b!"c" .string (.str b!"kept")]] := rfl

end Verif.Params
