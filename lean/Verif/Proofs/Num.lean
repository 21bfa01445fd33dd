import Verif.Proofs.Strconv
/-!
# What strings denote numbers, and what `ParseUint`/`ParseInt` accept
-/
namespace Verif.Go

/-- A non-empty string of ASCII digits. -/
def NumSpec.Digits (s : Str) : Prop := s ≠ [] ∧ ∀ c ∈ s, 48 ≤ c.toNat ∧ c.toNat ≤ 57

/-- The number a string of digits stands for. -/
def NumSpec.decimal (s : Str) : Nat := s.foldl (fun a c => a * 10 + (c.toNat - 48)) 0

/-- `s` is decimal notation for `i`: digits, and for signed types optionally one sign before them. -/
def NumSpec.Denotes (signed : Bool) (s : Str) (i : Int) : Prop :=
  (NumSpec.Digits s ∧ i = NumSpec.decimal s) ∨
  (signed = true ∧ ∃ r, s = 43 :: r ∧ NumSpec.Digits r ∧ i = NumSpec.decimal r) ∨
  (signed = true ∧ ∃ r, s = 45 :: r ∧ NumSpec.Digits r ∧ i = -(NumSpec.decimal r : Int))

/-- `i` fits in an integer type of the given signedness and width. -/
def NumSpec.Fits (signed : Bool) (bits : Nat) (i : Int) : Prop :=
  if signed then -(2 ^ (bits - 1) : Nat) ≤ i ∧ i < (2 ^ (bits - 1) : Nat) else 0 ≤ i ∧ i < (2 ^ bits : Nat)

instance (signed : Bool) (bits : Nat) (i : Int) : Decidable (NumSpec.Fits signed bits i) := by
  unfold NumSpec.Fits; infer_instance

open NumSpec

theorem foldl_ge (s : Str) (a : Nat) : a ≤ s.foldl (fun a c => a * 10 + (c.toNat - 48)) a := by
  induction s generalizing a with
  | nil => exact Nat.le_refl _
  | cons c s ih =>
    have := ih (a * 10 + (c.toNat - 48))
    rw [List.foldl_cons]
    omega

theorem parseUintLoop_eq (max acc : Nat) (s : Str) (h : ∀ c ∈ s, 48 ≤ c.toNat ∧ c.toNat ≤ 57) (ha : acc ≤ max) :
    parseUintLoop max acc s =
      if s.foldl (fun a c => a * 10 + (c.toNat - 48)) acc ≤ max
      then (s.foldl (fun a c => a * 10 + (c.toNat - 48)) acc, none) else (max, some .rng) := by
  induction s generalizing acc with
  | nil => rw [if_pos (by simpa using ha)]; rfl
  | cons c s ih =>
    rw [List.foldl_cons]
    simp only [parseUintLoop, digitVal_isDig (h c (by simp))]
    by_cases hm : acc * 10 + (c.toNat - 48) > max
    · rw [if_pos hm, if_neg]
      have := foldl_ge s (acc * 10 + (c.toNat - 48))
      omega
    · rw [if_neg hm, ih _ (fun c hc => h c (by simp [hc])) (by omega)]

theorem parseUintLoop_bad (max acc : Nat) (s : Str) (h : ¬ ∀ c ∈ s, 48 ≤ c.toNat ∧ c.toNat ≤ 57) :
    (parseUintLoop max acc s).2 ≠ none := by
  intro e
  refine h ?_
  have : parseUintLoop max acc s = ((parseUintLoop max acc s).1, none) := by rw [← e]
  exact parseUintLoop_digits this

theorem parseUint_digits (bits : Nat) (s : Str) (h : Digits s) :
    parseUint bits s = if decimal s < 2 ^ bits then (decimal s, none) else (2 ^ bits - 1, some .rng) := by
  unfold parseUint
  rw [if_neg h.1, parseUintLoop_eq _ _ _ h.2 (by omega)]
  have : 0 < 2 ^ bits := Nat.pow_pos (by omega)
  by_cases hd : decimal s < 2 ^ bits
  · rw [if_pos hd, if_pos (by unfold decimal at hd; omega)]; rfl
  · rw [if_neg hd, if_neg (by unfold decimal at hd; omega)]

theorem parseUint_bad (bits : Nat) (s : Str) (h : ¬ Digits s) : (parseUint bits s).2 ≠ none := by
  unfold parseUint
  by_cases hs : s = []
  · rw [if_pos hs]; simp
  · rw [if_neg hs]
    exact parseUintLoop_bad _ _ _ (fun e => h ⟨hs, e⟩)

/-- `ParseUint` accepts exactly the digit strings of numbers that fit, with their value. -/
theorem parseUint_iff (bits : Nat) (s : Str) (n : Nat) :
    parseUint bits s = (n, none) ↔ Denotes false s n ∧ Fits false bits n := by
  unfold Denotes Fits
  simp only [Bool.false_eq_true, false_and, or_false, if_false]
  by_cases h : Digits s
  · rw [parseUint_digits bits s h]
    constructor
    · intro e
      by_cases hd : decimal s < 2 ^ bits
      · rw [if_pos hd, Prod.mk.injEq] at e
        exact ⟨⟨h, by omega⟩, by omega, by have := e.1; omega⟩
      · rw [if_neg hd] at e; simp at e
    · rintro ⟨⟨_, e⟩, _, l⟩
      have e' : n = decimal s := by omega
      rw [if_pos (by omega), e']
  · constructor
    · intro e
      exact absurd (by rw [e]) (parseUint_bad bits s h)
    · rintro ⟨⟨x, _⟩, _⟩; exact absurd x h

/-- A numeral of a number that does not fit is a range error with the largest value. -/
theorem parseUint_out (bits : Nat) (s : Str) (n : Nat) (h : Denotes false s n) (hf : ¬ Fits false bits n) :
    parseUint bits s = (2 ^ bits - 1, some .rng) := by
  unfold Denotes Fits at *
  simp only [Bool.false_eq_true, false_and, or_false, if_false] at h hf
  rw [parseUint_digits bits s h.1, if_neg (by omega)]

theorem digits_head (s : Str) (h : Digits s) : s.head? ≠ some 43 ∧ s.head? ≠ some 45 := by
  cases s with
  | nil => exact absurd rfl h.1
  | cons c s =>
    have := h.2 c (by simp)
    constructor <;> (simp only [List.head?_cons, ne_eq, Option.some.injEq]; intro e; subst e; simp at this)

theorem two_pow_pred {bits : Nat} (hb : 2 ≤ bits) : 2 ^ bits = 2 * 2 ^ (bits - 1) ∧ 2 ≤ 2 ^ (bits - 1) := by
  obtain ⟨b, rfl⟩ : ∃ b, bits = b + 2 := ⟨bits - 2, by omega⟩
  have : 0 < 2 ^ b := Nat.pow_pos (by omega)
  simp only [Nat.pow_succ, show b + 2 - 1 = b + 1 from rfl]
  omega

theorem signRange_ok (bits : Nat) (hb : 2 ≤ bits) (neg : Bool) (n : Nat) :
    signRange bits neg (if n < 2 ^ bits then (n, none) else (2 ^ bits - 1, some .rng)) =
      if Fits true bits (if neg then -(n : Int) else n) then (if neg then -(n : Int) else n, none)
      else (if neg then -((2 ^ (bits - 1) : Nat) : Int) else ((2 ^ (bits - 1) : Nat) : Int) - 1, some .rng) := by
  have hp := two_pow_pred hb
  unfold Fits
  simp only [if_true]
  by_cases hn : n < 2 ^ bits
  · rw [if_pos hn]
    cases neg with
    | false =>
      simp only [signRange, Bool.false_eq_true, if_false, true_and, false_and]
      by_cases h : n ≥ 2 ^ (bits - 1)
      · rw [if_pos h, if_neg (by omega)]
      · rw [if_neg h, if_pos (by omega)]
    | true =>
      simp only [signRange, if_true, true_and, Bool.true_eq_false, false_and, if_false]
      by_cases h : n > 2 ^ (bits - 1)
      · rw [if_pos h, if_neg (by omega)]
      · rw [if_neg h, if_pos (by omega)]
  · rw [if_neg hn]
    cases neg with
    | false =>
      simp only [signRange, Bool.false_eq_true, if_false, true_and, false_and]
      rw [if_pos (by omega), if_neg (by omega)]
    | true =>
      simp only [signRange, if_true, true_and, Bool.true_eq_false, false_and, if_false]
      rw [if_pos (by omega), if_neg (by omega)]

theorem signRange_err (bits : Nat) (hb : 2 ≤ bits) (neg : Bool) (s : Str) (h : ¬ Digits s) :
    (signRange bits neg (parseUint bits s)).2 ≠ none := by
  have hp := two_pow_pred hb
  have h1 := parseUint_bad bits s h
  -- an error is a syntax error, or a range error with the largest value
  have h2 : (parseUint bits s).2 = some .rng → (parseUint bits s).1 = 2 ^ bits - 1 := by
    unfold parseUint
    by_cases hs : s = []
    · rw [if_pos hs]; simp
    · rw [if_neg hs]
      clear h h1 hs
      generalize 0 = acc
      induction s generalizing acc with
      | nil => simp [parseUintLoop]
      | cons c s ih =>
        simp only [parseUintLoop]
        cases digitVal? c with
        | none => simp
        | some d =>
          simp only
          by_cases hm : acc * 10 + d > 2 ^ bits - 1
          · rw [if_pos hm]; simp
          · rw [if_neg hm]; exact ih _
  generalize parseUint bits s = r at *
  obtain ⟨n, e⟩ := r
  cases e with
  | none => exact absurd rfl h1
  | some e =>
    cases e with
    | syn => simp [signRange]
    | rng =>
      have := h2 rfl
      simp only at this
      subst this
      cases neg with
      | false => simp only [signRange]; rw [if_pos ⟨trivial, by omega⟩]; simp
      | true =>
        simp only [signRange]
        rw [if_neg (by simp), if_pos ⟨trivial, by omega⟩]; simp

theorem denotes_cases (s : Str) (i : Int) (h : Denotes true s i) :
    ∃ r, Digits r ∧ (if s.head? = some 43 ∨ s.head? = some 45 then s.drop 1 else s) = r ∧
      i = if (s.head? == some 45) = true then -(decimal r : Int) else decimal r := by
  rcases h with ⟨h, e⟩ | ⟨_, r, e1, h, e⟩ | ⟨_, r, e1, h, e⟩
  · have hh := digits_head s h
    refine ⟨s, h, by rw [if_neg (by simp [hh.1, hh.2])], ?_⟩
    rw [if_neg (by simp [hh.2])]; exact e
  · exact ⟨r, h, by rw [e1]; simp, by rw [e1, if_neg (by simp)]; exact e⟩
  · exact ⟨r, h, by rw [e1]; simp, by rw [e1, if_pos (by simp)]; exact e⟩

theorem denotes_of (s r : Str) (hr : Digits r)
    (h : (if s.head? = some 43 ∨ s.head? = some 45 then s.drop 1 else s) = r) :
    Denotes true s (if (s.head? == some 45) = true then -(decimal r : Int) else decimal r) := by
  cases s with
  | nil => simp at h; exact absurd h hr.1
  | cons c s =>
    by_cases h1 : c = 43
    · subst h1; simp at h; subst h
      exact Or.inr (Or.inl ⟨rfl, _, rfl, hr, by simp⟩)
    · by_cases h2 : c = 45
      · subst h2; simp at h; subst h
        exact Or.inr (Or.inr ⟨rfl, _, rfl, hr, by simp⟩)
      · rw [if_neg (by simp [h1, h2])] at h
        subst h
        exact Or.inl ⟨hr, by rw [if_neg (by simp [h2])]⟩

/-- `ParseInt` on a numeral: the number when it fits, otherwise a range error and the nearest bound. -/
theorem parseInt_denotes (bits : Nat) (hb : 2 ≤ bits) (s : Str) (i : Int) (h : Denotes true s i) :
    (Fits true bits i → parseInt bits s = (i, none)) ∧ (¬ Fits true bits i → (parseInt bits s).2 = some .rng) := by
  obtain ⟨r, hr, e1, e2⟩ := denotes_cases s i h
  unfold parseInt
  rw [e1, parseUint_digits bits r hr, signRange_ok bits hb, ← e2]
  constructor
  · intro hf; rw [if_pos hf]
  · intro hf; rw [if_neg hf]

/-- `ParseInt` accepts exactly the numerals of numbers that fit, with their value. -/
theorem parseInt_iff (bits : Nat) (hb : 2 ≤ bits) (s : Str) (i : Int) :
    parseInt bits s = (i, none) ↔ Denotes true s i ∧ Fits true bits i := by
  constructor
  · intro e
    by_cases hd : Digits (if s.head? = some 43 ∨ s.head? = some 45 then s.drop 1 else s)
    · have h := denotes_of s _ hd rfl
      have := parseInt_denotes bits hb s _ h
      by_cases hf : Fits true bits
        (if (s.head? == some 45) = true then -(decimal (if s.head? = some 43 ∨ s.head? = some 45 then s.drop 1 else s) : Int)
          else decimal (if s.head? = some 43 ∨ s.head? = some 45 then s.drop 1 else s))
      · rw [this.1 hf, Prod.mk.injEq] at e
        rw [e.1] at h hf
        exact ⟨h, hf⟩
      · have := this.2 hf
        rw [e] at this; cases this
    · exfalso
      refine signRange_err bits hb (s.head? == some 45) _ hd ?_
      unfold parseInt at e
      rw [e]
  · rintro ⟨h, hf⟩
    exact (parseInt_denotes bits hb s i h).1 hf

theorem decimal_append (a : Str) (n : Nat) (h : n < 10) : decimal (a ++ [digit n]) = decimal a * 10 + n := by
  unfold decimal
  rw [List.foldl_append]
  simp [digit_toNat h]

theorem natDec_decimal (n : Nat) : decimal (natDec n) = n := by
  induction n using Nat.strongRecOn with
  | _ n ih =>
    by_cases h : n < 10
    · rw [natDec_lt h]; unfold decimal; simp [digit_toNat h]
    · rw [natDec_ge (by omega), decimal_append _ _ (by omega), ih _ (by omega)]; omega

theorem natDec_Digits (n : Nat) : Digits (natDec n) := ⟨natDec_ne_nil n, natDec_digits n⟩

/-- The decimal form of a number denotes it. -/
theorem fmtInt_denotes (signed : Bool) (i : Int) (h : signed = true ∨ 0 ≤ i) : Denotes signed (fmtInt i) i := by
  cases i with
  | ofNat n => exact Or.inl ⟨natDec_Digits n, by rw [fmtInt, natDec_decimal]; rfl⟩
  | negSucc n =>
    have hs : signed = true := by rcases h with h | h; exact h; omega
    exact Or.inr (Or.inr ⟨hs, _, rfl, natDec_Digits _, by rw [natDec_decimal]; omega⟩)

/-- A numeral denotes only one number. -/
theorem denotes_unique (signed : Bool) (s : Str) (i j : Int) (h1 : Denotes signed s i) (h2 : Denotes signed s j) :
    i = j := by
  have up : ∀ x, Denotes signed s x → Denotes true s x := by
    rintro x (h | ⟨_, h⟩ | ⟨_, h⟩)
    · exact Or.inl h
    · exact Or.inr (Or.inl ⟨rfl, h⟩)
    · exact Or.inr (Or.inr ⟨rfl, h⟩)
  obtain ⟨r, _, e1, e2⟩ := denotes_cases s i (up i h1)
  obtain ⟨r', _, e1', e2'⟩ := denotes_cases s j (up j h2)
  have : r = r' := e1.symm.trans e1'
  rw [e2, e2', this]

end Verif.Go
