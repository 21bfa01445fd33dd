import Verif.Go.Strconv
/-! Lemmas about `strconv` (no property theorems here). -/
namespace Verif.Go

theorem digit_toNat {n : Nat} (h : n < 10) : (digit n).toNat = 48 + n := by
  unfold digit
  simp only [UInt8.toNat_ofNat']
  omega

theorem digitVal_digit {n : Nat} (h : n < 10) : digitVal? (digit n) = some n := by
  have ht := digit_toNat h
  have h1 : (48 : UInt8) ≤ digit n := by rw [UInt8.le_iff_toNat_le, ht]; simp
  have h2 : digit n ≤ 57 := by rw [UInt8.le_iff_toNat_le, ht]; simp; omega
  unfold digitVal?
  rw [if_pos ⟨h1, h2⟩, ht]; congr 1; omega

theorem natDecF_fuel (f g : Nat) : ∀ n, n ≤ f → n ≤ g → natDecF f n = natDecF g n := by
  induction f generalizing g with
  | zero =>
    intro n h1 _
    have : n = 0 := by omega
    subst this
    cases g <;> simp [natDecF]
  | succ f ih =>
    intro n h1 h2
    cases g with
    | zero =>
      have : n = 0 := by omega
      subst this
      simp [natDecF]
    | succ g =>
      simp only [natDecF]
      by_cases h : n < 10
      · rw [if_pos h, if_pos h]
      · rw [if_neg h, if_neg h, ih g (n / 10) (by omega) (by omega)]

theorem natDec_lt {n : Nat} (h : n < 10) : natDec n = [digit n] := by
  unfold natDec
  cases n with
  | zero => rfl
  | succ n => simp only [natDecF]; rw [if_pos h]

theorem natDec_ge {n : Nat} (h : 10 ≤ n) : natDec n = natDec (n / 10) ++ [digit (n % 10)] := by
  unfold natDec
  cases n with
  | zero => omega
  | succ n =>
    simp only [natDecF]
    rw [if_neg (by omega), natDecF_fuel n ((n + 1) / 10) _ (by omega) (by omega)]

theorem natDec_ne_nil (n : Nat) : natDec n ≠ [] := by
  by_cases h : n < 10
  · rw [natDec_lt h]; simp
  · rw [natDec_ge (by omega)]; simp

/-- a byte is an ASCII decimal digit -/
def isDig (c : UInt8) : Prop := 48 ≤ c.toNat ∧ c.toNat ≤ 57

theorem digit_isDig {n : Nat} (h : n < 10) : isDig (digit n) := by
  unfold isDig; rw [digit_toNat h]; omega

theorem natDec_digits (n : Nat) : ∀ c ∈ natDec n, isDig c := by
  induction n using Nat.strongRecOn with
  | _ n ih =>
    by_cases h : n < 10
    · rw [natDec_lt h]; intro c hc; simp at hc; subst hc; exact digit_isDig h
    · rw [natDec_ge (by omega)]
      intro c hc
      rcases List.mem_append.1 hc with hc | hc
      · exact ih _ (by omega) c hc
      · simp at hc; subst hc; exact digit_isDig (by omega)

theorem digitVal_isDig {c : UInt8} (h : isDig c) : digitVal? c = some (c.toNat - 48) := by
  unfold digitVal? isDig at *
  rw [if_pos]
  constructor <;> rw [UInt8.le_iff_toNat_le] <;> simp <;> omega

theorem isDig_of_digitVal {c : UInt8} {d : Nat} (h : digitVal? c = some d) :
    isDig c ∧ d = c.toNat - 48 := by
  unfold digitVal? at h
  split at h
  · rename_i hc
    rw [UInt8.le_iff_toNat_le, UInt8.le_iff_toNat_le] at hc
    simp at hc h
    exact ⟨hc, h.symm⟩
  · simp at h

theorem parseUintLoop_append (max acc : Nat) (a b : Str) :
    parseUintLoop max acc (a ++ b) =
      match parseUintLoop max acc a with
      | (n, none) => parseUintLoop max n b
      | e => e := by
  induction a generalizing acc with
  | nil => simp [parseUintLoop]
  | cons c cs ih =>
    simp only [List.cons_append, parseUintLoop]
    cases digitVal? c with
    | none => rfl
    | some d =>
      simp only []
      by_cases h : acc * 10 + d > max
      · simp only [if_pos h]
      · simp only [if_neg h]; rw [ih]

theorem parseUintLoop_natDec (max n : Nat) :
    parseUintLoop max 0 (natDec n) = if n ≤ max then (n, none) else (max, some .rng) := by
  induction n using Nat.strongRecOn with
  | _ n ih =>
    by_cases h : n < 10
    · rw [natDec_lt h]
      simp only [parseUintLoop, digitVal_digit h]
      by_cases hm : n ≤ max
      · rw [if_pos hm, if_neg (by omega)]; simp
      · rw [if_neg hm, if_pos (by omega)]
    · rw [natDec_ge (by omega), parseUintLoop_append, ih (n / 10) (by omega)]
      have hd : n % 10 < 10 := by omega
      by_cases h10 : n / 10 ≤ max
      · rw [if_pos h10]
        simp only [parseUintLoop, digitVal_digit hd]
        by_cases hm : n ≤ max
        · rw [if_pos hm, if_neg (by omega)]; congr 1; omega
        · rw [if_neg hm, if_pos (by omega)]
      · rw [if_neg h10, if_neg (by omega)]

theorem parseUint_natDec (bits n : Nat) :
    parseUint bits (natDec n) = if n ≤ 2 ^ bits - 1 then (n, none) else (2 ^ bits - 1, some .rng) := by
  unfold parseUint
  rw [if_neg (natDec_ne_nil n), parseUintLoop_natDec]

theorem natDec_head (n : Nat) : ∃ c r, natDec n = c :: r ∧ isDig c := by
  cases h : natDec n with
  | nil => exact absurd h (natDec_ne_nil n)
  | cons c r => exact ⟨c, r, rfl, natDec_digits n c (by rw [h]; simp)⟩

theorem natDec_head_ne (n : Nat) : (natDec n).head? ≠ some 43 ∧ (natDec n).head? ≠ some 45 := by
  obtain ⟨c, r, h, hd⟩ := natDec_head n
  rw [h]
  unfold isDig at hd
  constructor <;> (intro e; simp at e; subst e; simp at hd)

/-- `natDec` is injective. -/
theorem natDec_inj {m n : Nat} (h : natDec m = natDec n) : m = n := by
  have h1 := parseUintLoop_natDec (m + n) m
  have h2 := parseUintLoop_natDec (m + n) n
  rw [if_pos (by omega)] at h1 h2
  rw [h, h2] at h1
  simpa using h1.symm

theorem parseInt_fmtInt_nat {bits : Nat} (hb : 1 ≤ bits) {n : Nat} (h : n < 2 ^ (bits - 1)) :
    parseInt bits (natDec n) = ((n : Int), none) := by
  have hp : 2 ^ bits = 2 * 2 ^ (bits - 1) := by
    obtain ⟨b, rfl⟩ : ∃ b, bits = b + 1 := ⟨bits - 1, by omega⟩
    simp [Nat.pow_succ]; omega
  have hh := natDec_head_ne n
  unfold parseInt
  rw [if_neg (by simp [hh.1, hh.2]), parseUint_natDec, if_pos (by omega)]
  have hf : ((natDec n).head? == some 45) = false := by simp [hh.2]
  rw [hf]
  unfold signRange
  simp only []
  rw [if_neg (by omega), if_neg (by simp), if_neg (by simp)]

theorem parseInt_fmtInt {bits : Nat} (hb : 1 ≤ bits) {i : Int}
    (h1 : -(2 ^ (bits - 1) : Nat) ≤ i) (h2 : i < (2 ^ (bits - 1) : Nat)) :
    parseInt bits (fmtInt i) = (i, none) := by
  cases i with
  | ofNat n =>
    have := parseInt_fmtInt_nat (n := n) hb (by
      have : (n : Int) < (2 ^ (bits - 1) : Nat) := h2
      omega)
    simpa [fmtInt] using this
  | negSucc n =>
    have hn : n + 1 ≤ 2 ^ (bits - 1) := by omega
    have hp : 2 ^ bits = 2 * 2 ^ (bits - 1) := by
      obtain ⟨b, rfl⟩ : ∃ b, bits = b + 1 := ⟨bits - 1, by omega⟩
      simp [Nat.pow_succ]; omega
    have e : fmtInt (Int.negSucc n) = 45 :: natDec (n + 1) := rfl
    rw [e]
    unfold parseInt
    rw [if_pos (by simp)]
    simp only [List.drop_succ_cons, List.drop_zero]
    rw [parseUint_natDec, if_pos (by omega)]
    have hf : (((45 :: natDec (n + 1)) : Str).head? == some 45) = true := by simp
    rw [hf]
    unfold signRange
    simp only []
    rw [if_neg (by simp), if_neg (by omega), if_pos (by simp)]
    simp [Int.negSucc_eq]

/-- A successfully parsed unsigned number is made of digits only. -/
theorem parseUintLoop_digits {max acc : Nat} {s : Str} {n : Nat}
    (h : parseUintLoop max acc s = (n, none)) : ∀ c ∈ s, isDig c := by
  induction s generalizing acc with
  | nil => simp
  | cons c cs ih =>
    simp only [parseUintLoop] at h
    cases hd : digitVal? c with
    | none => rw [hd] at h; simp at h
    | some d =>
      rw [hd] at h
      simp only at h
      split at h
      · simp at h
      · intro x hx
        rcases List.mem_cons.1 hx with rfl | hx
        · exact (isDig_of_digitVal hd).1
        · exact ih h x hx

theorem wrapS_id {bits : Nat} (hb : 1 ≤ bits) {i : Int}
    (h1 : -(2 ^ (bits - 1) : Nat) ≤ i) (h2 : i < (2 ^ (bits - 1) : Nat)) : wrapS bits i = i := by
  have hp : (2 : Int) ^ bits = 2 * 2 ^ (bits - 1) := by
    obtain ⟨b, rfl⟩ : ∃ b, bits = b + 1 := ⟨bits - 1, by omega⟩
    simp [Int.pow_succ]; omega
  unfold wrapS
  rw [hp]
  have hc : ((2 ^ (bits - 1) : Nat) : Int) = 2 ^ (bits - 1) := by simp
  rw [hc] at h1 h2
  generalize (2 : Int) ^ (bits - 1) = p at *
  rw [Int.emod_eq_of_lt (by omega) (by omega)]
  omega

end Verif.Go
