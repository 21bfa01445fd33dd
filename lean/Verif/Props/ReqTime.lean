import Verif.Model.ReqTime
import Verif.Props.ReqLine
import Verif.Props.ReqLogger
/-!
# C168: the times in the log and in X-Response-Time are the measured ones
-/
namespace Verif.ReqLog
open Verif.Go LineSpec

/-! ## Rounding to the nearest -/

theorem rne_bounds (p q : Nat) (hq : 0 < q) : 2 * (q * rne p q) ≤ 2 * p + q ∧ 2 * p ≤ 2 * (q * rne p q) + q ∧
    (2 * (q * rne p q) = 2 * p + q ∨ 2 * p = 2 * (q * rne p q) + q → rne p q % 2 = 0) := by
  have h1 := Nat.div_add_mod p q
  have h2 := Nat.mod_lt p hq
  unfold rne
  split
  · rename_i h
    generalize q * (p / q) = x at *
    omega
  · rename_i h
    rw [Nat.mul_add, Nat.mul_one]
    generalize q * (p / q) = x at *
    omega

theorem rne_mono (p q p' q' : Nat) (hq : 0 < q) (hq' : 0 < q') (h : p * q' ≤ p' * q) : rne p q ≤ rne p' q' := by
  obtain ⟨a1, a2, a3⟩ := rne_bounds p q hq
  obtain ⟨b1, b2, b3⟩ := rne_bounds p' q' hq'
  generalize rne p q = r at *
  generalize rne p' q' = r' at *
  apply Classical.byContradiction
  intro hn
  have hn : r' + 1 ≤ r := by omega
  -- everything over the common denominator q * q'
  have c1 : q * (r' + 1) ≤ q * r := Nat.mul_le_mul_left q hn
  have d1 : 2 * (q * (r' + 1)) ≤ 2 * p + q := by omega
  have e1 : q' * (2 * (q * (r' + 1))) ≤ q' * (2 * p + q) := Nat.mul_le_mul_left _ d1
  have e2 : q * (2 * p') ≤ q * (2 * (q' * r') + q') := Nat.mul_le_mul_left _ b2
  have f1 : q' * (2 * (q * (r' + 1))) = 2 * (q * q' * r') + 2 * (q * q') := by
    grind
  have f2 : q' * (2 * p + q) = 2 * (p * q') + q * q' := by
    grind
  have f3 : q * (2 * p') = 2 * (p' * q) := by grind
  have f4 : q * (2 * (q' * r') + q') = 2 * (q * q' * r') + q * q' := by
    grind
  rw [f1, f2] at e1
  rw [f3, f4] at e2
  have g1 : p * q' = p' * q := by generalize q * q' * r' = z at *; generalize q * q' = y at *; omega
  have g2 : 2 * (p * q') = 2 * (q * q' * r') + q * q' := by generalize q * q' * r' = z at *; generalize q * q' = y at *; omega
  -- both are ties
  have t' : 2 * p' = 2 * (q' * r') + q' := by
    apply Nat.eq_of_mul_eq_mul_left hq
    rw [f3, f4, ← g1, g2]
  have t : 2 * p + q = 2 * (q * (r' + 1)) := by
    apply Nat.eq_of_mul_eq_mul_left hq'
    rw [f1, f2, g2]
    generalize q * q' * r' = z; generalize q * q' = y; omega
  have hr : q * r ≤ q * (r' + 1) := by omega
  have hr : r ≤ r' + 1 := Nat.le_of_mul_le_mul_left hr hq
  have hr : r = r' + 1 := by omega
  subst hr
  have := a3 (.inl t.symm)
  have := b3 (.inr t')
  omega

theorem rne_congr (p q p' q' : Nat) (hq : 0 < q) (hq' : 0 < q') (h : p * q' = p' * q) : rne p q = rne p' q' :=
  Nat.le_antisymm (rne_mono p q p' q' hq hq' (Nat.le_of_eq h)) (rne_mono p' q' p q hq' hq (Nat.le_of_eq h.symm))

theorem rne_one (n : Nat) : rne n 1 = n := by
  have := rne_bounds n 1 (by decide)
  omega

theorem rne_ge (a p q : Nat) (hq : 0 < q) (h : a * q ≤ p) : a ≤ rne p q := by
  have := rne_mono a 1 p q (by decide) hq (by rw [Nat.mul_one]; exact h)
  rwa [rne_one] at this

theorem rne_le (a p q : Nat) (hq : 0 < q) (h : p ≤ a * q) : rne p q ≤ a := by
  have := rne_mono p q a 1 hq (by decide) (by rw [Nat.mul_one]; exact h)
  rwa [rne_one] at this

/-! ## Doubles -/

theorem toDouble_small (n : Nat) (h : n < 2 ^ 53) : toDouble n = n := by
  have : n.log2 - 52 = 0 := by
    by_cases h0 : n = 0
    · subst h0; decide
    · have := (Nat.log2_lt h0).2 h; omega
  unfold toDouble
  rw [this, Nat.pow_zero, rne_one, Nat.mul_one]

theorem toDouble_mono (n n' : Nat) (h : n ≤ n') : toDouble n ≤ toDouble n' := by
  by_cases h0 : n = 0
  · subst h0
    exact Nat.le_trans (Nat.le_of_eq (by decide +kernel)) (Nat.zero_le _)
  have h0' : n' ≠ 0 := by omega
  by_cases hl : n.log2 = n'.log2
  · unfold toDouble
    rw [hl]
    exact Nat.mul_le_mul_right _ (rne_mono _ _ _ _ (Nat.two_pow_pos _) (Nat.two_pow_pos _) (Nat.mul_le_mul_right _ h))
  · have hlt : n.log2 < n'.log2 := by
      have := (Nat.le_log2 h0').2 (Nat.le_trans (Nat.log2_self_le h0) h)
      omega
    -- 2 ^ n'.log2 lies between
    have up : toDouble n ≤ 2 ^ (n.log2 + 1) := by
      unfold toDouble
      have e : 2 ^ (n.log2 + 1) = 2 ^ (n.log2 + 1 - (n.log2 - 52)) * 2 ^ (n.log2 - 52) := by
        rw [← Nat.pow_add]; congr 1; omega
      rw [e]
      refine Nat.mul_le_mul_right _ (rne_le _ _ _ (Nat.two_pow_pos _) ?_)
      rw [← e]
      exact Nat.le_of_lt Nat.lt_log2_self
    have down : 2 ^ n'.log2 ≤ toDouble n' := by
      unfold toDouble
      have e : 2 ^ n'.log2 = 2 ^ (n'.log2 - (n'.log2 - 52)) * 2 ^ (n'.log2 - 52) := by
        rw [← Nat.pow_add]; congr 1; omega
      rw [e]
      refine Nat.mul_le_mul_right _ (rne_ge _ _ _ (Nat.two_pow_pos _) ?_)
      rw [← e]
      exact Nat.log2_self_le h0'
    exact Nat.le_trans up (Nat.le_trans (Nat.pow_le_pow_right (by decide) hlt) down)

theorem toDouble_near (n : Nat) (h : n < 2 ^ 63) : toDouble n ≤ n + 512 ∧ n ≤ toDouble n + 512 := by
  have hb := rne_bounds n (2 ^ (n.log2 - 52)) (Nat.two_pow_pos _)
  have hk : 2 ^ (n.log2 - 52) ≤ 2 ^ 10 := by
    refine Nat.pow_le_pow_right (by decide) ?_
    by_cases h0 : n = 0
    · subst h0; decide
    · have := (Nat.log2_lt h0).2 h; omega
  unfold toDouble
  rw [Nat.mul_comm (rne _ _)]
  generalize 2 ^ (n.log2 - 52) * rne n (2 ^ (n.log2 - 52)) = x at *
  generalize 2 ^ (n.log2 - 52) = y at *
  omega

theorem toDouble_eq_zero (n : Nat) (h : toDouble n = 0) : n = 0 := by
  apply Classical.byContradiction
  intro h0
  have := toDouble_mono 1 n (by omega)
  have e : toDouble 1 = 1 := by decide +kernel
  omega

theorem scale_spec (p q : Nat) (h : 2 ^ 52 * q ≤ p * 2 ^ 127) :
    2 ^ 52 * q ≤ p * 2 ^ scale p q ∧ ∀ k, k < scale p q → p * 2 ^ k < 2 ^ 52 * q := by
  unfold scale
  cases hf : (List.range 128).find? (fun k => decide (2 ^ 52 * q ≤ p * 2 ^ k)) with
  | none =>
    have := List.find?_eq_none.1 hf 127 (by decide +kernel)
    rw [decide_eq_true_eq] at this
    exact absurd h this
  | some k =>
    rw [List.find?_range_eq_some] at hf
    obtain ⟨h1, _, h3⟩ := hf
    refine ⟨of_decide_eq_true h1, fun j hj => ?_⟩
    have := h3 j hj
    have : ¬ (2 ^ 52 * q ≤ p * 2 ^ j) := by simpa using this
    omega

theorem le_127 (p q : Nat) (hp : 0 < p) (hq : q < 2 ^ 64) : 2 ^ 52 * q ≤ p * 2 ^ 127 := by
  have : 1 * 2 ^ 127 ≤ p * 2 ^ 127 := Nat.mul_le_mul_right _ hp
  omega

theorem thousandths_mono (p p' q : Nat) (hq : 0 < q) (hq2 : q < 2 ^ 64) (h : p ≤ p') :
    thousandths (divDouble p q) ≤ thousandths (divDouble p' q) := by
  unfold thousandths divDouble
  simp only
  refine rne_mono _ _ _ _ (Nat.two_pow_pos _) (Nat.two_pow_pos _) ?_
  by_cases h0 : p = 0
  · subst h0
    rw [Nat.zero_mul]
    have : rne 0 q = 0 := by
      have := rne_le 0 0 q hq (Nat.zero_le _)
      omega
    rw [this]
    simp
  obtain ⟨s1, s2⟩ := scale_spec p q (le_127 p q (by omega) hq2)
  obtain ⟨s1', s2'⟩ := scale_spec p' q (le_127 p' q (by omega) hq2)
  have hk : scale p' q ≤ scale p q := by
    apply Classical.byContradiction
    intro hn
    have := s2' (scale p q) (by omega)
    have : p * 2 ^ scale p q ≤ p' * 2 ^ scale p q := Nat.mul_le_mul_right _ h
    omega
  generalize scale p q = k at *
  generalize scale p' q = k' at *
  by_cases he : k = k'
  · subst he
    refine Nat.mul_le_mul_right _ (Nat.mul_le_mul_right _ (rne_mono _ _ _ _ hq hq ?_))
    exact Nat.mul_le_mul_right _ (Nat.mul_le_mul_right _ h)
  · -- the smaller is at most 2^52 / 2^k', the larger at least
    have hlt := s2 k' (by omega)
    have e : (2 : Nat) ^ k = 2 ^ k' * 2 ^ (k - k') := by rw [← Nat.pow_add]; congr 1; omega
    have up : rne (p * 2 ^ k) q ≤ 2 ^ 52 * 2 ^ (k - k') := by
      refine rne_le _ _ _ hq ?_
      rw [e, ← Nat.mul_assoc, Nat.mul_right_comm (2 ^ 52)]
      exact Nat.mul_le_mul_right _ (Nat.le_of_lt hlt)
    have down : 2 ^ 52 ≤ rne (p' * 2 ^ k') q := rne_ge _ _ _ hq s1'
    calc rne (p * 2 ^ k) q * 1000 * 2 ^ k' ≤ 2 ^ 52 * 2 ^ (k - k') * 1000 * 2 ^ k' :=
          Nat.mul_le_mul_right _ (Nat.mul_le_mul_right _ up)
      _ = 2 ^ 52 * 1000 * (2 ^ k' * 2 ^ (k - k')) := by grind
      _ = 2 ^ 52 * 1000 * 2 ^ k := by rw [e]
      _ ≤ rne (p' * 2 ^ k') q * 1000 * 2 ^ k := Nat.mul_le_mul_right _ (Nat.mul_le_mul_right _ down)

/-- The number of microseconds shown, against the double that is divided. -/
theorem micros_near (p : Nat) (K : Nat) (hK : K = 2 ^ scale p 1000000) :
    2000 * (K * thousandths (divDouble p 1000000)) ≤ 2 * (p * K) + 1000000 + 1000 * K ∧
    2 * (p * K) ≤ 2000 * (K * thousandths (divDouble p 1000000)) + 1000000 + 1000 * K := by
  subst hK
  unfold thousandths divDouble
  simp only
  have h1 := rne_bounds (p * 2 ^ scale p 1000000) 1000000 (by decide)
  have h2 := rne_bounds (rne (p * 2 ^ scale p 1000000) 1000000 * 1000) (2 ^ scale p 1000000) (Nat.two_pow_pos _)
  generalize 2 ^ scale p 1000000 = K at *
  generalize K * rne (rne (p * K) 1000000 * 1000) K = z at *
  generalize p * K = x at *
  generalize rne x 1000000 = m at *
  omega

/-! ## Specification -/

/-- The text `t` reads as `q` thousandths of a millisecond. -/
def Spec.Micros (t : Str) (q : Nat) : Prop := ∃ n, t = n ++ b!"ms" ∧ Thousandths n q

theorem msText_spec (ns : Nat) : Spec.Micros (msText ns) (thousandths (divDouble (toDouble ns) 1000000)) := ⟨_, rfl, fixed3_spec _⟩

theorem micros_unique {t : Str} {q q' : Nat} (h : Spec.Micros t q) (h' : Spec.Micros t q') : q = q' := by
  obtain ⟨n, rfl, h⟩ := h
  obtain ⟨n', e, h'⟩ := h'
  obtain rfl := List.append_cancel_right e
  exact thousandths_unique h h'

/-! ## Theorems -/

/-- **C168**: a duration below 2^53 ns (104 days) is shown in milliseconds with three decimals, off by at most half a microsecond; a whole number of
microseconds is shown exactly. -/
theorem C168_nearest (ns : Nat) (h : ns < 2 ^ 53) : ∃ q, Spec.Micros (msText ns) q ∧ 1000 * q ≤ ns + 500 ∧ ns ≤ 1000 * q + 500 ∧
    (∀ us, ns = 1000 * us → q = us) := by
  refine ⟨_, msText_spec ns, ?_⟩
  rw [toDouble_small ns h]
  suffices hs : 1000 * thousandths (divDouble ns 1000000) ≤ ns + 500 ∧ ns ≤ 1000 * thousandths (divDouble ns 1000000) + 500 by
    refine ⟨hs.1, hs.2, fun us hu => ?_⟩
    omega
  by_cases h0 : ns = 0
  · subst h0; decide +kernel
  obtain ⟨a, b⟩ := micros_near ns _ rfl
  obtain ⟨s, _⟩ := scale_spec ns 1000000 (le_127 ns _ (by omega) (by decide))
  generalize 2 ^ scale ns 1000000 = K at *
  generalize thousandths (divDouble ns 1000000) = u at *
  have hK : 500000 < K := by
    apply Classical.byContradiction
    intro hn
    have : ns * K ≤ (2 ^ 53 - 1) * 500000 := Nat.mul_le_mul (by omega) (by omega)
    omega
  constructor
  · apply Classical.byContradiction
    intro hn
    have hm : K * (ns + 501) ≤ K * (1000 * u) := Nat.mul_le_mul_left _ (by omega)
    rw [Nat.mul_add, Nat.mul_comm K ns, Nat.mul_left_comm] at hm
    generalize K * u = z at *
    generalize ns * K = x at *
    omega
  · apply Classical.byContradiction
    intro hn
    have hm : K * (1000 * u + 501) ≤ K * ns := Nat.mul_le_mul_left _ (by omega)
    rw [Nat.mul_add, Nat.mul_comm K ns, Nat.mul_left_comm] at hm
    generalize K * u = z at *
    generalize ns * K = x at *
    omega

/-- **C168**: every duration a program can measure (below 2^63 ns, 292 years) is shown with an error of at most 2.036 microseconds. -/
theorem C168_any (ns : Nat) (h : ns < 2 ^ 63) : ∃ q, Spec.Micros (msText ns) q ∧ 1000 * q ≤ ns + 2036 ∧ ns ≤ 1000 * q + 2036 := by
  refine ⟨_, msText_spec ns, ?_⟩
  obtain ⟨n1, n2⟩ := toDouble_near ns h
  have hmax : toDouble ns ≤ 2 ^ 63 := Nat.le_trans (toDouble_mono ns (2 ^ 63) (Nat.le_of_lt h)) (by decide +kernel)
  by_cases h0 : toDouble ns = 0
  · have := toDouble_eq_zero ns h0
    subst this; decide +kernel
  obtain ⟨a, b⟩ := micros_near (toDouble ns) _ rfl
  obtain ⟨s, _⟩ := scale_spec (toDouble ns) 1000000 (le_127 _ _ (by omega) (by decide))
  generalize 2 ^ scale (toDouble ns) 1000000 = K at *
  generalize thousandths (divDouble (toDouble ns) 1000000) = u at *
  generalize toDouble ns = p at *
  have hK : 1000000 ≤ 2048 * K := by
    have : p * K ≤ 2 ^ 63 * K := Nat.mul_le_mul_right _ hmax
    omega
  have c1 : 1000 * u ≤ p + 1524 := by
    apply Classical.byContradiction
    intro hn
    have hm : K * (p + 1525) ≤ K * (1000 * u) := Nat.mul_le_mul_left _ (by omega)
    rw [Nat.mul_add, Nat.mul_comm K p, Nat.mul_left_comm] at hm
    generalize K * u = z at *
    generalize p * K = x at *
    omega
  have c2 : p ≤ 1000 * u + 1524 := by
    apply Classical.byContradiction
    intro hn
    have hm : K * (1000 * u + 1525) ≤ K * p := Nat.mul_le_mul_left _ (by omega)
    rw [Nat.mul_add, Nat.mul_comm K p, Nat.mul_left_comm] at hm
    generalize K * u = z at *
    generalize p * K = x at *
    omega
  omega

/-- **C168**: a longer duration is never shown as a shorter one. -/
theorem C168_monotone (a b qa qb : Nat) (h : a ≤ b) (ha : Spec.Micros (msText a) qa) (hb : Spec.Micros (msText b) qb) : qa ≤ qb := by
  obtain rfl := micros_unique ha (msText_spec a)
  obtain rfl := micros_unique hb (msText_spec b)
  exact thousandths_mono _ _ _ (by decide) (by decide) (toDouble_mono a b h)

/-- **C168**: the header X-Response-Time of the answer is the time until the answer was begun, and the time at the end of the line REQ_END, measured
later, is never smaller; whatever the handlers put into the header before. -/
theorem C168_header_and_log (s : RS) (fresh : Str) (flt : Option (Str → Str)) (hdrs : Params.Values) (begun ended : Nat) (h : begun ≤ ended)
    (status : Int) (size : Nat) : ∃ t, Params.lookup (sent { filterIn fresh (msText begun) flt { s with befores := [] } with resp := hdrs })
      b!"X-Response-Time" = some [t] ∧ ∃ pre t', endText status size (msText ended) = pre ++ b!"k " ++ t' ∧
      ∀ q q', Spec.Micros t q → Spec.Micros t' q' → q ≤ q' :=
  ⟨msText begun, (C58_response_time s fresh (msText begun) flt hdrs).1, _, msText ended, rfl, fun _ _ => C168_monotone _ _ _ _ h⟩

/-- **C168**: the times are texts without line breaks and blanks, as C149 asks of them. -/
theorem C168_one_line (ns : Nat) : OneLine (msText ns) ∧ NoBlank (msText ns) := by
  constructor <;> (intro hm; unfold msText at hm; rcases List.mem_append.1 hm with hm | hm)
  · exact fixed3_quiet _ _ (by decide) hm
  · revert hm; decide
  · exact fixed3_quiet _ _ (by decide) hm
  · revert hm; decide

/-- **C168** (and C149): below 2^53 bytes the size, computed with doubles, is the one of C149. -/
theorem C168_size (size : Nat) (h : size < 2 ^ 53) : sizeText size = fixed3 (kilo size) := by
  have hk : kilo size = rne (size * 1000) 1024 := by
    unfold kilo rne
    generalize size * 1000 / 1024 = a
    generalize size * 1000 % 1024 = b
    by_cases hc : b < 512 ∨ (b = 512 ∧ a % 2 = 0)
    · rw [if_pos hc, if_pos (by omega)]
    · rw [if_neg hc, if_neg (by omega)]
  unfold sizeText
  rw [hk, toDouble_small size h]
  refine congrArg fixed3 ?_
  unfold thousandths divDouble
  simp only
  by_cases h0 : size = 0
  · subst h0; decide +kernel
  obtain ⟨s, _⟩ := scale_spec size 1024 (le_127 _ _ (by omega) (by decide))
  have hs : 10 ≤ scale size 1024 := by
    apply Classical.byContradiction
    intro hn
    have h1 : 2 ^ scale size 1024 ≤ 2 ^ 9 := Nat.pow_le_pow_right (by decide) (by omega)
    have : size * 2 ^ scale size 1024 ≤ (2 ^ 53 - 1) * 2 ^ 9 := Nat.mul_le_mul (by omega) h1
    omega
  have e : (2 : Nat) ^ scale size 1024 = 2 ^ (scale size 1024 - 10) * 1024 := by
    generalize scale size 1024 = k at hs
    have hs : k = k - 10 + 10 := by omega
    rw [show (1024 : Nat) = 2 ^ 10 from rfl, ← Nat.pow_add, ← hs]
  have e2 : rne (size * 2 ^ scale size 1024) 1024 = size * 2 ^ (scale size 1024 - 10) := by
    rw [e, ← Nat.mul_assoc]
    refine (rne_congr _ _ _ 1 (by decide) (by decide) ?_).trans (rne_one _)
    rw [Nat.mul_one]
  rw [e2]
  refine rne_congr _ _ _ _ (Nat.two_pow_pos _) (by decide) ?_
  rw [e]
  grind

/-- 500, 1500, 2500 and 4500 ns are exactly between two texts: the doubles decide; 104 days and 292 years. -/
theorem C168_example : msText 0 = b!"0.000ms" ∧ msText 1234567 = b!"1.235ms" ∧ msText 500 = b!"0.001ms" ∧ msText 1500 = b!"0.002ms" ∧
    msText 2500 = b!"0.003ms" ∧ msText 4500 = b!"0.004ms" ∧ msText (2 ^ 53 - 1) = b!"9007199254.741ms" ∧
    msText (2 ^ 63 - 1) = b!"9223372036854.775ms" ∧ sizeText 1536 = b!"1.500" := by decide +kernel

end Verif.ReqLog
