import Verif.Model.Float
import Verif.Props.ReqTime
/-!
# Rounding to a binary format
-/
namespace Verif.Flt
open Verif.Go Verif.ReqLog

theorem two_pow_pos' (n : Nat) : 0 < 2 ^ n := Nat.pow_pos (by decide)

/-- Bits given as exponent `k` and mantissa `r` (with the hidden bit). -/
theorem units_at (f : Fmt) (k r : Nat) (h : (k = 0 ∨ 2 ^ f.mb ≤ r) ∧ r ≤ 2 * 2 ^ f.mb) : units f (k * 2 ^ f.mb + r) = r * 2 ^ k := by
  have hB := two_pow_pos' f.mb
  unfold units
  generalize 2 ^ f.mb = B at *
  by_cases h1 : r < B
  · obtain rfl : k = 0 := by omega
    rw [if_pos (by omega)]; simp
  · rw [if_neg (by have := Nat.le_add_left r (k * B); omega)]
    by_cases h2 : r = 2 * B
    · subst h2
      have e : k * B + 2 * B = (k + 2) * B := by grind
      rw [e, Nat.mul_mod_left, Nat.mul_div_cancel _ hB]
      rw [show k + 2 - 1 = k + 1 from rfl, Nat.pow_succ]
      grind
    · have e : k * B + r = (r - B) + B * (k + 1) := by
        rw [Nat.mul_add, Nat.mul_one, Nat.mul_comm B k]; omega
      rw [e, Nat.add_mul_mod_self_left, Nat.add_mul_div_left _ _ hB, Nat.mod_eq_of_lt (by omega), Nat.div_eq_of_lt (by omega)]
      rw [show 0 + (k + 1) - 1 = k by omega, show B + (r - B) = r by omega]

/-- Every bit pattern has such an exponent and mantissa. -/
theorem exists_at (f : Fmt) (b : Nat) : ∃ k r, b = k * 2 ^ f.mb + r ∧ (k = 0 ∨ 2 ^ f.mb ≤ r) ∧ r < 2 * 2 ^ f.mb := by
  have hB := two_pow_pos' f.mb
  generalize 2 ^ f.mb = B at *
  have h1 := Nat.div_add_mod b B
  have h2 := Nat.mod_lt b hB
  by_cases h : b / B = 0
  · rw [h] at h1
    rw [Nat.mul_zero] at h1
    exact ⟨0, b, by omega, .inl rfl, by omega⟩
  · refine ⟨b / B - 1, B + b % B, ?_, .inr (Nat.le_add_right _ _), by omega⟩
    obtain ⟨c, hc⟩ := Nat.exists_eq_succ_of_ne_zero h
    rw [hc, Nat.succ_eq_add_one] at h1 ⊢
    rw [Nat.mul_add, Nat.mul_one] at h1
    rw [show c + 1 - 1 = c from rfl, Nat.mul_comm c B]
    omega

theorem units_succ (f : Fmt) (b : Nat) : units f b < units f (b + 1) := by
  obtain ⟨k, r, rfl, h1, h2⟩ := exists_at f b
  rw [units_at f k r ⟨h1, by omega⟩, Nat.add_assoc, units_at f k (r + 1) ⟨by omega, by omega⟩]
  exact Nat.mul_lt_mul_of_pos_right (by omega) (two_pow_pos' k)

theorem units_lt (f : Fmt) {a b : Nat} (h : a < b) : units f a < units f b := by
  induction b with
  | zero => omega
  | succ b ih =>
    have := units_succ f b
    by_cases e : a = b
    · subst e; exact this
    · exact Nat.lt_trans (ih (by omega)) this

theorem units_inj (f : Fmt) {a b : Nat} (h : units f a = units f b) : a = b := by
  rcases Nat.lt_trichotomy a b with h' | h' | h'
  · have := units_lt f h'; omega
  · exact h'
  · have := units_lt f h'; omega

theorem units_le (f : Fmt) {a b : Nat} (h : a ≤ b) : units f a ≤ units f b := by
  by_cases e : a = b
  · subst e; exact Nat.le_refl _
  · exact Nat.le_of_lt (units_lt f (by omega))

theorem units_lt_iff (f : Fmt) {a b : Nat} : units f a < units f b ↔ a < b := by
  constructor
  · intro h
    apply Classical.byContradiction
    intro hn
    have := units_le f (a := b) (b := a) (by omega)
    omega
  · exact units_lt f

/-- The mantissa the rounding works with. -/
theorem shift_bounds (f : Fmt) (p q : Nat) (hq : 0 < q) :
    (shift f p q = 0 ∨ 2 ^ f.mb * (q * 2 ^ shift f p q) ≤ p) ∧ p < 2 * 2 ^ f.mb * (q * 2 ^ shift f p q) := by
  have hp : p < q * (p / q + 1) := by
    have := Nat.div_add_mod p q
    have := Nat.mod_lt p hq
    rw [Nat.mul_add]; omega
  have hl : p / q < 2 ^ ((p / q).log2 + 1) := Nat.lt_log2_self
  have up : ∀ k, (p / q).log2 ≤ f.mb + k → p < 2 * 2 ^ f.mb * (q * 2 ^ k) := by
    intro k hk
    have h3 : p / q + 1 ≤ 2 ^ (f.mb + k + 1) :=
      Nat.lt_of_lt_of_le hl (Nat.pow_le_pow_right (by decide) (by omega))
    have h4 : q * (p / q + 1) ≤ q * 2 ^ (f.mb + k + 1) := Nat.mul_le_mul_left q h3
    have e : 2 * 2 ^ f.mb * (q * 2 ^ k) = q * 2 ^ (f.mb + k + 1) := by
      rw [Nat.pow_succ, Nat.pow_add]; grind
    omega
  refine ⟨?_, up _ (by unfold shift; omega)⟩
  by_cases h : shift f p q = 0
  · exact .inl h
  · right
    have hs : (p / q).log2 = f.mb + shift f p q := by unfold shift at *; omega
    have hne : p / q ≠ 0 := by
      intro h0; rw [h0] at hs; simp [Nat.log2_zero] at hs; omega
    have h5 : 2 ^ (f.mb + shift f p q) ≤ p / q := by rw [← hs]; exact Nat.log2_self_le hne
    have h6 : q * 2 ^ (f.mb + shift f p q) ≤ q * (p / q) := Nat.mul_le_mul_left q h5
    have h7 : q * (p / q) ≤ p := Nat.mul_div_le p q
    have e : 2 ^ f.mb * (q * 2 ^ shift f p q) = q * 2 ^ (f.mb + shift f p q) := by rw [Nat.pow_add]; grind
    omega

theorem rne_shift (f : Fmt) (p q : Nat) (hq : 0 < q) :
    (shift f p q = 0 ∨ 2 ^ f.mb ≤ rne p (q * 2 ^ shift f p q)) ∧ rne p (q * 2 ^ shift f p q) ≤ 2 * 2 ^ f.mb := by
  obtain ⟨h1, h2⟩ := shift_bounds f p q hq
  have hQ : 0 < q * 2 ^ shift f p q := Nat.mul_pos hq (two_pow_pos' _)
  refine ⟨?_, rne_le _ _ _ hQ (Nat.le_of_lt h2)⟩
  rcases h1 with h1 | h1
  · exact .inl h1
  · exact .inr (rne_ge _ _ _ hQ h1)

theorem units_round (f : Fmt) (p q : Nat) (hq : 0 < q) :
    units f (roundUnits f p q) = rne p (q * 2 ^ shift f p q) * 2 ^ shift f p q :=
  units_at f _ _ (rne_shift f p q hq)

/-- The distance of two numbers. -/
def dist (a b : Nat) : Nat := (a - b) + (b - a)

/-- Multiples of `Q`: the rounded one is nearest. -/
theorem near_multiple (P Q R : Nat) (hQ : 0 < Q) (h : R ≠ rne P Q) :
    dist (rne P Q * Q) P < dist (R * Q) P ∨ (dist (rne P Q * Q) P = dist (R * Q) P ∧ rne P Q % 2 = 0) := by
  obtain ⟨a1, a2, a3⟩ := rne_bounds P Q hQ
  generalize rne P Q = r at *
  rw [Nat.mul_comm Q r] at a1 a2 a3
  unfold dist
  rcases Nat.lt_or_gt_of_ne h with h | h
  · have h1 : (R + 1) * Q ≤ r * Q := Nat.mul_le_mul_right Q h
    rw [Nat.add_mul, Nat.one_mul] at h1
    generalize r * Q = x at *
    generalize R * Q = y at *
    omega
  · have h1 : (r + 1) * Q ≤ R * Q := Nat.mul_le_mul_right Q h
    rw [Nat.add_mul, Nat.one_mul] at h1
    generalize r * Q = x at *
    generalize R * Q = y at *
    omega

theorem even_round (f : Fmt) (hf : f.mb ≠ 0) (k r : Nat) : (k * 2 ^ f.mb + r) % 2 = r % 2 := by
  obtain ⟨m, hm⟩ : ∃ m, f.mb = m + 1 := ⟨f.mb - 1, by omega⟩
  rw [hm, Nat.pow_succ, ← Nat.mul_assoc]
  omega

/-- `roundUnits` is nearest, ties to even. -/
theorem round_nearest (f : Fmt) (hf : f.mb ≠ 0) (p q b : Nat) (hq : 0 < q) (h : b ≠ roundUnits f p q) :
    dist (units f (roundUnits f p q) * q) p < dist (units f b * q) p ∨
    (dist (units f (roundUnits f p q) * q) p = dist (units f b * q) p ∧ roundUnits f p q % 2 = 0) := by
  obtain ⟨hs1, hs2⟩ := shift_bounds f p q hq
  obtain ⟨hr1, hr2⟩ := rne_shift f p q hq
  have hu := units_round f p q hq
  have hev : roundUnits f p q % 2 = rne p (q * 2 ^ shift f p q) % 2 := even_round f hf _ _
  have hne : units f b ≠ units f (roundUnits f p q) := fun e => h (units_inj f e)
  rw [hev]
  obtain ⟨k', r', rfl, h1, h2⟩ := exists_at f b
  rw [units_at f k' r' ⟨h1, by omega⟩] at hne ⊢
  rw [hu] at hne ⊢
  have hQ : 0 < q * 2 ^ shift f p q := Nat.mul_pos hq (two_pow_pos' _)
  have eU : rne p (q * 2 ^ shift f p q) * 2 ^ shift f p q * q = rne p (q * 2 ^ shift f p q) * (q * 2 ^ shift f p q) := by
    rw [Nat.mul_assoc, Nat.mul_comm (2 ^ _) q]
  rw [eU]
  by_cases hk : shift f p q ≤ k'
  · have eN : r' * 2 ^ k' * q = (r' * 2 ^ (k' - shift f p q)) * (q * 2 ^ shift f p q) := by
      have : 2 ^ k' = 2 ^ (k' - shift f p q) * 2 ^ shift f p q := by rw [← Nat.pow_add]; congr 1; omega
      rw [this]; grind
    rw [eN]
    apply near_multiple _ _ _ hQ
    intro e
    apply hne
    rw [← e, Nat.mul_assoc, ← Nat.pow_add]
    congr 2
    omega
  · left
    have hs1 : 2 ^ f.mb * (q * 2 ^ shift f p q) ≤ p := by omega
    have hr1 : 2 ^ f.mb ≤ rne p (q * 2 ^ shift f p q) := by omega
    have hN : r' * 2 ^ k' * q < 2 ^ f.mb * (q * 2 ^ shift f p q) := by
      have a1 : r' * 2 ^ k' < 2 * 2 ^ f.mb * 2 ^ k' := Nat.mul_lt_mul_of_pos_right h2 (two_pow_pos' _)
      have a2 : 2 ^ (k' + 1) ≤ 2 ^ shift f p q := Nat.pow_le_pow_right (by decide) (by omega)
      have a3 : 2 ^ f.mb * 2 ^ (k' + 1) ≤ 2 ^ f.mb * 2 ^ shift f p q := Nat.mul_le_mul_left _ a2
      have a4 : 2 ^ f.mb * 2 ^ (k' + 1) = 2 * 2 ^ f.mb * 2 ^ k' := by rw [Nat.pow_succ]; grind
      have a5 : r' * 2 ^ k' < 2 ^ f.mb * 2 ^ shift f p q := by omega
      have a6 := Nat.mul_lt_mul_of_pos_right a5 hq
      have a7 : 2 ^ f.mb * 2 ^ shift f p q * q = 2 ^ f.mb * (q * 2 ^ shift f p q) := by grind
      omega
    by_cases hB : 2 ^ f.mb = rne p (q * 2 ^ shift f p q)
    · rw [← hB]
      unfold dist
      omega
    · have := near_multiple p _ (2 ^ f.mb) hQ hB
      unfold dist at *
      omega

theorem round_mono (f : Fmt) (p q p' q' : Nat) (hq : 0 < q) (hq' : 0 < q') (h : p * q' ≤ p' * q) :
    roundUnits f p q ≤ roundUnits f p' q' := by
  have hd : p / q ≤ p' / q' := by
    rw [Nat.le_div_iff_mul_le hq']
    have h1 : q * (p / q) ≤ p := Nat.mul_div_le p q
    have h2 : q * (p / q) * q' ≤ p * q' := Nat.mul_le_mul_right q' h1
    have h3 : q * (p / q * q') ≤ q * p' := by
      rw [← Nat.mul_assoc, Nat.mul_comm q p']; exact Nat.le_trans h2 h
    exact Nat.le_of_mul_le_mul_left h3 hq
  have hlog : (p / q).log2 ≤ (p' / q').log2 := by
    by_cases h0 : p / q = 0
    · rw [h0]; simp
    · have h0' : p' / q' ≠ 0 := fun e => h0 (Nat.le_zero.1 (e ▸ hd))
      rw [Nat.le_log2 h0']
      exact Nat.le_trans (Nat.log2_self_le h0) hd
  have hk : shift f p q ≤ shift f p' q' := by unfold shift; omega
  obtain ⟨a1, a2⟩ := rne_shift f p q hq
  obtain ⟨b1, b2⟩ := rne_shift f p' q' hq'
  by_cases e : shift f p q = shift f p' q'
  · unfold roundUnits
    rw [e]
    refine Nat.add_le_add_left (rne_mono _ _ _ _ (Nat.mul_pos hq (two_pow_pos' _)) (Nat.mul_pos hq' (two_pow_pos' _)) ?_) _
    rw [← Nat.mul_assoc, ← Nat.mul_assoc]
    exact Nat.mul_le_mul_right _ h
  · unfold roundUnits
    have hk : (shift f p q + 1) * 2 ^ f.mb ≤ shift f p' q' * 2 ^ f.mb := Nat.mul_le_mul_right _ (by omega)
    rw [Nat.add_mul, Nat.one_mul] at hk
    have : 2 ^ f.mb ≤ rne p' (q' * 2 ^ shift f p' q') := by omega
    omega

theorem round_exact (f : Fmt) (hf : f.mb ≠ 0) (b q p : Nat) (hq : 0 < q) (hp : p = units f b * q) : roundUnits f p q = b := by
  apply Classical.byContradiction
  intro h
  have := round_nearest f hf p q b hq (fun e => h e.symm)
  have e0 : dist (units f b * q) p = 0 := by rw [hp]; unfold dist; omega
  rw [e0] at this
  have e1 : dist (units f (roundUnits f p q) * q) p = 0 := by omega
  have e2 : units f (roundUnits f p q) * q = units f b * q := by rw [← hp]; unfold dist at e1; omega
  exact h (units_inj f (Nat.eq_of_mul_eq_mul_right hq e2))

/-- A number with few significant bits is a float (if its exponent is not too large). -/
theorem representable (f : Fmt) (m j : Nat) (h : m < 2 * 2 ^ f.mb) : ∃ b, units f b = m * 2 ^ j := by
  by_cases hm : m < 2 ^ f.mb
  · -- shift until the hidden bit is set, or the exponent is used up
    induction j generalizing m with
    | zero => exact ⟨m, by have := units_at f 0 m ⟨.inl rfl, by omega⟩; simpa using this⟩
    | succ j ih =>
      have e : m * 2 ^ (j + 1) = (2 * m) * 2 ^ j := by rw [Nat.pow_succ]; grind
      rw [e]
      by_cases h2 : 2 * m < 2 ^ f.mb
      · exact ih _ (by omega) h2
      · exact ⟨j * 2 ^ f.mb + 2 * m, units_at f j (2 * m) ⟨.inr (by omega), by omega⟩⟩
  · exact ⟨j * 2 ^ f.mb + m, units_at f j m ⟨.inr (by omega), by omega⟩⟩

/-- The rounding leaves the finite floats exactly when the value is at least half-way from the largest one to the next power of two. -/
theorem round_overflow (f : Fmt) (hf : f.mb ≠ 0) (ht : f.top ≠ 0) (p q : Nat) (hq : 0 < q) :
    f.inf ≤ roundUnits f p q ↔ (units f (f.inf - 1) + units f f.inf) * q ≤ 2 * p := by
  have hi : 0 < f.inf := Nat.mul_pos (by omega) (two_pow_pos' _)
  have hev : f.inf % 2 = 0 := by have := even_round f hf f.top 0; simpa [Fmt.inf] using this
  have hlt := units_lt f (show f.inf - 1 < f.inf by omega)
  rw [Nat.add_mul]
  have hm := Nat.mul_lt_mul_of_pos_right hlt hq
  constructor
  · intro h
    apply Classical.byContradiction
    intro hn
    have hN := round_nearest f hf p q (f.inf - 1) hq (by omega)
    have h2 := Nat.mul_le_mul_right q (units_le f h)
    unfold dist at hN
    omega
  · intro h
    apply Classical.byContradiction
    intro hn
    have hN := round_nearest f hf p q f.inf hq (by omega)
    have h2 := Nat.mul_le_mul_right q (units_le f (show roundUnits f p q ≤ f.inf - 1 by omega))
    unfold dist at hN
    have he : units f (roundUnits f p q) * q = units f (f.inf - 1) * q := by omega
    have he := units_inj f (Nat.eq_of_mul_eq_mul_right hq he)
    omega

end Verif.Flt
