import Verif.Go.Utf8
/-! Lemmas about UTF-8 (no property theorems here). -/
namespace Verif.Go

theorem ofNat_eq {n : Nat} {c : UInt8} (h : n = c.toNat) : UInt8.ofNat n = c := by
  subst h; simp

theorem toNat_ofNat_lt {n : Nat} (h : n < 256) : (UInt8.ofNat n).toNat = n := by
  rw [UInt8.toNat_ofNat']; omega

theorem nextIn_of {lo hi n : Nat} (r : Str) (h1 : lo ≤ n) (h2 : n ≤ hi) (h3 : n < 256) : nextIn lo hi (UInt8.ofNat n :: r) = true := by
  simp only [nextIn, Bool.and_eq_true, decide_eq_true_eq]
  rw [toNat_ofNat_lt h3]
  exact ⟨h1, h2⟩

/-- The length found is that of an encoding that is there. -/
theorem runeLen_utf8 (n : Nat) (h : Scalar n) (r : Str) : runeLen (utf8 n ++ r) = (utf8 n).length ∧ 0 < (utf8 n).length := by
  unfold Scalar at h
  unfold utf8
  by_cases h1 : n < 0x80
  · rw [if_pos h1]
    simp only [List.cons_append, List.nil_append, runeLen]
    rw [toNat_ofNat_lt (by omega), if_pos h1]; simp
  rw [if_neg h1]
  by_cases h2 : n < 0x800
  · rw [if_pos h2]
    simp only [List.cons_append, List.nil_append, runeLen]
    rw [toNat_ofNat_lt (n := 0xC0 + n / 64) (by omega), if_neg (by omega), if_neg (by omega), if_pos (by omega),
      if_pos (nextIn_of _ (by omega) (by omega) (by omega))]
    simp
  rw [if_neg h2]
  by_cases h3 : n < 0x10000
  · rw [if_pos h3]
    simp only [List.cons_append, List.nil_append, runeLen, List.drop_succ_cons, List.drop_zero]
    rw [toNat_ofNat_lt (n := 0xE0 + n / 4096) (by omega), if_neg (by omega), if_neg (by omega),
      if_neg (by omega), if_pos (by omega), if_pos (by
        rw [Bool.and_eq_true]
        refine ⟨nextIn_of _ ?_ ?_ (by omega), nextIn_of _ (by omega) (by omega) (by omega)⟩
        · split <;> omega
        · split <;> omega)]
    simp
  · rw [if_neg h3]
    simp only [List.cons_append, List.nil_append, runeLen, List.drop_succ_cons, List.drop_zero]
    rw [toNat_ofNat_lt (n := 0xF0 + n / 262144) (by omega), if_neg (by omega),
      if_neg (by omega), if_neg (by omega), if_neg (by omega), if_pos (by omega), if_pos (by
        rw [Bool.and_eq_true, Bool.and_eq_true]
        refine ⟨⟨nextIn_of _ ?_ ?_ (by omega), nextIn_of _ (by omega) (by omega) (by omega)⟩, nextIn_of _ (by omega) (by omega) (by omega)⟩
        · split <;> omega
        · split <;> omega)]
    simp

theorem nextIn_cons {lo hi : Nat} {s : Str} (h : nextIn lo hi s = true) : ∃ c r, s = c :: r ∧ lo ≤ c.toNat ∧ c.toNat ≤ hi := by
  cases s with
  | nil => simp [nextIn] at h
  | cons c r => simp only [nextIn, Bool.and_eq_true, decide_eq_true_eq] at h; exact ⟨c, r, rfl, h.1, h.2⟩

/-- What is found is an encoding. -/
theorem utf8_of_runeLen (s : Str) (h : runeLen s ≠ 0) : ∃ n r, Scalar n ∧ s = utf8 n ++ r ∧ runeLen s = (utf8 n).length := by
  suffices hs : ∃ n r, Scalar n ∧ s = utf8 n ++ r by
    obtain ⟨n, r, h1, h2⟩ := hs
    exact ⟨n, r, h1, h2, by rw [h2]; exact (runeLen_utf8 n h1 r).1⟩
  cases s with
  | nil => simp [runeLen] at h
  | cons c s =>
    have hc := c.toNat_lt
    simp only [runeLen] at h
    by_cases h1 : c.toNat < 0x80
    · exact ⟨c.toNat, s, .inl (by omega), by unfold utf8; rw [if_pos h1, ofNat_eq rfl]; rfl⟩
    rw [if_neg h1] at h
    by_cases h2 : c.toNat < 0xC2
    · rw [if_pos h2] at h; exact absurd rfl h
    rw [if_neg h2] at h
    by_cases h3 : c.toNat < 0xE0
    · rw [if_pos h3] at h
      by_cases h4 : nextIn 0x80 0xBF s = true
      · obtain ⟨c1, r, rfl, h5, h6⟩ := nextIn_cons h4
        refine ⟨(c.toNat - 0xC0) * 64 + (c1.toNat - 0x80), r, .inl (by omega), ?_⟩
        unfold utf8
        rw [if_neg (by omega), if_pos (by omega), ofNat_eq (c := c) (by omega), ofNat_eq (c := c1) (by omega)]
        rfl
      · rw [if_neg h4] at h; exact absurd rfl h
    rw [if_neg h3] at h
    by_cases h4 : c.toNat < 0xF0
    · rw [if_pos h4] at h
      by_cases h5 : (nextIn (if c.toNat = 0xE0 then 0xA0 else 0x80) (if c.toNat = 0xED then 0x9F else 0xBF) s && nextIn 0x80 0xBF (s.drop 1)) = true
      · rw [Bool.and_eq_true] at h5
        obtain ⟨c1, r1, rfl, h6, h7⟩ := nextIn_cons h5.1
        obtain ⟨c2, r, h8, h9, h10⟩ := nextIn_cons h5.2
        simp only [List.drop_succ_cons, List.drop_zero] at h8
        subst h8
        have b1 : 0x80 ≤ c1.toNat ∧ (c.toNat = 0xE0 → 0xA0 ≤ c1.toNat) := by
          by_cases e : c.toNat = 0xE0
          · rw [if_pos e] at h6; omega
          · rw [if_neg e] at h6; omega
        have b2 : c1.toNat ≤ 0xBF ∧ (c.toNat = 0xED → c1.toNat ≤ 0x9F) := by
          by_cases e : c.toNat = 0xED
          · rw [if_pos e] at h7; omega
          · rw [if_neg e] at h7; omega
        refine ⟨(c.toNat - 0xE0) * 4096 + (c1.toNat - 0x80) * 64 + (c2.toNat - 0x80), r, ?_, ?_⟩
        · unfold Scalar; omega
        · unfold utf8
          rw [if_neg (by omega), if_neg (by omega), if_pos (by omega), ofNat_eq (c := c) (by omega), ofNat_eq (c := c1) (by omega),
            ofNat_eq (c := c2) (by omega)]
          rfl
      · rw [if_neg h5] at h; exact absurd rfl h
    rw [if_neg h4] at h
    by_cases h5 : c.toNat < 0xF5
    · rw [if_pos h5] at h
      by_cases h6 : (nextIn (if c.toNat = 0xF0 then 0x90 else 0x80) (if c.toNat = 0xF4 then 0x8F else 0xBF) s && nextIn 0x80 0xBF (s.drop 1) &&
        nextIn 0x80 0xBF (s.drop 2)) = true
      · rw [Bool.and_eq_true, Bool.and_eq_true] at h6
        obtain ⟨c1, r1, rfl, h7, h8⟩ := nextIn_cons h6.1.1
        obtain ⟨c2, r2, h9, h10, h11⟩ := nextIn_cons h6.1.2
        simp only [List.drop_succ_cons, List.drop_zero] at h9
        subst h9
        obtain ⟨c3, r, h12, h13, h14⟩ := nextIn_cons h6.2
        simp only [List.drop_succ_cons, List.drop_zero] at h12
        subst h12
        have b1 : 0x80 ≤ c1.toNat ∧ (c.toNat = 0xF0 → 0x90 ≤ c1.toNat) := by
          by_cases e : c.toNat = 0xF0
          · rw [if_pos e] at h7; omega
          · rw [if_neg e] at h7; omega
        have b2 : c1.toNat ≤ 0xBF ∧ (c.toNat = 0xF4 → c1.toNat ≤ 0x8F) := by
          by_cases e : c.toNat = 0xF4
          · rw [if_pos e] at h8; omega
          · rw [if_neg e] at h8; omega
        refine ⟨(c.toNat - 0xF0) * 262144 + (c1.toNat - 0x80) * 4096 + (c2.toNat - 0x80) * 64 + (c3.toNat - 0x80), r, ?_, ?_⟩
        · unfold Scalar; omega
        · unfold utf8
          rw [if_neg (by omega), if_neg (by omega), if_neg (by omega), ofNat_eq (c := c) (by omega), ofNat_eq (c := c1) (by omega),
            ofNat_eq (c := c2) (by omega), ofNat_eq (c := c3) (by omega)]
          rfl
      · rw [if_neg h6] at h; exact absurd rfl h
    · rw [if_neg h5] at h; exact absurd rfl h

/-- The bytes of an encoding of more than one byte are not ASCII. -/
theorem utf8_high (n : Nat) (h : Scalar n) (h8 : 0x80 ≤ n) : ∀ c ∈ utf8 n, 0x80 ≤ c.toNat := by
  unfold Scalar at h
  unfold utf8
  rw [if_neg (by omega)]
  intro c hc
  by_cases h2 : n < 0x800
  · rw [if_pos h2] at hc
    simp only [List.mem_cons, List.not_mem_nil, or_false] at hc
    rcases hc with rfl | rfl <;> rw [toNat_ofNat_lt (by omega)] <;> omega
  rw [if_neg h2] at hc
  by_cases h3 : n < 0x10000
  · rw [if_pos h3] at hc
    simp only [List.mem_cons, List.not_mem_nil, or_false] at hc
    rcases hc with rfl | rfl | rfl <;> rw [toNat_ofNat_lt (by omega)] <;> omega
  · rw [if_neg h3] at hc
    simp only [List.mem_cons, List.not_mem_nil, or_false] at hc
    rcases hc with rfl | rfl | rfl | rfl <;> rw [toNat_ofNat_lt (by omega)] <;> omega

theorem utf8_low (n : Nat) (h : n < 0x80) : utf8 n = [UInt8.ofNat n] := by unfold utf8; rw [if_pos h]

end Verif.Go
