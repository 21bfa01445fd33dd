import Verif.Props.Float
/-!
# C171, C172: 32-bit parameters, and numbers that are not finite
-/
namespace Verif.Flt
open Verif.Go Verif.ReqLog Spec

/-! ## Examples of decimal numbers -/

theorem digits_of (s : Str) (h : s.all digit = true) : Digits s := by
  rw [List.all_eq_true] at h
  exact fun c hc => (digit_iff c).1 (h c hc)

theorem ex_quarter : Decimal b!"-3.25" true 325 100 :=
  ⟨325, 2, 0, ⟨b!"-", b!"3", b!".", b!"25", [], .inr (.inr ⟨rfl, rfl⟩), digits_of _ rfl, digits_of _ rfl, .inl rfl, by decide, .inl ⟨rfl, rfl⟩,
    rfl, by decide +kernel, rfl⟩, by decide, by decide, by decide⟩

theorem ex_huge : Decimal b!"1e400" false (10 ^ 400) 1 :=
  ⟨1, 0, 400, ⟨[], b!"1", [], [], b!"e400", .inl ⟨rfl, rfl⟩, digits_of _ rfl, digits_of _ rfl, .inr ⟨rfl, rfl⟩, by decide,
    .inr ⟨101, [], false, b!"400", .inl rfl, .inl ⟨rfl, rfl⟩, digits_of _ rfl, by decide, rfl, by decide +kernel⟩, rfl, by decide +kernel, rfl⟩,
    by decide, by decide +kernel, by decide⟩

theorem ex_large : Decimal b!"1E+39" false (10 ^ 39) 1 :=
  ⟨1, 0, 39, ⟨[], b!"1", [], [], b!"E+39", .inl ⟨rfl, rfl⟩, digits_of _ rfl, digits_of _ rfl, .inr ⟨rfl, rfl⟩, by decide,
    .inr ⟨69, b!"+", false, b!"39", .inr rfl, .inr (.inl ⟨rfl, rfl⟩), digits_of _ rfl, by decide, rfl, by decide +kernel⟩, rfl, by decide +kernel, rfl⟩,
    by decide, by decide +kernel, by decide⟩

theorem ex_twice : Decimal b!"1.00000005960464477540" false 100000005960464477540 (10 ^ 20) :=
  ⟨100000005960464477540, 20, 0, ⟨[], b!"1", b!".", b!"00000005960464477540", [], .inl ⟨rfl, rfl⟩, digits_of _ rfl, digits_of _ rfl, .inl rfl,
    by decide, .inl ⟨rfl, rfl⟩, rfl, by decide +kernel, rfl⟩, by decide, by decide +kernel, by decide +kernel⟩

/-- `-3.25` is bound to exactly this float: sign, exponent 1024, and the fraction of 1.625. -/
example (g : Exotic) (x : Params.Ext) (it : Params.Order) :
    Params.bind (withFloats g x) it (.float 64) [] ⟨[(b!"t", [b!"-3.25"])], []⟩ b!"t" =
      some (.float (2 ^ 63 + (1024 * 2 ^ 52 + 5 * 2 ^ 49))) :=
  C170_exact g x it [] _ b!"t" _ true 325 100 (1024 * 2 ^ 52 + 5 * 2 ^ 49) (by decide +kernel) ex_quarter
    ⟨1024, 5 * 2 ^ 49, by decide, by decide, rfl, by decide +kernel⟩

example : TooLarge64 (10 ^ 400) 1 := by unfold TooLarge64; decide +kernel

/-- `1,5` and `12abc` are no numbers. -/
example : decimal b!"1,5" = none ∧ decimal b!"12abc" = none ∧ decimal b!"." = none ∧ decimal b!"1e" = none := by decide +kernel

/-! ## C171 -/

/-- Every finite `float32` is a `float64`. -/
theorem widen (y : Nat) (hy : y < f32.inf) : ∃ b, b < f64.inf ∧ units f64 b = units f32 y * 2 ^ 925 := by
  obtain ⟨k, r, rfl, h1, h2⟩ := exists_at f32 y
  have hk : k ≤ 254 := by
    apply Classical.byContradiction
    intro hn
    have := Nat.mul_le_mul_right (2 ^ f32.mb) (show 255 ≤ k by omega)
    have e : f32.inf = 255 * 2 ^ f32.mb := rfl
    omega
  have hr : r < 2 ^ 24 := h2
  rw [units_at f32 k r ⟨h1, Nat.le_of_lt h2⟩, Nat.mul_assoc, ← Nat.pow_add]
  obtain ⟨b, hb⟩ := representable f64 r (k + 925) (Nat.lt_trans hr (by decide))
  refine ⟨b, ?_, hb⟩
  rw [← units_lt_iff f64, hb]
  have a1 : r * 2 ^ (k + 925) ≤ 2 ^ 24 * 2 ^ (254 + 925) :=
    Nat.mul_le_mul (Nat.le_of_lt hr) (Nat.pow_le_pow_right (by decide) (by omega))
  exact Nat.lt_of_le_of_lt a1 (by decide +kernel)

theorem narrow_exact (y b : Nat) (hb : b < f64.inf) (h : units f64 b = units f32 y * 2 ^ 925) :
    roundUnits f32 (units f64 b * 2 ^ f32.e) (2 ^ f64.e) = y := by
  apply round_exact f32 (by decide) y _ _ (two_pow_pos' _)
  rw [h, Nat.mul_assoc, ← Nat.pow_add]
  rfl

theorem scale_le (a num den : Nat) : (units f64 a * den ≤ num * 2 ^ 1074 ↔ units f64 a * den ≤ num * 2 ^ f64.e) := Iff.rfl

theorem pow_split : (2 : Nat) ^ f64.e = 2 ^ f32.e * 2 ^ 925 := by decide +kernel

/-- No `float32` lies strictly between a number and what a parameter gets for it. -/
theorem narrow_faithful (num den y : Nat) (hd : 0 < den) (hy : y < f32.inf) (hl : roundUnits f64 (num * 2 ^ f64.e) den < f64.inf) :
    (num * 2 ^ f32.e ≤ units f32 y * den → narrowMag (roundUnits f64 (num * 2 ^ f64.e) den) ≤ y) ∧
    (units f32 y * den ≤ num * 2 ^ f32.e → y ≤ narrowMag (roundUnits f64 (num * 2 ^ f64.e) den)) := by
  obtain ⟨b, hb, e⟩ := widen y hy
  have hx := narrow_exact y b hb e
  have hr := round_exact f64 (by decide) b 1 (units f64 b) (by decide) (by rw [Nat.mul_one])
  unfold narrowMag
  rw [if_pos hl]
  constructor
  · intro h
    have h1 : roundUnits f64 (num * 2 ^ f64.e) den ≤ b := by
      rw [← hr]
      apply round_mono f64 _ _ _ _ hd (by decide)
      rw [Nat.mul_one, e, pow_split]
      have := Nat.mul_le_mul_right (2 ^ 925) h
      generalize 2 ^ 925 = z at *
      generalize 2 ^ f32.e = w at *
      grind
    have h2 : roundUnits f32 (units f64 (roundUnits f64 (num * 2 ^ f64.e) den) * 2 ^ f32.e) (2 ^ f64.e) ≤ y := by
      conv => rhs; rw [← hx]
      apply round_mono f32 _ _ _ _ (two_pow_pos' _) (two_pow_pos' _)
      exact Nat.mul_le_mul_right _ (Nat.mul_le_mul_right _ (units_le f64 h1))
    exact Nat.le_trans (Nat.min_le_left _ _) h2
  · intro h
    have h1 : b ≤ roundUnits f64 (num * 2 ^ f64.e) den := by
      conv => lhs; rw [← hr]
      apply round_mono f64 _ _ _ _ (by decide) hd
      rw [Nat.mul_one, e, pow_split]
      have := Nat.mul_le_mul_right (2 ^ 925) h
      generalize 2 ^ 925 = z at *
      generalize 2 ^ f32.e = w at *
      grind
    have h2 : y ≤ roundUnits f32 (units f64 (roundUnits f64 (num * 2 ^ f64.e) den) * 2 ^ f32.e) (2 ^ f64.e) := by
      conv => lhs; rw [← hx]
      apply round_mono f32 _ _ _ _ (two_pow_pos' _) (two_pow_pos' _)
      exact Nat.mul_le_mul_right _ (Nat.mul_le_mul_right _ (units_le f64 h1))
    exact Nat.le_min.2 ⟨h2, Nat.le_of_lt hy⟩

theorem bind_narrow (g : Exotic) (x : Params.Ext) (it : Params.Order) (path : List Nat) (p : Params.P) (name s : Str) (neg : Bool)
    (num den : Nat) (h : Params.firstValue p name = some s) (hs : Decimal s neg num den)
    (hl : roundUnits f64 (num * 2 ^ f64.e) den < f64.inf) :
    Params.bind (withFloats g x) it (.float 32) path p name =
      some (.float ((if neg then 2 ^ 31 else 0) + narrowMag (roundUnits f64 (num * 2 ^ f64.e) den))) := by
  have hne := decimal_ne_nil s neg num den hs
  rw [bind_float g x it 32 path p name s h hne]
  simp [bindFloat, hne, parse_decimal g f64 s neg num den hs, roundF, hl, setFloat, code, narrow]

/-- C171, as far as it holds. The number bound to a `float32` parameter is the number sent or one of its two neighbours: no `float32` lies
between. (`b` may be infinity.) -/
theorem C171_neighbour_partial (g : Exotic) (x : Params.Ext) (it : Params.Order) (path : List Nat) (p : Params.P) (name s : Str) (neg : Bool)
    (num den : Nat) (h : Params.firstValue p name = some s) (hs : Decimal s neg num den) (hl : ¬ TooLarge64 num den) :
    ∃ b, Params.bind (withFloats g x) it (.float 32) path p name = some (.float ((if neg then 2 ^ 31 else 0) + b)) ∧
      ∀ exp frac, exp < 255 → frac < 2 ^ 23 →
        (num * 2 ^ 149 ≤ ieee f32 exp frac * den → b ≤ exp * 2 ^ 23 + frac) ∧
        (ieee f32 exp frac * den ≤ num * 2 ^ 149 → exp * 2 ^ 23 + frac ≤ b) := by
  have hd := decimal_den s neg num den hs
  rw [← large64 num den hd] at hl
  have hl := Nat.lt_of_not_le hl
  refine ⟨_, bind_narrow g x it path p name s neg num den h hs hl, ?_⟩
  intro exp frac h1 h2
  have hy : exp * 2 ^ f32.mb + frac < f32.inf := by
    have : (exp + 1) * 2 ^ f32.mb ≤ 255 * 2 ^ f32.mb := Nat.mul_le_mul_right _ h1
    rw [Nat.add_mul, Nat.one_mul] at this
    have h2' : frac < 2 ^ f32.mb := h2
    have e : f32.inf = 255 * 2 ^ f32.mb := rfl
    omega
  have := narrow_faithful num den _ hd hy hl
  rw [units_ieee f32 exp frac h2] at this
  exact this

/-- C171, as far as it holds. A number that is a `float64` (a whole number up to 2^53, say) and not too large for a `float32` is bound to
the nearest `float32`. -/
theorem C171_nearest_partial (g : Exotic) (x : Params.Ext) (it : Params.Order) (path : List Nat) (p : Params.P) (name s : Str) (neg : Bool)
    (num den b : Nat) (h : Params.firstValue p name = some s) (hs : Decimal s neg num den) (hb : Exactly f64 num den b)
    (hl : ¬ TooLarge32 num den) :
    ∃ c, Nearest f32 num den c ∧ Params.bind (withFloats g x) it (.float 32) path p name = some (.float ((if neg then 2 ^ 31 else 0) + c)) := by
  have hd := decimal_den s neg num den hs
  obtain ⟨h1, h2⟩ := exact_round f64 (by decide) num den b hd hb
  obtain ⟨exp, frac, e1, e2, e3, e4⟩ := hb
  rw [← units_ieee f64 exp frac e2, ← e3] at e4
  rw [← large32 num den hd] at hl
  have hl := Nat.lt_of_not_le hl
  refine ⟨_, nearest_of_round f32 (by decide) num den hd hl, ?_⟩
  rw [bind_narrow g x it path p name s neg num den h hs (by rw [h2]; exact h1), h2]
  have hc : roundUnits f32 (units f64 b * 2 ^ f32.e) (2 ^ f64.e) = roundUnits f32 (num * 2 ^ f32.e) den := by
    have heq : units f64 b * 2 ^ f32.e * den = num * 2 ^ f32.e * 2 ^ f64.e := by
      generalize 2 ^ f32.e = z at *
      generalize 2 ^ f64.e = w at *
      grind
    exact Nat.le_antisymm (round_mono f32 _ _ _ _ (two_pow_pos' _) hd (Nat.le_of_eq heq))
      (round_mono f32 _ _ _ _ hd (two_pow_pos' _) (Nat.le_of_eq heq.symm))
  unfold narrowMag
  rw [if_pos h1, hc, Nat.min_eq_left (Nat.le_of_lt hl)]

/-- C171 fails: this number is just above the middle of 1 and the next `float32`. The parameter is rounded twice, first to exactly the
middle and then down to 1; a setting with the same text is rounded once, up. -/
theorem C171_violated (g : Exotic) (x : Params.Ext) (it : Params.Order) :
    ∃ s num den b c, Decimal s false num den ∧ Nearest f32 num den b ∧ c ≠ b ∧
      Params.bind (withFloats g x) it (.float 32) [] ⟨[(b!"v", [s])], []⟩ b!"v" = some (.float c) ∧
      Conf.convertStringAsType (settingFloat g) s (.float 32) = .ok (some (.float (.num false b))) := by
  have hs := ex_twice
  have hd : 0 < 10 ^ 20 := by decide
  have hl : ¬ TooLarge32 100000005960464477540 (10 ^ 20) := by unfold TooLarge32; decide +kernel
  obtain ⟨b, hb, e⟩ := (C170_setting g _ false _ _ hs).2.2.1 hl
  refine ⟨_, _, _, b, 0x3f800000, hs, hb, ?_, ?_, e⟩
  · have h2 := nearest_of_round f32 (by decide) 100000005960464477540 (10 ^ 20) hd (by decide +kernel)
    rw [nearest_unique f32 _ _ _ _ hb h2 (by decide) hd]
    decide +kernel
  · rw [bind_narrow g x it [] _ b!"v" _ false _ _ (by decide +kernel) hs (by decide +kernel)]
    exact congrArg (fun n => some (Params.V.float n)) (by decide +kernel)

/-- C171 fails: a number too large for `float32` becomes infinity in a parameter, 0 in a setting. -/
theorem C171_overflow_violated (g : Exotic) (x : Params.Ext) (it : Params.Order) :
    ∃ s num, Decimal s false num 1 ∧ TooLarge32 num 1 ∧
      Params.bind (withFloats g x) it (.float 32) [] ⟨[(b!"v", [s])], []⟩ b!"v" = some (.float 0x7f800000) ∧
      Conf.convertStringAsType (settingFloat g) s (.float 32) = .ok (some (.float (.num false 0))) := by
  have hl : TooLarge32 (10 ^ 39) 1 := by unfold TooLarge32; decide +kernel
  refine ⟨_, _, ex_large, hl, ?_, (C170_setting g _ false _ _ ex_large).2.2.2 hl⟩
  rw [bind_narrow g x it [] _ b!"v" _ false _ _ (by decide +kernel) ex_large (by decide +kernel)]
  exact congrArg (fun n => some (Params.V.float n)) (by decide +kernel)

/-! ## C172 -/

theorem finite64_mag (neg : Bool) (b : Nat) (h : b < f64.inf) : Finite64 ((if neg then 2 ^ 63 else 0) + b) := by
  have h : b < 2047 * 2 ^ 52 := h
  unfold Finite64
  cases neg
  · simp only [Bool.false_eq_true, if_false, Nat.zero_add]; omega
  · simp only [if_true]; omega

theorem finite64_zero : Finite64 0 := by unfold Finite64; decide

theorem code64 (neg : Bool) (b : Nat) : code 64 (.num neg b) = (if neg then 2 ^ 63 else 0) + b := by
  simp [code]

theorem parse_other (g : Exotic) (f : Fmt) (s : Str) (h1 : ¬ Word s) (h2 : ¬ Spec.Exotic s) :
    parseFloat g f s = (.num false 0, some .syntax) ∨ ∃ neg p q, parseFloat g f s = roundF f neg p q := by
  unfold parseFloat
  rw [if_neg (fun hx => h2 ((exotic_iff s).1 hx))]
  cases hsp : special f s with
  | some v => exact absurd (special_word f s v hsp) h1
  | none =>
    cases hd : decimal (signed s).2 with
    | none => exact .inl rfl
    | some v => exact .inr ⟨_, v.1, v.2, rfl⟩

theorem roundF_cases (f : Fmt) (neg : Bool) (p q : Nat) :
    (∃ b, b < f.inf ∧ roundF f neg p q = (.num neg b, none)) ∨ ∃ v, roundF f neg p q = (v, some .range) := by
  unfold roundF
  by_cases h : roundUnits f (p * 2 ^ f.e) q < f.inf
  · rw [if_pos h]; exact .inl ⟨_, h, rfl⟩
  · rw [if_neg h]; exact .inr ⟨_, rfl⟩

/-- What a text other than the words is bound to. -/
theorem bindFloat_finite (g : Exotic) (s : Str) (hs : s ≠ []) (h1 : ¬ Word s) (h2 : ¬ Spec.Exotic s) :
    ∃ neg b, b < f64.inf ∧ bindFloat g 64 s = .num neg b := by
  have z : (0 : Nat) < f64.inf := Nat.mul_pos (by decide) (two_pow_pos' _)
  rcases parse_other g f64 s h1 h2 with h | ⟨neg, p, q, h⟩
  · exact ⟨false, 0, z, by simp [bindFloat, hs, h]⟩
  · rcases roundF_cases f64 neg p q with ⟨b, hb, e⟩ | ⟨v, e⟩
    · exact ⟨neg, b, hb, by simp [bindFloat, hs, h, e, setFloat]⟩
    · exact ⟨false, 0, z, by simp [bindFloat, hs, h, e]⟩

/-- C172, as far as it holds. A `float64` parameter is a finite number unless its text is a word for infinity or NaN (texts with `x`, `X` or
`_` excluded). -/
theorem C172_finite_partial (g : Exotic) (x : Params.Ext) (it : Params.Order) (path : List Nat) (p : Params.P) (name : Str)
    (h : ∀ s, Params.firstValue p name = some s → ¬ Word s ∧ ¬ Spec.Exotic s) :
    ∃ n, Params.bind (withFloats g x) it (.float 64) path p name = some (.float n) ∧ Finite64 n := by
  cases hf : Params.firstValue p name with
  | none => exact ⟨0, by simp [Params.bind, hf], finite64_zero⟩
  | some s =>
    obtain ⟨h1, h2⟩ := h s hf
    by_cases hs : s = []
    · exact ⟨0, by simp [Params.bind, hf, hs], finite64_zero⟩
    · obtain ⟨neg, b, hb, e⟩ := bindFloat_finite g s hs h1 h2
      rw [bind_float g x it 64 path p name s hf hs, e, code64]
      exact ⟨_, rfl, finite64_mag neg b hb⟩

theorem lower_sign (c : UInt8) : (lowerByte c = 43 → c = 43) ∧ (lowerByte c = 45 → c = 45) ∧ (c = 95 → lowerByte c = 95) ∧
    (c = 120 → lowerByte c = 120) ∧ (c = 88 → lowerByte c = 120) :=
  forall_u8 (P := fun c => (lowerByte c = 43 → c = 43) ∧ (lowerByte c = 45 → c = 45) ∧ (c = 95 → lowerByte c = 95) ∧
    (c = 120 → lowerByte c = 120) ∧ (c = 88 → lowerByte c = 120)) (by decide +kernel) c

theorem not_exotic_of_lower (s w : Str) (h : toLower s = w) (hw : 95 ∉ w ∧ 120 ∉ w) : exotic s = false := by
  rw [Bool.eq_false_iff]
  intro hx
  have hm : ∀ c ∈ s, lowerByte c ∈ w := by
    intro c hc; rw [← h]; exact List.mem_map_of_mem hc
  rcases (exotic_iff s).1 hx with h1 | h1 | h1
  · exact hw.1 ((lower_sign 95).2.2.1 rfl ▸ hm _ h1)
  · exact hw.2 ((lower_sign 120).2.2.2.1 rfl ▸ hm _ h1)
  · exact hw.2 ((lower_sign 88).2.2.2.2 rfl ▸ hm _ h1)

/-- A word without a sign has none. -/
theorem signed_word (s t : Str) (c : UInt8) (h : toLower s = c :: t) (hc : c = 105 ∨ c = 110) : signed s = (false, s) := by
  unfold signed
  split
  · rename_i u
    simp [toLower] at h
    rcases hc with rfl | rfl <;> exact absurd h.1 (by decide)
  · rename_i u
    simp [toLower] at h
    rcases hc with rfl | rfl <;> exact absurd h.1 (by decide)
  · rfl

/-- A word with a sign. -/
theorem signed_plus (s t : Str) (h : toLower s = 43 :: t) : ∃ u, s = 43 :: u ∧ toLower u = t := by
  cases s with
  | nil => simp [toLower] at h
  | cons c u =>
    simp [toLower] at h
    exact ⟨u, by rw [(lower_sign c).1 h.1], h.2⟩

theorem signed_minus (s t : Str) (h : toLower s = 45 :: t) : ∃ u, s = 45 :: u ∧ toLower u = t := by
  cases s with
  | nil => simp [toLower] at h
  | cons c u =>
    simp [toLower] at h
    exact ⟨u, by rw [(lower_sign c).2.1 h.1], h.2⟩

theorem word_special (f : Fmt) (s : Str) (h : Word s) :
    exotic s = false ∧ (special f s = some .nan ∨ ∃ neg, special f s = some (.num neg f.inf)) := by
  unfold Word at h
  simp only [List.mem_cons, List.not_mem_nil, or_false] at h
  rcases h with h | h | h | h | h | h | h
  · refine ⟨not_exotic_of_lower s _ h (by decide), .inr ⟨false, ?_⟩⟩
    unfold special
    rw [signed_word s _ _ h (.inl rfl), if_pos (.inl h)]
  · refine ⟨not_exotic_of_lower s _ h (by decide), .inr ⟨false, ?_⟩⟩
    obtain ⟨u, rfl, hu⟩ := signed_plus s _ h
    unfold special
    rw [show signed (43 :: u) = (false, u) from rfl, if_pos (.inl hu)]
  · refine ⟨not_exotic_of_lower s _ h (by decide), .inr ⟨true, ?_⟩⟩
    obtain ⟨u, rfl, hu⟩ := signed_minus s _ h
    unfold special
    rw [show signed (45 :: u) = (true, u) from rfl, if_pos (.inl hu)]
  · refine ⟨not_exotic_of_lower s _ h (by decide), .inr ⟨false, ?_⟩⟩
    unfold special
    rw [signed_word s _ _ h (.inl rfl), if_pos (.inr h)]
  · refine ⟨not_exotic_of_lower s _ h (by decide), .inr ⟨false, ?_⟩⟩
    obtain ⟨u, rfl, hu⟩ := signed_plus s _ h
    unfold special
    rw [show signed (43 :: u) = (false, u) from rfl, if_pos (.inr hu)]
  · refine ⟨not_exotic_of_lower s _ h (by decide), .inr ⟨true, ?_⟩⟩
    obtain ⟨u, rfl, hu⟩ := signed_minus s _ h
    unfold special
    rw [show signed (45 :: u) = (true, u) from rfl, if_pos (.inr hu)]
  · refine ⟨not_exotic_of_lower s _ h (by decide), .inl ?_⟩
    unfold special
    rw [signed_word s _ _ h (.inr rfl), h, if_neg (by decide), if_pos rfl]

theorem bindFloat_word (g : Exotic) (bits : Nat) (s : Str) (h : Word s) :
    bindFloat g bits s = setFloat bits .nan ∨ ∃ neg, bindFloat g bits s = setFloat bits (.num neg f64.inf) := by
  obtain ⟨h1, h2⟩ := word_special f64 s h
  have hs : s ≠ [] := by rintro rfl; revert h; unfold Word; decide
  unfold bindFloat parseFloat
  rw [if_neg hs, h1, if_neg (by decide)]
  rcases h2 with h2 | ⟨neg, h2⟩ <;> rw [h2]
  · exact .inl rfl
  · exact .inr ⟨neg, rfl⟩

/-- C172 fails: every word for infinity or NaN is taken, in a `float64` parameter and in a `float32` one. -/
theorem C172_words_violated (g : Exotic) (x : Params.Ext) (it : Params.Order) (path : List Nat) (p : Params.P) (name s : Str)
    (h : Params.firstValue p name = some s) (hs : Word s) :
    (∃ n, Params.bind (withFloats g x) it (.float 64) path p name = some (.float n) ∧ ¬ Finite64 n) ∧
    (∃ n, Params.bind (withFloats g x) it (.float 32) path p name = some (.float n) ∧ ¬ Finite32 n) := by
  have hne : s ≠ [] := by rintro rfl; revert hs; unfold Word; decide
  rw [bind_float g x it 64 path p name s h hne, bind_float g x it 32 path p name s h hne]
  refine ⟨⟨_, rfl, ?_⟩, ⟨_, rfl, ?_⟩⟩
  · rcases bindFloat_word g 64 s hs with e | ⟨neg, e⟩ <;> rw [e]
    · unfold Finite64; decide +kernel
    · cases neg <;> unfold Finite64 <;> decide +kernel
  · rcases bindFloat_word g 32 s hs with e | ⟨neg, e⟩ <;> rw [e]
    · unfold Finite32; decide +kernel
    · cases neg <;> unfold Finite32 <;> decide +kernel

/-- `?limit=NaN` is one of them. -/
example (g : Exotic) (x : Params.Ext) (it : Params.Order) :
    ∃ n, Params.bind (withFloats g x) it (.float 64) [] ⟨[(b!"limit", [b!"NaN"])], []⟩ b!"limit" = some (.float n) ∧ ¬ Finite64 n :=
  (C172_words_violated g x it [] _ _ b!"NaN" (by decide +kernel) (by unfold Word; decide +kernel)).1

end Verif.Flt
