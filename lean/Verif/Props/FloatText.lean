import Verif.Props.FloatNarrow
import Verif.Model.FloatText
import Verif.Proofs.Num
import Verif.Props.Conv
/-!
# C173, C174: floats as texts
-/
namespace Verif.Flt
open Verif.Go Verif.ReqLog Spec

/-! ## The texts read as the numbers they show -/

theorem val_snoc (a : Str) (n : Nat) (h : n < 10) : val (a ++ [Go.digit n]) = 10 * val a + n := by
  rw [val_append]
  simp [digit_toNat h]

theorem val_natDec (n : Nat) : val (natDec n) = n := by
  induction n using Nat.strongRecOn with
  | _ n ih =>
    by_cases h : n < 10
    · rw [natDec_lt h]; simp [val, digit_toNat h]
    · rw [natDec_ge (by omega), val_snoc _ _ (by omega), ih _ (by omega)]; omega

theorem lastDigits_digits (k m : Nat) : Spec.Digits (lastDigits k m) := by
  induction k generalizing m with
  | zero => simp [lastDigits, Spec.Digits]
  | succ k ih =>
    intro c hc
    rw [lastDigits, List.mem_append] at hc
    rcases hc with hc | hc
    · exact ih _ c hc
    · simp at hc; subst hc
      exact digit_isDig (by omega)

theorem lastDigits_length (k m : Nat) : (lastDigits k m).length = k := by
  induction k generalizing m with
  | zero => rfl
  | succ k ih => rw [lastDigits, List.length_append, ih]; rfl

theorem val_lastDigits (a : Str) (k m : Nat) : val (a ++ lastDigits k m) = val a * 10 ^ k + m % 10 ^ k := by
  induction k generalizing m with
  | zero => simp [lastDigits, Nat.mod_one]
  | succ k ih =>
    rw [lastDigits, ← List.append_assoc, val_snoc _ _ (by omega), ih]
    have e : m % 10 ^ (k + 1) = 10 * (m / 10 % 10 ^ k) + m % 10 := by
      rw [Nat.pow_succ, Nat.mul_comm (10 ^ k) 10, Nat.mod_mul]
      omega
    rw [e, Nat.pow_succ]
    generalize 10 ^ k = z
    grind

theorem sign_minus (neg : Bool) : Sign (minus neg) neg := by
  cases neg
  · exact .inl ⟨rfl, rfl⟩
  · exact .inr (.inr ⟨rfl, rfl⟩)

/-- The text of `n / 10^k` is a decimal number, and is `n / 10^k`. -/
theorem decimal_text (neg : Bool) (n k : Nat) : Decimal (minus neg ++ withDecimals n k) neg n (10 ^ k) := by
  unfold withDecimals
  by_cases hk : k = 0
  · subst hk
    rw [if_pos rfl]
    refine ⟨n, 0, 0, ⟨minus neg, natDec n, [], [], [], sign_minus neg, natDec_digits n, by simp [Spec.Digits], .inr ⟨rfl, rfl⟩,
      by simpa using natDec_ne_nil n, .inl ⟨rfl, rfl⟩, by simp, by simp [val_natDec], rfl⟩, by decide, by simp, by simp⟩
  · rw [if_neg hk]
    refine ⟨n, k, 0, ⟨minus neg, natDec (n / 10 ^ k), b!".", lastDigits k n, [], sign_minus neg, natDec_digits _, lastDigits_digits k n, .inl rfl,
      ?_, .inl ⟨rfl, rfl⟩, ?_, ?_, ?_⟩, by decide, by simp, by simp⟩
    · intro e
      exact natDec_ne_nil _ (List.append_eq_nil_iff.1 e).1
    · simp
    · rw [val_lastDigits, val_natDec, Nat.mul_comm]
      exact (Nat.div_add_mod _ _).symm
    · rw [lastDigits_length]

/-! ## The shortest text -/

theorem rne_cases (p q : Nat) : rne p q = p / q ∨ rne p q = p / q + 1 := by
  unfold rne
  split
  · exact .inl rfl
  · exact .inr rfl

theorem pick_hits (f : Fmt) (b : Nat) (x : Int) (n : Nat) (h : pick f b x = some n) : hits f b x n = true := by
  unfold pick at h
  split at h
  · rename_i h'
    obtain rfl : rne (gridP f b x) (gridQ f x) = n := by simpa using h
    rcases rne_cases (gridP f b x) (gridQ f x) with e | e <;> rw [e]
    · exact h'.1
    · exact h'.2
  · split at h
    · rename_i h'
      obtain rfl : gridP f b x / gridQ f x = n := by simpa using h
      exact h'
    · split at h
      · rename_i h'
        obtain rfl : gridP f b x / gridQ f x + 1 = n := by simpa using h
        exact h'
      · simp at h

/-- Where the float is a multiple of `10^x`, something is picked. -/
theorem pick_exact (f : Fmt) (hf : f.mb ≠ 0) (b : Nat) (x : Int) (n : Nat) (h : gridP f b x = n * gridQ f x) : ∃ m, pick f b x = some m := by
  have hq : 0 < gridQ f x := Nat.mul_pos (two_pow_pos' _) (Nat.pow_pos (by decide))
  have hd : gridP f b x / gridQ f x = n := by rw [h, Nat.mul_div_cancel _ hq]
  have hh : hits f b x (gridP f b x / gridQ f x) = true := by
    rw [hd]
    unfold hits
    rw [beq_iff_eq]
    apply round_exact f hf b _ _ (Nat.pow_pos (by decide))
    unfold gridP gridQ at h
    rw [h]
    generalize 2 ^ f.e = z
    generalize 10 ^ x.toNat = w
    grind
  unfold pick
  by_cases h2 : hits f b x (gridP f b x / gridQ f x + 1) = true
  · rw [if_pos ⟨hh, h2⟩]; exact ⟨_, rfl⟩
  · rw [if_neg (fun h => h2 h.2), if_pos hh]; exact ⟨_, rfl⟩

/-- The search finds the largest exponent for which something is picked. -/
theorem shortest_spec (f : Fmt) (b : Nat) (i : Nat) (hi : i < 1400) (h : ∃ m, pick f b (310 - (i : Int)) = some m) :
    pick f b (shortest f b).1 = some (shortest f b).2 ∧ 310 - (i : Int) ≤ (shortest f b).1 := by
  unfold shortest
  cases hs : (List.range 1400).findSome? (fun i : Nat => (pick f b (310 - (i : Int))).map (fun n => ((310 - (i : Int) : Int), n))) with
  | none =>
    rw [List.findSome?_eq_none_iff] at hs
    obtain ⟨m, hm⟩ := h
    have := hs i (List.mem_range.2 hi)
    rw [hm] at this
    simp at this
  | some v =>
    simp only [Option.getD_some]
    rw [List.findSome?_eq_some_iff] at hs
    obtain ⟨l1, a, l2, hl, ha, hn⟩ := hs
    obtain ⟨n, hp, rfl⟩ := Option.map_eq_some_iff.1 ha
    refine ⟨hp, ?_⟩
    have hia : ¬ i < a := by
      intro hlt
      obtain ⟨m, hm⟩ := h
      have hlen : l1.length = a := by
        have h1 : (List.range 1400)[l1.length]? = some a := by rw [hl]; simp
        rw [List.getElem?_eq_some_iff] at h1
        obtain ⟨hb, h1⟩ := h1
        simpa using h1
      have hmem : i ∈ l1 := by
        have h1 : (List.range 1400)[i]? = some i := by simp [hi]
        rw [hl, List.getElem?_append_left (by omega)] at h1
        exact List.mem_of_getElem? h1
      have := hn i hmem
      rw [hm] at this
      simp at this
    show 310 - (i : Int) ≤ 310 - (a : Int)
    omega

theorem ten_pow (n : Nat) : (10 : Nat) ^ n = 5 ^ n * 2 ^ n := by rw [← Nat.mul_pow]

theorem two_pow_sub (n e : Nat) (h : e ≤ n) : (2 : Nat) ^ n = 2 ^ (n - e) * 2 ^ e := by rw [← Nat.pow_add]; congr 1; omega

/-- At the finest grid every float is exact. -/
theorem finest (f : Fmt) (he : f.e ≤ 1074) (b : Nat) : gridP f b (310 - ((1384 : Nat) : Int)) =
    (units f b * 5 ^ 1074 * 2 ^ (1074 - f.e)) * gridQ f (310 - ((1384 : Nat) : Int)) := by
  unfold gridP gridQ
  rw [show (310 - ((1384 : Nat) : Int)).toNat = 0 by decide, show (-(310 - ((1384 : Nat) : Int))).toNat = 1074 by decide]
  rw [ten_pow 1074, two_pow_sub 1074 f.e he]
  generalize 5 ^ 1074 = z
  generalize 2 ^ (1074 - f.e) = w
  generalize 2 ^ f.e = y
  grind

theorem shortest_hits (f : Fmt) (hf : f.mb ≠ 0) (he : f.e ≤ 1074) (b : Nat) : hits f b (shortest f b).1 (shortest f b).2 = true :=
  pick_hits _ _ _ _ (shortest_spec f b 1384 (by decide) (pick_exact f hf b _ _ (finest f he b))).1

/-! ## C173 -/

theorem roundtrip_finite (g : Exotic) (f : Fmt) (hf : f.mb ≠ 0) (he : f.e ≤ 1074) (neg : Bool) (b : Nat) (hb : b < f.inf) :
    parseFloat g f (toStrF f (.num neg b)) = (.num neg b, none) := by
  have hh := shortest_hits f hf he b
  unfold hits at hh
  rw [beq_iff_eq] at hh
  simp only [toStrF]
  rw [if_pos hb, parse_decimal g f _ neg _ _ (decimal_text neg _ _)]
  unfold roundF
  rw [hh, if_pos hb]

/-- C173. The text `ToStr` makes of a float is read back by `StrTo(…).Float64()` as the same float: the same bits, the sign of zero and
infinities included. (NaN is read as NaN.) -/
theorem C173_roundtrip (g : Exotic) (bits : Nat) (v : F) (h : ∀ neg b, v = .num neg b → b ≤ (fmtOf bits).inf) :
    utilsFloat g bits (toStrF (fmtOf bits) v) = (v, none) := by
  have key : ∀ f : Fmt, f.mb ≠ 0 → f.e ≤ 1074 → (∀ neg b, v = .num neg b → b ≤ f.inf) → parseFloat g f (toStrF f v) = (v, none) := by
    intro f hf he h
    cases v with
    | nan => rfl
    | num neg b =>
      have hle := h neg b rfl
      by_cases hb : b < f.inf
      · exact roundtrip_finite g f hf he neg b hb
      · obtain rfl : b = f.inf := by omega
        simp only [toStrF]
        rw [if_neg hb]
        cases neg <;> rfl
  unfold utilsFloat fmtOf at *
  by_cases hb : bits = 32
  · simp only [hb, if_true] at h ⊢
    exact key f32 (by decide) (by decide) h
  · simp only [hb, if_false] at h ⊢
    exact key f64 (by decide) (by decide) h

/-- C173. The text also survives a parameter of 64 bits and a setting. -/
theorem C173_parameter (g : Exotic) (x : Params.Ext) (it : Params.Order) (path : List Nat) (p : Params.P) (name : Str) (neg : Bool) (b : Nat)
    (hb : b < f64.inf) (h : Params.firstValue p name = some (toStrF f64 (.num neg b))) :
    Params.bind (withFloats g x) it (.float 64) path p name = some (.float ((if neg then 2 ^ 63 else 0) + b)) := by
  have hp := roundtrip_finite g f64 (by decide) (by decide) neg b hb
  have hne : toStrF f64 (.num neg b) ≠ [] := by
    simp only [toStrF]
    rw [if_pos hb]
    exact decimal_ne_nil _ _ _ _ (decimal_text neg _ _)
  rw [bind_float g x it 64 path p name _ h hne]
  simp [bindFloat, hne, hp, setFloat, code64]

/-- C173. With a precision the text shows the float (given by its IEEE fields) rounded to that many decimals: it reads as `t / 10^prec` where
`t` is at most half away from `value * 10^prec`, and even if it is exactly half away. -/
theorem C173_precision (f : Fmt) (prec : Nat) (neg : Bool) (exp frac : Nat) (h1 : exp < f.top) (h2 : frac < 2 ^ f.mb) :
    ∃ t, Decimal (toStrPrec f prec (.num neg (exp * 2 ^ f.mb + frac))) neg t (10 ^ prec) ∧
      2 * far (t * 2 ^ f.e) (ieee f exp frac * 10 ^ prec) ≤ 2 ^ f.e ∧
      (2 * far (t * 2 ^ f.e) (ieee f exp frac * 10 ^ prec) = 2 ^ f.e → t % 2 = 0) := by
  have hb : exp * 2 ^ f.mb + frac < f.inf := by
    have : (exp + 1) * 2 ^ f.mb ≤ f.top * 2 ^ f.mb := Nat.mul_le_mul_right _ h1
    rw [Nat.add_mul, Nat.one_mul] at this
    unfold Fmt.inf; omega
  rw [← units_ieee f exp frac h2]
  generalize exp * 2 ^ f.mb + frac = b at *
  refine ⟨rne (units f b * 10 ^ prec) (2 ^ f.e), ?_, ?_⟩
  · simp only [toStrPrec]
    rw [if_pos hb]
    exact decimal_text neg _ _
  · obtain ⟨h1, h2, h3⟩ := rne_bounds (units f b * 10 ^ prec) (2 ^ f.e) (two_pow_pos' _)
    have hp := two_pow_pos' f.e
    unfold far
    rw [Nat.mul_comm _ (2 ^ f.e)]
    generalize rne (units f b * 10 ^ prec) (2 ^ f.e) = r at *
    generalize 2 ^ f.e * r = z at *
    omega

theorem hits_mono (f : Fmt) (b : Nat) (x : Int) (n : Nat) (hf : f.mb ≠ 0) (h : hits f b x n = true) : ∃ m, pick f b x = some m := by
  have hq : 0 < gridQ f x := Nat.mul_pos (two_pow_pos' _) (Nat.pow_pos (by decide))
  have hd : 0 < 10 ^ (-x).toNat := Nat.pow_pos (by decide)
  have hx := round_exact f hf b (10 ^ (-x).toNat) (units f b * 10 ^ (-x).toNat) hd rfl
  -- rounding is monotone, and the float rounds to itself
  have mono : ∀ a c : Nat, a ≤ c → roundUnits f (a * 10 ^ x.toNat * 2 ^ f.e) (10 ^ (-x).toNat) ≤
      roundUnits f (c * 10 ^ x.toNat * 2 ^ f.e) (10 ^ (-x).toNat) := fun a c hac =>
    round_mono f _ _ _ _ hd hd (Nat.mul_le_mul_right _ (Nat.mul_le_mul_right _ (Nat.mul_le_mul_right _ hac)))
  have hlow : roundUnits f (gridP f b x / gridQ f x * 10 ^ x.toNat * 2 ^ f.e) (10 ^ (-x).toNat) ≤ b := by
    conv => rhs; rw [← hx]
    apply round_mono f _ _ _ _ hd hd
    refine Nat.mul_le_mul_right _ ?_
    have := Nat.div_mul_le_self (gridP f b x) (gridQ f x)
    unfold gridQ gridP at *
    rw [Nat.mul_assoc, Nat.mul_comm (10 ^ x.toNat)]
    exact this
  have hup : b ≤ roundUnits f ((gridP f b x / gridQ f x + 1) * 10 ^ x.toNat * 2 ^ f.e) (10 ^ (-x).toNat) := by
    conv => lhs; rw [← hx]
    apply round_mono f _ _ _ _ hd hd
    refine Nat.mul_le_mul_right _ ?_
    have h1 := Nat.div_add_mod (gridP f b x) (gridQ f x)
    have h2 := Nat.mod_lt (gridP f b x) hq
    have h3 : gridP f b x ≤ (gridP f b x / gridQ f x + 1) * gridQ f x := by
      rw [Nat.add_mul, Nat.mul_comm (_ / _)]; omega
    rw [Nat.mul_assoc, Nat.mul_comm (10 ^ x.toNat)]
    exact h3
  unfold hits at h
  rw [beq_iff_eq] at h
  unfold pick
  split
  · exact ⟨_, rfl⟩
  · split
    · exact ⟨_, rfl⟩
    · split
      · exact ⟨_, rfl⟩
      · rename_i n1 n2
        exfalso
        unfold hits at n1 n2
        rw [beq_iff_eq] at n1 n2
        rcases Nat.lt_or_ge (gridP f b x / gridQ f x) n with hn | hn
        · have := mono _ _ (show gridP f b x / gridQ f x + 1 ≤ n from hn)
          omega
        · have := mono _ _ hn
          omega

/-- C173. The text is the shortest: it has some number of decimals, and no number with fewer decimals is read as this float. -/
theorem C173_shortest (g : Exotic) (bits : Nat) (neg : Bool) (b : Nat) (hb : b < (fmtOf bits).inf) :
    ∃ n k, toStrF (fmtOf bits) (.num neg b) = minus neg ++ withDecimals n k ∧
      ∀ n' k', k' < k → utilsFloat g bits (minus neg ++ withDecimals n' k') ≠ (.num neg b, none) := by
  have key : ∀ f : Fmt, f.mb ≠ 0 → f.e ≤ 1074 → b < f.inf → ∃ n k, toStrF f (.num neg b) = minus neg ++ withDecimals n k ∧
      ∀ n' k', k' < k → parseFloat g f (minus neg ++ withDecimals n' k') ≠ (.num neg b, none) := by
    intro f hf he hb
    refine ⟨_, _, by simp only [toStrF]; rw [if_pos hb], ?_⟩
    intro n' k' hk e
    rw [parse_decimal g f _ neg _ _ (decimal_text neg n' k')] at e
    unfold roundF at e
    split at e
    · simp only [Prod.mk.injEq, F.num.injEq, true_and, and_true] at e
      have hx : hits f b (-(k' : Int)) n' = true := by
        unfold hits
        rw [beq_iff_eq, show (-(k' : Int)).toNat = 0 by omega, show (-(-(k' : Int))).toNat = k' by omega, Nat.pow_zero, Nat.mul_one]
        exact e
      obtain ⟨m, hm⟩ := hits_mono f b _ n' hf hx
      have h1384 := (shortest_spec f b 1384 (by decide) (pick_exact f hf b _ _ (finest f he b))).2
      have := (shortest_spec f b (310 + k') (by omega) ⟨m, by rw [← hm]; congr 1; omega⟩).2
      omega
    · simp at e
  unfold utilsFloat fmtOf at *
  by_cases hb' : bits = 32
  · simp only [hb', if_true] at hb ⊢
    exact key f32 (by decide) (by decide) hb
  · simp only [hb', if_false] at hb ⊢
    exact key f64 (by decide) (by decide) hb

/-- A tenth is printed as `0.1` in both widths, although the floats differ; 2^60 is printed with zeros at the end. -/
theorem ex_texts : toStrF f64 (.num false 0x3fb999999999999a) = b!"0.1" ∧ toStrF f32 (.num false 0x3dcccccd) = b!"0.1" ∧
    toStrF f64 (.num true 0x43b0000000000000) = b!"-1152921504606847000" ∧ toStrPrec f64 2 (.num false 0x3ff8000000000000) = b!"1.50" := by
  decide +kernel

/-! ## C174 -/

theorem representable' (f : Fmt) (n j : Nat) (h : n ≤ 2 * 2 ^ f.mb) : ∃ b, units f b = n * 2 ^ j := by
  by_cases h1 : n < 2 * 2 ^ f.mb
  · exact representable f n j h1
  · obtain ⟨b, hb⟩ := representable f (2 ^ f.mb) (j + 1) (by have := two_pow_pos' f.mb; omega)
    refine ⟨b, ?_⟩
    rw [hb, show n = 2 * 2 ^ f.mb by omega, Nat.pow_succ]
    generalize 2 ^ f.mb = z
    generalize 2 ^ j = w
    grind

theorem neg_toNat (x : Int) (h : 0 ≤ x) : (-x).toNat = 0 := by omega

/-- The text of a whole float of less than `2^(mb+1)` is the whole number. -/
theorem whole_text (f : Fmt) (hf : f.mb ≠ 0) (he : f.e ≤ 1074) (neg : Bool) (b n : Nat) (hb : b < f.inf) (h : units f b = n * 2 ^ f.e)
    (hn : n < 2 * 2 ^ f.mb) : toStrF f (.num neg b) = minus neg ++ natDec n := by
  have hg : gridP f b (310 - ((310 : Nat) : Int)) = n * gridQ f (310 - ((310 : Nat) : Int)) := by
    unfold gridP gridQ
    rw [show (310 - ((310 : Nat) : Int)) = 0 by decide]
    simp [h]
  have h0 := (shortest_spec f b 310 (by decide) (pick_exact f hf b _ n hg))
  have hx : (0 : Int) ≤ (shortest f b).1 := by have := h0.2; omega
  have hh := shortest_hits f hf he b
  unfold hits at hh
  rw [beq_iff_eq, neg_toNat _ hx, Nat.pow_zero] at hh
  simp only [toStrF]
  rw [if_pos hb, neg_toNat _ hx]
  unfold withDecimals
  rw [if_pos rfl]
  generalize (shortest f b).2 * 10 ^ (shortest f b).1.toNat = M at *
  suffices M = n by rw [this]
  rcases Nat.lt_trichotomy M n with hlt | he' | hgt
  · exfalso
    obtain ⟨b', hb'⟩ := representable' f M f.e (by omega)
    have e1 := round_exact f hf b' 1 (M * 2 ^ f.e) (by decide) (by rw [hb', Nat.mul_one])
    have : b' = b := by rw [← e1, hh]
    rw [this, h] at hb'
    have := Nat.eq_of_mul_eq_mul_right (two_pow_pos' f.e) hb'
    omega
  · exact he'
  · exfalso
    obtain ⟨b', hb'⟩ := representable' f (n + 1) f.e (by omega)
    have e1 := round_exact f hf b' 1 ((n + 1) * 2 ^ f.e) (by decide) (by rw [hb', Nat.mul_one])
    have e2 := round_mono f ((n + 1) * 2 ^ f.e) 1 (M * 2 ^ f.e) 1 (by decide) (by decide) (by
      rw [Nat.mul_one, Nat.mul_one]; exact Nat.mul_le_mul_right _ hgt)
    rw [e1, hh] at e2
    have e3 := units_le f e2
    rw [hb', h] at e3
    have := Nat.le_of_mul_le_mul_right e3 (two_pow_pos' f.e)
    omega

theorem fmtInt_nat (n : Nat) (neg : Bool) (h : neg = true → n ≠ 0) : minus neg ++ natDec n = fmtInt (if neg then -(n : Int) else n) := by
  cases neg with
  | false => rfl
  | true =>
    obtain ⟨m, rfl⟩ := Nat.exists_eq_succ_of_ne_zero (h rfl)
    rfl

/-- An integer as a decimal number. -/
theorem decimal_int (i : Int) : Decimal (fmtInt i) (decide (i < 0)) i.natAbs 1 := by
  cases i with
  | ofNat n =>
    have := decimal_text false n 0
    have hn : ¬ (Int.ofNat n < 0) := by simp
    rw [show decide (Int.ofNat n < 0) = false by simpa using hn]
    simpa [withDecimals, minus, fmtInt] using this
  | negSucc n =>
    have := decimal_text true (n + 1) 0
    simpa [withDecimals, minus, fmtInt] using this

/-- C174. `ValueTo(i).Float64()` of an integer is the nearest `float64`, without an error. -/
theorem C174_int_to_float (g : Exotic) (k : Conv.IntKind) (i : Int) (hi : i.natAbs < 2 ^ 64) :
    ∃ b, Nearest f64 i.natAbs 1 b ∧ (Num.int k i).toFloat g 64 = (.num (decide (i < 0)) b, none) := by
  have hl : ¬ TooLarge64 i.natAbs 1 := by
    unfold TooLarge64
    rw [Nat.mul_one]
    have : (2 : Nat) ^ 64 ≤ 2 ^ 1024 - 2 ^ 970 := by decide +kernel
    omega
  obtain ⟨b, hb, e⟩ := (C170_strTo g _ _ _ _ (decimal_int i)).1 hl
  exact ⟨b, hb, e⟩

theorem go64 (s : Str) : Conv.valueTo.go .int64 s = (wrapS 64 (parseInt 64 s).1, (parseInt 64 s).2) := rfl

theorem go64_err (s : Str) : (Conv.valueTo.go .int64 s).2 = (parseInt 64 s).2 := rfl

theorem small64 (n : Nat) (hn : n < 2 ^ 53) (neg : Bool) : -((2 ^ (64 - 1) : Nat) : Int) ≤ (if neg then -(n : Int) else n) ∧
    (if neg then -(n : Int) else n) < ((2 ^ (64 - 1) : Nat) : Int) := by
  have : (2 : Nat) ^ 53 = 9007199254740992 := by decide
  have h2 : (2 : Nat) ^ (64 - 1) = 9223372036854775808 := by decide
  rw [h2]
  cases neg <;> simp <;> omega

/-- C174, as far as it holds. `ValueTo(v).Int64()` of a `float64` that is a whole number below 2^53 is this number. -/
theorem C174_whole_partial (neg : Bool) (exp frac n : Nat) (h1 : exp < 2047) (h2 : frac < 2 ^ 52) (h : ieee f64 exp frac = n * 2 ^ 1074)
    (hn : n < 2 ^ 53) : floatToInt .int64 64 (.num neg (exp * 2 ^ 52 + frac)) = (if neg then -(n : Int) else n, none) := by
  have hb : exp * 2 ^ f64.mb + frac < f64.inf := by
    have : (exp + 1) * 2 ^ f64.mb ≤ f64.top * 2 ^ f64.mb := Nat.mul_le_mul_right _ h1
    rw [Nat.add_mul, Nat.one_mul] at this
    have h2' : frac < 2 ^ f64.mb := h2
    unfold Fmt.inf; omega
  have ht := whole_text f64 (by decide) (by decide) neg _ n hb ((units_ieee f64 exp frac h2).trans h) hn
  have ht : toStrF (fmtOf 64) (.num neg (exp * 2 ^ 52 + frac)) = minus neg ++ natDec n := ht
  unfold floatToInt
  rw [ht, go64]
  by_cases h0 : neg = true ∧ n = 0
  · rw [h0.1, h0.2]; decide +kernel
  · rw [fmtInt_nat n neg (fun e hn => h0 ⟨e, hn⟩)]
    obtain ⟨r1, r2⟩ := small64 n hn neg
    rw [parseInt_fmtInt (by decide) r1 r2]
    exact congrArg (fun i => (i, none)) (wrapS_id (by decide) r1 r2)

/-- A text with a point is no whole number. -/
theorem point_error (s : Str) (h : 46 ∈ s) : (parseInt 64 s).2 ≠ none := by
  intro e
  have e' : parseInt 64 s = ((parseInt 64 s).1, none) := by rw [← e]
  obtain ⟨hd, -⟩ := (parseInt_iff 64 (by decide) s _).1 e'
  have nod : ∀ t : Str, NumSpec.Digits t → 46 ∈ t → False := by
    intro t ht hm
    have := ht.2 46 hm
    revert this
    decide
  rcases hd with ⟨h1, -⟩ | ⟨-, r, rfl, h1, -⟩ | ⟨-, r, rfl, h1, -⟩
  · exact nod s h1 h
  · exact nod r h1 (by simpa using h)
  · exact nod r h1 (by simpa using h)

/-- A float that is no whole number is printed with decimals. -/
theorem fraction_point (f : Fmt) (hf : f.mb ≠ 0) (he : f.e ≤ 1074) (neg : Bool) (b : Nat) (hb : b < f.inf)
    (h : ∀ n, units f b ≠ n * 2 ^ f.e) : 46 ∈ toStrF f (.num neg b) := by
  have hh := shortest_hits f hf he b
  unfold hits at hh
  rw [beq_iff_eq] at hh
  simp only [toStrF]
  rw [if_pos hb]
  have hx : ¬ (0 : Int) ≤ (shortest f b).1 := by
    intro hx
    rw [neg_toNat _ hx, Nat.pow_zero] at hh
    generalize (shortest f b).2 * 10 ^ (shortest f b).1.toNat = M at hh
    by_cases hM : M ≤ 2 * 2 ^ f.mb
    · obtain ⟨b', hb'⟩ := representable' f M f.e hM
      have e1 := round_exact f hf b' 1 (M * 2 ^ f.e) (by decide) (by rw [hb', Nat.mul_one])
      have : b' = b := by rw [← e1, hh]
      exact h M (by rw [← this]; exact hb')
    · obtain ⟨b', hb'⟩ := representable' f (2 * 2 ^ f.mb) f.e (Nat.le_refl _)
      have e1 := round_exact f hf b' 1 (2 * 2 ^ f.mb * 2 ^ f.e) (by decide) (by rw [hb', Nat.mul_one])
      have e2 := round_mono f (2 * 2 ^ f.mb * 2 ^ f.e) 1 (M * 2 ^ f.e) 1 (by decide) (by decide) (by
        rw [Nat.mul_one, Nat.mul_one]; exact Nat.mul_le_mul_right _ (by omega))
      rw [e1, hh] at e2
      have e3 := units_le f e2
      rw [hb'] at e3
      obtain ⟨k, r, hkr, h1, h2⟩ := exists_at f b
      have hu := units_at f k r ⟨h1, by omega⟩
      rw [← hkr] at hu
      rw [hu] at e3
      have hk : f.e ≤ k := by
        apply Classical.byContradiction
        intro hk
        have a1 : 2 ^ k ≤ 2 ^ f.e := Nat.pow_le_pow_right (by decide) (by omega)
        have a2 : r * 2 ^ k < 2 * 2 ^ f.mb * 2 ^ f.e := Nat.lt_of_lt_of_le (Nat.mul_lt_mul_of_pos_right h2 (two_pow_pos' _))
          (Nat.mul_le_mul_left _ a1)
        omega
      apply h (r * 2 ^ (k - f.e))
      rw [hu, two_pow_sub k f.e hk, Nat.mul_assoc]
  generalize (shortest f b).1 = x at hx
  have hk : (-x).toNat ≠ 0 := by omega
  unfold withDecimals
  rw [if_neg hk]
  simp

/-- C174, as far as it holds. `ValueTo(v).Int64()` of a `float64` that is no whole number is an error. -/
theorem C174_fraction_partial (neg : Bool) (exp frac : Nat) (h1 : exp < 2047) (h2 : frac < 2 ^ 52)
    (h : ∀ n, ieee f64 exp frac ≠ n * 2 ^ 1074) : (floatToInt .int64 64 (.num neg (exp * 2 ^ 52 + frac))).2 ≠ none := by
  have hb : exp * 2 ^ f64.mb + frac < f64.inf := by
    have : (exp + 1) * 2 ^ f64.mb ≤ f64.top * 2 ^ f64.mb := Nat.mul_le_mul_right _ h1
    rw [Nat.add_mul, Nat.one_mul] at this
    have h2' : frac < 2 ^ f64.mb := h2
    unfold Fmt.inf; omega
  have hu := units_ieee f64 exp frac h2
  have hp := fraction_point f64 (by decide) (by decide) neg _ hb (by rw [hu]; exact h)
  have hp : 46 ∈ toStrF (fmtOf 64) (.num neg (exp * 2 ^ 52 + frac)) := hp
  unfold floatToInt
  rw [go64_err]
  exact point_error _ hp

/-- C174 fails: the `float64` 2^60 becomes another integer, without an error. -/
theorem C174_large_violated : ieee f64 1083 0 = 2 ^ 60 * 2 ^ 1074 ∧
    floatToInt .int64 64 (.num false (1083 * 2 ^ 52)) = (1152921504606847000, none) ∧ (1152921504606847000 : Int) ≠ 2 ^ 60 := by
  decide +kernel

/-- C174 fails: the `float32` nearest to 0.1 becomes the `float64` nearest to 0.1, which is another number. -/
theorem C174_widen_violated (g : Exotic) : (Num.float 32 (.num false 0x3dcccccd)).toFloat g 64 = (.num false 0x3fb999999999999a, none) ∧
    units f32 0x3dcccccd * 2 ^ f64.e ≠ units f64 0x3fb999999999999a * 2 ^ f32.e := by
  constructor
  · have ht : toStrF (fmtOf 32) (.num false 0x3dcccccd) = b!"0.1" := ex_texts.2.1
    have hd : Decimal b!"0.1" false 1 10 := ⟨1, 1, 0, ⟨[], b!"0", b!".", b!"1", [], .inl ⟨rfl, rfl⟩, digits_of _ rfl, digits_of _ rfl, .inl rfl,
      by decide, .inl ⟨rfl, rfl⟩, rfl, by decide, rfl⟩, by decide, by decide, by decide⟩
    have hp := parse_decimal g f64 b!"0.1" false 1 10 hd
    have e : fmtOf 64 = f64 := rfl
    unfold Num.toFloat
    simp only []
    rw [if_neg (by decide), ht, e, hp]
    decide +kernel
  · decide +kernel

/-- C174. A value already of the type asked for is returned as it is, NaN and infinities too. -/
theorem C174_same_type (g : Exotic) (bits : Nat) (v : F) : (Num.float bits v).toFloat g bits = (v, none) := by
  simp [Num.toFloat]

end Verif.Flt
