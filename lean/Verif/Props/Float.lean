import Verif.Proofs.Float
/-!
# C170, C171, C172: floating-point parameters and settings
-/
namespace Verif.Flt
open Verif.Go Verif.ReqLog

/-! ## Specification -/
namespace Spec

/-- IEEE 754: the value of a float with exponent field `exp` and fraction field `frac`, in units of the least positive one
(`2^-1074` for `float64`, `2^-149` for `float32`). -/
def ieee (f : Fmt) (exp frac : Nat) : Nat := if exp = 0 then frac else (2 ^ f.mb + frac) * 2 ^ (exp - 1)

/-- Distance of `a` from `b`. -/
def far (a b : Nat) : Nat := (a - b) + (b - a)

/-- `b` are the bits (without sign) of the finite float nearest to `num / den`; of two equally near ones the one with the even fraction. -/
def Nearest (f : Fmt) (num den b : Nat) : Prop :=
  ∃ exp frac, exp < f.top ∧ frac < 2 ^ f.mb ∧ b = exp * 2 ^ f.mb + frac ∧
    ∀ exp' frac', exp' < f.top → frac' < 2 ^ f.mb → ¬ (exp' = exp ∧ frac' = frac) →
      far (ieee f exp frac * den) (num * 2 ^ f.e) < far (ieee f exp' frac' * den) (num * 2 ^ f.e) ∨
      (far (ieee f exp frac * den) (num * 2 ^ f.e) = far (ieee f exp' frac' * den) (num * 2 ^ f.e) ∧ frac % 2 = 0)

/-- The finite float with bits `b` is the number `num / den`. -/
def Exactly (f : Fmt) (num den b : Nat) : Prop :=
  ∃ exp frac, exp < f.top ∧ frac < 2 ^ f.mb ∧ b = exp * 2 ^ f.mb + frac ∧ ieee f exp frac * den = num * 2 ^ f.e

/-- Numbers no finite `float64` is near to: half a last place above the largest one, or more. -/
def TooLarge64 (num den : Nat) : Prop := (2 ^ 1024 - 2 ^ 970) * den ≤ num

/-- The same for `float32`. -/
def TooLarge32 (num den : Nat) : Prop := (2 ^ 128 - 2 ^ 103) * den ≤ num

def Digits (s : Str) : Prop := ∀ c ∈ s, 48 ≤ c.toNat ∧ c.toNat ≤ 57

/-- The number a row of digits stands for. -/
def val (s : Str) : Nat := s.foldl (fun n c => 10 * n + (c.toNat - 48)) 0

def Sign (s : Str) (neg : Bool) : Prop := (s = [] ∧ neg = false) ∨ (s = b!"+" ∧ neg = false) ∨ (s = b!"-" ∧ neg = true)

/-- An exponent `e…`, or none. -/
def Exponent (s : Str) (x : Int) : Prop :=
  (s = [] ∧ x = 0) ∨
  ∃ c sg neg ds, (c = 101 ∨ c = 69) ∧ Sign sg neg ∧ Digits ds ∧ ds ≠ [] ∧ s = c :: sg ++ ds ∧ x = (if neg then -(val ds : Int) else (val ds : Int))

/-- `s` is written as a decimal number: a sign or none, digits with at most one point between, before or after them, an exponent or none.
`n`: all digits as a number, `d`: how many of them stand after the point, `x`: the exponent. -/
def Reads (s : Str) (neg : Bool) (n d : Nat) (x : Int) : Prop :=
  ∃ sg ip dot fp e, Sign sg neg ∧ Digits ip ∧ Digits fp ∧ (dot = b!"." ∨ (dot = [] ∧ fp = [])) ∧ ip ++ fp ≠ [] ∧ Exponent e x ∧
    s = sg ++ (ip ++ (dot ++ (fp ++ e))) ∧ n = val (ip ++ fp) ∧ d = fp.length

/-- The bits of a `float64` that is neither infinite nor NaN: the exponent field is not all ones. -/
def Finite64 (n : Nat) : Prop := n / 2 ^ 52 % 2 ^ 11 ≠ 2047

/-- The same for `float32`. -/
def Finite32 (n : Nat) : Prop := n / 2 ^ 23 % 2 ^ 8 ≠ 255

/-- `s` is the decimal number `± num / den`, its exponent having at most five digits. -/
def Decimal (s : Str) (neg : Bool) (num den : Nat) : Prop :=
  ∃ n d x, Reads s neg n d x ∧ x.natAbs < 100000 ∧ num = n * 10 ^ x.toNat ∧ den = 10 ^ d * 10 ^ (-x).toNat

/-- The texts for infinity and not-a-number. -/
def Word (s : Str) : Prop :=
  toLower s ∈ [b!"inf", b!"+inf", b!"-inf", b!"infinity", b!"+infinity", b!"-infinity", b!"nan"]

/-- Texts of hexadecimal numbers and numbers with underscores are among these. -/
def Exotic (s : Str) : Prop := 95 ∈ s ∨ 120 ∈ s ∨ 88 ∈ s

end Spec

open Spec

/-! ## Reading the text -/

theorem digit_iff (c : UInt8) : digit c = true ↔ 48 ≤ c.toNat ∧ c.toNat ≤ 57 := by simp [digit]

theorem mant_digits (ds : Str) (h : Digits ds) (rest : Str) (n : Nat) (seen : Bool) (dot : Option Nat) :
    mantissa (ds ++ rest) n seen dot =
      mantissa rest (ds.foldl (fun n c => 10 * n + (c.toNat - 48)) n) (seen || !ds.isEmpty) (dot.map (· + ds.length)) := by
  induction ds generalizing n seen dot with
  | nil => cases dot <;> simp
  | cons c ds ih =>
    have hc := h c (by simp)
    have h46 : ¬ (c = 46 ∧ dot = none) := by
      rintro ⟨rfl, -⟩; simp at hc
    rw [List.cons_append, mantissa, if_neg h46, if_pos ((digit_iff c).2 hc), ih (fun x hx => h x (by simp [hx]))]
    cases dot <;> simp [Nat.add_assoc, Nat.add_comm 1]

theorem exponent_head (e : Str) (x : Int) (h : Exponent e x) : e = [] ∨ ∃ c t, e = c :: t ∧ (c = 101 ∨ c = 69) := by
  rcases h with ⟨rfl, -⟩ | ⟨c, sg, neg, ds, hc, -, -, -, rfl, -⟩
  · exact .inl rfl
  · exact .inr ⟨c, sg ++ ds, rfl, hc⟩

theorem mant_stop (e : Str) (h : e = [] ∨ ∃ c t, e = c :: t ∧ (c = 101 ∨ c = 69)) (n : Nat) (seen : Bool) (dot : Option Nat) :
    mantissa e n seen dot = (n, seen, dot.getD 0, e) := by
  rcases h with rfl | ⟨c, t, rfl, rfl | rfl⟩
  · rfl
  · rw [mantissa, if_neg (by simp), if_neg (by decide)]
  · rw [mantissa, if_neg (by simp), if_neg (by decide)]

theorem val_append (a b : Str) : val (a ++ b) = b.foldl (fun n c => 10 * n + (c.toNat - 48)) (val a) := by
  simp [val, List.foldl_append]

theorem mant_reads (ip dot fp e : Str) (x : Int) (hip : Digits ip) (hfp : Digits fp) (hdot : dot = b!"." ∨ (dot = [] ∧ fp = []))
    (hne : ip ++ fp ≠ []) (he : Exponent e x) : mantissa (ip ++ (dot ++ (fp ++ e))) 0 false none = (val (ip ++ fp), true, fp.length, e) := by
  rw [mant_digits ip hip]
  rcases hdot with rfl | ⟨rfl, rfl⟩
  · rw [show b!"." ++ (fp ++ e) = 46 :: (fp ++ e) from rfl, mantissa, if_pos ⟨rfl, by simp⟩, mant_digits fp hfp,
      mant_stop e (exponent_head e x he)]
    rw [val_append]
    have : (false || !ip.isEmpty || !fp.isEmpty) = true := by cases ip <;> cases fp <;> simp at hne ⊢
    rw [this]; simp [val]
  · simp only [List.nil_append]
    rw [mant_stop e (exponent_head e x he)]
    have : (false || !ip.isEmpty) = true := by cases ip <;> simp at hne ⊢
    rw [this]; simp [val]

theorem fold_ge (s : Str) (n : Nat) : n ≤ s.foldl (fun n c => 10 * n + (c.toNat - 48)) n := by
  induction s generalizing n with
  | nil => exact Nat.le_refl _
  | cons c s ih => exact Nat.le_trans (show n ≤ 10 * n + (c.toNat - 48) by omega) (ih _)

theorem fold_sat (s : Str) (n : Nat) (h : s.foldl (fun n c => 10 * n + (c.toNat - 48)) n < 100000) :
    s.foldl (fun e c => if e < 10000 then 10 * e + (c.toNat - 48) else e) n = s.foldl (fun n c => 10 * n + (c.toNat - 48)) n := by
  induction s generalizing n with
  | nil => rfl
  | cons c s ih =>
    simp only [List.foldl_cons] at h ⊢
    have := fold_ge s (10 * n + (c.toNat - 48))
    rw [if_pos (by omega), ih _ h]

theorem expDigits_val (ds : Str) (h : Digits ds) (hne : ds ≠ []) (hv : val ds < 100000) : expDigits ds = some (val ds) := by
  unfold expDigits
  rw [if_pos ⟨hne, by rw [List.all_eq_true]; exact fun c hc => (digit_iff c).2 (h c hc)⟩, fold_sat ds 0 hv]
  rfl

theorem digits_head (ds : Str) (h : Digits ds) (hne : ds ≠ []) : ∃ c t, ds = c :: t ∧ 48 ≤ c.toNat ∧ c.toNat ≤ 57 := by
  cases ds with
  | nil => exact absurd rfl hne
  | cons c t => exact ⟨c, t, rfl, h c (by simp)⟩

theorem expSigned_plain (c : UInt8) (t : Str) (h : 48 ≤ c.toNat) : expSigned (c :: t) = (expDigits (c :: t)).map Int.ofNat := by
  unfold expSigned
  split
  · rename_i s e; simp at e; rw [e.1] at h; simp at h
  · rename_i s e; simp at e; rw [e.1] at h; simp at h
  · rfl

theorem exponent_val (e : Str) (x : Int) (h : Exponent e x) (hx : x.natAbs < 100000) : exponent e = some x := by
  rcases h with ⟨rfl, rfl⟩ | ⟨c, sg, neg, ds, hc, hsg, hd, hne, rfl, rfl⟩
  · rfl
  · rw [List.cons_append, exponent, if_pos hc]
    have hv : val ds < 100000 := by cases neg <;> simp at hx <;> omega
    rcases hsg with ⟨rfl, rfl⟩ | ⟨rfl, rfl⟩ | ⟨rfl, rfl⟩
    · obtain ⟨a, t, rfl, ha, -⟩ := digits_head ds hd hne
      rw [List.nil_append, expSigned_plain a t ha, expDigits_val _ hd hne hv]; simp
    · rw [show b!"+" ++ ds = 43 :: ds from rfl, expSigned, expDigits_val _ hd hne hv]; simp
    · rw [show b!"-" ++ ds = 45 :: ds from rfl, expSigned, expDigits_val _ hd hne hv]; simp

/-- The first character after the sign. -/
theorem body_head (ip dot fp e : Str) (hip : Digits ip) (hdot : dot = b!"." ∨ (dot = [] ∧ fp = []))
    (hne : ip ++ fp ≠ []) : ∃ c t, ip ++ (dot ++ (fp ++ e)) = c :: t ∧ (c = 46 ∨ 48 ≤ c.toNat ∧ c.toNat ≤ 57) := by
  cases ip with
  | cons c t => exact ⟨c, _, rfl, .inr (hip c (by simp))⟩
  | nil =>
    rcases hdot with rfl | ⟨rfl, rfl⟩
    · exact ⟨46, fp ++ e, rfl, .inl rfl⟩
    · simp at hne

theorem signed_plain (c : UInt8) (t : Str) (h : c = 46 ∨ 48 ≤ c.toNat ∧ c.toNat ≤ 57) : signed (c :: t) = (false, c :: t) := by
  unfold signed
  split
  · rename_i s e; simp at e; rw [e.1] at h; simp at h
  · rename_i s e; simp at e; rw [e.1] at h; simp at h
  · rfl

theorem signed_body (sg : Str) (neg : Bool) (c : UInt8) (t : Str) (hs : Sign sg neg) (h : c = 46 ∨ 48 ≤ c.toNat ∧ c.toNat ≤ 57) :
    signed (sg ++ c :: t) = (neg, c :: t) := by
  rcases hs with ⟨rfl, rfl⟩ | ⟨rfl, rfl⟩ | ⟨rfl, rfl⟩
  · exact signed_plain c t h
  · rfl
  · rfl

theorem lower_head (c : UInt8) (h : c = 46 ∨ 48 ≤ c.toNat ∧ c.toNat ≤ 57 ∨ c = 43 ∨ c = 45) : lowerByte c ≠ 105 ∧ lowerByte c ≠ 110 := by
  revert h
  exact forall_u8 (P := fun c => (c = 46 ∨ 48 ≤ c.toNat ∧ c.toNat ≤ 57 ∨ c = 43 ∨ c = 45) → lowerByte c ≠ 105 ∧ lowerByte c ≠ 110)
    (by decide +kernel) c

theorem special_reads (f : Fmt) (sg : Str) (neg : Bool) (c : UInt8) (t : Str) (hs : Sign sg neg)
    (h : c = 46 ∨ 48 ≤ c.toNat ∧ c.toNat ≤ 57) : special f (sg ++ c :: t) = none := by
  have h1 := lower_head c (by rcases h with h | h; exact .inl h; exact .inr (.inl h))
  have hn : toLower (sg ++ c :: t) ≠ b!"nan" := by
    rcases hs with ⟨rfl, -⟩ | ⟨rfl, -⟩ | ⟨rfl, -⟩
    · intro e
      have := congrArg List.head? e
      simp [toLower] at this
      exact h1.2 this
    · intro e
      have := congrArg List.head? e
      revert this
      simp [toLower]
      decide
    · intro e
      have := congrArg List.head? e
      revert this
      simp [toLower]
      decide
  have hi : ∀ t' : Str, toLower (c :: t) ≠ 105 :: t' := by
    intro t' e
    have := congrArg List.head? e
    simp [toLower] at this
    exact h1.1 this
  unfold special
  rw [signed_body sg neg c t hs h, if_neg (by rintro (e | e); exact hi _ e; exact hi _ e), if_neg hn]

theorem digits_not_exotic (s : Str) (h : Digits s) : ∀ c ∈ s, ¬ (c = 95 ∨ c = 120 ∨ c = 88) := by
  intro c hc e
  have := h c hc
  rcases e with rfl | rfl | rfl <;> simp at this

theorem sign_not_exotic (s : Str) (neg : Bool) (h : Sign s neg) : ∀ c ∈ s, ¬ (c = 95 ∨ c = 120 ∨ c = 88) := by
  rcases h with ⟨rfl, -⟩ | ⟨rfl, -⟩ | ⟨rfl, -⟩ <;> decide

theorem exp_not_exotic (s : Str) (x : Int) (h : Exponent s x) : ∀ c ∈ s, ¬ (c = 95 ∨ c = 120 ∨ c = 88) := by
  rcases h with ⟨rfl, -⟩ | ⟨c, sg, neg, ds, hc, hsg, hd, -, rfl, -⟩
  · simp
  · intro a ha
    simp only [List.cons_append, List.mem_cons, List.mem_append] at ha
    rcases ha with rfl | ha | ha
    · rcases hc with rfl | rfl <;> decide
    · exact sign_not_exotic _ _ hsg a ha
    · exact digits_not_exotic _ hd a ha

theorem exotic_iff (s : Str) : exotic s = true ↔ Spec.Exotic s := by
  unfold exotic Spec.Exotic
  rw [List.any_eq_true]
  constructor
  · rintro ⟨c, hc, h⟩
    simp at h
    rcases h with rfl | rfl | rfl
    · exact .inl hc
    · exact .inr (.inl hc)
    · exact .inr (.inr hc)
  · rintro (h | h | h)
    · exact ⟨_, h, by decide⟩
    · exact ⟨_, h, by decide⟩
    · exact ⟨_, h, by decide⟩

theorem reads_not_exotic (s : Str) (neg : Bool) (n d : Nat) (x : Int) (h : Reads s neg n d x) : exotic s = false := by
  obtain ⟨sg, ip, dot, fp, e, hsg, hip, hfp, hdot, hne, he, rfl, -, -⟩ := h
  rw [Bool.eq_false_iff]
  intro hx
  unfold exotic at hx
  rw [List.any_eq_true] at hx
  obtain ⟨c, hc, h⟩ := hx
  have h : c = 95 ∨ c = 120 ∨ c = 88 := by simpa using h
  simp only [List.mem_append] at hc
  rcases hc with hc | hc | hc | hc | hc
  · exact sign_not_exotic _ _ hsg c hc h
  · exact digits_not_exotic _ hip c hc h
  · rcases hdot with rfl | ⟨rfl, -⟩
    · have : c = 46 := by simpa using hc
      subst this; revert h; decide
    · simp at hc
  · exact digits_not_exotic _ hfp c hc h
  · exact exp_not_exotic _ _ he c hc h

/-- What `ParseFloat` does with a decimal number. -/
theorem parse_decimal (g : Exotic) (f : Fmt) (s : Str) (neg : Bool) (num den : Nat) (h : Decimal s neg num den) :
    parseFloat g f s = roundF f neg num den := by
  obtain ⟨n, d, x, hr, hx, rfl, rfl⟩ := h
  have hex := reads_not_exotic s neg n d x hr
  obtain ⟨sg, ip, dot, fp, e, hsg, hip, hfp, hdot, hne, he, rfl, rfl, rfl⟩ := hr
  obtain ⟨c, t, hb, hc⟩ := body_head ip dot fp e hip hdot hne
  have hm := mant_reads ip dot fp e x hip hfp hdot hne he
  rw [hb] at hm hex ⊢
  unfold parseFloat
  rw [hex, if_neg (by decide), special_reads f sg neg c t hsg hc]
  simp only []
  rw [signed_body sg neg c t hsg hc]
  simp only [decimal, hm, exponent_val e x he hx, Option.map_some]

theorem decimal_den (s : Str) (neg : Bool) (num den : Nat) (h : Decimal s neg num den) : 0 < den := by
  obtain ⟨n, d, x, hr, hx, rfl, rfl⟩ := h
  exact Nat.mul_pos (Nat.pow_pos (by decide)) (Nat.pow_pos (by decide))

/-! ## Rounding against the specification -/

theorem units_ieee (f : Fmt) (exp frac : Nat) (h : frac < 2 ^ f.mb) : units f (exp * 2 ^ f.mb + frac) = ieee f exp frac := by
  unfold ieee
  by_cases h0 : exp = 0
  · subst h0
    rw [if_pos rfl, units_at f 0 frac ⟨.inl rfl, by omega⟩]; simp
  · rw [if_neg h0]
    obtain ⟨k, rfl⟩ := Nat.exists_eq_succ_of_ne_zero h0
    have e : k.succ * 2 ^ f.mb + frac = k * 2 ^ f.mb + (2 ^ f.mb + frac) := by
      rw [Nat.succ_mul]; omega
    rw [e, units_at f k _ ⟨.inr (by omega), by omega⟩]
    rfl

theorem fields (f : Fmt) (b : Nat) (h : b < f.inf) : ∃ exp frac, exp < f.top ∧ frac < 2 ^ f.mb ∧ b = exp * 2 ^ f.mb + frac := by
  refine ⟨b / 2 ^ f.mb, b % 2 ^ f.mb, ?_, Nat.mod_lt _ (two_pow_pos' _), ?_⟩
  · rw [Nat.div_lt_iff_lt_mul (two_pow_pos' _)]; exact h
  · rw [Nat.mul_comm]; exact (Nat.div_add_mod _ _).symm

theorem fields_unique (B a r a' r' : Nat) (h : r < B) (h' : r' < B) (e : a * B + r = a' * B + r') : a = a' ∧ r = r' := by
  have h1 : (a * B + r) / B = a := by rw [Nat.mul_comm, Nat.mul_add_div (by omega), Nat.div_eq_of_lt h]; rfl
  have h2 : (a' * B + r') / B = a' := by rw [Nat.mul_comm, Nat.mul_add_div (by omega), Nat.div_eq_of_lt h']; rfl
  have : a = a' := by rw [← h1, ← h2, e]
  subst this
  exact ⟨rfl, by omega⟩

theorem nearest_of_round (f : Fmt) (hf : f.mb ≠ 0) (num den : Nat) (hd : 0 < den) (h : roundUnits f (num * 2 ^ f.e) den < f.inf) :
    Nearest f num den (roundUnits f (num * 2 ^ f.e) den) := by
  obtain ⟨exp, frac, h1, h2, h3⟩ := fields f _ h
  refine ⟨exp, frac, h1, h2, h3, ?_⟩
  intro exp' frac' h1' h2' hne
  have := round_nearest f hf (num * 2 ^ f.e) den (exp' * 2 ^ f.mb + frac') hd (by
    rw [h3]; intro e
    exact hne (fields_unique _ _ _ _ _ h2' h2 e))
  rw [h3, units_ieee f exp frac h2, units_ieee f exp' frac' h2', even_round f hf] at this
  exact this

theorem nearest_dest (f : Fmt) (hf : f.mb ≠ 0) (num den b : Nat) (h : Nearest f num den b) : b < f.inf ∧ ∀ b', b' < f.inf → b' ≠ b →
    far (units f b * den) (num * 2 ^ f.e) < far (units f b' * den) (num * 2 ^ f.e) ∨
    (far (units f b * den) (num * 2 ^ f.e) = far (units f b' * den) (num * 2 ^ f.e) ∧ b % 2 = 0) := by
  obtain ⟨e1, r1, a1, a2, rfl, a4⟩ := h
  constructor
  · have : (e1 + 1) * 2 ^ f.mb ≤ f.top * 2 ^ f.mb := Nat.mul_le_mul_right _ a1
    rw [Nat.add_mul, Nat.one_mul] at this
    unfold Fmt.inf; omega
  · intro b' hb' hne
    obtain ⟨e2, r2, c1, c2, rfl⟩ := fields f b' hb'
    rw [units_ieee f e1 r1 a2, units_ieee f e2 r2 c2, even_round f hf]
    exact a4 e2 r2 c1 c2 (by rintro ⟨rfl, rfl⟩; exact hne rfl)

theorem nearest_not_lt (f : Fmt) (num den b b' : Nat) (h : Nearest f num den b) (h' : Nearest f num den b') (hf : f.mb ≠ 0) (hd : 0 < den) :
    ¬ b < b' := by
  intro hlt
  obtain ⟨a1, a2⟩ := nearest_dest f hf num den b h
  obtain ⟨c1, c2⟩ := nearest_dest f hf num den b' h'
  have x1 := a2 b' c1 (by omega)
  have x2 := c2 b a1 (by omega)
  have hm : b + 1 < b' := by omega
  have x3 := a2 (b + 1) (by omega) (by omega)
  have y1 := Nat.mul_lt_mul_of_pos_right (units_lt f (show b < b + 1 by omega)) hd
  have y2 := Nat.mul_lt_mul_of_pos_right (units_lt f hm) hd
  unfold far at *
  omega

/-- The nearest float is unique. -/
theorem nearest_unique (f : Fmt) (num den b b' : Nat) (h : Nearest f num den b) (h' : Nearest f num den b') (hf : f.mb ≠ 0) (hd : 0 < den) :
    b = b' := by
  have := nearest_not_lt f num den b b' h h' hf hd
  have := nearest_not_lt f num den b' b h' h hf hd
  omega

theorem limit64 : 2 * ((2 ^ 1024 - 2 ^ 970) * 2 ^ f64.e) = units f64 (f64.inf - 1) + units f64 f64.inf := by decide +kernel

theorem limit32 : 2 * ((2 ^ 128 - 2 ^ 103) * 2 ^ f32.e) = units f32 (f32.inf - 1) + units f32 f32.inf := by decide +kernel

theorem large_aux (L E M num den : Nat) (hL : 2 * (L * 2 ^ E) = M) : M * den ≤ 2 * (num * 2 ^ E) ↔ L * den ≤ num := by
  have e : M * den = 2 * (L * den * 2 ^ E) := by rw [← hL]; grind
  rw [e]
  constructor
  · intro h
    exact Nat.le_of_mul_le_mul_right (Nat.le_of_mul_le_mul_left h (by decide)) (two_pow_pos' E)
  · intro h
    exact Nat.mul_le_mul_left 2 (Nat.mul_le_mul_right _ h)

theorem large64 (num den : Nat) (hd : 0 < den) : f64.inf ≤ roundUnits f64 (num * 2 ^ f64.e) den ↔ TooLarge64 num den := by
  rw [round_overflow f64 (by decide) (by decide) _ _ hd]
  exact large_aux (2 ^ 1024 - 2 ^ 970) f64.e _ num den limit64

theorem large32 (num den : Nat) (hd : 0 < den) : f32.inf ≤ roundUnits f32 (num * 2 ^ f32.e) den ↔ TooLarge32 num den := by
  rw [round_overflow f32 (by decide) (by decide) _ _ hd]
  exact large_aux (2 ^ 128 - 2 ^ 103) f32.e _ num den limit32

theorem roundF_64 (neg : Bool) (num den : Nat) (hd : 0 < den) :
    (¬ TooLarge64 num den → ∃ b, Nearest f64 num den b ∧ roundF f64 neg num den = (.num neg b, none)) ∧
    (TooLarge64 num den → roundF f64 neg num den = (.num neg f64.inf, some .range)) := by
  rw [← large64 num den hd]
  constructor
  · intro h
    have h := Nat.lt_of_not_le h
    exact ⟨_, nearest_of_round f64 (by decide) num den hd h, by unfold roundF; rw [if_pos h]⟩
  · intro h
    unfold roundF; rw [if_neg (Nat.not_lt.2 h)]

theorem roundF_32 (neg : Bool) (num den : Nat) (hd : 0 < den) :
    (¬ TooLarge32 num den → ∃ b, Nearest f32 num den b ∧ roundF f32 neg num den = (.num neg b, none)) ∧
    (TooLarge32 num den → roundF f32 neg num den = (.num neg f32.inf, some .range)) := by
  rw [← large32 num den hd]
  constructor
  · intro h
    have h := Nat.lt_of_not_le h
    exact ⟨_, nearest_of_round f32 (by decide) num den hd h, by unfold roundF; rw [if_pos h]⟩
  · intro h
    unfold roundF; rw [if_neg (Nat.not_lt.2 h)]

/-! ## C170 -/

theorem decimal_ne_nil (s : Str) (neg : Bool) (num den : Nat) (h : Decimal s neg num den) : s ≠ [] := by
  obtain ⟨n, d, x, ⟨sg, ip, dot, fp, e, -, -, -, -, hne, -, rfl, -, -⟩, -⟩ := h
  intro h
  simp at h
  exact hne (by simp [h.2.1, h.2.2.2.1])

theorem bind_float (g : Exotic) (x : Params.Ext) (it : Params.Order) (bits : Nat) (path : List Nat) (p : Params.P) (name s : Str)
    (h : Params.firstValue p name = some s) (hs : s ≠ []) :
    Params.bind (withFloats g x) it (.float bits) path p name = some (.float (code bits (bindFloat g bits s))) := by
  simp [Params.bind, h, hs, withFloats]

/-- C170. A decimal number in a `float64` parameter, of a size a `float64` can have, is bound to the nearest `float64` (the bits: sign and
magnitude); a larger one is bound to 0. -/
theorem C170_parameter (g : Exotic) (x : Params.Ext) (it : Params.Order) (path : List Nat) (p : Params.P) (name s : Str) (neg : Bool)
    (num den : Nat) (h : Params.firstValue p name = some s) (hs : Decimal s neg num den) :
    (¬ TooLarge64 num den → ∃ b, Nearest f64 num den b ∧
      Params.bind (withFloats g x) it (.float 64) path p name = some (.float ((if neg then 2 ^ 63 else 0) + b))) ∧
    (TooLarge64 num den → Params.bind (withFloats g x) it (.float 64) path p name = some (.float 0)) := by
  have hd := decimal_den s neg num den hs
  have hne := decimal_ne_nil s neg num den hs
  rw [bind_float g x it 64 path p name s h hne]
  have hp := parse_decimal g f64 s neg num den hs
  obtain ⟨r1, r2⟩ := roundF_64 neg num den hd
  constructor
  · intro hl
    obtain ⟨b, hb, e⟩ := r1 hl
    refine ⟨b, hb, ?_⟩
    simp [bindFloat, hne, hp, e, setFloat, code]
  · intro hl
    simp [bindFloat, hne, hp, r2 hl, code]

/-- C170. A decimal number in a setting becomes the nearest float of the variable's type, also for `float32`; a larger one becomes 0. -/
theorem C170_setting (g : Exotic) (s : Str) (neg : Bool) (num den : Nat) (hs : Decimal s neg num den) :
    (¬ TooLarge64 num den → ∃ b, Nearest f64 num den b ∧
      Conf.convertStringAsType (settingFloat g) s (.float 64) = .ok (some (.float (.num neg b)))) ∧
    (TooLarge64 num den → Conf.convertStringAsType (settingFloat g) s (.float 64) = .ok (some (.float (.num false 0)))) ∧
    (¬ TooLarge32 num den → ∃ b, Nearest f32 num den b ∧
      Conf.convertStringAsType (settingFloat g) s (.float 32) = .ok (some (.float (.num neg b)))) ∧
    (TooLarge32 num den → Conf.convertStringAsType (settingFloat g) s (.float 32) = .ok (some (.float (.num false 0)))) := by
  have hd := decimal_den s neg num den hs
  obtain ⟨r1, r2⟩ := roundF_64 neg num den hd
  obtain ⟨t1, t2⟩ := roundF_32 neg num den hd
  have hp64 := parse_decimal g f64 s neg num den hs
  have hp32 := parse_decimal g f32 s neg num den hs
  refine ⟨?_, ?_, ?_, ?_⟩
  · intro hl
    obtain ⟨b, hb, e⟩ := r1 hl
    exact ⟨b, hb, by simp [Conf.convertStringAsType, Conf.indirectTy, settingFloat, fmtOf, hp64, e]⟩
  · intro hl
    simp [Conf.convertStringAsType, Conf.indirectTy, settingFloat, fmtOf, hp64, r2 hl]
  · intro hl
    obtain ⟨b, hb, e⟩ := t1 hl
    exact ⟨b, hb, by simp [Conf.convertStringAsType, Conf.indirectTy, settingFloat, fmtOf, hp32, e]⟩
  · intro hl
    simp [Conf.convertStringAsType, Conf.indirectTy, settingFloat, fmtOf, hp32, t2 hl]

/-- C170. `utils.StrTo(s).Float64()` and `Float32()`: the nearest float and no error, or infinity with an error. -/
theorem C170_strTo (g : Exotic) (s : Str) (neg : Bool) (num den : Nat) (hs : Decimal s neg num den) :
    (¬ TooLarge64 num den → ∃ b, Nearest f64 num den b ∧ utilsFloat g 64 s = (.num neg b, none)) ∧
    (TooLarge64 num den → utilsFloat g 64 s = (.num neg f64.inf, some .range)) ∧
    (¬ TooLarge32 num den → ∃ b, Nearest f32 num den b ∧ utilsFloat g 32 s = (.num neg b, none)) ∧
    (TooLarge32 num den → utilsFloat g 32 s = (.num neg f32.inf, some .range)) := by
  have hd := decimal_den s neg num den hs
  obtain ⟨r1, r2⟩ := roundF_64 neg num den hd
  obtain ⟨t1, t2⟩ := roundF_32 neg num den hd
  have hp64 := parse_decimal g f64 s neg num den hs
  have hp32 := parse_decimal g f32 s neg num den hs
  simp only [utilsFloat, fmtOf, if_true, show ¬ (64 : Nat) = 32 by decide, if_false, hp64, hp32]
  exact ⟨r1, r2, t1, t2⟩

theorem exact_round (f : Fmt) (hf : f.mb ≠ 0) (num den b : Nat) (hd : 0 < den) (h : Exactly f num den b) :
    b < f.inf ∧ roundUnits f (num * 2 ^ f.e) den = b := by
  obtain ⟨exp, frac, h1, h2, rfl, h4⟩ := h
  refine ⟨?_, round_exact f hf _ den _ hd (by rw [units_ieee f exp frac h2, h4])⟩
  have : (exp + 1) * 2 ^ f.mb ≤ f.top * 2 ^ f.mb := Nat.mul_le_mul_right _ h1
  rw [Nat.add_mul, Nat.one_mul] at this
  unfold Fmt.inf; omega

/-- C170. A number that is a `float64` is bound exactly. -/
theorem C170_exact (g : Exotic) (x : Params.Ext) (it : Params.Order) (path : List Nat) (p : Params.P) (name s : Str) (neg : Bool)
    (num den b : Nat) (h : Params.firstValue p name = some s) (hs : Decimal s neg num den) (hb : Exactly f64 num den b) :
    Params.bind (withFloats g x) it (.float 64) path p name = some (.float ((if neg then 2 ^ 63 else 0) + b)) := by
  have hd := decimal_den s neg num den hs
  have hne := decimal_ne_nil s neg num den hs
  obtain ⟨h1, h2⟩ := exact_round f64 (by decide) num den b hd hb
  rw [bind_float g x it 64 path p name s h hne]
  simp [bindFloat, hne, parse_decimal g f64 s neg num den hs, roundF, h2, h1, setFloat, code]

theorem integer_exact (n : Nat) (h : n ≤ 2 ^ 53) : ∃ b, Exactly f64 n 1 b := by
  have key : ∃ b, units f64 b = n * 2 ^ 1074 := by
    by_cases h1 : n = 2 ^ 53
    · obtain ⟨b, hb⟩ := representable f64 1 1127 (by decide +kernel)
      refine ⟨b, ?_⟩
      rw [hb, h1]
      decide +kernel
    · exact representable f64 n 1074 (by show n < 2 * 2 ^ 52; omega)
  obtain ⟨b, hb⟩ := key
  have hlt : b < f64.inf := by
    rw [← units_lt_iff f64, hb]
    refine Nat.lt_of_le_of_lt (Nat.mul_le_mul_right _ h) ?_
    decide +kernel
  obtain ⟨exp, frac, h1, h2, rfl⟩ := fields f64 b hlt
  refine ⟨_, exp, frac, h1, h2, rfl, ?_⟩
  rw [← units_ieee f64 exp frac h2, hb, Nat.mul_one]
  rfl

/-- C170. Whole numbers up to 2^53 are bound exactly, however they are written. -/
theorem C170_integers (g : Exotic) (x : Params.Ext) (it : Params.Order) (path : List Nat) (p : Params.P) (name s : Str) (neg : Bool)
    (num den n : Nat) (h : Params.firstValue p name = some s) (hs : Decimal s neg num den) (hn : num = n * den) (hle : n ≤ 2 ^ 53) :
    ∃ b, Exactly f64 n 1 b ∧
      Params.bind (withFloats g x) it (.float 64) path p name = some (.float ((if neg then 2 ^ 63 else 0) + b)) := by
  obtain ⟨b, hb⟩ := integer_exact n hle
  refine ⟨b, hb, C170_exact g x it path p name s neg num den b h hs ?_⟩
  obtain ⟨exp, frac, h1, h2, h3, h4⟩ := hb
  refine ⟨exp, frac, h1, h2, h3, ?_⟩
  rw [hn, ← Nat.mul_one (ieee f64 exp frac), h4]
  generalize 2 ^ f64.e = z
  grind

/-- C170. The order of numbers is kept: the larger of two numbers has not the smaller nearest float (the bits of positive floats are ordered
like their values, `C170_bits_order`). -/
theorem C170_order (f : Fmt) (hf : f.mb ≠ 0) (ht : f.top ≠ 0) (num den num' den' b b' : Nat) (hd : 0 < den) (hd' : 0 < den')
    (h : Nearest f num den b) (h' : Nearest f num' den' b') (hle : num * den' ≤ num' * den) : b ≤ b' := by
  have hm := round_mono f (num * 2 ^ f.e) den (num' * 2 ^ f.e) den' hd hd' (by
    have := Nat.mul_le_mul_right (2 ^ f.e) hle
    generalize 2 ^ f.e = z at *
    grind)
  by_cases hl : roundUnits f (num' * 2 ^ f.e) den' < f.inf
  · rw [nearest_unique f num den b _ h (nearest_of_round f hf num den hd (by omega)) hf hd,
      nearest_unique f num' den' b' _ h' (nearest_of_round f hf num' den' hd' hl) hf hd']
    exact hm
  · have h1 := (nearest_dest f hf num den b h).1
    obtain ⟨h2, h3⟩ := nearest_dest f hf num' den' b' h'
    apply Classical.byContradiction
    intro hn
    have h4 := h3 (f.inf - 1) (by omega) (by omega)
    have h5 := (round_overflow f hf ht (num' * 2 ^ f.e) den' hd').1 (by omega)
    have h6 := Nat.mul_lt_mul_of_pos_right (units_lt f (show b' < f.inf - 1 by omega)) hd'
    have h7 := Nat.mul_lt_mul_of_pos_right (units_lt f (show f.inf - 1 < f.inf by omega)) hd'
    rw [Nat.add_mul] at h5
    unfold far at h4
    omega

/-- C170. The bits of floats without sign are ordered like the values. -/
theorem C170_bits_order (f : Fmt) (exp frac exp' frac' : Nat) (h : frac < 2 ^ f.mb) (h' : frac' < 2 ^ f.mb) :
    ieee f exp frac < ieee f exp' frac' ↔ exp * 2 ^ f.mb + frac < exp' * 2 ^ f.mb + frac' := by
  rw [← units_ieee f exp frac h, ← units_ieee f exp' frac' h']
  exact units_lt_iff f

/-! ## Texts that are not numbers -/

theorem mant_some (s : Str) (n : Nat) (seen : Bool) (k : Nat) : ∃ ds rest, Digits ds ∧ s = ds ++ rest ∧
    mantissa s n seen (some k) = (ds.foldl (fun n c => 10 * n + (c.toNat - 48)) n, seen || !ds.isEmpty, k + ds.length, rest) := by
  induction s generalizing n seen k with
  | nil => exact ⟨[], [], by simp [Digits], rfl, by simp [mantissa]⟩
  | cons c s ih =>
    rw [mantissa, if_neg (by simp)]
    by_cases hc : digit c = true
    · rw [if_pos hc]
      obtain ⟨ds, rest, h1, rfl, h3⟩ := ih (10 * n + (c.toNat - 48)) true (k + 1)
      refine ⟨c :: ds, rest, ?_, rfl, ?_⟩
      · intro a ha
        rcases List.mem_cons.1 ha with rfl | ha
        · exact (digit_iff _).1 hc
        · exact h1 a ha
      · simp only [Option.map_some]
        rw [h3]
        simp [Nat.add_assoc, Nat.add_comm 1]
    · rw [if_neg hc]
      exact ⟨[], c :: s, by simp [Digits], rfl, by simp⟩

theorem mant_none (s : Str) (n : Nat) (seen : Bool) : ∃ ip dot fp rest, Digits ip ∧ Digits fp ∧ (dot = b!"." ∨ (dot = [] ∧ fp = [])) ∧
    s = ip ++ (dot ++ (fp ++ rest)) ∧
    mantissa s n seen none = ((ip ++ fp).foldl (fun n c => 10 * n + (c.toNat - 48)) n, seen || !(ip ++ fp).isEmpty, fp.length, rest) := by
  induction s generalizing n seen with
  | nil => exact ⟨[], [], [], [], by simp [Digits], by simp [Digits], .inr ⟨rfl, rfl⟩, rfl, by simp [mantissa]⟩
  | cons c s ih =>
    rw [mantissa]
    by_cases hd : c = 46
    · rw [if_pos ⟨hd, rfl⟩]
      obtain ⟨ds, rest, h1, rfl, h3⟩ := mant_some s n seen 0
      refine ⟨[], b!".", ds, rest, by simp [Digits], h1, .inl rfl, by rw [hd]; rfl, ?_⟩
      rw [h3]; simp
    · rw [if_neg (by simp [hd])]
      by_cases hc : digit c = true
      · rw [if_pos hc]
        obtain ⟨ip, dot, fp, rest, h1, h2, h3, rfl, h5⟩ := ih (10 * n + (c.toNat - 48)) true
        refine ⟨c :: ip, dot, fp, rest, ?_, h2, h3, rfl, ?_⟩
        · intro a ha
          rcases List.mem_cons.1 ha with rfl | ha
          · exact (digit_iff _).1 hc
          · exact h1 a ha
        · simp only [Option.map_none]
          rw [h5]
          simp
      · rw [if_neg hc]
        exact ⟨[], [], [], c :: s, by simp [Digits], by simp [Digits], .inr ⟨rfl, rfl⟩, rfl, by simp⟩

theorem expDigits_some (s : Str) (n : Nat) (h : expDigits s = some n) : Digits s ∧ s ≠ [] := by
  unfold expDigits at h
  split at h
  · rename_i h'
    refine ⟨?_, h'.1⟩
    have := h'.2
    rw [List.all_eq_true] at this
    exact fun c hc => (digit_iff c).1 (this c hc)
  · simp at h

theorem exponent_some (s : Str) (x : Int) (h : exponent s = some x) : ∃ y, Exponent s y := by
  cases s with
  | nil => exact ⟨0, .inl ⟨rfl, rfl⟩⟩
  | cons c s =>
    rw [exponent] at h
    by_cases hc : c = 101 ∨ c = 69
    · rw [if_pos hc] at h
      unfold expSigned at h
      split at h
      · rename_i t
        obtain ⟨n, hn, -⟩ := Option.map_eq_some_iff.1 h
        obtain ⟨h1, h2⟩ := expDigits_some _ _ hn
        exact ⟨_, .inr ⟨c, b!"+", false, t, hc, .inr (.inl ⟨rfl, rfl⟩), h1, h2, rfl, rfl⟩⟩
      · rename_i t
        obtain ⟨n, hn, -⟩ := Option.map_eq_some_iff.1 h
        obtain ⟨h1, h2⟩ := expDigits_some _ _ hn
        exact ⟨_, .inr ⟨c, b!"-", true, t, hc, .inr (.inr ⟨rfl, rfl⟩), h1, h2, rfl, rfl⟩⟩
      · obtain ⟨n, hn, -⟩ := Option.map_eq_some_iff.1 h
        obtain ⟨h1, h2⟩ := expDigits_some _ _ hn
        exact ⟨_, .inr ⟨c, [], false, s, hc, .inl ⟨rfl, rfl⟩, h1, h2, rfl, rfl⟩⟩
    · rw [if_neg hc] at h
      simp at h

theorem decimal_some (s : Str) (v : Nat × Nat) (h : decimal s = some v) : ∃ ip dot fp e x, Digits ip ∧ Digits fp ∧
    (dot = b!"." ∨ (dot = [] ∧ fp = [])) ∧ ip ++ fp ≠ [] ∧ Exponent e x ∧ s = ip ++ (dot ++ (fp ++ e)) := by
  obtain ⟨ip, dot, fp, rest, h1, h2, h3, rfl, h5⟩ := mant_none s 0 false
  unfold decimal at h
  rw [h5] at h
  cases hi : (ip ++ fp).isEmpty with
  | true => rw [hi] at h; simp at h
  | false =>
    rw [hi] at h
    simp only [Bool.not_false, Bool.or_true] at h
    obtain ⟨x, hx, -⟩ := Option.map_eq_some_iff.1 h
    obtain ⟨y, hy⟩ := exponent_some _ _ hx
    exact ⟨ip, dot, fp, rest, y, h1, h2, h3, by intro e; rw [e] at hi; simp at hi, hy, rfl⟩

theorem signed_split (s : Str) : ∃ sg, Sign sg (signed s).1 ∧ s = sg ++ (signed s).2 := by
  unfold signed
  split
  · exact ⟨b!"+", .inr (.inl ⟨rfl, rfl⟩), rfl⟩
  · exact ⟨b!"-", .inr (.inr ⟨rfl, rfl⟩), rfl⟩
  · exact ⟨[], .inl ⟨rfl, rfl⟩, rfl⟩

theorem reads_of_decimal (s : Str) (v : Nat × Nat) (h : decimal (signed s).2 = some v) : ∃ neg n d x, Reads s neg n d x := by
  obtain ⟨sg, hs, e⟩ := signed_split s
  obtain ⟨ip, dot, fp, ex, x, h1, h2, h3, h4, h5, h6⟩ := decimal_some _ _ h
  exact ⟨(signed s).1, _, _, x, sg, ip, dot, fp, ex, hs, h1, h2, h3, h4, h5, by rw [← h6, ← e], rfl, rfl⟩

theorem special_word (f : Fmt) (s : Str) (v : F) (h : special f s = some v) : Word s := by
  obtain ⟨sg, hs, e⟩ := signed_split s
  unfold special at h
  unfold Word
  split at h
  · rename_i hw
    rw [e]
    rcases hs with ⟨hs, -⟩ | ⟨hs, -⟩ | ⟨hs, -⟩ <;> rw [hs] <;> rcases hw with hw | hw <;> simp only [toLower, List.map_append] at hw ⊢ <;>
      rw [hw] <;> decide
  · split at h
    · rename_i hn
      rw [hn]; decide
    · simp at h

/-- C170. Any other text is 0 (a parameter or a setting) or an error (`StrTo`). Texts with `x`, `X` or `_` are excluded. -/
theorem C170_malformed (g : Exotic) (x : Params.Ext) (it : Params.Order) (bits : Nat) (path : List Nat) (p : Params.P) (name s : Str)
    (h : Params.firstValue p name = some s) (h1 : ¬ Spec.Exotic s) (h2 : ¬ Word s) (h3 : ∀ neg n d e, ¬ Reads s neg n d e) :
    Params.bind (withFloats g x) it (.float bits) path p name = some (.float 0) ∧
    Conf.convertStringAsType (settingFloat g) s (.float bits) = .ok (some (.float (.num false 0))) ∧
    utilsFloat g bits s = (.num false 0, some .syntax) := by
  have hp : ∀ f, parseFloat g f s = (.num false 0, some .syntax) := by
    intro f
    unfold parseFloat
    rw [if_neg (fun hx => h1 ((exotic_iff s).1 hx))]
    cases hs : special f s with
    | some v => exact absurd (special_word f s v hs) h2
    | none =>
      cases hd : decimal (signed s).2 with
      | some v =>
        obtain ⟨neg, n, d, e, hr⟩ := reads_of_decimal s v hd
        exact absurd hr (h3 neg n d e)
      | none => rfl
  refine ⟨?_, ?_, hp _⟩
  · by_cases hs : s = []
    · subst hs
      simp [Params.bind, h]
    · rw [bind_float g x it bits path p name s h hs]
      simp [bindFloat, hs, hp, code]
  · simp [Conf.convertStringAsType, Conf.indirectTy, settingFloat, hp]

end Verif.Flt
