import Verif.Props.Conv
import Verif.Model.ValueConv
/-!
# C124: converting dynamic values
-/
namespace Verif.Conv
open Verif.Go Verif.Go.NumSpec

/-! ## What the number parsers return for every text -/

/-- The text without the sign that signed types allow. -/
def Spec.body (signed : Bool) (s : Str) : Str :=
  if signed = true ∧ (s.head? = some 43 ∨ s.head? = some 45) then s.drop 1 else s

/-- The text begins with digits that already make a number of more than `bits` bits. -/
def Spec.Overlong (bits : Nat) (s : Str) : Prop := ∃ d t, s = d ++ t ∧ Digits d ∧ 2 ^ bits ≤ decimal d

/-- Largest and smallest number of a type. -/
def Spec.hi (signed : Bool) (bits : Nat) : Int := if signed then (2 ^ (bits - 1) : Nat) - 1 else (2 ^ bits : Nat) - 1
/-- smallest -/
def Spec.lo (signed : Bool) (bits : Nat) : Int := if signed then -(2 ^ (bits - 1) : Nat) else 0

theorem digitVal_none {c : UInt8} (h : digitVal? c = none) : ¬ (48 ≤ c.toNat ∧ c.toNat ≤ 57) := by
  intro hc
  rw [digitVal_isDig hc] at h
  cases h

theorem digitVal_some {c : UInt8} {d : Nat} (h : digitVal? c = some d) : 48 ≤ c.toNat ∧ c.toNat ≤ 57 ∧ d = c.toNat - 48 := by
  by_cases hc : 48 ≤ c.toNat ∧ c.toNat ≤ 57
  · rw [digitVal_isDig hc] at h
    cases h
    exact ⟨hc.1, hc.2, rfl⟩
  · exfalso
    unfold digitVal? at h
    rw [if_neg] at h
    · cases h
    · intro e
      apply hc
      simp only [UInt8.le_iff_toNat_le] at e
      exact e

theorem loop_junk (max : Nat) : ∀ (s : Str) (acc : Nat), acc ≤ max → ¬ (∀ c ∈ s, 48 ≤ c.toNat ∧ c.toNat ≤ 57) →
    ((∃ d t, s = d ++ t ∧ (∀ c ∈ d, 48 ≤ c.toNat ∧ c.toNat ≤ 57) ∧
        max < d.foldl (fun a c => a * 10 + (c.toNat - 48)) acc) → parseUintLoop max acc s = (max, some .rng)) ∧
    ((¬ ∃ d t, s = d ++ t ∧ (∀ c ∈ d, 48 ≤ c.toNat ∧ c.toNat ≤ 57) ∧
        max < d.foldl (fun a c => a * 10 + (c.toNat - 48)) acc) → parseUintLoop max acc s = (0, some .syn))
  | [], acc, ha, h => absurd (by simp) h
  | c :: s, acc, ha, h => by
    cases hd : digitVal? c with
    | none =>
      have hc := digitVal_none hd
      simp only [parseUintLoop, hd]
      refine ⟨?_, fun _ => trivial⟩
      rintro ⟨d, t, e, hdig, hlt⟩
      exfalso
      cases d with
      | nil => simp only [List.foldl_nil] at hlt; omega
      | cons x d =>
        rw [List.cons_append] at e
        injection e with e1 e2
        subst e1
        exact hc (hdig c (by simp))
    | some v =>
      obtain ⟨h1, h2, rfl⟩ := digitVal_some hd
      have hs : ¬ (∀ c ∈ s, 48 ≤ c.toNat ∧ c.toNat ≤ 57) := by
        intro e
        apply h
        intro x hx
        rcases List.mem_cons.1 hx with rfl | hx
        · exact ⟨h1, h2⟩
        · exact e x hx
      simp only [parseUintLoop, hd]
      by_cases hm : acc * 10 + (c.toNat - 48) > max
      · rw [if_pos hm]
        refine ⟨fun _ => rfl, fun hn => ?_⟩
        exfalso
        refine hn ⟨[c], s, rfl, ?_, by simpa using hm⟩
        intro x hx
        rw [List.mem_singleton] at hx
        subst hx; exact ⟨h1, h2⟩
      · rw [if_neg hm]
        have ih := loop_junk max s (acc * 10 + (c.toNat - 48)) (by omega) hs
        have key : (∃ d t, c :: s = d ++ t ∧ (∀ c ∈ d, 48 ≤ c.toNat ∧ c.toNat ≤ 57) ∧
              max < d.foldl (fun a c => a * 10 + (c.toNat - 48)) acc) ↔
            (∃ d t, s = d ++ t ∧ (∀ c ∈ d, 48 ≤ c.toNat ∧ c.toNat ≤ 57) ∧
              max < d.foldl (fun a c => a * 10 + (c.toNat - 48)) (acc * 10 + (c.toNat - 48))) := by
          constructor
          · rintro ⟨d, t, e, hdig, hlt⟩
            cases d with
            | nil => simp only [List.foldl_nil] at hlt; omega
            | cons x d =>
              rw [List.cons_append] at e
              injection e with e1 e2
              subst e1
              exact ⟨d, t, e2, fun y hy => hdig y (by simp [hy]), by simpa using hlt⟩
          · rintro ⟨d, t, e, hdig, hlt⟩
            refine ⟨c :: d, t, by rw [e]; rfl, ?_, by simpa using hlt⟩
            intro x hx
            rcases List.mem_cons.1 hx with rfl | hx
            · exact ⟨h1, h2⟩
            · exact hdig x hx
        rw [key]
        exact ih

theorem parseUint_junk (bits : Nat) (s : Str) (h : ¬ Digits s) :
    (Spec.Overlong bits s → parseUint bits s = (2 ^ bits - 1, some .rng)) ∧
    (¬ Spec.Overlong bits s → parseUint bits s = (0, some .syn)) := by
  have hp : 0 < 2 ^ bits := Nat.pow_pos (by omega)
  by_cases hs : s = []
  · subst hs
    refine ⟨?_, fun _ => rfl⟩
    rintro ⟨d, t, e, hd, _⟩
    cases d with
    | nil => exact absurd rfl hd.1
    | cons x d => cases e
  · have hn : ¬ (∀ c ∈ s, 48 ≤ c.toNat ∧ c.toNat ≤ 57) := fun e => h ⟨hs, e⟩
    have hl := loop_junk (2 ^ bits - 1) s 0 (by omega) hn
    unfold parseUint
    rw [if_neg hs]
    have key : Spec.Overlong bits s ↔ (∃ d t, s = d ++ t ∧ (∀ c ∈ d, 48 ≤ c.toNat ∧ c.toNat ≤ 57) ∧
        2 ^ bits - 1 < d.foldl (fun a c => a * 10 + (c.toNat - 48)) 0) := by
      constructor
      · rintro ⟨d, t, e, hd, hlt⟩
        exact ⟨d, t, e, hd.2, by unfold decimal at hlt; omega⟩
      · rintro ⟨d, t, e, hd, hlt⟩
        refine ⟨d, t, e, ⟨?_, hd⟩, by unfold decimal; omega⟩
        rintro rfl
        simp only [List.foldl_nil] at hlt
        omega
    rw [key]
    exact hl

theorem denotes_body (signed : Bool) (s : Str) (i : Int) (h : Denotes signed s i) :
    Digits (Spec.body signed s) ∧
      i = if signed = true ∧ s.head? = some 45 then -(decimal (Spec.body signed s) : Int) else decimal (Spec.body signed s) := by
  unfold Spec.body
  rcases h with ⟨h, e⟩ | ⟨hs, r, e1, h, e⟩ | ⟨hs, r, e1, h, e⟩
  · have hh := digits_head s h
    rw [if_neg (by simp [hh.1, hh.2]), if_neg (by simp [hh.2])]
    exact ⟨h, e⟩
  · subst e1
    rw [if_pos ⟨hs, by simp⟩, if_neg (by simp)]
    exact ⟨h, e⟩
  · subst e1
    rw [if_pos ⟨hs, by simp⟩, if_pos ⟨hs, by simp⟩]
    exact ⟨h, e⟩

theorem body_denotes (signed : Bool) (s : Str) (h : Digits (Spec.body signed s)) : ∃ i, Denotes signed s i := by
  unfold Spec.body at h
  by_cases hc : signed = true ∧ (s.head? = some 43 ∨ s.head? = some 45)
  · rw [if_pos hc] at h
    obtain ⟨hs, hh⟩ := hc
    cases s with
    | nil => rcases hh with hh | hh <;> cases hh
    | cons c s =>
      simp only [List.head?_cons, Option.some.injEq] at hh
      rcases hh with rfl | rfl
      · exact ⟨_, .inr (.inl ⟨hs, s, rfl, h, rfl⟩)⟩
      · exact ⟨_, .inr (.inr ⟨hs, s, rfl, h, rfl⟩)⟩
  · rw [if_neg hc] at h
    exact ⟨_, .inl ⟨h, rfl⟩⟩

/-- What parsing a text as a number of a signed or unsigned type of `bits` bits gives, for every text: the number, when
the text is a numeral of one that fits; the nearest number of the type and a range error for other numerals; the
largest (for a text with a minus, the smallest) number and a range error for a text that is no numeral but begins with
the digits of a number too large for the unsigned type; zero and a syntax error for the rest. -/
structure Spec.ParseExact (signed : Bool) (bits : Nat) (s : Str) (r : Int × Option NumErr) : Prop where
  fits : ∀ i, Denotes signed s i → Fits signed bits i → r = (i, none)
  above : ∀ i, Denotes signed s i → Spec.hi signed bits < i → r = (Spec.hi signed bits, some .rng)
  below : ∀ i, Denotes signed s i → i < Spec.lo signed bits → r = (Spec.lo signed bits, some .rng)
  long : (∀ i, ¬ Denotes signed s i) → Spec.Overlong bits (Spec.body signed s) →
    r = (if signed = true ∧ s.head? = some 45 then Spec.lo signed bits else Spec.hi signed bits, some .rng)
  junk : (∀ i, ¬ Denotes signed s i) → ¬ Spec.Overlong bits (Spec.body signed s) → r = (0, some .syn)

/-- The cases are all there are: two results that satisfy the specification are equal. -/
theorem Spec.ParseExact.unique {signed : Bool} {bits : Nat} {s : Str} {r r' : Int × Option NumErr}
    (h : Spec.ParseExact signed bits s r) (h' : Spec.ParseExact signed bits s r') : r = r' := by
  by_cases hd : ∃ i, Denotes signed s i
  · obtain ⟨i, hi⟩ := hd
    by_cases hf : Fits signed bits i
    · rw [h.fits i hi hf, h'.fits i hi hf]
    · by_cases ha : Spec.hi signed bits < i
      · rw [h.above i hi ha, h'.above i hi ha]
      · have hb : i < Spec.lo signed bits := by
          unfold Fits at hf
          unfold Spec.hi at ha
          unfold Spec.lo
          cases signed <;> simp only [Bool.false_eq_true, if_false, if_true] at * <;> omega
        rw [h.below i hi hb, h'.below i hi hb]
  · have hn : ∀ i, ¬ Denotes signed s i := fun i e => hd ⟨i, e⟩
    by_cases ho : Spec.Overlong bits (Spec.body signed s)
    · rw [h.long hn ho, h'.long hn ho]
    · rw [h.junk hn ho, h'.junk hn ho]

theorem signRange_max (bits : Nat) (hb : 2 ≤ bits) (neg : Bool) :
    signRange bits neg (2 ^ bits - 1, some .rng) = (if neg then -((2 ^ (bits - 1) : Nat) : Int) else ((2 ^ (bits - 1) : Nat) : Int) - 1, some .rng) := by
  have hp := two_pow_pred hb
  cases neg with
  | false => simp only [signRange]; rw [if_pos ⟨trivial, by omega⟩]; rfl
  | true => simp only [signRange]; rw [if_neg (by simp), if_pos ⟨trivial, by omega⟩]; rfl

theorem parseInt_exact (bits : Nat) (hb : 2 ≤ bits) (s : Str) : Spec.ParseExact true bits s (parseInt bits s) := by
  have hp := two_pow_pred hb
  have hbody : (if s.head? = some 43 ∨ s.head? = some 45 then s.drop 1 else s) = Spec.body true s := by
    unfold Spec.body
    by_cases h : s.head? = some 43 ∨ s.head? = some 45
    · rw [if_pos h, if_pos ⟨rfl, h⟩]
    · rw [if_neg h, if_neg (fun e => h e.2)]
  have hneg : (s.head? == some 45) = decide (s.head? = some 45) := by
    by_cases h : s.head? = some 45 <;> simp [h]
  have num : ∀ i, Denotes true s i → parseInt bits s =
      if Fits true bits i then (i, none)
      else (if s.head? = some 45 then Spec.lo true bits else Spec.hi true bits, some .rng) := by
    intro i hi
    obtain ⟨h1, h2⟩ := denotes_body true s i hi
    unfold parseInt
    rw [hbody, parseUint_digits bits _ h1, signRange_ok bits hb, hneg]
    by_cases h : s.head? = some 45
    · rw [if_pos ⟨rfl, h⟩] at h2
      simp only [h, decide_true, if_true, ← h2, Spec.lo]
    · rw [if_neg (fun e => h e.2)] at h2
      simp only [h, decide_false, Bool.false_eq_true, if_false, ← h2, Spec.hi, if_true]
  refine ⟨?_, ?_, ?_, ?_, ?_⟩
  · intro i hi hf
    rw [num i hi, if_pos hf]
  · intro i hi ha
    have hn : ¬ Fits true bits i := by
      unfold Fits; unfold Spec.hi at ha; simp only [if_true] at *; omega
    rw [num i hi, if_neg hn, if_neg]
    intro h
    obtain ⟨h1, h2⟩ := denotes_body true s i hi
    rw [if_pos ⟨rfl, h⟩] at h2
    unfold Spec.hi at ha
    simp only [if_true] at ha
    omega
  · intro i hi ha
    have hn : ¬ Fits true bits i := by
      unfold Fits; unfold Spec.lo at ha; simp only [if_true] at *; omega
    rw [num i hi, if_neg hn, if_pos]
    apply Classical.byContradiction
    intro h
    obtain ⟨h1, h2⟩ := denotes_body true s i hi
    rw [if_neg (fun e => h e.2)] at h2
    unfold Spec.lo at ha
    simp only [if_true] at ha
    omega
  · intro hn ho
    have hd : ¬ Digits (Spec.body true s) := fun e => by
      obtain ⟨i, hi⟩ := body_denotes true s e
      exact hn i hi
    unfold parseInt
    rw [hbody, (parseUint_junk bits _ hd).1 ho, signRange_max bits hb, hneg]
    by_cases h : s.head? = some 45
    · simp [h, Spec.lo]
    · simp [h, Spec.hi]
  · intro hn ho
    have hd : ¬ Digits (Spec.body true s) := fun e => by
      obtain ⟨i, hi⟩ := body_denotes true s e
      exact hn i hi
    unfold parseInt
    rw [hbody, (parseUint_junk bits _ hd).2 ho]
    rfl

theorem parseUint_exact (bits : Nat) (s : Str) : Spec.ParseExact false bits s (parseUintI bits s) := by
  have hp : 0 < 2 ^ bits := Nat.pow_pos (by omega)
  have hbody : Spec.body false s = s := by unfold Spec.body; rw [if_neg (by simp)]
  have num : ∀ i, Denotes false s i → Digits s ∧ i = decimal s := by
    intro i hi
    have := denotes_body false s i hi
    rw [hbody, if_neg (by simp)] at this
    exact this
  unfold parseUintI
  refine ⟨?_, ?_, ?_, ?_, ?_⟩
  · intro i hi hf
    obtain ⟨h1, rfl⟩ := num i hi
    unfold Fits at hf
    simp only [Bool.false_eq_true, if_false] at hf
    rw [parseUint_digits bits s h1, if_pos (by omega)]
  · intro i hi hf
    obtain ⟨h1, rfl⟩ := num i hi
    unfold Spec.hi at *
    simp only [Bool.false_eq_true, if_false] at *
    rw [parseUint_digits bits s h1, if_neg (by omega)]
    simp only [Prod.mk.injEq, and_true]
    omega
  · intro i hi hf
    obtain ⟨h1, rfl⟩ := num i hi
    unfold Spec.lo at hf
    simp only [Bool.false_eq_true, if_false] at hf
    omega
  · intro hn ho
    rw [hbody] at ho
    have hd : ¬ Digits s := fun e => hn _ (.inl ⟨e, rfl⟩)
    rw [(parseUint_junk bits s hd).1 ho, if_neg (by simp)]
    unfold Spec.hi
    simp only [Bool.false_eq_true, if_false, Prod.mk.injEq, and_true]
    omega
  · intro hn ho
    rw [hbody] at ho
    have hd : ¬ Digits s := fun e => hn _ (.inl ⟨e, rfl⟩)
    rw [(parseUint_junk bits s hd).2 ho]
    rfl

theorem parseK_exact (k : IntKind) (bits : Nat) (hb : 2 ≤ bits) (s : Str) :
    Spec.ParseExact k.signed bits s (parseK k bits s) := by
  unfold parseK
  cases k.signed with
  | true => rw [if_pos rfl]; exact parseInt_exact bits hb s
  | false => rw [if_neg (by simp)]; exact parseUint_exact bits s

/-- the bounds, zero and the numbers that fit are numbers of the type -/
theorem exact_inType (k : IntKind) (bits : Nat) (hb : 2 ≤ bits) (hc : ∀ i, Fits k.signed bits i → Spec.InType k i) (s : Str) (r : Int × Option NumErr)
    (h : Spec.ParseExact k.signed bits s r) : Spec.InType k r.1 := by
  have hp := two_pow_pred hb
  have f0 : Fits k.signed bits 0 := by unfold Fits; cases k.signed <;> simp only [Bool.false_eq_true, if_false, if_true] <;> omega
  have fh : Fits k.signed bits (Spec.hi k.signed bits) := by unfold Fits Spec.hi; cases k.signed <;> simp only [Bool.false_eq_true, if_false, if_true] <;> omega
  have fl : Fits k.signed bits (Spec.lo k.signed bits) := by unfold Fits Spec.lo; cases k.signed <;> simp only [Bool.false_eq_true, if_false, if_true] <;> omega
  by_cases hd : ∃ i, Denotes k.signed s i
  · obtain ⟨i, hi⟩ := hd
    by_cases hf : Fits k.signed bits i
    · rw [h.fits i hi hf]; exact hc _ hf
    · by_cases ha : Spec.hi k.signed bits < i
      · rw [h.above i hi ha]; exact hc _ fh
      · have hb : i < Spec.lo k.signed bits := by
          unfold Fits at hf
          unfold Spec.hi at ha
          unfold Spec.lo
          generalize k.signed = sg at *
          cases sg <;> simp only [Bool.false_eq_true, if_false, if_true] at * <;> omega
        rw [h.below i hi hb]; exact hc _ fl
  · have hn : ∀ i, ¬ Denotes k.signed s i := fun i e => hd ⟨i, e⟩
    by_cases ho : Spec.Overlong bits (Spec.body k.signed s)
    · rw [h.long hn ho]
      simp only
      split
      · exact hc _ fl
      · exact hc _ fh
    · rw [h.junk hn ho]; exact hc _ f0

theorem convBoth_exact (k : IntKind) (bits : Nat) (hb : 2 ≤ bits) (hc : ∀ i, Fits k.signed bits i → Spec.InType k i)
    (s : Str) : Spec.ParseExact k.signed bits s (convBoth k (parseK k bits s)) := by
  have h := parseK_exact k bits hb s
  have e : convBoth k (parseK k bits s) = parseK k bits s := by
    unfold convBoth
    rw [conv_id k _ (exact_inType k bits hb hc s _ h)]
  rw [e]
  exact h

/-- The methods of `utils.StrTo`: what `Int`, …, `Uint64` return (the `Must` methods return the number alone). -/
theorem C124_text_numbers (k : IntKind) (s : Str) :
    Spec.ParseExact k.signed k.width s (utilsStrTo k s) ∧ utilsMust k s = (utilsStrTo k s).1 := by
  rw [utilsStrTo_eq]
  exact ⟨convBoth_exact k k.width (width_ge k) (fun _ h => h) s, by rw [utilsMust, utilsStrTo_eq]⟩

/-! ## Dynamic values -/

/-- Bits `Value.Int`, …, `Value.Uint64` allow in a text: those of the type, but 32 for `Uint`. -/
def Spec.valueBits : IntKind → Nat
  | .uint => 32
  | k => k.width

/-- The value is text: a string, of a predeclared or defined type, or a `[]byte`. -/
inductive Spec.HasText : Src → Str → Prop where
  | str (s : Str) : Spec.HasText (.plain (.str s)) s
  | named (s : Str) : Spec.HasText (.named (.str s)) s
  | bytes (s : Str) : Spec.HasText (.plain (.bytes s)) s

/-- The value is an integer, of a predeclared type (given) or a defined one. -/
inductive Spec.HasInt : Src → Option IntKind → Int → Prop where
  | plain (k : IntKind) (i : Int) : Spec.HasInt (.plain (.int k i)) (some k) i
  | named (k : IntKind) (i : Int) : Spec.HasInt (.named (.int k i)) none i

theorem go_exact (k : IntKind) (s : Str) : Spec.ParseExact k.signed (Spec.valueBits k) s (valueTo.go k s) := by
  rw [valueTo_go_eq]
  have e : Spec.valueBits k = rootBits k := by cases k <;> rfl
  rw [e]
  exact convBoth_exact k (rootBits k) (rootBits_ge k) (fits_rootBits k) s

/-- Text is parsed. -/
theorem C124_int_of_text (k : IntKind) (v : Src) (s : Str) (h : Spec.HasText v s) :
    Spec.ParseExact k.signed (Spec.valueBits k) s (v.int k) := by
  cases h <;> exact go_exact k _

/-- An integer of exactly the wanted type is returned as it is. Another one is returned if the wanted type (32 bits of it
for `Uint`) can hold it, and otherwise is an error: the nearest number of the type, or, for an unsigned type and a
negative number, zero. -/
theorem C124_int_of_int (k : IntKind) (v : Src) (k' : Option IntKind) (i : Int) (h : Spec.HasInt v k' i) :
    v.int k =
      if k' = some k then (i, none)
      else if Fits k.signed (Spec.valueBits k) i then (i, none)
      else if Spec.hi k.signed (Spec.valueBits k) < i then (Spec.hi k.signed (Spec.valueBits k), some .rng)
      else if k.signed then (Spec.lo k.signed (Spec.valueBits k), some .rng)
      else (0, some .syn) := by
  have hb : 2 ≤ Spec.valueBits k := by cases k <;> decide
  have hp := two_pow_pred hb
  have key : valueTo.go k (fmtInt i) =
      if Fits k.signed (Spec.valueBits k) i then (i, none)
      else if Spec.hi k.signed (Spec.valueBits k) < i then (Spec.hi k.signed (Spec.valueBits k), some .rng)
      else if k.signed then (Spec.lo k.signed (Spec.valueBits k), some .rng)
      else (0, some .syn) := by
    have ex := go_exact k (fmtInt i)
    by_cases hs : k.signed = true ∨ 0 ≤ i
    · have hd := fmtInt_denotes k.signed i hs
      by_cases hf : Fits k.signed (Spec.valueBits k) i
      · rw [if_pos hf]; exact ex.fits i hd hf
      · rw [if_neg hf]
        by_cases ha : Spec.hi k.signed (Spec.valueBits k) < i
        · rw [if_pos ha]; exact ex.above i hd ha
        · rw [if_neg ha]
          have hl : i < Spec.lo k.signed (Spec.valueBits k) ∧ k.signed = true := by
            unfold Fits at hf
            unfold Spec.hi at ha
            unfold Spec.lo
            generalize k.signed = sg at *
            cases sg <;> simp only [Bool.false_eq_true, if_false, if_true, and_true, and_false, false_or] at * <;> omega
          rw [if_pos hl.2]; exact ex.below i hd hl.1
    · have hsf : k.signed = false := by
        cases hk : k.signed with
        | true => exact absurd (.inl hk) hs
        | false => rfl
      have hi : i < 0 := by
        have : ¬ 0 ≤ i := fun e => hs (.inr e)
        omega
      rw [hsf] at ex ⊢
      rw [if_neg (by unfold Fits; simp only [Bool.false_eq_true, if_false]; omega), if_neg (by unfold Spec.hi; simp only [Bool.false_eq_true, if_false]; omega), if_neg (by simp)]
      cases i with
      | ofNat n => exact absurd hi (by simp)
      | negSucc n =>
        have hnd : ∀ d t, fmtInt (Int.negSucc n) = d ++ t → ¬ Digits d := by
          intro d t e hdig
          cases d with
          | nil => exact hdig.1 rfl
          | cons c d =>
            have e0 : fmtInt (Int.negSucc n) = 45 :: natDec (n + 1) := rfl
            rw [e0, List.cons_append] at e
            injection e with e1 e2
            have := hdig.2 c (by simp)
            rw [← e1] at this
            simp at this
        apply ex.junk
        · intro j hj
          rcases hj with ⟨h1, _⟩ | ⟨h1, _⟩ | ⟨h1, _⟩
          · exact hnd _ [] (by simp) h1
          · cases h1
          · cases h1
        · rintro ⟨d, t, e, hdig, _⟩
          have : Spec.body false (fmtInt (Int.negSucc n)) = fmtInt (Int.negSucc n) := by
            unfold Spec.body; rw [if_neg (by simp)]
          rw [this] at e
          exact hnd d t e hdig
  cases h with
  | plain k' =>
    show (if k' = k then (i, none) else valueTo.go k (fmtInt i)) = _
    by_cases e : k' = k
    · rw [if_pos e, if_pos (by rw [e])]
    · rw [if_neg e, if_neg (by simpa using e), key]
  | named k' =>
    show valueTo.go k (fmtInt i) = _
    rw [if_neg (by simp), key]

/-- Neither text nor an integer: a syntax error, and zero. -/
theorem C124_int_of_other (k : IntKind) (v : Src) (h1 : ∀ s, ¬ Spec.HasText v s) (h2 : ∀ k' i, ¬ Spec.HasInt v k' i) :
    v.int k = (0, some .syn) := by
  have ht : valueTo.go k b!"true" = (0, some .syn) := by cases k <;> decide +kernel
  have hf : valueTo.go k b!"false" = (0, some .syn) := by cases k <;> decide +kernel
  have he : valueTo.go k [] = (0, some .syn) := by cases k <;> decide +kernel
  have ho : valueTo.go k b!"[]byte(nil)" = (0, some .syn) := by cases k <;> decide +kernel
  rcases v with a | a | l
  · cases a with
    | int k' i => exact absurd (.plain k' i) (h2 _ _)
    | str s => exact absurd (.str s) (h1 _)
    | bytes s => exact absurd (.bytes s) (h1 _)
    | bool b => cases b; exact hf; exact ht
    | nil => exact he
    | other => exact ho
  · cases a with
    | int k' i => exact absurd (.named k' i) (h2 _ _)
    | str s => exact absurd (.named s) (h1 _)
    | bytes s => exact ho
    | bool b => cases b; exact hf; exact ht
    | nil => exact ho
    | other => exact ho
  · exact ho

/-- The texts `strconv.ParseBool` takes for true and for false. -/
def Spec.trueTexts : List Str := [b!"1", b!"t", b!"T", b!"true", b!"TRUE", b!"True"]
/-- … and for false -/
def Spec.falseTexts : List Str := [b!"0", b!"f", b!"F", b!"false", b!"FALSE", b!"False"]

theorem parseBool_spec (s : Str) :
    (s ∈ Spec.trueTexts → parseBool s = (true, true)) ∧ (s ∈ Spec.falseTexts → parseBool s = (false, true)) ∧
    (s ∉ Spec.trueTexts → s ∉ Spec.falseTexts → parseBool s = (false, false)) := by
  refine ⟨?_, ?_, ?_⟩
  · intro h
    simp only [Spec.trueTexts, List.mem_cons, List.not_mem_nil, or_false] at h
    unfold parseBool
    rw [if_pos h]
  · intro h
    simp only [Spec.falseTexts, List.mem_cons, List.not_mem_nil, or_false] at h
    rcases h with rfl | rfl | rfl | rfl | rfl | rfl <;> decide +kernel
  · intro h1 h2
    simp only [Spec.trueTexts, Spec.falseTexts, List.mem_cons, List.not_mem_nil, or_false] at h1 h2
    unfold parseBool
    rw [if_neg h1, if_neg h2]

/-- Booleans (of any type) are themselves, the integers one and zero are true and false, text is true or false if it is
one of the listed texts (or, for a predeclared string, "on"); everything else is an error and false. -/
theorem C124_bool (v : Src) :
    (∀ b, v = .plain (.bool b) ∨ v = .named (.bool b) → v.bool = (b, true)) ∧
    (∀ k i, Spec.HasInt v k i → v.bool = if i = 1 then (true, true) else if i = 0 then (false, true) else (false, false)) ∧
    (∀ s, Spec.HasText v s →
      (s ∈ Spec.trueTexts ∨ v = .plain (.str b!"on") → v.bool = (true, true)) ∧
      (s ∈ Spec.falseTexts → v.bool = (false, true)) ∧
      (s ∉ Spec.trueTexts → v ≠ .plain (.str b!"on") → s ∉ Spec.falseTexts → v.bool = (false, false))) ∧
    ((∀ b, v ≠ .plain (.bool b) ∧ v ≠ .named (.bool b)) → (∀ s, ¬ Spec.HasText v s) → (∀ k i, ¬ Spec.HasInt v k i) →
      v.bool = (false, false)) := by
  refine ⟨?_, ?_, ?_, ?_⟩
  · rintro b (rfl | rfl)
    · rfl
    · cases b <;> decide +kernel
  · intro k i h
    have e : v.bool = parseBool (fmtInt i) := by cases h <;> rfl
    rw [e]
    have hd := fmtInt_denotes true i (.inl rfl)
    have num : ∀ s j, fmtInt i = s → Denotes true s j → i = j := fun s j h1 h2 =>
      denotes_unique true _ _ _ hd (h1 ▸ h2)
    have nn : ∀ (s : Str) c r, s = c :: r → ¬ (48 ≤ c.toNat ∧ c.toNat ≤ 57) → c ≠ 43 → c ≠ 45 → fmtInt i ≠ s := by
      intro s c r hs hc h1 h2 e2
      rw [e2, hs] at hd
      rcases hd with ⟨h, _⟩ | ⟨_, r', h, _⟩ | ⟨_, r', h, _⟩
      · exact hc (h.2 c (by simp))
      · injection h with h _; exact h1 h
      · injection h with h _; exact h2 h
    by_cases h1 : i = 1
    · subst h1; decide +kernel
    · by_cases h0 : i = 0
      · subst h0; decide +kernel
      · rw [if_neg h1, if_neg h0]
        refine (parseBool_spec _).2.2 ?_ ?_
        · simp only [Spec.trueTexts, List.mem_cons, List.not_mem_nil, or_false]
          rintro (h | h | h | h | h | h)
          · exact h1 (num _ 1 h (.inl ⟨⟨by decide, by decide⟩, by decide⟩))
          all_goals exact nn _ _ _ rfl (by decide) (by decide) (by decide) h
        · simp only [Spec.falseTexts, List.mem_cons, List.not_mem_nil, or_false]
          rintro (h | h | h | h | h | h)
          · exact h0 (num _ 0 h (.inl ⟨⟨by decide, by decide⟩, by decide⟩))
          all_goals exact nn _ _ _ rfl (by decide) (by decide) (by decide) h
  · intro s h
    cases h with
    | str =>
      show (_ → (if s = b!"on" then (true, true) else parseBool s) = _) ∧ _ ∧ _
      refine ⟨?_, ?_, ?_⟩
      · rintro (h | h)
        · split
          · rfl
          · exact (parseBool_spec s).1 h
        · simp only [Src.plain.injEq, Any.str.injEq] at h
          rw [if_pos h]
      · intro h
        show (if s = b!"on" then (true, true) else parseBool s) = _
        rw [if_neg, (parseBool_spec s).2.1 h]
        rintro rfl
        revert h
        decide +kernel
      · intro h1 h2 h3
        show (if s = b!"on" then (true, true) else parseBool s) = _
        rw [if_neg (fun e => h2 (by rw [e])), (parseBool_spec s).2.2 h1 h3]
    | named =>
      refine ⟨?_, fun h => (parseBool_spec s).2.1 h, fun h1 _ h3 => (parseBool_spec s).2.2 h1 h3⟩
      rintro (h | h)
      · exact (parseBool_spec s).1 h
      · cases h
    | bytes =>
      refine ⟨?_, fun h => (parseBool_spec s).2.1 h, fun h1 _ h3 => (parseBool_spec s).2.2 h1 h3⟩
      rintro (h | h)
      · exact (parseBool_spec s).1 h
      · cases h
  · intro h1 h2 h3
    have he : parseBool [] = (false, false) := by decide +kernel
    have ho : parseBool b!"[]byte(nil)" = (false, false) := by decide +kernel
    rcases v with a | a | l
    · cases a with
      | int k' i => exact absurd (.plain k' i) (h3 _ _)
      | str s => exact absurd (.str s) (h2 _)
      | bytes s => exact absurd (.bytes s) (h2 _)
      | bool b => exact absurd rfl (h1 b).1
      | nil => exact he
      | other => exact ho
    · cases a with
      | int k' i => exact absurd (.named k' i) (h3 _ _)
      | str s => exact absurd (.named s) (h2 _)
      | bytes s => exact ho
      | bool b => exact absurd rfl (h1 b).2
      | nil => exact ho
      | other => exact ho
    · exact ho

/-- `String`: text is itself, an integer its decimal notation, a boolean "true" or "false", nil the empty text. -/
theorem C124_string (v : Src) :
    (∀ s, Spec.HasText v s → v.string = s) ∧
    (∀ k i, Spec.HasInt v k i → Denotes true v.string i) ∧
    (∀ b, v = .plain (.bool b) ∨ v = .named (.bool b) → v.string = if b then b!"true" else b!"false") ∧
    (v.isNil = true ↔ v = .plain .nil) ∧ Src.string (.plain .nil) = [] := by
  refine ⟨?_, ?_, ?_, ?_, rfl⟩
  · intro s h; cases h <;> rfl
  · intro k i h
    cases h <;> exact fmtInt_denotes true i (.inl rfl)
  · rintro b (rfl | rfl) <;> cases b <;> rfl
  · constructor
    · intro h
      rcases v with a | a | l
      · cases a <;> first | rfl | cases h
      · cases h
      · cases h
    · rintro rfl
      rfl

/-- `MustBytes` and `MustSliceString` return the value if it has exactly that type and nil otherwise: text is not
converted. The other `Must` methods return what the converting methods return, without the error. -/
theorem C124_must (v : Src) :
    (∀ s, v.mustBytes = some s ↔ v = .plain (.bytes s)) ∧ (∀ l, v.mustStrings = some l ↔ v = .strings l) ∧
    (∀ k, v.mustInt k = (v.int k).1) ∧ v.mustBool = v.bool.1 := by
  refine ⟨?_, ?_, fun _ => rfl, rfl⟩
  · intro s
    constructor
    · intro h
      rcases v with a | a | l
      · cases a <;> first | (cases h; rfl) | cases h
      · cases h
      · cases h
    · rintro rfl; rfl
  · intro l
    constructor
    · intro h
      rcases v with a | a | l'
      · cases h
      · cases h
      · cases h; rfl
    · rintro rfl; rfl

/-- The arguments with defaults: the argument if there is one at that place, else the default, else the zero value. -/
theorem C124_arguments {α : Type} (zero : α) (a : List α) (i : Int) (dflt : List α) :
    (∀ n : Nat, i = n → ∀ x, a[n]? = some x → argGet zero a i dflt = x) ∧
    ((∀ n : Nat, i = n → a.length ≤ n) → argGet zero a i dflt = dflt.head?.getD zero) := by
  constructor
  · rintro n rfl x hx
    obtain ⟨hn, e⟩ := List.getElem?_eq_some_iff.1 hx
    unfold argGet
    rw [if_pos ⟨by omega, by omega⟩]
    simp only [Int.toNat_natCast, hx, Option.getD_some]
  · intro h
    unfold argGet
    rw [if_neg]
    · cases dflt <;> rfl
    · rintro ⟨h1, h2⟩
      have := h i.toNat (by omega)
      omega

/-! ## Examples -/

example : Spec.Overlong 8 b!"300x" := ⟨b!"300", b!"x", rfl, ⟨by decide, by decide⟩, by decide⟩
/-- a text that is no number can still be "too large" -/
example : utilsStrTo .int8 b!"300x" = (127, some .rng) ∧ utilsStrTo .int8 b!"200x" = (0, some .syn) := by decide +kernel
example : (Src.plain (.int .int64 300)).int .uint8 = (255, some .rng) ∧ (Src.plain (.int .int64 (-1))).int .uint8 = (0, some .syn) ∧
    (Src.named (.int .uint 7)).int .uint = (7, none) := by decide +kernel
example : (Src.plain (.str b!"on")).bool = (true, true) ∧ (Src.named (.str b!"on")).bool = (false, false) := by decide +kernel

end Verif.Conv
