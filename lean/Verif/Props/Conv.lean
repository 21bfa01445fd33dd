import Verif.Proofs.Bytes
import Verif.Proofs.Num
import Verif.Model.Conv
/-!
# C51, C52: number converters
-/
namespace Verif.Conv
open Verif.Go Verif.Go.NumSpec

/-- The numbers of an integer type. -/
def Spec.InType (k : IntKind) (i : Int) : Prop := Fits k.signed k.width i

instance (k : IntKind) (i : Int) : Decidable (Spec.InType k i) := by unfold Spec.InType; infer_instance

theorem width_ge (k : IntKind) : 2 ≤ k.width := by cases k <;> decide

theorem conv_id (k : IntKind) (i : Int) (h : Spec.InType k i) : k.conv i = i := by
  unfold Spec.InType Fits at h
  unfold IntKind.conv
  cases hs : k.signed with
  | true =>
    rw [hs, if_pos rfl] at h
    rw [if_pos rfl]
    exact wrapS_id (by have := width_ge k; omega) h.1 h.2
  | false =>
    rw [hs, if_neg (by simp)] at h
    rw [if_neg (by simp)]
    unfold wrapU
    exact Int.emod_eq_of_lt h.1 (by simpa using h.2)

/-- parse with the sign handling of the type -/
def parseK (k : IntKind) (bits : Nat) (s : Str) : Int × Option NumErr :=
  if k.signed then parseInt bits s else parseUintI bits s

theorem parseK_iff (k : IntKind) (bits : Nat) (hb : 2 ≤ bits) (s : Str) (i : Int) :
    parseK k bits s = (i, none) ↔ Denotes k.signed s i ∧ Fits k.signed bits i := by
  unfold parseK
  cases k.signed with
  | true => rw [if_pos rfl]; exact parseInt_iff bits hb s i
  | false =>
    rw [if_neg (by simp)]
    unfold parseUintI
    constructor
    · intro e
      rw [Prod.mk.injEq] at e
      have h := (parseUint_iff bits s (parseUint bits s).1).1 (by rw [← e.2])
      rw [e.1] at h
      exact h
    · rintro ⟨h1, h2⟩
      have h0 : 0 ≤ i := by unfold Fits at h2; simp at h2; omega
      obtain ⟨n, rfl⟩ := Int.eq_ofNat_of_zero_le h0
      have h := (parseUint_iff bits s n).2 ⟨h1, h2⟩
      rw [h]

theorem parseK_out (k : IntKind) (bits : Nat) (hb : 2 ≤ bits) (s : Str) (i : Int) (h : Denotes k.signed s i)
    (hf : ¬ Fits k.signed bits i) : (parseK k bits s).2 = some .rng := by
  unfold parseK
  revert h hf
  cases k.signed with
  | true => intro h hf; rw [if_pos rfl]; exact (parseInt_denotes bits hb s i h).2 hf
  | false =>
    intro h hf
    rw [if_neg (by simp)]
    unfold parseUintI
    have : ∃ n : Nat, i = n := by
      rcases h with ⟨_, e⟩ | ⟨e, _⟩ | ⟨e, _⟩
      · exact ⟨_, e⟩
      · cases e
      · cases e
    obtain ⟨n, rfl⟩ := this
    rw [parseUint_out bits s n h hf]

/-- bit size each method of the root package's `StrTo` passes -/
def rootBits : IntKind → Nat
  | .uint => 32
  | k => k.width

theorem rootStrTo_eq (k : IntKind) (s : Str) : rootStrTo k s = zeroOnErr k (parseK k (rootBits k) s) := by
  cases k <;> rfl

theorem utilsStrTo_eq (k : IntKind) (s : Str) : utilsStrTo k s = convBoth k (parseK k k.width s) := by
  cases k <;> rfl

theorem valueTo_go_eq (k : IntKind) (s : Str) : valueTo.go k s = convBoth k (parseK k (rootBits k) s) := by
  cases k <;> rfl

theorem fits_rootBits (k : IntKind) (i : Int) (h : Fits k.signed (rootBits k) i) : Spec.InType k i := by
  cases k <;> try exact h
  unfold Spec.InType Fits at *
  simp only [IntKind.signed, rootBits, IntKind.width, Bool.false_eq_true, if_false] at *
  omega

theorem rootBits_ge (k : IntKind) : 2 ≤ rootBits k := by cases k <;> decide

theorem convBoth_parse_iff (k : IntKind) (bits : Nat) (hb : 2 ≤ bits)
    (hc : ∀ i, Fits k.signed bits i → Spec.InType k i) (s : Str) (i : Int) :
    convBoth k (parseK k bits s) = (i, none) ↔ Denotes k.signed s i ∧ Fits k.signed bits i := by
  unfold convBoth
  constructor
  · intro e
    rw [Prod.mk.injEq] at e
    have h := (parseK_iff k bits hb s (parseK k bits s).1).1 (by rw [← e.2])
    have hi : k.conv (parseK k bits s).1 = (parseK k bits s).1 := conv_id k _ (hc _ h.2)
    rw [hi] at e
    rw [e.1] at h
    exact h
  · rintro ⟨h1, h2⟩
    rw [(parseK_iff k bits hb s i).2 ⟨h1, h2⟩]
    rw [conv_id k i (hc i h2)]

theorem zeroOnErr_parse_iff (k : IntKind) (bits : Nat) (hb : 2 ≤ bits)
    (hc : ∀ i, Fits k.signed bits i → Spec.InType k i) (s : Str) (i : Int) :
    zeroOnErr k (parseK k bits s) = (i, none) ↔ Denotes k.signed s i ∧ Fits k.signed bits i := by
  rw [← convBoth_parse_iff k bits hb hc]
  unfold zeroOnErr convBoth
  cases h : (parseK k bits s).2 <;> simp

/-! ## C52: exactly the numerals in range are accepted -/

/-- **C52** (`utils.StrTo`): for every integer type, a string is accepted exactly when it is decimal notation for
a number of that type, and then that number is returned. -/
theorem C52_utils_accepts_iff (k : IntKind) (s : Str) (i : Int) :
    utilsStrTo k s = (i, none) ↔ Denotes k.signed s i ∧ Spec.InType k i := by
  rw [utilsStrTo_eq]
  exact convBoth_parse_iff k k.width (width_ge k) (fun _ h => h) s i

/-- **C52** (root `StrTo`): the same, except that `Uint` accepts only numbers below 2^32. -/
theorem C52_root_accepts_iff (k : IntKind) (s : Str) (i : Int) :
    rootStrTo k s = (i, none) ↔
      Denotes k.signed s i ∧ Spec.InType k i ∧ (k = .uint → i < 2 ^ 32) := by
  rw [rootStrTo_eq, zeroOnErr_parse_iff k _ (rootBits_ge k) (fits_rootBits k)]
  refine and_congr_right fun _ => ⟨fun h => ⟨fits_rootBits k i h, ?_⟩, fun h => ?_⟩
  · rintro rfl
    unfold Fits at h
    simp [IntKind.signed, rootBits] at h
    omega
  · cases k <;> try exact h.1
    have h1 := h.1
    have h2 := h.2 rfl
    unfold Spec.InType Fits at *
    simp [IntKind.signed, rootBits] at *
    omega

/-- **C52**: a numeral outside the type's range is a range error in every converter; the root package's converter
returns 0 with it. -/
theorem C52_out_of_range_rejected (k : IntKind) (s : Str) (i : Int) (h : Denotes k.signed s i)
    (hi : ¬ Spec.InType k i) :
    (utilsStrTo k s).2 = some .rng ∧ rootStrTo k s = (0, some .rng) ∧ (valueTo k (.str s)).2 = some .rng := by
  have hr : ¬ Fits k.signed (rootBits k) i := fun e => hi (fits_rootBits k i e)
  refine ⟨?_, ?_, ?_⟩
  · rw [utilsStrTo_eq]; exact parseK_out k _ (width_ge k) s i h hi
  · rw [rootStrTo_eq]
    unfold zeroOnErr
    rw [parseK_out k _ (rootBits_ge k) s i h hr]
  · show (valueTo.go k s).2 = _
    rw [valueTo_go_eq]
    exact parseK_out k _ (rootBits_ge k) s i h hr

/-- **C52 fails** for the `Must…` methods, which drop the error: an out-of-range numeral is clamped. -/
theorem C52_must_clamps_violated : utilsMust .int8 b!"300" = 127 ∧ utilsMust .uint8 b!"256" = 255 := by
  decide +kernel

/-- **C52 fails** for `ToInt64` of an unsigned value: it wraps, with no error. -/
theorem C52_toInt64_wraps_violated : toInt64 (.int .uint64 (2 ^ 63)) = (-(2 ^ 63), true) := by decide +kernel

/-- `ToInt64` keeps every value that an `int64` can hold. -/
theorem C52_toInt64 (k : IntKind) (i : Int) (h : Spec.InType k i) (hi : i < 2 ^ 63) :
    toInt64 (.int k i) = (i, true) := by
  unfold toInt64
  cases hs : k.signed with
  | true => simp only [hs, if_true]
  | false =>
    unfold Spec.InType Fits at h
    rw [hs] at h
    simp only [Bool.false_eq_true, if_false] at h ⊢
    rw [wrapS_id (by omega) (by have : (0 : Int) ≤ (2 ^ 63 : Nat) := by omega
                                simp only [show 64 - 1 = 63 from rfl]; omega)
      (by simp only [show 64 - 1 = 63 from rfl]; omega)]
    simp

example : Denotes true b!"-129" (-129) ∧ ¬ Spec.InType .int8 (-129) ∧ Denotes false b!"00255" 255 ∧
    Spec.InType .uint8 255 := by
  refine ⟨Or.inr (Or.inr ⟨rfl, _, rfl, ⟨by decide, by decide⟩, by decide⟩), by decide, Or.inl ⟨⟨by decide, by decide⟩, by decide⟩,
    by decide⟩

/-! ## C51: decimal round trip -/

theorem signed_or_nonneg (k : IntKind) (i : Int) (h : Spec.InType k i) : k.signed = true ∨ 0 ≤ i := by
  unfold Spec.InType Fits at h
  cases hs : k.signed with
  | true => exact Or.inl rfl
  | false => rw [hs] at h; simp at h; exact Or.inr h.1

/-- **C51** (`utils.StrTo`): formatting a number of any integer type and parsing it back gives the number. -/
theorem C51_utils_round_trip (k : IntKind) (i : Int) (h : Spec.InType k i) :
    utilsStrTo k (toStr (.int k i)) = (i, none) ∧ utilsMust k (toStr (.int k i)) = i := by
  have : utilsStrTo k (fmtInt i) = (i, none) :=
    (C52_utils_accepts_iff k _ i).2 ⟨fmtInt_denotes _ _ (signed_or_nonneg k i h), h⟩
  refine ⟨this, ?_⟩
  unfold utilsMust
  show (utilsStrTo k (fmtInt i)).1 = i
  rw [this]

/-- **C51** (root `StrTo`): the same for every type but `uint`, and for `uint` below 2^32. -/
theorem C51_root_round_trip_partial (k : IntKind) (i : Int) (h : Spec.InType k i)
    (hu : k = .uint → i < 2 ^ 32) : rootStrTo k (fmtInt i) = (i, none) :=
  (C52_root_accepts_iff k _ i).2 ⟨fmtInt_denotes _ _ (signed_or_nonneg k i h), h, hu⟩

/-- **C51 fails** for `uint`: the decimal form of any larger `uint` is rejected by the root package's converter
and by `utils.Value`. -/
theorem C51_uint_violated (i : Int) (h : Spec.InType .uint i) (hi : 2 ^ 32 ≤ i) :
    rootStrTo .uint (fmtInt i) = (0, some .rng) ∧ (valueTo .uint (.str (fmtInt i))).2 = some .rng := by
  have hd := fmtInt_denotes false i (signed_or_nonneg .uint i h)
  have hr : ¬ Fits false 32 i := by unfold Fits; simp; omega
  have := parseK_out .uint 32 (by decide) _ i hd hr
  constructor
  · rw [rootStrTo_eq]; unfold zeroOnErr
    show (match (parseK .uint 32 (fmtInt i)).2 with | some e => _ | none => _) = _
    rw [this]
  · show (valueTo.go .uint _).2 = _
    rw [valueTo_go_eq]
    exact this

/-- **C51** (`utils.Value`): a value of any integer type converted to any integer type that can hold it is
unchanged (for `uint` from another type, below 2^32). -/
theorem C51_value_conversion_partial (k k' : IntKind) (i : Int) (h : Spec.InType k' i) (hk : Spec.InType k i)
    (hu : k = .uint → k' ≠ .uint → i < 2 ^ 32) : valueTo k (.int k' i) = (i, none) := by
  unfold valueTo
  simp only
  by_cases e : k' = k
  · rw [if_pos e]
  · rw [if_neg e, valueTo_go_eq]
    show convBoth k (parseK k (rootBits k) (fmtInt i)) = _
    refine (convBoth_parse_iff k _ (rootBits_ge k) (fits_rootBits k) _ _).2
      ⟨fmtInt_denotes _ _ (signed_or_nonneg k i hk), ?_⟩
    cases k <;> try exact hk
    have h2 := hu rfl e
    unfold Spec.InType Fits at *
    simp [IntKind.signed, rootBits] at *
    omega

/-- … and one that cannot hold it is an error. -/
theorem C51_value_conversion_error (k k' : IntKind) (i : Int) (h : Spec.InType k' i) (hk : ¬ Spec.InType k i) :
    (valueTo k (.int k' i)).2 ≠ none := by
  unfold valueTo
  simp only
  have hne : k' ≠ k := fun e => hk (e ▸ h)
  rw [if_neg hne, valueTo_go_eq]
  intro e
  have := (convBoth_parse_iff k _ (rootBits_ge k) (fits_rootBits k) (fmtInt i) _).1
    (show convBoth k (parseK k (rootBits k) (fmtInt i)) = ((convBoth k (parseK k (rootBits k) (fmtInt i))).1, none) from by
      rw [← e]; rfl)
  obtain ⟨h1, h2⟩ := this
  have h1' : Denotes true (fmtInt i) (convBoth k (parseK k (rootBits k) (fmtInt i))).1 := by
    rcases h1 with h | ⟨_, h⟩ | ⟨_, h⟩
    · exact Or.inl h
    · exact Or.inr (Or.inl ⟨rfl, h⟩)
    · exact Or.inr (Or.inr ⟨rfl, h⟩)
  have := denotes_unique true _ _ _ (fmtInt_denotes true i (Or.inl rfl)) h1'
  rw [← this] at h2
  exact hk (fits_rootBits k i h2)

/-- **C51 fails** for other values: `ToStr` prints every one of them the same. -/
theorem C51_toStr_other_violated : toStr .other = b!"[]byte(nil)" ∧ toStr .nil = b!"[]byte(nil)" := by decide +kernel

/-- **C51** (booleans): printing and parsing back. -/
theorem C51_bool_round_trip (b : Bool) : strToBool (toStr (.bool b)) = (b, true) := by cases b <;> decide +kernel

/-- **C51** (booleans): `Bool` accepts exactly "on" and the twelve texts of `strconv.ParseBool`, and is true for "on" and six of them. -/
theorem C51_bool_exact (s : Str) :
    ((strToBool s).2 = true ↔ s = b!"on" ∨ s ∈ [b!"1", b!"t", b!"T", b!"true", b!"TRUE", b!"True"] ∨
      s ∈ [b!"0", b!"f", b!"F", b!"false", b!"FALSE", b!"False"]) ∧
    ((strToBool s).1 = true ↔ s = b!"on" ∨ s ∈ [b!"1", b!"t", b!"T", b!"true", b!"TRUE", b!"True"]) := by
  unfold strToBool parseBool
  by_cases h : s = b!"on"
  · simp only [h, if_true]
    decide
  · rw [if_neg h]
    simp only [List.mem_cons, List.not_mem_nil, or_false]
    split
    · rename_i h1; simp [h, h1]
    · rename_i h1
      split
      · rename_i h2; simp [h, h1, h2]
      · rename_i h2; simp [h, h1, h2]

/-- **C51**: the text of strings, byte slices and booleans, and of a `nil` given to `ValueTo`. -/
theorem C51_text (s : Str) : toStr (.str s) = s ∧ toStr (.bytes s) = s ∧ toStr (.bool true) = b!"true" ∧
    toStr (.bool false) = b!"false" ∧ valueString (.str s) = s ∧ valueString .nil = [] ∧
    (∀ v, v ≠ .nil → (∀ s, v ≠ .str s) → valueString v = toStr v) := by
  refine ⟨rfl, rfl, rfl, rfl, rfl, rfl, fun v h h' => ?_⟩
  cases v with
  | nil => exact absurd rfl h
  | str s => exact absurd rfl (h' s)
  | _ => rfl

/-- **C51**: a list of texts joined by a delimiter none of them contains comes back from `Strings`, each text
trimmed; empty texts are kept. -/
theorem C51_strings (d : UInt8) (ps : List Str) (hne : ps ≠ []) (h : ∀ p ∈ ps, d ∉ p) :
    strToStrings (join1 d ps) d = ps.map trimSpace := by
  unfold strToStrings
  rw [splitOn1_join1 d ps hne h]

example : strToStrings b!" a, ,b c ,,"  44 = [b!"a", [], b!"b c", [], []] := by decide +kernel

example : Spec.InType .int64 (-(2 ^ 63)) ∧ Spec.InType .uint64 (2 ^ 64 - 1) ∧ Spec.InType .uint (2 ^ 32) ∧
    ¬ Spec.InType .int8 128 ∧ Spec.InType .uint8 128 := by decide

end Verif.Conv
