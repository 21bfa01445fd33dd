import Verif.Model.Rand
import Verif.Proofs.Strconv
/-!
# C37–C39: session ids, number encoding, random strings
-/
namespace Verif.Rand
open Verif.Go

/-! ## C39 random strings -/

theorem pick_mem {a : Str} {b c : UInt8} (h : pick a b = some c) : c ∈ a := by
  unfold pick at h
  split at h
  · simp at h
  · exact List.mem_of_getElem? h

theorem pick_some {a : Str} (h : a.length % 256 ≠ 0) (b : UInt8) : ∃ c, pick a b = some c := by
  unfold pick
  rw [if_neg h]
  have : b.toNat % (a.length % 256) < a.length := by
    have h1 := Nat.mod_lt b.toNat (show 0 < a.length % 256 by omega)
    have h2 := Nat.mod_le a.length 256
    omega
  exact ⟨_, List.getElem?_eq_getElem this⟩

theorem mapM_pick {a : Str} : ∀ {e s : Str}, e.mapM (pick a) = some s →
    s.length = e.length ∧ ∀ c ∈ s, c ∈ a
  | [], s, h => by simp at h; subst h; simp
  | b :: bs, s, h => by
    rw [List.mapM_cons] at h
    cases hp : pick a b with
    | none => rw [hp] at h; simp at h
    | some c =>
      rw [hp] at h
      cases hm : bs.mapM (pick a) with
      | none => rw [hm] at h; simp at h
      | some cs =>
        rw [hm] at h
        simp at h
        subst h
        have ih := mapM_pick hm
        refine ⟨by simp [ih.1], fun x hx => ?_⟩
        rcases List.mem_cons.1 hx with rfl | hx
        · exact pick_mem hp
        · exact ih.2 x hx

theorem mapM_pick_some {a : Str} (h : a.length % 256 ≠ 0) : ∀ e : Str, ∃ s, e.mapM (pick a) = some s
  | [] => ⟨[], by simp⟩
  | b :: bs => by
    obtain ⟨c, hc⟩ := pick_some h b
    obtain ⟨cs, hcs⟩ := mapM_pick_some h bs
    exact ⟨c :: cs, by rw [List.mapM_cons, hc, hcs]; rfl⟩

/-- Whatever the random source returns, a successful call yields exactly `n` bytes of the alphabet (of the
default alphabet when none is given). -/
theorem C39_random_in_alphabet (n : Int) (alphabet : Str) (entropy : Option Str) (s : Str)
    (h : randomCreateBytes n alphabet entropy = .ok s) :
    (s.length : Int) = n ∧ ∀ c ∈ s, c ∈ (if alphabet = [] then defaultAlphabet else alphabet) := by
  unfold randomCreateBytes at h
  split at h
  · simp at h
  · split at h
    · simp at h
    · rename_i e
      split at h
      · simp at h
      · rename_i hl
        split at h
        · simp at h
        · rename_i s' hm
          simp at h
          subst h
          have := mapM_pick hm
          refine ⟨by omega, fun c hc => ?_⟩
          have hc' := this.2 c hc
          by_cases ha : alphabet = []
          · subst ha; simpa using hc'
          · rw [if_neg ha]; rw [if_neg (by simpa using ha)] at hc'; exact hc'

/-- The call succeeds whenever the source delivers, unless the alphabet's length is a multiple of 256. -/
theorem C39_random_succeeds (n : Nat) (alphabet e : Str) (he : e.length = n)
    (ha : alphabet = [] ∨ alphabet.length % 256 ≠ 0) :
    ∃ s, randomCreateBytes n alphabet (some e) = .ok s := by
  have hA : (if alphabet.length = 0 then defaultAlphabet else alphabet).length % 256 ≠ 0 := by
    by_cases h : alphabet.length = 0
    · rw [if_pos h]; decide
    · rw [if_neg h]
      rcases ha with rfl | ha
      · simp at h
      · exact ha
  obtain ⟨s, hs⟩ := mapM_pick_some hA e
  refine ⟨s, ?_⟩
  unfold randomCreateBytes
  rw [if_neg (by omega)]
  simp only
  rw [if_neg (by omega), hs]

/-- An alphabet of 256 bytes makes every non-empty request panic. -/
theorem C39_random_256_violated (alphabet e : Str) (n : Nat) (h : alphabet.length = 256)
    (he : e.length = n) (hn : 0 < n) : randomCreateBytes n alphabet (some e) = .panic := by
  unfold randomCreateBytes
  rw [if_neg (by omega)]
  simp only
  rw [if_neg (by omega), if_neg (by omega)]
  cases e with
  | nil => simp at he; omega
  | cons b bs =>
    rw [List.mapM_cons]
    have : pick alphabet b = none := by unfold pick; rw [if_pos (by omega)]
    rw [this]; rfl

/-- Alphabets of at most 255 bytes are used completely: every character can come out. -/
theorem C39_random_every_char (alphabet : Str) (c : UInt8) (hc : c ∈ alphabet) (hl : alphabet.length < 256) :
    ∃ e, randomCreateBytes 1 alphabet (some [e]) = .ok [c] := by
  obtain ⟨i, hi, e⟩ := List.getElem_of_mem hc
  refine ⟨UInt8.ofNat i, ?_⟩
  have hp : pick alphabet (UInt8.ofNat i) = some c := by
    unfold pick
    rw [if_neg (by omega)]
    have : (UInt8.ofNat i).toNat % (alphabet.length % 256) = i := by
      simp only [UInt8.toNat_ofNat']
      rw [Nat.mod_eq_of_lt (a := alphabet.length) hl, Nat.mod_eq_of_lt (a := i) (by omega),
        Nat.mod_eq_of_lt hi]
    rw [this, List.getElem?_eq_getElem hi, e]
  unfold randomCreateBytes
  rw [if_neg (by omega)]
  simp only
  rw [if_neg (by simp), if_neg (by omega)]
  simp [hp]

/-! ## C38 number encoding -/

theorem parseBig_foldlM (n : Nat) :
    (natDec n).foldlM (fun (a : Nat) c => (digitVal? c).map (a * 10 + ·)) 0 = some n := by
  induction n using Nat.strongRecOn with
  | _ n ih =>
    by_cases h : n < 10
    · rw [natDec_lt h]
      simp [digitVal_digit h]
    · rw [natDec_ge (by omega), List.foldlM_append, ih (n / 10) (by omega)]
      simp [digitVal_digit (show n % 10 < 10 by omega)]
      omega

theorem parseBig_natDec (n : Nat) : parseBig (natDec n) = some (n : Int) := by
  have hh := natDec_head_ne n
  have hb : (if (natDec n).head? = some 43 ∨ (natDec n).head? = some 45 then (natDec n).drop 1
      else natDec n) = natDec n := if_neg (by simp [hh.1, hh.2])
  simp only [parseBig, hb]
  rw [if_neg (natDec_ne_nil n), parseBig_foldlM]
  simp [hh.2]

theorem parseBig_fmtInt (i : Int) : parseBig (fmtInt i) = some i := by
  cases i with
  | ofNat n => exact parseBig_natDec n
  | negSucc n =>
    have e : fmtInt (Int.negSucc n) = 45 :: natDec (n + 1) := rfl
    rw [e]
    have hb : (if ((45 :: natDec (n + 1) : Str)).head? = some 43 ∨ ((45 :: natDec (n + 1) : Str)).head? = some 45
      then ((45 :: natDec (n + 1) : Str)).drop 1 else 45 :: natDec (n + 1)) = natDec (n + 1) := by simp
    simp only [parseBig, hb]
    rw [if_neg (natDec_ne_nil _), parseBig_foldlM]
    simp [Int.negSucc_eq]

theorem encodeLoop_fuel (a : Str) (ha : 2 ≤ a.length) : ∀ f g x, x ≤ f → x ≤ g →
    encodeLoop a f x = encodeLoop a g x := by
  intro f
  induction f with
  | zero =>
    intro g x h1 _
    have : x = 0 := by omega
    subst this
    cases g <;> simp [encodeLoop]
  | succ f ih =>
    intro g x h1 h2
    cases g with
    | zero =>
      have : x = 0 := by omega
      subst this
      simp [encodeLoop]
    | succ g =>
      simp only [encodeLoop]
      by_cases hx : x = 0
      · rw [if_pos hx, if_pos hx]
      · rw [if_neg hx, if_neg hx]
        have : x / a.length < x := Nat.div_lt_self (by omega) (by omega)
        rw [ih g _ (by omega) (by omega)]

/-- the digits of `x` -/
def enc (a : Str) (x : Nat) : Str := encodeLoop a x x

theorem enc_zero (a : Str) : enc a 0 = [] := rfl

theorem enc_pos (a : Str) (ha : 2 ≤ a.length) {x : Nat} (hx : x ≠ 0) :
    enc a x = a[x % a.length]?.getD 0 :: enc a (x / a.length) := by
  unfold enc
  cases x with
  | zero => exact absurd rfl hx
  | succ x =>
    simp only [encodeLoop]
    rw [if_neg hx]
    have : (x + 1) / a.length < x + 1 := Nat.div_lt_self (by omega) (by omega)
    rw [encodeLoop_fuel a ha x _ _ (by omega) (Nat.le_refl _)]

theorem indexInt_get (a : Str) (hnd : a.Nodup) {i : Nat} (h : i < a.length) :
    indexInt a (a[i]?.getD 0) = i := by
  unfold indexInt
  rw [List.getElem?_eq_getElem h]
  simp only [Option.getD_some]
  have : a.findIdx? (· == a[i]) = some i := by
    rw [List.findIdx?_eq_some_iff_getElem]
    refine ⟨h, by simp, fun j hj => ?_⟩
    intro e
    simp at e
    have := List.pairwise_iff_getElem.1 hnd j i (by omega) h hj
    exact this e
  rw [this]

theorem decode_enc (a : Str) (ha : 2 ≤ a.length) (hnd : a.Nodup) (x : Nat) :
    (enc a x).foldr (fun c (y : Int) => y * a.length + indexInt a c) 0 = (x : Int) := by
  induction x using Nat.strongRecOn with
  | _ x ih =>
    by_cases hx : x = 0
    · subst hx; simp [enc_zero]
    · rw [enc_pos a ha hx, List.foldr_cons, ih _ (Nat.div_lt_self (by omega) (by omega)),
        indexInt_get a hnd (Nat.mod_lt _ (by omega))]
      have := Nat.div_add_mod x a.length
      rw [Nat.mul_comm] at this
      exact_mod_cast this

theorem numberEncode_nat (a : Str) (ha : 2 ≤ a.length) (n : Nat) :
    numberEncode (natDec n) a = .ok (enc a n) := by
  unfold numberEncode
  rw [parseBig_natDec]
  simp only
  by_cases h : n = 0
  · subst h; rw [if_pos (by simp)]; rfl
  · rw [if_neg (by omega), if_neg (by omega), if_neg (by omega)]
    simp [enc]

/-- Decoding the encoding of any natural number, over any alphabet of at least two distinct characters,
gives back its decimal text. -/
theorem C38_number_roundtrip (a : Str) (ha : 2 ≤ a.length) (hnd : a.Nodup) (n : Nat) :
    ∃ s, numberEncode (natDec n) a = .ok s ∧ numberDecode s a = natDec n := by
  refine ⟨_, numberEncode_nat a ha n, ?_⟩
  unfold numberDecode
  rw [decode_enc a ha hnd]; rfl

/-- Distinct numbers have distinct encodings. -/
theorem C38_encode_injective (a : Str) (ha : 2 ≤ a.length) (hnd : a.Nodup) (m n : Nat)
    (h : numberEncode (natDec m) a = numberEncode (natDec n) a) : m = n := by
  rw [numberEncode_nat a ha, numberEncode_nat a ha] at h
  simp at h
  have h1 := decode_enc a ha hnd m
  rw [h, decode_enc a ha hnd n] at h1
  omega

theorem enc_mem (a : Str) (ha : 2 ≤ a.length) (x : Nat) : ∀ c ∈ enc a x, c ∈ a := by
  induction x using Nat.strongRecOn with
  | _ x ih =>
    by_cases hx : x = 0
    · subst hx; simp [enc_zero]
    · rw [enc_pos a ha hx]
      intro c hc
      rcases List.mem_cons.1 hc with rfl | hc
      · have : x % a.length < a.length := Nat.mod_lt _ (by omega)
        rw [List.getElem?_eq_getElem this]; simp
      · exact ih _ (Nat.div_lt_self (by omega) (by omega)) c hc

/-- Encodings use only characters of the alphabet. -/
theorem C38_encode_alphabet (a : Str) (ha : 2 ≤ a.length) (n : Nat) (s : Str)
    (h : numberEncode (natDec n) a = .ok s) : ∀ c ∈ s, c ∈ a := by
  rw [numberEncode_nat a ha] at h
  simp at h; subst h; exact enc_mem a ha n

/-- Text that is not a positive decimal number encodes to the empty text. -/
theorem C38_encode_invalid (a number : Str) (h : ∀ n : Nat, 0 < n → parseBig number ≠ some (n : Int)) :
    numberEncode number a = .ok [] := by
  unfold numberEncode
  cases hp : parseBig number with
  | none => rfl
  | some x =>
    simp only
    rw [if_pos]
    by_cases hx : x ≤ 0
    · exact hx
    · exfalso
      have := h x.toNat (by omega)
      rw [hp] at this
      apply this
      congr 1; omega

/-- With one character, encoding does not terminate; with none, it panics. -/
theorem C38_small_alphabet (c : UInt8) (n : Nat) (h : 0 < n) :
    numberEncode (natDec n) [c] = .diverge ∧ numberEncode (natDec n) [] = .panic := by
  unfold numberEncode
  rw [parseBig_natDec]
  simp only
  rw [if_neg (by omega)]
  simp; omega

theorem enc_length_le (a : Str) (ha : 2 ≤ a.length) : ∀ (k x : Nat), x < a.length ^ k → (enc a x).length ≤ k
  | 0, x, h => by
    have : x = 0 := by simpa using h
    subst this; simp [enc_zero]
  | k + 1, x, h => by
    by_cases hx : x = 0
    · subst hx; simp [enc_zero]
    · rw [enc_pos a ha hx]
      have : x / a.length < a.length ^ k := by
        rw [Nat.div_lt_iff_lt_mul (by omega)]
        rw [Nat.pow_succ] at h; exact h
      have := enc_length_le a ha k _ this
      simp; omega

theorem enc_length_ge (a : Str) (ha : 2 ≤ a.length) : ∀ (k x : Nat), a.length ^ k ≤ x → k + 1 ≤ (enc a x).length
  | 0, x, h => by
    have : x ≠ 0 := by simp at h; omega
    rw [enc_pos a ha this]; simp
  | k + 1, x, h => by
    have hp : 0 < a.length ^ (k + 1) := Nat.pow_pos (by omega)
    have hx : x ≠ 0 := by omega
    rw [enc_pos a ha hx]
    have : a.length ^ k ≤ x / a.length := by
      rw [Nat.le_div_iff_mul_le (by omega)]
      rw [Nat.pow_succ] at h; exact h
    have := enc_length_ge a ha k _ this
    simp; omega

/-! ## C37 session ids -/

theorem fmtInt_nat {t : Int} (h : 0 ≤ t) : fmtInt t = natDec t.toNat := by
  cases t with
  | ofNat n => rfl
  | negSucc n => omega

theorem sessionAlphabet_length : sessionAlphabet.length = 36 := by decide

theorem sessionAlphabet_nodup : sessionAlphabet.Nodup := by decide

theorem createSid_eq (t : Int) (entropy : Nat → Option Str) (s : Str) (h : createSid t entropy = .ok s) :
    ∃ pre r, numberEncode (fmtInt t) sessionAlphabet = .ok pre ∧ s = pre ++ r ∧
      randomCreateBytes (20 - pre.length : Int) sessionAlphabet
        (entropy (20 - pre.length : Int).toNat) = .ok r := by
  unfold createSid at h
  split at h
  · rename_i pre hp
    simp only at h
    split at h
    · rename_i r hr
      simp at h
      exact ⟨pre, r, hp, h.symm, hr⟩
    · simp at h
    · rename_i e hne1 hne2
      exact absurd h (fun h => by first | exact hne1 _ h | exact hne2 _ h | simp_all)
  · rename_i e hne
    exact absurd h (fun h => hne _ h)

/-- Every session id has 20 characters, all from the session alphabet, whatever the clock and the random
source. -/
theorem C37_sid_shape (t : Int) (entropy : Nat → Option Str) (s : Str) (h : createSid t entropy = .ok s) :
    s.length = 20 ∧ ∀ c ∈ s, c ∈ sessionAlphabet := by
  obtain ⟨pre, r, hp, rfl, hr⟩ := createSid_eq t entropy s h
  have hrr := C39_random_in_alphabet _ _ _ _ hr
  rw [if_neg (by decide)] at hrr
  have hpre : ∀ c ∈ pre, c ∈ sessionAlphabet := by
    by_cases ht : 0 ≤ t
    · rw [fmtInt_nat ht] at hp
      exact C38_encode_alphabet _ (by decide) _ _ hp
    · have : numberEncode (fmtInt t) sessionAlphabet = .ok [] := by
        unfold numberEncode
        rw [parseBig_fmtInt]
        simp only
        rw [if_pos (by omega)]
      rw [this] at hp
      simp at hp; subst hp; simp
  refine ⟨?_, fun c hc => ?_⟩
  · have := hrr.1
    simp; omega
  · rcases List.mem_append.1 hc with h | h
    · exact hpre c h
    · exact hrr.2 c h

/-- With a working random source, an id is made at every clock reading a 64-bit clock can show. -/
theorem C37_sid_always_made (t : Int) (h : t < 2 ^ 63) (entropy : Nat → Option Str)
    (he : ∀ n, ∃ e, entropy n = some e ∧ e.length = n) : ∃ s, createSid t entropy = .ok s := by
  have hpre : ∃ pre, numberEncode (fmtInt t) sessionAlphabet = .ok pre ∧ pre.length ≤ 20 := by
    by_cases ht : 0 ≤ t
    · refine ⟨_, by rw [fmtInt_nat ht]; exact numberEncode_nat _ (by decide) _, ?_⟩
      apply enc_length_le _ (by decide)
      have : (sessionAlphabet.length : Nat) ^ 20 = 36 ^ 20 := by rw [sessionAlphabet_length]
      rw [this]; omega
    · refine ⟨[], ?_, by simp⟩
      unfold numberEncode
      rw [parseBig_fmtInt]
      simp only
      rw [if_pos (by omega)]
  obtain ⟨pre, hp, hl⟩ := hpre
  obtain ⟨e, he1, he2⟩ := he (20 - pre.length)
  have : ((20 : Int) - pre.length) = ((20 - pre.length : Nat) : Int) := by omega
  obtain ⟨r, hr⟩ := C39_random_succeeds (20 - pre.length) sessionAlphabet e he2 (Or.inr (by decide))
  refine ⟨pre ++ r, ?_⟩
  unfold createSid
  rw [hp]
  simp only
  rw [this]
  simp only [Int.toNat_natCast]
  rw [he1, hr]

/-- Ids made at different times between February 1974 and the year 2120 (times of twelve base-36 digits)
differ, whatever the random source returns. Outside that window the statement is false (below). -/
theorem C37_sid_unique_partial (t1 t2 : Int) (e1 e2 : Nat → Option Str) (s1 s2 : Str)
    (h1 : 36 ^ 11 ≤ t1 ∧ t1 < 36 ^ 12) (h2 : 36 ^ 11 ≤ t2 ∧ t2 < 36 ^ 12) (hne : t1 ≠ t2)
    (hs1 : createSid t1 e1 = .ok s1) (hs2 : createSid t2 e2 = .ok s2) : s1 ≠ s2 := by
  obtain ⟨p1, r1, hp1, rfl, _⟩ := createSid_eq t1 e1 s1 hs1
  obtain ⟨p2, r2, hp2, rfl, _⟩ := createSid_eq t2 e2 s2 hs2
  have hlen : ∀ (t : Int) (p : Str), (36 ^ 11 ≤ t ∧ t < 36 ^ 12) →
      numberEncode (fmtInt t) sessionAlphabet = .ok p → p.length = 12 ∧ p = enc sessionAlphabet t.toNat := by
    intro t p ht hp
    rw [fmtInt_nat (by omega), numberEncode_nat _ (by decide)] at hp
    simp at hp
    subst hp
    refine ⟨?_, rfl⟩
    have a1 := enc_length_le sessionAlphabet (by decide) 12 t.toNat (by
      rw [sessionAlphabet_length]; omega)
    have a2 := enc_length_ge sessionAlphabet (by decide) 11 t.toNat (by
      rw [sessionAlphabet_length]; omega)
    omega
  obtain ⟨l1, q1⟩ := hlen t1 p1 h1 hp1
  obtain ⟨l2, q2⟩ := hlen t2 p2 h2 hp2
  intro e
  have := (List.append_inj e (by omega)).1
  rw [q1, q2] at this
  have d1 := decode_enc sessionAlphabet (by decide) sessionAlphabet_nodup t1.toNat
  rw [this, decode_enc sessionAlphabet (by decide) sessionAlphabet_nodup t2.toNat] at d1
  omega

/-- In general two clock readings can give the same id: the random tail of the shorter prefix completes
it to the longer one. -/
theorem C37_sid_unique_violated :
    ∃ e1 e2 : Nat → Option Str, ∃ s, createSid 1 e1 = .ok s ∧ createSid 37 e2 = .ok s := by
  refine ⟨fun n => some (1 :: List.replicate (n - 1) 0), fun n => some (List.replicate n 0),
    b!"11000000000000000000", ?_, ?_⟩ <;> decide +kernel

/-! ## The hypotheses are satisfiable -/

example : createSid 1700000000000000000 (fun n => some (List.replicate n 10)) =
    .ok b!"8ESPGLEPVYWCAAAAAAAA" := by decide +kernel

example : numberEncode b!"1234567890" b!"01" = .ok b!"0100101101000000011010011001001" ∧
    numberDecode b!"0100101101000000011010011001001" b!"01" = b!"1234567890" := by decide +kernel

example : (36 : Int) ^ 11 ≤ 1700000000000000000 ∧ (1700000000000000000 : Int) < 36 ^ 12 := by decide

/-- `NumberDecode` does not notice characters outside the alphabet: each counts as the digit -1, so a
single foreign character decodes to `-1`, and different texts decode to the same number. -/
theorem C38_decode_foreign_violated (a : Str) (c : UInt8) (hc : c ∉ a) :
    numberDecode [c] a = b!"-1" ∧
    ∀ c', c' ∉ a → ∀ s, numberDecode (c :: s) a = numberDecode (c' :: s) a := by
  have hi : ∀ c, c ∉ a → indexInt a c = -1 := by
    intro c hc
    unfold indexInt
    have : a.findIdx? (· == c) = none := by
      rw [List.findIdx?_eq_none_iff]
      intro x hx
      simp
      intro h; exact hc (h ▸ hx)
    rw [this]
  constructor
  · unfold numberDecode
    simp only [List.foldr_cons, List.foldr_nil, hi c hc]
    rw [Int.zero_mul]
    decide
  · intro c' hc' s
    unfold numberDecode
    simp only [List.foldr_cons, hi c hc, hi c' hc']

example : numberDecode b!"!1" b!"01" = b!"1" := by decide +kernel

end Verif.Rand
