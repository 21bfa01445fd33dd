import Verif.Props.Rand
/-!
# C144: how evenly random strings and session ids are distributed, exactly

Probability is counting: the source's answers of a given length are taken to be equally likely, and the theorems say how many of them lead to
a result.
-/
namespace Verif.Rand
open Verif.Go

/-! ## Specification -/

/-- All bytes. -/
def Spec.bytes : List UInt8 := (List.range 256).map UInt8.ofNat

/-- All byte strings of a length, each once (`strings_mem`, `strings_nodup`). -/
def Spec.strings : Nat → List Str
  | 0 => [[]]
  | n + 1 => Spec.bytes.flatMap fun b => (Spec.strings n).map (b :: ·)

/-- How many byte strings of a length have a property. -/
def Spec.howMany (n : Nat) (p : Str → Bool) : Nat := (Spec.strings n).countP p

/-- How many of the 256 bytes lead to the `i`th of `L` characters: 256/L, and one more for the first 256 mod L. -/
def Spec.weight (L i : Nat) : Nat := 256 / L + if i < 256 % L then 1 else 0

/-- The product of the weights of the characters of a string. -/
def Spec.weights (alphabet : Str) (s : Str) : Nat :=
  s.foldr (fun c n => Spec.weight alphabet.length (alphabet.idxOf c) * n) 1

/-! ## Sanity of the specification -/

theorem bytes_mem (b : UInt8) : b ∈ Spec.bytes := by
  unfold Spec.bytes
  refine List.mem_map.2 ⟨b.toNat, List.mem_range.2 b.toNat_lt, ?_⟩
  simp

theorem bytes_nodup : Spec.bytes.Nodup := by decide +kernel

theorem strings_mem : ∀ (n : Nat) (e : Str), e ∈ Spec.strings n ↔ e.length = n
  | 0, e => by simp [Spec.strings]
  | n + 1, [] => by simp [Spec.strings]
  | n + 1, b :: e => by
    simp only [Spec.strings, List.mem_flatMap, List.mem_map, List.length_cons, Nat.add_right_cancel_iff]
    constructor
    · rintro ⟨c, _, e', he, h⟩
      cases h
      exact (strings_mem n _).1 he
    · intro h
      exact ⟨b, bytes_mem b, e, (strings_mem n e).2 h, rfl⟩

theorem strings_length : ∀ n : Nat, (Spec.strings n).length = 256 ^ n
  | 0 => rfl
  | n + 1 => by
    have : ∀ l : List UInt8, (l.flatMap fun b => (Spec.strings n).map (b :: ·)).length = l.length * 256 ^ n := by
      intro l
      induction l with
      | nil => simp
      | cons a l ih => rw [List.flatMap_cons, List.length_append, ih, List.length_map, strings_length n, List.length_cons, Nat.succ_mul, Nat.add_comm]
    unfold Spec.strings
    rw [this, show Spec.bytes.length = 256 from by simp [Spec.bytes], Nat.pow_succ, Nat.mul_comm]

theorem strings_nodup : ∀ n : Nat, (Spec.strings n).Nodup
  | 0 => by simp [Spec.strings]
  | n + 1 => by
    have key : ∀ l : List UInt8, l.Nodup → (l.flatMap fun b => (Spec.strings n).map (b :: ·)).Nodup := by
      intro l
      induction l with
      | nil => intro _; simp
      | cons a l ih =>
        intro h
        rw [List.nodup_cons] at h
        rw [List.flatMap_cons, List.nodup_append]
        refine ⟨?_, ih h.2, ?_⟩
        · rw [List.nodup_iff_pairwise_ne, List.pairwise_map]
          refine List.Pairwise.imp (fun {x y} hxy => ?_) (strings_nodup n)
          intro e; exact hxy (List.cons.inj e).2
        · intro x hx y hy e
          subst e
          obtain ⟨x', _, rfl⟩ := List.mem_map.1 hx
          obtain ⟨b, hb, hy⟩ := List.mem_flatMap.1 hy
          obtain ⟨y', _, e⟩ := List.mem_map.1 hy
          have := (List.cons.inj e).1
          subst this
          exact h.1 hb
    exact key _ bytes_nodup

/-! ## Counting -/

theorem countP_range (L i : Nat) (hL : 0 < L) (hi : i < L) : ∀ N : Nat,
    (List.range N).countP (fun n => n % L == i) = N / L + if i < N % L then 1 else 0
  | 0 => by simp
  | N + 1 => by
    rw [List.range_succ, List.countP_append, countP_range L i hL hi N, List.countP_cons, List.countP_nil]
    have hm := Nat.mod_lt N hL
    by_cases h : N % L = L - 1
    · have e1 : (N + 1) / L = N / L + 1 := by
        have := Nat.div_add_mod N L
        rw [show N + 1 = L * (N / L + 1) by rw [Nat.mul_add]; omega, Nat.mul_div_cancel_left _ hL]
      have e2 : (N + 1) % L = 0 := by
        have := Nat.div_add_mod N L
        rw [show N + 1 = L * (N / L + 1) by rw [Nat.mul_add]; omega, Nat.mul_mod_right]
      rw [e1, e2, h]
      by_cases hi' : i = L - 1
      · subst hi'; simp
      · have : i < L - 1 := by omega
        have ne : ¬ L - 1 = i := by omega
        simp [this, ne]
    · have hlt : N % L + 1 < L := by omega
      have e2 : (N + 1) % L = N % L + 1 := by rw [Nat.add_mod, Nat.mod_eq_of_lt (a := 1) (by omega), Nat.mod_eq_of_lt hlt]
      have e1 : (N + 1) / L = N / L := by
        have a := Nat.div_add_mod N L
        have b := Nat.div_add_mod (N + 1) L
        rw [e2] at b
        have : L * ((N + 1) / L) = L * (N / L) := by omega
        exact Nat.eq_of_mul_eq_mul_left hL this
      rw [e1, e2]
      by_cases h3 : N % L = i
      · subst h3; simp
      · by_cases h4 : i < N % L
        · have h5 : i < N % L + 1 := by omega
          have h6 : ¬ N % L = i := h3
          simp [h4, h5, h6]
        · have h5 : ¬ i < N % L + 1 := by omega
          simp [h4, h5, h3]

theorem countP_flat (p : UInt8 → Bool) (q : Str → Bool) (m : List Str) : ∀ l : List UInt8,
    (l.flatMap fun b => m.map (b :: ·)).countP (fun e => match e with | [] => false | b :: e => p b && q e) = l.countP p * m.countP q
  | [] => by simp
  | b :: l => by
    rw [List.flatMap_cons, List.countP_append, countP_flat p q m l, List.countP_map, List.countP_cons, Nat.add_mul, Nat.add_comm]
    congr 1
    cases hp : p b with
    | true =>
      simp only [if_true, Nat.one_mul]
      refine List.countP_congr fun e _ => ?_
      simp [hp]
    | false =>
      simp only [Bool.false_eq_true, if_false, Nat.zero_mul]
      rw [List.countP_eq_zero]
      intro e _
      simp [hp]

/-! ## One character -/

theorem nodup_inj {l : Str} (hn : l.Nodup) {i j : Nat} (hi : i < l.length) (hj : j < l.length) (h : l[i] = l[j]) : i = j := by
  have p := List.pairwise_iff_getElem.1 hn
  rcases Nat.lt_trichotomy i j with a | a | a
  · exact absurd h (p i j hi hj a)
  · exact a
  · exact absurd h.symm (p j i hj hi a)

theorem pick_iff (alphabet : Str) (hn : alphabet.Nodup) (h0 : 0 < alphabet.length) (h1 : alphabet.length < 256) (c : UInt8) (hc : c ∈ alphabet)
    (b : UInt8) : pick alphabet b = some c ↔ b.toNat % alphabet.length = alphabet.idxOf c := by
  have hm : alphabet.length % 256 = alphabet.length := Nat.mod_eq_of_lt h1
  unfold pick
  rw [hm, if_neg (by omega)]
  have hlt : b.toNat % alphabet.length < alphabet.length := Nat.mod_lt _ h0
  have hidx : alphabet.idxOf c < alphabet.length := List.idxOf_lt_length_of_mem hc
  constructor
  · intro h
    rw [List.getElem?_eq_getElem hlt, Option.some.injEq] at h
    have e := List.getElem_idxOf hidx
    exact nodup_inj hn hlt hidx (h.trans e.symm)
  · intro h
    rw [h, List.getElem?_eq_getElem hidx, List.getElem_idxOf]

/-- How many bytes lead to a character. -/
theorem pick_count (alphabet : Str) (hn : alphabet.Nodup) (h0 : 0 < alphabet.length) (h1 : alphabet.length < 256) (c : UInt8)
    (hc : c ∈ alphabet) : Spec.bytes.countP (fun b => decide (pick alphabet b = some c)) = Spec.weight alphabet.length (alphabet.idxOf c) := by
  have hidx : alphabet.idxOf c < alphabet.length := List.idxOf_lt_length_of_mem hc
  unfold Spec.bytes Spec.weight
  rw [List.countP_map, ← countP_range alphabet.length (alphabet.idxOf c) h0 hidx 256]
  refine List.countP_congr fun n hn' => ?_
  have hlt : n < 256 := List.mem_range.1 hn'
  have e : (UInt8.ofNat n).toNat = n := by simp; omega
  simp only [Function.comp, decide_eq_true_eq, beq_iff_eq]
  rw [pick_iff alphabet hn h0 h1 c hc, e]

theorem mapM_cons_iff (alphabet : Str) (c : UInt8) (s : Str) (b : UInt8) (e : Str) :
    (b :: e).mapM (pick alphabet) = some (c :: s) ↔ pick alphabet b = some c ∧ e.mapM (pick alphabet) = some s := by
  simp only [List.mapM_cons, Option.pure_def, Option.bind_eq_bind, Option.bind_eq_some_iff, Option.some.injEq, List.cons.injEq]
  constructor
  · rintro ⟨x, hx, y, hy, rfl, rfl⟩; exact ⟨hx, hy⟩
  · rintro ⟨hx, hy⟩; exact ⟨c, hx, s, hy, rfl, rfl⟩

theorem mapM_count (alphabet : Str) (hn : alphabet.Nodup) (h0 : 0 < alphabet.length) (h1 : alphabet.length < 256) : ∀ s : Str,
    (∀ c ∈ s, c ∈ alphabet) → (Spec.strings s.length).countP (fun e => decide (e.mapM (pick alphabet) = some s)) = Spec.weights alphabet s
  | [], _ => by simp [Spec.strings, Spec.weights]
  | c :: s, hc => by
    have ih := mapM_count alphabet hn h0 h1 s (fun x hx => hc x (List.mem_cons_of_mem _ hx))
    have := countP_flat (fun b => decide (pick alphabet b = some c)) (fun e => decide (e.mapM (pick alphabet) = some s)) (Spec.strings s.length) Spec.bytes
    rw [ih, pick_count alphabet hn h0 h1 c (hc c List.mem_cons_self)] at this
    rw [show Spec.weights alphabet (c :: s) = Spec.weight alphabet.length (alphabet.idxOf c) * Spec.weights alphabet s from rfl, ← this]
    show (Spec.bytes.flatMap fun b => (Spec.strings s.length).map (b :: ·)).countP _ = _
    refine List.countP_congr fun e he => ?_
    cases e with
    | nil =>
      obtain ⟨b, _, h⟩ := List.mem_flatMap.1 he
      obtain ⟨x, _, h⟩ := List.mem_map.1 h
      cases h
    | cons b e =>
      simp only [decide_eq_true_eq, Bool.and_eq_true]
      exact mapM_cons_iff alphabet c s b e

/-! ## The property -/

/-- **C144 (random strings).** Of the 256^n answers of the source, exactly the product of the characters' weights lead to a given string; a
character's weight is 256/L, one more for the first 256 mod L characters. -/
theorem C144_strings (alphabet : Str) (hn : alphabet.Nodup) (h0 : 0 < alphabet.length) (h1 : alphabet.length < 256) (s : Str)
    (hs : ∀ c ∈ s, c ∈ alphabet) :
    Spec.howMany s.length (fun e => decide (randomCreateBytes s.length alphabet (some e) = .ok s)) = Spec.weights alphabet s := by
  rw [← mapM_count alphabet hn h0 h1 s hs]
  refine List.countP_congr fun e he => ?_
  have hl := (strings_mem _ _).1 he
  simp only [decide_eq_true_eq]
  unfold randomCreateBytes
  rw [if_neg (by omega)]
  simp only
  rw [if_neg (by rw [hl]; simp), if_neg (by omega)]
  cases e.mapM (pick alphabet) with
  | none => simp
  | some x => simp

/-- **C144 (uniform alphabets).** If the number of characters divides 256, all strings are equally likely. -/
theorem C144_uniform (alphabet : Str) (hn : alphabet.Nodup) (h0 : 0 < alphabet.length) (h1 : alphabet.length < 256) (hd : 256 % alphabet.length = 0)
    (s : Str) (hs : ∀ c ∈ s, c ∈ alphabet) :
    Spec.howMany s.length (fun e => decide (randomCreateBytes s.length alphabet (some e) = .ok s)) = (256 / alphabet.length) ^ s.length := by
  rw [C144_strings alphabet hn h0 h1 s hs]
  clear hs
  induction s with
  | nil => rfl
  | cons c s ih =>
    show Spec.weight _ _ * Spec.weights alphabet s = _
    rw [ih, Spec.weight, hd, if_neg (by omega), Nat.add_zero, List.length_cons, Nat.pow_succ, Nat.mul_comm]

/-! ## Session ids -/

/-- **C144 (session ids, exactly).** An id made at time `t` begins with the digits of `t`; of the source's answers for the rest, exactly the
product of the weights of its characters lead to a given id. -/
theorem C144_sid (t : Int) (pre : Str) (hp : numberEncode (fmtInt t) sessionAlphabet = .ok pre) (hl : pre.length ≤ 20) (tail : Str)
    (h20 : tail.length = 20 - pre.length) (hc : ∀ c ∈ tail, c ∈ sessionAlphabet) :
    Spec.howMany tail.length (fun e => decide (createSid t (fun _ => some e) = .ok (pre ++ tail))) = Spec.weights sessionAlphabet tail := by
  rw [← C144_strings sessionAlphabet sessionAlphabet_nodup (by decide) (by decide) tail hc]
  refine List.countP_congr fun e he => ?_
  have hn : (20 : Int) - pre.length = (tail.length : Int) := by omega
  simp only [decide_eq_true_eq]
  unfold createSid
  rw [hp]
  simp only
  rw [hn]
  cases randomCreateBytes (tail.length : Int) sessionAlphabet (some e) with
  | ok r => simp
  | err => simp
  | panic => simp
  | diverge => simp

theorem weight36 (i : Nat) : Spec.weight 36 i ≤ 8 := by unfold Spec.weight; split <;> omega

theorem weights36 (s : Str) : Spec.weights sessionAlphabet s ≤ 8 ^ s.length := by
  induction s with
  | nil => exact Nat.le_refl _
  | cons c s ih =>
    show Spec.weight sessionAlphabet.length _ * Spec.weights sessionAlphabet s ≤ _
    rw [sessionAlphabet_length, List.length_cons, Nat.pow_succ, Nat.mul_comm (8 ^ s.length)]
    exact Nat.mul_le_mul (weight36 _) ih

/-- **C144 (guessing).** Whoever knows the clock reading guesses a session id made between 1974 and 2120 with probability at most 2^-40,
whatever the guess; and there is a guess that succeeds with exactly that probability. -/
theorem C144_guess (t : Int) (ht : 36 ^ 11 ≤ t ∧ t < 36 ^ 12) :
    (∀ s, Spec.howMany 8 (fun e => decide (createSid t (fun _ => some e) = .ok s)) * 2 ^ 40 ≤ 256 ^ 8) ∧
    (∃ s, Spec.howMany 8 (fun e => decide (createSid t (fun _ => some e) = .ok s)) * 2 ^ 40 = 256 ^ 8) := by
  have hp : ∃ pre, numberEncode (fmtInt t) sessionAlphabet = .ok pre ∧ pre.length = 12 := by
    refine ⟨enc sessionAlphabet t.toNat, by rw [fmtInt_nat (by omega)]; exact numberEncode_nat _ (by decide) _, ?_⟩
    have a1 := enc_length_le sessionAlphabet (by decide) 12 t.toNat (by rw [sessionAlphabet_length]; omega)
    have a2 := enc_length_ge sessionAlphabet (by decide) 11 t.toNat (by rw [sessionAlphabet_length]; omega)
    omega
  obtain ⟨pre, hp, hl⟩ := hp
  refine ⟨fun s => ?_, pre ++ b!"00000000", ?_⟩
  · by_cases hx : ∃ tail, s = pre ++ tail ∧ tail.length = 8 ∧ ∀ c ∈ tail, c ∈ sessionAlphabet
    · obtain ⟨tail, rfl, h8, hc⟩ := hx
      have := C144_sid t pre hp (by omega) tail (by omega) hc
      rw [h8] at this
      rw [this]
      have hw := weights36 tail
      rw [h8] at hw
      exact Nat.le_trans (Nat.mul_le_mul_right _ hw) (by decide)
    · have : Spec.howMany 8 (fun e => decide (createSid t (fun _ => some e) = .ok s)) = 0 := by
        unfold Spec.howMany
        rw [List.countP_eq_zero]
        intro e _ h
        simp only [decide_eq_true_eq] at h
        obtain ⟨p, r, h1, h2, h3⟩ := createSid_eq t _ s h
        rw [hp] at h1
        cases h1
        have hr := C39_random_in_alphabet _ _ _ _ h3
        rw [if_neg (by decide)] at hr
        exact hx ⟨r, h2, by have := hr.1; omega, hr.2⟩
      rw [this]; simp
  · have := C144_sid t pre hp (by omega) b!"00000000" (by rw [hl]; rfl) (by decide)
    rw [show (b!"00000000").length = 8 from rfl] at this
    rw [this]
    decide +kernel

/-- The hypotheses are met: the session alphabet, the default one, one of 64 characters; a time in 2023. -/
example : sessionAlphabet.Nodup ∧ sessionAlphabet.length < 256 ∧ defaultAlphabet.Nodup ∧ defaultAlphabet.length < 256 ∧
    (36 : Int) ^ 11 ≤ 1700000000000000000 ∧ (1700000000000000000 : Int) < 36 ^ 12 ∧ 256 % (defaultAlphabet ++ b!"-_").length = 0 ∧
    (defaultAlphabet ++ b!"-_").Nodup := by decide +kernel

/-- With the default alphabet, `0` is a quarter more likely than `Z`. -/
example : Spec.weights defaultAlphabet b!"0" = 5 ∧ Spec.weights defaultAlphabet b!"Z" = 4 := by decide +kernel

end Verif.Rand
