import Verif.Go.Enc
import Verif.Proofs.Bytes
/-! Lemmas about hex, base64, query escaping, `SplitN` and `TrimSpace` (no property theorems here). -/
namespace Verif.Go

theorem forall_u8 {P : UInt8 → Prop} (h : ∀ n : Fin 256, P (UInt8.ofNat n.val)) (c : UInt8) : P c := by
  have := h ⟨c.toNat, c.toNat_lt⟩
  simpa using this

/-! ### query escaping -/

/-- a byte that may occur in a `QueryEscape` output: unreserved, `+` or `%` -/
def escByte (c : UInt8) : Bool := unreserved c || c == 43 || c == 37

theorem hexUpper_esc : ∀ n : Fin 16, unreserved (hexUpper n.val) = true := by decide

theorem unhex_hexUpper : ∀ n : Fin 16, unhex (hexUpper n.val) = some n.val := by decide

theorem queryEscape_bytes (s : Str) : ∀ c ∈ queryEscape s, escByte c = true := by
  induction s with
  | nil => simp [queryEscape]
  | cons c cs ih =>
    unfold queryEscape
    have h1 := hexUpper_esc ⟨c.toNat / 16, by have := c.toNat_lt; omega⟩
    have h2 := hexUpper_esc ⟨c.toNat % 16, by omega⟩
    split
    · intro x hx; rcases List.mem_cons.1 hx with rfl | hx
      · rfl
      · exact ih x hx
    · split
      · rename_i hu
        intro x hx; rcases List.mem_cons.1 hx with rfl | hx
        · simp [escByte, hu]
        · exact ih x hx
      · intro x hx
        simp only [List.mem_cons] at hx
        rcases hx with rfl | rfl | rfl | hx
        · rfl
        · simp at h1; simp [escByte, h1]
        · simp at h2; simp [escByte, h2]
        · exact ih x hx

theorem queryEscape_ne_nil {s : Str} (h : s ≠ []) : queryEscape s ≠ [] := by
  cases s with
  | nil => exact absurd rfl h
  | cons c cs => unfold queryEscape; split <;> (try split) <;> simp

theorem unreserved_ne (c : UInt8) : unreserved c = true → c ≠ 37 ∧ c ≠ 43 ∧ c ≠ 32 := by
  revert c; exact forall_u8 (by decide +kernel)

theorem queryUnescape_other {c : UInt8} (h1 : c ≠ 37) (cs : Str) :
    queryUnescape (c :: cs) = (queryUnescape cs).map ((if c = 43 then 32 else c) :: ·) := by
  rw [queryUnescape]
  · rw [if_neg h1]
  · intro a b cs h; exact absurd h h1

theorem query_roundtrip (s : Str) : queryUnescape (queryEscape s) = some s := by
  induction s with
  | nil => rfl
  | cons c cs ih =>
    unfold queryEscape
    split
    · rename_i h; subst h
      rw [queryUnescape_other (by decide), ih]; rfl
    · rename_i h32
      split
      · rename_i hu
        have := unreserved_ne c hu
        rw [queryUnescape_other this.1, ih, if_neg this.2.1]; rfl
      · have h1 := unhex_hexUpper ⟨c.toNat / 16, by have := c.toNat_lt; omega⟩
        have h2 := unhex_hexUpper ⟨c.toNat % 16, by omega⟩
        simp only at h1 h2
        simp only [queryUnescape]
        rw [h1, h2, ih]
        simp only [Option.map_some]
        have : c.toNat / 16 * 16 + c.toNat % 16 = c.toNat := by omega
        rw [this]; simp

theorem queryEscape_inj {a b : Str} (h : queryEscape a = queryEscape b) : a = b := by
  have h1 := query_roundtrip a
  rw [h, query_roundtrip b] at h1
  simpa using h1.symm

/-- Unescaping is the identity on text without `%` and `+`. -/
theorem queryUnescape_plain (s : Str) (h : ∀ c ∈ s, c ≠ 37 ∧ c ≠ 43) : queryUnescape s = some s := by
  induction s with
  | nil => rfl
  | cons c cs ih =>
    have hc := h c (by simp)
    rw [queryUnescape_other hc.1, ih (fun x hx => h x (by simp [hx])), if_neg hc.2]; rfl

/-! ### printable ASCII and TrimSpace -/

/-- printable, non-blank ASCII -/
def plain (c : UInt8) : Bool := 33 ≤ c && c ≤ 126

theorem escByte_plain (c : UInt8) : escByte c = true → plain c = true ∧ c ≠ 44 ∧ c ≠ 124 := by
  revert c; exact forall_u8 (by decide +kernel)

theorem plain_bounds {c : UInt8} (h : plain c = true) : 33 ≤ c.toNat ∧ c.toNat ≤ 126 := by
  unfold plain at h
  simp only [Bool.and_eq_true, decide_eq_true_eq, UInt8.le_iff_toNat_le] at h
  simpa using h

theorem spaceLen_plain (c : UInt8) (r : Str) (h : plain c = true) : spaceLen (c :: r) = 0 := by
  have hb := plain_bounds h
  have ne : ∀ (d : UInt8), (d.toNat < 33 ∨ 126 < d.toNat) → c ≠ d := by
    intro d hd e; subst e; omega
  simp only [spaceLen]
  rw [if_neg]
  · split
    · exact absurd rfl (ne 0xC2 (by decide))
    · exact absurd rfl (ne 0xE1 (by decide))
    · exact absurd rfl (ne 0xE2 (by decide))
    · exact absurd rfl (ne 0xE2 (by decide))
    · exact absurd rfl (ne 0xE3 (by decide))
    · rfl
  · rintro (h | h | h | h | h | h) <;> exact absurd h (ne _ (by decide))

theorem spaceLenRev_plain (c : UInt8) (r : Str) (h : plain c = true) (hr : ∀ x ∈ r, plain x = true) :
    spaceLenRev (c :: r) = 0 := by
  have hb := plain_bounds h
  have ne : ∀ (d : UInt8), (d.toNat < 33 ∨ 126 < d.toNat) → c ≠ d := by
    intro d hd e; subst e; omega
  simp only [spaceLenRev]
  rw [if_neg]
  · split
    · rename_i r'
      have := plain_bounds (hr 0xC2 (by simp))
      simp at this
    · rename_i b a r' _
      rw [spaceLen_plain a _ (hr a (by simp))]; simp
    · rfl
  · rintro (h | h | h | h | h | h) <;> exact absurd h (ne _ (by decide))

theorem trimSpace_plain (s : Str) (h : ∀ c ∈ s, plain c = true) : trimSpace s = s := by
  have hl : trimLeft s = s := by
    unfold trimLeft
    cases s with
    | nil => rfl
    | cons c r =>
      simp only [List.length_cons, trimLeftF]
      rw [if_pos (spaceLen_plain c r (h c (by simp)))]
  unfold trimSpace
  rw [hl]
  unfold trimRight
  have hr : ∀ c ∈ s.reverse, plain c = true := fun c hc => h c (by simpa using hc)
  have : trimLeftRevF s.length s.reverse = s.reverse := by
    rw [← List.length_reverse]
    generalize s.reverse = t at hr
    cases t with
    | nil => rfl
    | cons c r =>
      simp only [List.length_cons, trimLeftRevF]
      rw [if_pos (spaceLenRev_plain c r (hr c (by simp)) (fun x hx => hr x (by simp [hx])))]
  rw [this, List.reverse_reverse]

/-! ### hex -/

theorem hexLower_plain : ∀ n : Fin 16, plain (hexLower n.val) = true ∧ hexLower n.val ≠ 44 ∧
    hexLower n.val ≠ 124 := by decide

theorem hexEncode_bytes (s : Str) : ∀ c ∈ hexEncode s, plain c = true ∧ c ≠ 44 ∧ c ≠ 124 := by
  induction s with
  | nil => simp [hexEncode]
  | cons c cs ih =>
    unfold hexEncode
    have h1 := hexLower_plain ⟨c.toNat / 16, by have := c.toNat_lt; omega⟩
    have h2 := hexLower_plain ⟨c.toNat % 16, by omega⟩
    intro x hx
    simp only [List.mem_cons] at hx
    rcases hx with rfl | rfl | hx
    · exact h1
    · exact h2
    · exact ih x hx

theorem hexLower_inj : ∀ m n : Fin 16, hexLower m.val = hexLower n.val → m = n := by decide

theorem hexEncode_inj : ∀ {a b : Str}, hexEncode a = hexEncode b → a = b
  | [], [], _ => rfl
  | [], _ :: _, h => by simp [hexEncode] at h
  | _ :: _, [], h => by simp [hexEncode] at h
  | x :: xs, y :: ys, h => by
    simp only [hexEncode, List.cons.injEq] at h
    have h1 := hexLower_inj ⟨x.toNat / 16, by have := x.toNat_lt; omega⟩
      ⟨y.toNat / 16, by have := y.toNat_lt; omega⟩ h.1
    have h2 := hexLower_inj ⟨x.toNat % 16, by omega⟩ ⟨y.toNat % 16, by omega⟩ h.2.1
    simp only [Fin.mk.injEq] at h1 h2
    have : x = y := by
      apply UInt8.toNat_inj.1; omega
    rw [this, hexEncode_inj h.2.2]

theorem hexEncode_ne_nil {s : Str} (h : s ≠ []) : hexEncode s ≠ [] := by
  cases s with
  | nil => exact absurd rfl h
  | cons c cs => simp [hexEncode]

theorem hexEncode_length (s : Str) : (hexEncode s).length = 2 * s.length := by
  induction s with
  | nil => rfl
  | cons c cs ih => simp [hexEncode, ih]; omega

/-! ### base64 -/

theorem b64Val_char : ∀ n : Fin 64, b64Val (b64Char n.val) = some n.val := by decide

theorem b64Char_val {n : Nat} (h : n < 64) : b64Val (b64Char n) = some n := b64Val_char ⟨n, h⟩

theorem b64Quanta_encode : ∀ s : Str, b64Quanta (b64Encode s) = (s, false)
  | [] => by simp [b64Encode, b64Quanta]
  | [a] => by
    have := a.toNat_lt
    unfold b64Encode b64Quanta
    rw [b64Char_val (by omega), b64Char_val (by omega)]
    have h1 : b64Val 61 = none := by decide
    simp only [h1]
    rw [if_pos (by simp)]
    have : a.toNat / 4 * 4 + a.toNat % 4 * 16 / 16 = a.toNat := by omega
    rw [this]; simp
  | [a, b] => by
    have := a.toNat_lt
    have := b.toNat_lt
    unfold b64Encode b64Quanta
    rw [b64Char_val (by omega), b64Char_val (by omega)]
    have h1 : b64Val 61 = none := by decide
    simp only
    rw [b64Char_val (by omega)]
    simp only [h1]
    rw [if_pos (by simp)]
    have e1 : a.toNat / 4 * 4 + (a.toNat % 4 * 16 + b.toNat / 16) / 16 = a.toNat := by omega
    have e2 : (a.toNat % 4 * 16 + b.toNat / 16) % 16 * 16 + b.toNat % 16 * 4 / 4 = b.toNat := by omega
    rw [e1, e2]; simp
  | a :: b :: c :: r => by
    have := a.toNat_lt
    have := b.toNat_lt
    have := c.toNat_lt
    unfold b64Encode b64Quanta
    rw [b64Char_val (by omega), b64Char_val (by omega)]
    simp only
    rw [b64Char_val (by omega)]
    simp only
    rw [b64Char_val (by omega)]
    simp only
    rw [b64Quanta_encode r]
    have e1 : a.toNat / 4 * 4 + (a.toNat % 4 * 16 + b.toNat / 16) / 16 = a.toNat := by omega
    have e2 : (a.toNat % 4 * 16 + b.toNat / 16) % 16 * 16 +
      (b.toNat % 16 * 4 + c.toNat / 64) / 4 = b.toNat := by omega
    have e3 : (b.toNat % 16 * 4 + c.toNat / 64) % 4 * 64 + c.toNat % 64 = c.toNat := by omega
    rw [e1, e2, e3]; simp

/-- a byte of base64 text: an alphabet character or the padding -/
def b64Byte (c : UInt8) : Bool := (b64Val c).isSome || c == 61

theorem b64Char_byte : ∀ n : Fin 64, b64Byte (b64Char n.val) = true := by decide

theorem b64Encode_bytes : ∀ s : Str, ∀ c ∈ b64Encode s, b64Byte c = true
  | [], c, h => by simp [b64Encode] at h
  | [a], x, h => by
    have := a.toNat_lt
    simp only [b64Encode, List.mem_cons, List.not_mem_nil, or_false] at h
    rcases h with rfl | rfl | rfl | rfl
    · exact b64Char_byte ⟨_, by omega⟩
    · exact b64Char_byte ⟨_, by omega⟩
    · rfl
    · rfl
  | [a, b], x, h => by
    have := a.toNat_lt
    have := b.toNat_lt
    simp only [b64Encode, List.mem_cons, List.not_mem_nil, or_false] at h
    rcases h with rfl | rfl | rfl | rfl
    · exact b64Char_byte ⟨_, by omega⟩
    · exact b64Char_byte ⟨_, by omega⟩
    · exact b64Char_byte ⟨_, by omega⟩
    · rfl
  | a :: b :: c :: r, x, h => by
    have := a.toNat_lt
    have := b.toNat_lt
    have := c.toNat_lt
    simp only [b64Encode, List.mem_cons] at h
    rcases h with rfl | rfl | rfl | rfl | h
    · exact b64Char_byte ⟨_, by omega⟩
    · exact b64Char_byte ⟨_, by omega⟩
    · exact b64Char_byte ⟨_, by omega⟩
    · exact b64Char_byte ⟨_, by omega⟩
    · exact b64Encode_bytes r x h

theorem b64Byte_ne (c : UInt8) : b64Byte c = true →
    c ≠ 10 ∧ c ≠ 13 ∧ c ≠ 37 ∧ c ≠ 43 ∧ plain c = true ∧ c ≠ 34 ∧ c ≠ 44 ∧ c ≠ 59 ∧ c ≠ 92 := by
  revert c; exact forall_u8 (by decide +kernel)

theorem b64_roundtrip (s : Str) : b64Decode (b64Encode s) = (s, false) := by
  unfold b64Decode
  rw [List.filter_eq_self.2, b64Quanta_encode]
  intro c hc
  have := b64Byte_ne c (b64Encode_bytes s c hc)
  simp [this.1, this.2.1]

theorem b64Encode_inj {a b : Str} (h : b64Encode a = b64Encode b) : a = b := by
  have h1 := b64_roundtrip a
  rw [h, b64_roundtrip b] at h1
  simpa using h1.symm

theorem b64Encode_ne_nil {s : Str} (h : s ≠ []) : b64Encode s ≠ [] := by
  match s with
  | [] => exact absurd rfl h
  | [_] => simp [b64Encode]
  | [_, _] => simp [b64Encode]
  | _ :: _ :: _ :: _ => simp [b64Encode]

/-! ### SplitN -/

theorem takeWhile_append_sep (sep : UInt8) (a r : Str) (h : sep ∉ a) :
    (a ++ sep :: r).takeWhile (· != sep) = a := by
  induction a with
  | nil => simp
  | cons c cs ih =>
    simp at h
    have hc : c ≠ sep := fun e => h.1 e.symm
    simp [hc, ih h.2]

theorem dropWhile_append_sep (sep : UInt8) (a r : Str) (h : sep ∉ a) :
    (a ++ sep :: r).dropWhile (· != sep) = sep :: r := by
  induction a with
  | nil => simp
  | cons c cs ih =>
    simp at h
    have hc : c ≠ sep := fun e => h.1 e.symm
    simp [hc, ih h.2]

theorem splitN1_sep (sep : UInt8) (n : Nat) (a r : Str) (h : sep ∉ a) :
    splitN1 sep (n + 2) (a ++ sep :: r) = a :: splitN1 sep (n + 1) r := by
  rw [splitN1, if_pos (by simp), takeWhile_append_sep sep a r h, dropWhile_append_sep sep a r h]
  rfl

theorem splitN1_3 (sep : UInt8) (a b c : Str) (ha : sep ∉ a) (hb : sep ∉ b) :
    splitN1 sep 3 (a ++ sep :: (b ++ sep :: c)) = [a, b, c] := by
  rw [splitN1_sep sep 1 a _ ha, splitN1_sep sep 0 b _ hb]; rfl

theorem splitN1_2 (sep : UInt8) (a b : Str) (ha : sep ∉ a) :
    splitN1 sep 2 (a ++ sep :: b) = [a, b] := by
  rw [splitN1_sep sep 0 a _ ha]; rfl

end Verif.Go
