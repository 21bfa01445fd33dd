import Verif.Props.Json
/-! C181: byte slices in the JSON of an answer. -/
namespace Verif.Json
open Verif.Go

/-! ## Specification: base64 (RFC 4648 section 4) -/

/-- The alphabet of RFC 4648 section 4. -/
def Spec.alphabet : Str := b!"ABCDEFGHIJKLMNOPQRSTUVWXYZabcdefghijklmnopqrstuvwxyz0123456789+/"

/-- The character stands for the six bits of this number. -/
def Spec.Sextet (c : UInt8) (n : Nat) : Prop := Spec.alphabet[n]? = some c

/-- The text is the base64 of the bytes: four characters for three bytes, the bits of both the same number; at the end, one byte and four
bits 0 are two characters and two `=`, two bytes and two bits 0 are three characters and one `=`. -/
inductive Spec.Base64 : Str → Str → Prop
  | nil : Spec.Base64 [] []
  | one {c d : UInt8} {m n : Nat} {x : UInt8} : Spec.Sextet c m → Spec.Sextet d n → m * 64 + n = x.toNat * 16 →
      Spec.Base64 [c, d, 61, 61] [x]
  | two {c d e : UInt8} {m n o : Nat} {x y : UInt8} : Spec.Sextet c m → Spec.Sextet d n → Spec.Sextet e o →
      (m * 64 + n) * 64 + o = (x.toNat * 256 + y.toNat) * 4 → Spec.Base64 [c, d, e, 61] [x, y]
  | three {c d e f : UInt8} {m n o p : Nat} {x y z : UInt8} {t s : Str} : Spec.Sextet c m → Spec.Sextet d n → Spec.Sextet e o →
      Spec.Sextet f p → ((m * 64 + n) * 64 + o) * 64 + p = (x.toNat * 256 + y.toNat) * 256 + z.toNat →
      Spec.Base64 t s → Spec.Base64 (c :: d :: e :: f :: t) (x :: y :: z :: s)

/-! ## Proofs -/

theorem sextet_std : ∀ n : Fin 64, Spec.alphabet[n.val]? = some (stdChar n.val) := by decide +kernel

theorem sextet_stdChar {n : Nat} (h : n < 64) : Spec.Sextet (stdChar n) n := sextet_std ⟨n, h⟩

theorem alphabet_inj : ∀ m n : Fin 64, Spec.alphabet[m.val]? = Spec.alphabet[n.val]? → m = n := by decide +kernel

theorem sextet_lt {c : UInt8} {n : Nat} (h : Spec.Sextet c n) : n < 64 := by
  have := (List.getElem?_eq_some_iff.1 h).1
  exact this

theorem sextet_unique {c : UInt8} {m n : Nat} (h : Spec.Sextet c m) (h' : Spec.Sextet c n) : n = m := by
  have := alphabet_inj ⟨n, sextet_lt h'⟩ ⟨m, sextet_lt h⟩ (h'.trans h.symm)
  exact congrArg Fin.val this

theorem not_sextet_pad : ∀ n : Fin 64, Spec.alphabet[n.val]? ≠ some 61 := by decide +kernel

theorem sextet_ne_pad {n : Nat} (h : Spec.Sextet 61 n) : False := not_sextet_pad ⟨n, sextet_lt h⟩ h

/-- **C181**: what is written for the bytes is their base64. -/
theorem C181_written : ∀ s : Str, Spec.Base64 (stdB64 s) s
  | [] => .nil
  | [a] => by
    have := a.toNat_lt
    exact .one (sextet_stdChar (by omega)) (sextet_stdChar (by omega)) (by omega)
  | [a, b] => by
    have := a.toNat_lt
    have := b.toNat_lt
    exact .two (sextet_stdChar (by omega)) (sextet_stdChar (by omega)) (sextet_stdChar (by omega)) (by omega)
  | a :: b :: c :: r => by
    have := a.toNat_lt
    have := b.toNat_lt
    have := c.toNat_lt
    exact .three (sextet_stdChar (by omega)) (sextet_stdChar (by omega)) (sextet_stdChar (by omega)) (sextet_stdChar (by omega)) (by omega)
      (C181_written r)

/-- A text is the base64 of one sequence of bytes only. -/
theorem C181_only {t s s' : Str} (h : Spec.Base64 t s) (h' : Spec.Base64 t s') : s' = s := by
  induction h generalizing s' with
  | nil => cases h'; rfl
  | @one c d m n x h1 h2 h3 =>
    cases h' with
    | @one _ _ m' n' x' k1 k2 k3 =>
      cases sextet_unique h1 k1
      cases sextet_unique h2 k2
      rw [UInt8.toNat_inj.1 (show x'.toNat = x.toNat by omega)]
    | two _ _ k _ => exact (sextet_ne_pad k).elim
    | three _ _ k _ _ _ => exact (sextet_ne_pad k).elim
  | @two c d e m n o x y h1 h2 h3 h4 =>
    cases h' with
    | one _ _ _ => exact (sextet_ne_pad h3).elim
    | @two _ _ _ m' n' o' x' y' k1 k2 k3 k4 =>
      cases sextet_unique h1 k1
      cases sextet_unique h2 k2
      cases sextet_unique h3 k3
      have := y.toNat_lt
      have := y'.toNat_lt
      rw [UInt8.toNat_inj.1 (show x'.toNat = x.toNat by omega), UInt8.toNat_inj.1 (show y'.toNat = y.toNat by omega)]
    | three _ _ _ k _ _ => exact (sextet_ne_pad k).elim
  | @three c d e f m n o p x y z t s h1 h2 h3 h4 h5 _ ih =>
    cases h' with
    | one _ _ _ => exact (sextet_ne_pad h3).elim
    | two _ _ _ _ => exact (sextet_ne_pad h4).elim
    | @three _ _ _ _ m' n' o' p' x' y' z' _ s' k1 k2 k3 k4 k5 k6 =>
      cases sextet_unique h1 k1
      cases sextet_unique h2 k2
      cases sextet_unique h3 k3
      cases sextet_unique h4 k4
      have := y.toNat_lt
      have := y'.toNat_lt
      have := z.toNat_lt
      have := z'.toNat_lt
      rw [UInt8.toNat_inj.1 (show x'.toNat = x.toNat by omega), UInt8.toNat_inj.1 (show y'.toNat = y.toNat by omega),
        UInt8.toNat_inj.1 (show z'.toNat = z.toNat by omega), ih k6]

theorem alphabet_safe : ∀ n : Fin 64, ∀ c, Spec.alphabet[n.val]? = some c → c < 128 ∧ htmlSafe c = true := by decide +kernel

theorem base64_safe {t s : Str} (h : Spec.Base64 t s) : ∀ c ∈ t, c < 128 ∧ htmlSafe c = true := by
  have key : ∀ {c n}, Spec.Sextet c n → c < 128 ∧ htmlSafe c = true := fun {c n} h => alphabet_safe ⟨n, sextet_lt h⟩ c h
  have pad : (61 : UInt8) < 128 ∧ htmlSafe 61 = true := by decide
  induction h with
  | nil => simp
  | one h1 h2 _ => simp only [List.mem_cons, List.not_mem_nil, or_false]; rintro c (rfl | rfl | rfl | rfl) <;> first | exact key ‹_› | exact pad
  | two h1 h2 h3 _ => simp only [List.mem_cons, List.not_mem_nil, or_false]; rintro c (rfl | rfl | rfl | rfl) <;> first | exact key ‹_› | exact pad
  | three h1 h2 h3 h4 _ _ ih =>
    simp only [List.mem_cons]
    rintro c (rfl | rfl | rfl | rfl | h)
    · exact key h1
    · exact key h2
    · exact key h3
    · exact key h4
    · exact ih c h

theorem chars_safe (bf : Bool) : ∀ (s : Str) (n : Nat), s.length ≤ n → (∀ c ∈ s, c < 128 ∧ htmlSafe c = true) → chars bf n s = s
  | [], 0, _, _ => rfl
  | [], _ + 1, _, _ => rfl
  | c :: s, n + 1, hn, h => by
    have hc := h c (by simp)
    rw [chars, if_pos hc.1, if_pos hc.2, chars_safe bf s n (by simpa using hn) (fun d hd => h d (by simp [hd]))]
    rfl

/-- The JSON of bytes is their base64 between quotes, as the encoder writes it; of a nil slice it is `null`. -/
theorem C181_text (bf : Bool) (s : Str) : enc bf (bytesGJ (some s)) = some (34 :: stdB64 s ++ [34]) ∧ enc bf (bytesGJ none) = some b!"null" := by
  refine ⟨?_, rfl⟩
  rw [bytesGJ, enc, quote, chars_safe bf _ _ (Nat.le_refl _) (base64_safe (C181_written s))]

/-- A client reads base64 of exactly these bytes, in the compact and in the indented text. -/
theorem C181_back (bf : Bool) (s : Str) :
    ∃ x t, enc bf (bytesGJ (some s)) = some x ∧ Spec.parse x = some (.str t) ∧ Spec.parse (indent x) = some (.str t) ∧
      ∀ s', Spec.Base64 t s' ↔ s' = s := by
  have h8 : Spec.Utf8 (stdB64 s) := by
    refine (Nice.ascii ?_).enc8.utf8
    rw [List.all_eq_true]
    intro c hc
    have k : ∀ c : UInt8, c < 128 → htmlSafe c = true → plainByte c = true := forall_u8 (by decide +kernel)
    exact k c (base64_safe (C181_written s) c hc).1 (base64_safe (C181_written s) c hc).2
  obtain ⟨⟨j, hj, h1, h2⟩, -⟩ := C141_says bf _ _ (C181_text bf s).1
  cases hj with
  | str hr =>
    rw [C141_text _ _ hr h8] at h1 h2
    refine ⟨_, _, (C181_text bf s).1, h1, h2, fun s' => ⟨C181_only (C181_written s), fun h => h ▸ C181_written s⟩⟩

/-- An answer whose body is a struct with bytes in it: the client gets the object with base64 of exactly these bytes, under the status
that the program has chosen. -/
theorem C181_answer (dev bf : Bool) (status : Nat) (name : Str) (hname : Spec.Utf8 name) (s msg : Str)
    (bs : List Resp.BF) (hq : Api.Spec.Quiet bs) (hs : status ≠ 204) :
    ∃ x t, Api.Spec.Gets (Api.Spec.answer bs ((Api.ResBody.mk status (some (jval bf (.struct [name] [bytesGJ (some s)]) msg))).write dev).ops)
        (Api.Spec.wanted status) x ∧
      Spec.parse x = some (.obj [(name, .str t)]) ∧ ∀ s', Spec.Base64 t s' ↔ s' = s := by
  obtain ⟨x, h1, -, h2, -⟩ := C141_answer dev bf status (.struct [name] [bytesGJ (some s)]) msg bs hq hs
  have h8 : Spec.Utf8 (stdB64 s) := by
    refine (Nice.ascii ?_).enc8.utf8
    rw [List.all_eq_true]
    intro c hc
    have k : ∀ c : UInt8, c < 128 → htmlSafe c = true → plainByte c = true := forall_u8 (by decide +kernel)
    exact k c (base64_safe (C181_written s) c hc).1 (base64_safe (C181_written s) c hc).2
  obtain ⟨j, hj, hsays⟩ := h2 (by simp [Spec.NoJson, Spec.AnyNoJson, bytesGJ])
  cases hsays with
  | struct hm =>
    simp only [List.zip_cons_cons, List.zip_nil_right] at hm
    cases hm with
    | cons hk hf hrest =>
      cases hrest
      rw [C141_text _ _ hk hname] at hj
      rw [bytesGJ] at hf
      cases hf with
      | str hr =>
        rw [C141_text _ _ hr h8] at hj
        exact ⟨x, _, h1, hj, fun s' => ⟨C181_only (C181_written s), fun h => h ▸ C181_written s⟩⟩

/-- The examples of RFC 4648 section 10, and the bytes that need `+` and `/`. -/
theorem ex_bytes : stdB64 b!"f" = b!"Zg==" ∧ stdB64 b!"fo" = b!"Zm8=" ∧ stdB64 b!"foobar" = b!"Zm9vYmFy" ∧
    stdB64 [0xFB, 0xEF, 0xFF] = b!"++//" ∧ enc true (bytesGJ (some [])) = some b!"\"\"" := by decide +kernel

end Verif.Json
