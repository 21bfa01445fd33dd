import Verif.Model.Cookie
import Verif.Proofs.Enc
import Verif.Proofs.Strconv
/-! Lemmas for the cookie theorems. -/
namespace Verif.Sess
open Verif.Go

theorem isDig_plain {c : UInt8} (h : isDig c) : plain c = true ∧ c ≠ 44 := by
  unfold isDig at h
  constructor
  · unfold plain
    simp only [Bool.and_eq_true, decide_eq_true_eq, UInt8.le_iff_toNat_le]
    simp; omega
  · rintro rfl; simp at h

/-- text that is printable, without commas and not empty -/
def okField (s : Str) : Prop := s ≠ [] ∧ ∀ c ∈ s, plain c = true ∧ c ≠ 44

theorem okField_esc {raw : Str} (h : raw ≠ []) : okField (queryEscape raw) :=
  ⟨queryEscape_ne_nil h, fun c hc => by
    have := escByte_plain c (queryEscape_bytes raw c hc)
    exact ⟨this.1, this.2.1⟩⟩

theorem okField_digits {s : Str} (hne : s ≠ []) (h : ∀ c ∈ s, isDig c) : okField s :=
  ⟨hne, fun c hc => isDig_plain (h c hc)⟩

theorem okField_hex (H : Hmac) (k m : Str) : okField (hexEncode (H.sum k m)) := by
  refine ⟨hexEncode_ne_nil ?_, fun c hc => ?_⟩
  · intro e; have := H.len k m; rw [e] at this; simp at this
  · have := hexEncode_bytes _ c hc; exact ⟨this.1, this.2.1⟩

/-- The text inside a cookie, before base64. -/
def packText (a b c : Str) : Str := a ++ comma :: (b ++ comma :: c)

/-- What the decoder does on a well-formed packed value. -/
theorem decode_pack (H : Hmac) (a b c key : Str) (ha : okField a) (hb : okField b) (hc : okField c) :
    decodeSecure H (b64Encode (packText a b c)) key =
      if (parseInt 64 b).1 ≤ 0 then none
      else match queryUnescape a with
        | none => none
        | some raw => if hexEncode (H.sum key (raw ++ b)) ≠ c then none else some (raw, (parseInt 64 b).1) := by
  unfold decodeSecure packText
  rw [b64_roundtrip]
  simp only
  rw [splitN1_3 comma a b c (fun h => (ha.2 44 h).2 rfl) (fun h => (hb.2 44 h).2 rfl)]
  simp only
  rw [trimSpace_plain a (fun c h => (ha.2 c h).1), trimSpace_plain b (fun c h => (hb.2 c h).1),
    trimSpace_plain c (fun x h => (hc.2 x h).1), if_neg (by simp [ha.1, hb.1, hc.1])]
  rfl

theorem fmtInt_pos {t : Int} (h : 0 < t) : fmtInt t = natDec t.toNat := by
  cases t with
  | ofNat n => rfl
  | negSucc n => omega

theorem okField_time {t : Int} (h : 0 < t) : okField (fmtInt t) := by
  rw [fmtInt_pos h]; exact okField_digits (natDec_ne_nil _) (natDec_digits _)

theorem parse_time {t : Int} (h1 : 0 < t) (h2 : t < 2 ^ 63) : parseInt 64 (fmtInt t) = (t, none) := by
  apply parseInt_fmtInt (by omega) <;> simp <;> omega

theorem encode_eq (H : Hmac) {raw key : Str} (hr : raw ≠ []) (hk : key ≠ []) (t : Int) :
    encodeSecure H raw key t =
      some (b64Encode (packText (queryEscape raw) (fmtInt t) (hexEncode (H.sum key (raw ++ fmtInt t))))) := by
  unfold encodeSecure
  rw [if_neg (by simp [hr, hk])]; rfl

theorem encode_some (H : Hmac) {raw key v : Str} {t : Int} (h : encodeSecure H raw key t = some v) :
    raw ≠ [] ∧ key ≠ [] ∧
      v = b64Encode (packText (queryEscape raw) (fmtInt t) (hexEncode (H.sum key (raw ++ fmtInt t)))) := by
  have : raw ≠ [] ∧ key ≠ [] := by
    unfold encodeSecure at h
    split at h
    · simp at h
    · rename_i hn; simpa using hn
  refine ⟨this.1, this.2, ?_⟩
  rw [encode_eq H this.1 this.2] at h
  simpa using h.symm

theorem roundtrip' (H : Hmac) {raw key : Str} {t : Int} (hr : raw ≠ []) (h1 : 0 < t) (h2 : t < 2 ^ 63) :
    decodeSecure H (b64Encode (packText (queryEscape raw) (fmtInt t)
      (hexEncode (H.sum key (raw ++ fmtInt t))))) key = some (raw, t) := by
  rw [decode_pack H _ _ _ _ (okField_esc hr) (okField_time h1) (okField_hex H _ _), parse_time h1 h2,
    if_neg (by simp; omega), query_roundtrip]
  simp

theorem encode_b64Bytes (H : Hmac) {raw key v : Str} {t : Int} (h : encodeSecure H raw key t = some v) :
    (∀ c ∈ v, b64Byte c = true) ∧ v ≠ [] := by
  obtain ⟨hr, hk, rfl⟩ := encode_some H h
  refine ⟨b64Encode_bytes _, b64Encode_ne_nil ?_⟩
  unfold packText; simp

theorem unescape_encode (H : Hmac) {raw key v : Str} {t : Int} (h : encodeSecure H raw key t = some v) :
    queryUnescape v = some v := by
  apply queryUnescape_plain
  intro c hc
  have := b64Byte_ne c ((encode_b64Bytes H h).1 c hc)
  exact ⟨this.2.2.1, this.2.2.2.1⟩

theorem getCookie_append (cs : Cookies) (n v : Str) : getCookie (cs ++ [(n, v)]) n = some v := by
  unfold getCookie; simp

theorem secsDuration_id {s : Int} (h1 : 0 ≤ s) (h2 : s ≤ 9223372036) : secsDuration s = s * 1000000000 := by
  unfold secsDuration
  apply wrapS_id (by omega) <;> simp <;> omega

/-- What acceptance by the decoder means, unfolded. -/
theorem decode_some (H : Hmac) {v key raw : Str} {t : Int} (h : decodeSecure H v key = some (raw, t)) :
    ∃ p0 p1 p2, splitN1 comma 3 (b64Decode v).1 = [p0, p1, p2] ∧
      queryUnescape (trimSpace p0) = some raw ∧ 0 < t ∧ t = (parseInt 64 (trimSpace p1)).1 ∧
      trimSpace p2 = hexEncode (H.sum key (raw ++ trimSpace p1)) := by
  unfold decodeSecure at h
  split at h
  · rename_i p0 p1 p2 hs
    refine ⟨p0, p1, p2, hs, ?_⟩
    simp only at h
    split at h
    · simp at h
    · split at h
      · simp at h
      · rename_i ht
        split at h
        · simp at h
        · rename_i r hu
          split at h
          · simp at h
          · rename_i hm
            simp at h hm
            obtain ⟨rfl, rfl⟩ := h
            exact ⟨hu, by omega, rfl, hm.symm⟩
  · simp at h

/-- A parsed positive time is digits, possibly after a `+`. -/
theorem parse_time_chars {c : Str} (h : 0 < (parseInt 64 c).1) (hn : (parseInt 64 c).2 = none) :
    ∀ x ∈ c, isDig x ∨ x = 43 := by
  unfold parseInt at h hn
  generalize hb : (if c.head? = some 43 ∨ c.head? = some 45 then c.drop 1 else c) = body at h hn
  generalize hneg : (c.head? == some 45) = neg at h hn
  cases hp : parseUint 64 body with
  | mk n e =>
    rw [hp] at h hn
    have he : e = none := by
      cases e with
      | none => rfl
      | some e =>
        cases e with
        | syn => simp [signRange] at hn
        | rng =>
          unfold parseUint at hp
          split at hp
          · simp at hp
          · exfalso
            have hmax : ∀ (acc : Nat) (s : Str) (n : Nat),
                parseUintLoop (2 ^ 64 - 1) acc s = (n, some NumErr.rng) → n = 2 ^ 64 - 1 := by
              intro acc s
              induction s generalizing acc with
              | nil => intro n h; simp [parseUintLoop] at h
              | cons c cs ih =>
                intro n h
                simp only [parseUintLoop] at h
                split at h
                · simp at h
                · split at h
                  · simpa using h.symm
                  · exact ih _ _ h
            have := hmax _ _ _ hp
            subst this
            cases neg <;> simp [signRange] at hn
    subst he
    have hd : ∀ x ∈ body, isDig x := by
      unfold parseUint at hp
      split at hp
      · simp at hp
      · exact parseUintLoop_digits hp
    have hneg' : neg = false := by
      cases neg with
      | false => rfl
      | true =>
        exfalso
        simp only [signRange] at h
        split at h
        · rename_i hc; simp at hc
        · split at h
          · simp at h
          · simp at h; omega
    subst hneg'
    have hc45 : c.head? ≠ some 45 := by simpa using hneg
    intro x hx
    by_cases h43 : c.head? = some 43
    · rw [if_pos (Or.inl h43)] at hb
      cases c with
      | nil => simp at hx
      | cons y ys =>
        simp at h43 hb
        subst hb
        rcases List.mem_cons.1 hx with rfl | hx
        · exact Or.inr h43
        · exact Or.inl (hd x hx)
    · rw [if_neg (by simp [h43, hc45])] at hb
      subst hb
      exact Or.inl (hd x hx)

end Verif.Sess
