import Verif.Proofs.Cookie
/-!
# C29–C32: secure cookie values, session cookies, remember-me cookies
-/
namespace Verif.Sess
open Verif.Go

/-! ## Specification -/

/-- The hash a presented cookie carries: its third comma-separated field, blanks trimmed. -/
def Spec.carriedHash (v : Str) : Option Str :=
  ((splitN1 44 3 (b64Decode v).1)[2]?).map trimSpace

/-- Unforgeability of the MAC, as an assumption on one presented cookie: the hash it carries is the MAC
of a message under `key` only if that message was signed before. -/
def Spec.NotForged (H : Hmac) (key : Str) (signed : List Str) (v : Str) : Prop :=
  ∀ m, Spec.carriedHash v = some (hexEncode (H.sum key m)) → m ∈ signed

/-- The messages the encoder signs for a list of issued (value, time) pairs. -/
def Spec.messages (issued : List (Str × Int)) : List Str := issued.map fun i => i.1 ++ fmtInt i.2

/-! ## C29 round trip -/

/-- Decoding an encoded value with the same key gives back the value and its creation time. -/
theorem C29_secure_roundtrip (H : Hmac) (raw key : Str) (t : Int) (hr : raw ≠ []) (hk : key ≠ [])
    (h1 : 0 < t) (h2 : t < 2 ^ 63) :
    ∃ v, encodeSecure H raw key t = some v ∧ decodeSecure H v key = some (raw, t) :=
  ⟨_, encode_eq H hr hk t, roundtrip' H hr h1 h2⟩

/-- The encoder refuses exactly the empty value and the empty key. -/
theorem C29_encode_refuses (H : Hmac) (raw key : Str) (t : Int) :
    encodeSecure H raw key t = none ↔ raw = [] ∨ key = [] := by
  unfold encodeSecure
  split <;> simp_all

/-- Two encoded values agree only when value and time agree. -/
theorem C29_encode_injective (H : Hmac) (raw raw' key key' v : Str) (t t' : Int)
    (h1 : 0 < t) (h2 : t < 2 ^ 63) (h1' : 0 < t') (h2' : t' < 2 ^ 63)
    (h : encodeSecure H raw key t = some v) (h' : encodeSecure H raw' key' t' = some v) :
    raw = raw' ∧ t = t' := by
  obtain ⟨hr, hk, e⟩ := encode_some H h
  obtain ⟨hr', hk', e'⟩ := encode_some H h'
  rw [e] at e'
  have e2 := b64Encode_inj e'
  have s1 : splitN1 comma 3 (packText (queryEscape raw) (fmtInt t)
      (hexEncode (H.sum key (raw ++ fmtInt t)))) = _ :=
    splitN1_3 comma _ _ _ (fun h => ((okField_esc hr).2 44 h).2 rfl)
      (fun h => ((okField_time h1).2 44 h).2 rfl)
  have s2 : splitN1 comma 3 (packText (queryEscape raw') (fmtInt t')
      (hexEncode (H.sum key' (raw' ++ fmtInt t')))) = _ :=
    splitN1_3 comma _ _ _ (fun h => ((okField_esc hr').2 44 h).2 rfl)
      (fun h => ((okField_time h1').2 44 h).2 rfl)
  rw [e2, s2] at s1
  simp only [List.cons.injEq] at s1
  refine ⟨(queryEscape_inj s1.1).symm, ?_⟩
  have p1 := parse_time h1 h2
  have p2 := parse_time h1' h2'
  rw [s1.2.1, p1] at p2
  simpa using p2

/-- Times at or before 1970 are encoded but never accepted again. -/
theorem C29_nonpositive_time_lost (H : Hmac) (raw key v : Str) (t : Int) (h0 : t ≤ 0) (hm : -(2 ^ 63) ≤ t)
    (h : encodeSecure H raw key t = some v) : decodeSecure H v key = none := by
  cases hd : decodeSecure H v key with
  | none => rfl
  | some p =>
    exfalso
    obtain ⟨raw', t'⟩ := p
    obtain ⟨p0, p1, p2, hs, hu, hpos, ht, hh⟩ := decode_some H hd
    obtain ⟨hr, hk, rfl⟩ := encode_some H h
    have hb : okField (fmtInt t) := by
      cases t with
      | ofNat n => exact okField_digits (natDec_ne_nil _) (natDec_digits _)
      | negSucc n =>
        refine ⟨by simp [fmtInt], fun c hc => ?_⟩
        simp only [fmtInt, List.mem_cons] at hc
        rcases hc with rfl | hc
        · decide
        · exact isDig_plain (natDec_digits _ c hc)
    rw [b64_roundtrip] at hs
    unfold packText at hs
    rw [splitN1_3 comma _ _ _ (fun h => ((okField_esc hr).2 44 h).2 rfl) (fun h => (hb.2 44 h).2 rfl)] at hs
    simp only [List.cons.injEq] at hs
    rw [← hs.2.1, trimSpace_plain _ (fun c h => (hb.2 c h).1),
      parseInt_fmtInt (by omega) (by simp; omega) (by simp; omega)] at ht
    simp at ht
    omega

/-- `GetRawFromSecureValue` reads the value back without the key. -/
theorem C29_getRaw_encode (H : Hmac) (raw key v : Str) (t : Int) (h : encodeSecure H raw key t = some v) :
    getRaw v = raw := by
  obtain ⟨hr, hk, rfl⟩ := encode_some H h
  unfold getRaw packText
  rw [b64_roundtrip]
  simp only
  rw [splitN1_sep comma 1 _ _ (fun h => ((okField_esc hr).2 44 h).2 rfl)]
  simp only
  rw [query_roundtrip]; rfl

/-! ## C31 expiry -/

/-- A session cookie written by the manager is read back, with its id and time, by every later request
that carries it as its last cookie of that name, exactly while `now ≤ created + expiry`. -/
theorem C31_session_cookie_roundtrip (H : Hmac) (cfg : Config) (cc : CookieConfig) (cs before : Cookies)
    (sid : Str) (t now : Int) (hs : sid ≠ []) (hk : cfg.secretKey ≠ []) (h1 : 0 < t) (h2 : t < 2 ^ 63)
    (he : 0 ≤ cfg.sessionExpire) (he2 : cfg.sessionExpire ≤ 9223372036) :
    ∃ c, (writeSessionCookie H cfg cc cs sid t).1 = [c] ∧ c.name = cc.cookieName ∧
      (writeSessionCookie H cfg cc cs sid t).2 = cs ++ [(c.name, c.value)] ∧
      readSid H cfg (before ++ [(c.name, c.value)]) cc.cookieName now =
        if now ≤ t + cfg.sessionExpire * 1000000000 then some (sid, t) else none := by
  obtain ⟨v, hv, hd⟩ := C29_secure_roundtrip H sid cfg.secretKey t hs hk h1 h2
  refine ⟨{ name := cc.cookieName, value := v,
            maxAge := if cc.cookieExpire ≥ 0 then cc.cookieExpire else 0 }, ?_, rfl, ?_, ?_⟩
  · unfold writeSessionCookie; rw [hv]
  · unfold writeSessionCookie; rw [hv]
  · unfold readSid
    rw [getCookie_append]
    simp only
    rw [unescape_encode H hv]
    simp only
    rw [hd]
    simp only [isExpired, secsDuration_id he he2]
    by_cases hn : now ≤ t + cfg.sessionExpire * 1000000000
    · rw [if_pos hn, if_neg (by simp; omega)]
    · rw [if_neg hn, if_pos (by simp; omega)]

/-- Any accepted session cookie, however it was made, is unexpired. -/
theorem C31_accepted_not_expired (H : Hmac) (cfg : Config) (cs : Cookies) (name sid : Str) (t now : Int)
    (he : 0 ≤ cfg.sessionExpire) (he2 : cfg.sessionExpire ≤ 9223372036)
    (h : readSid H cfg cs name now = some (sid, t)) : now ≤ t + cfg.sessionExpire * 1000000000 := by
  unfold readSid at h
  split at h
  · simp at h
  · split at h
    · simp at h
    · split at h
      · simp at h
      · split at h
        · simp at h
        · rename_i hx
          simp only [Option.some.injEq, Prod.mk.injEq] at h
          obtain ⟨rfl, rfl⟩ := h
          simp only [isExpired, secsDuration_id he he2, decide_eq_true_eq] at hx
          omega

/-- Beyond 292 years the expiry wraps around: the largest 64-bit settings make every cookie written in
the past expired at once. -/
theorem C31_expiry_overflow_violated :
    secsDuration 9223372037 < 0 ∧
      ∀ created now : Int, created < now → isExpired created (secsDuration 9223372037) now = true := by
  have h : secsDuration 9223372037 = -9223372036709551616 := by decide
  refine ⟨by rw [h]; decide, fun created now hlt => ?_⟩
  unfold isExpired; rw [h]; simp; omega

/-! ## C30 authenticity -/

/-- Whatever is accepted was signed by the encoder, as a concatenated text: the accepted value followed
by some spelling of the accepted time is an issued value followed by its time. -/
theorem C30_accepted_was_signed (H : Hmac) (key v raw : Str) (t : Int) (issued : List (Str × Int))
    (hf : Spec.NotForged H key (Spec.messages issued) v)
    (h : decodeSecure H v key = some (raw, t)) :
    ∃ spelling, (parseInt 64 spelling).1 = t ∧
      ∃ i ∈ issued, raw ++ spelling = i.1 ++ fmtInt i.2 := by
  obtain ⟨p0, p1, p2, hs, hu, hpos, ht, hh⟩ := decode_some H h
  refine ⟨trimSpace p1, ht.symm, ?_⟩
  have := hf (raw ++ trimSpace p1) (by
    unfold Spec.carriedHash
    have hs' : splitN1 44 3 (b64Decode v).1 = [p0, p1, p2] := hs
    rw [hs']; simp [hh])
  unfold Spec.messages at this
  obtain ⟨i, hi, e⟩ := List.mem_map.1 this
  exact ⟨i, hi, e.symm⟩

/-- When all values the encoder signs have one length (as session ids do), an accepted value of that
length was issued, together with exactly that time. Nothing is guaranteed for other lengths. -/
theorem C30_authentic_fixed_length_partial (H : Hmac) (key v raw : Str) (t : Int) (issued : List (Str × Int))
    (n : Nat) (hlen : ∀ i ∈ issued, i.1.length = n) (ht : ∀ i ∈ issued, 0 < i.2 ∧ i.2 < 2 ^ 63)
    (hf : Spec.NotForged H key (Spec.messages issued) v)
    (h : decodeSecure H v key = some (raw, t)) (hr : raw.length = n) : (raw, t) ∈ issued := by
  obtain ⟨c, hc, i, hi, e⟩ := C30_accepted_was_signed H key v raw t issued hf h
  have := List.append_inj e (by rw [hr, hlen i hi])
  obtain ⟨i1, i2⟩ := i
  simp only at this
  obtain ⟨rfl, rfl⟩ := this
  rw [parse_time (ht _ hi).1 (ht _ hi).2] at hc
  simp only at hc
  rw [← hc]; exact hi

/-- With a different key of the decoder, nothing signed under the issuing key is accepted unless the two
keys give the same MAC. -/
theorem C30_wrong_key_rejected (H : Hmac) (raw key key' v : Str) (t : Int) (h1 : 0 < t) (h2 : t < 2 ^ 63)
    (hv : encodeSecure H raw key t = some v)
    (hk : H.sum key' (raw ++ fmtInt t) ≠ H.sum key (raw ++ fmtInt t)) :
    decodeSecure H v key' = none := by
  obtain ⟨hr, hk', rfl⟩ := encode_some H hv
  rw [decode_pack H _ _ _ _ (okField_esc hr) (okField_time h1) (okField_hex H _ _), parse_time h1 h2,
    if_neg (by simp; omega), query_roundtrip]
  simp only
  rw [if_pos]
  intro e
  exact hk (hexEncode_inj e)

/-! ### the boundary between value and time is not signed -/

/-- The attack: without the key, move the last byte of the (unescaped) value to the front of the time. -/
def Spec.attack (cookie : Str) : Str :=
  match splitN1 44 3 (b64Decode cookie).1 with
  | [a, b, c] =>
    let raw := (queryUnescape a).getD []
    b64Encode (queryEscape raw.dropLast ++ 44 :: ((raw.drop (raw.length - 1) ++ b) ++ 44 :: c))
  | _ => []

/-- For every key and MAC: from a cookie issued for a value ending in a digit `d ≠ 0`, anybody can make a
cookie that is accepted for the value without that digit, at the time spelled `d` followed by the old
time.  (`c` is the digit byte.) -/
theorem C30_boundary_not_signed_violated (H : Hmac) (raw key v : Str) (c : UInt8) (t : Int)
    (hr : raw ≠ []) (hc : 49 ≤ c.toNat ∧ c.toNat ≤ 57) (h1 : 0 < t)
    (hv : encodeSecure H (raw ++ [c]) key t = some v)
    (hp : 0 < (parseInt 64 (c :: fmtInt t)).1) :
    decodeSecure H (Spec.attack v) key = some (raw, (parseInt 64 (c :: fmtInt t)).1) := by
  obtain ⟨hr', hk, rfl⟩ := encode_some H hv
  have hatt : Spec.attack (b64Encode (packText (queryEscape (raw ++ [c])) (fmtInt t)
      (hexEncode (H.sum key ((raw ++ [c]) ++ fmtInt t))))) =
      b64Encode (packText (queryEscape raw) (c :: fmtInt t)
        (hexEncode (H.sum key (raw ++ (c :: fmtInt t))))) := by
    unfold Spec.attack
    rw [b64_roundtrip]
    simp only
    unfold packText
    have := splitN1_3 comma (queryEscape (raw ++ [c])) (fmtInt t)
      (hexEncode (H.sum key ((raw ++ [c]) ++ fmtInt t)))
      (fun h => ((okField_esc hr').2 44 h).2 rfl) (fun h => ((okField_time h1).2 44 h).2 rfl)
    have : splitN1 44 3 (queryEscape (raw ++ [c]) ++ comma :: (fmtInt t ++ comma ::
      hexEncode (H.sum key ((raw ++ [c]) ++ fmtInt t)))) = _ := this
    rw [this]
    simp only
    rw [query_roundtrip]
    simp [comma]
  rw [hatt]
  have hd : isDig c := by unfold isDig; omega
  have hb : okField (c :: fmtInt t) := by
    rw [fmtInt_pos h1]
    apply okField_digits (by simp)
    intro x hx
    rcases List.mem_cons.1 hx with rfl | hx
    · exact hd
    · exact natDec_digits _ x hx
  rw [decode_pack H _ _ _ _ (okField_esc hr) hb (okField_hex H _ _), if_neg (by omega), query_roundtrip]
  simp

theorem parseUintLoop_big (max : Nat) (s : Str) (acc : Nat) (h : ∀ c ∈ s, isDig c)
    (hacc : max < acc * 10 ^ s.length) (ha : acc ≤ max) :
    parseUintLoop max acc s = (max, some .rng) := by
  induction s generalizing acc with
  | nil => simp at hacc; omega
  | cons c cs ih =>
    simp only [parseUintLoop]
    rw [digitVal_isDig (h c (by simp))]
    simp only
    split
    · rfl
    · rename_i hle
      apply ih _ (fun x hx => h x (by simp [hx]))
      · simp only [List.length_cons, Nat.pow_succ] at hacc
        calc max < acc * (10 ^ cs.length * 10) := hacc
          _ = acc * 10 * 10 ^ cs.length := by rw [Nat.mul_comm (10 ^ cs.length) 10, Nat.mul_assoc]
          _ ≤ (acc * 10 + (c.toNat - 48)) * 10 ^ cs.length := Nat.mul_le_mul_right _ (by omega)
      · omega

/-- With today's clocks (nanosecond times of 19 digits) the forged cookie's time is clamped to the largest
representable time, so a cookie for a value ending in 2–9 can be turned into one for the shortened value
that does not expire until the year 2262, whatever the configured expiry. -/
theorem C31_forged_never_expires_violated (H : Hmac) (cfg : Config) (name raw v : Str)
    (c : UInt8) (t now : Int) (hr : raw ≠ []) (hc : 50 ≤ c.toNat ∧ c.toNat ≤ 57)
    (h1 : 10 ^ 18 ≤ t) (h2 : t < 2 ^ 63) (hl : (fmtInt t).length = 19)
    (he : 0 ≤ cfg.sessionExpire) (he2 : cfg.sessionExpire ≤ 9223372036)
    (hv : encodeSecure H (raw ++ [c]) cfg.secretKey t = some v) (hnow : now < 2 ^ 63) :
    readSid H cfg [(name, Spec.attack v)] name now = some (raw, 2 ^ 63 - 1) := by
  have hpos : 0 < t := by omega
  have hdc : isDig c := by unfold isDig; omega
  have hc43 : c ≠ 43 := by rintro rfl; simp at hc
  have hc45 : c ≠ 45 := by rintro rfl; simp at hc
  have hpi : parseInt 64 (c :: fmtInt t) = (2 ^ 63 - 1, some .rng) := by
    unfold parseInt
    rw [if_neg (by simp [hc43, hc45])]
    have hneg : ((c :: fmtInt t).head? == some 45) = false := by simp [hc45]
    rw [hneg]
    have hpu : parseUint 64 (c :: fmtInt t) = (2 ^ 64 - 1, some .rng) := by
      unfold parseUint
      rw [if_neg (by simp)]
      simp only [parseUintLoop]
      rw [digitVal_isDig hdc]
      simp only
      rw [if_neg (by omega)]
      apply parseUintLoop_big
      · rw [fmtInt_pos hpos]; exact natDec_digits _
      · rw [hl]
        have : 2 * 10 ^ 19 ≤ (0 * 10 + (c.toNat - 48)) * 10 ^ 19 := Nat.mul_le_mul_right _ (by omega)
        omega
      · omega
    rw [hpu]
    rfl
  have hd := C30_boundary_not_signed_violated H raw cfg.secretKey v c t hr (by omega) hpos hv
    (by rw [hpi]; decide)
  rw [hpi] at hd
  have hun : queryUnescape (Spec.attack v) = some (Spec.attack v) := by
    apply queryUnescape_plain
    have hbb : ∀ x ∈ Spec.attack v, b64Byte x = true := by
      unfold Spec.attack
      split
      · exact b64Encode_bytes _
      · simp
    intro x hx
    have := b64Byte_ne x (hbb x hx)
    exact ⟨this.2.2.1, this.2.2.2.1⟩
  have hg : getCookie [(name, Spec.attack v)] name = some (Spec.attack v) := getCookie_append [] name _
  unfold readSid
  rw [hg]
  simp only
  rw [hun]
  simp only
  rw [hd]
  simp only [isExpired, secsDuration_id he he2]
  rw [if_neg]
  simp only [decide_eq_true_eq]
  omega

/-! ## C32 remember-me -/

theorem createRemember_eq (H : Hmac) {sk psk salt : Str} (t : Int) (h1 : sk ≠ []) (h2 : psk ≠ [])
    (h3 : salt ≠ []) :
    ∃ sh, encodeSecure H psk (sk ++ salt) t = some sh ∧
      createRemember H sk psk salt t = encodeSecure H (queryEscape psk ++ bar :: queryEscape sh) sk t := by
  have hk : sk ++ salt ≠ [] := by simp [h1]
  refine ⟨_, encode_eq H h2 hk t, ?_⟩
  unfold createRemember
  rw [if_neg (by simp [h1, h2, h3]), encode_eq H h2 hk t]

/-- A remember-me cookie is recognised exactly until it expires, and what it yields for the same salt is
validated: the user's key `psk` is read back and accepted. -/
theorem C32_remember_roundtrip (H : Hmac) (cfg : Config) (cc : CookieConfig) (before : Cookies)
    (psk salt : Str) (t now : Int) (hk : cfg.secretKey ≠ []) (hp : psk ≠ []) (hs : salt ≠ [])
    (h1 : 0 < t) (h2 : t < 2 ^ 63) (he : 0 ≤ cc.rememberExpire) (he2 : cc.rememberExpire ≤ 9223372036) :
    ∃ c saltHash, writeRemember H cfg cc psk salt t = some c ∧ c.name = cc.rememberName ∧
      c.maxAge = cc.rememberExpire ∧
      hasRemember H cfg cc (before ++ [(c.name, c.value)]) now =
        (if now ≤ t + cc.rememberExpire * 1000000000 then some (psk, saltHash) else none) ∧
      (∀ psk' : Str, validRemember H cfg cc psk' salt saltHash now =
        decide (now ≤ t + cc.rememberExpire * 1000000000 ∧ psk' = psk)) := by
  obtain ⟨sh, hsh, hcr⟩ := createRemember_eq H t hk hp hs
  have hval : queryEscape psk ++ bar :: queryEscape sh ≠ [] := by simp
  obtain ⟨v, hv, hd⟩ := C29_secure_roundtrip H _ cfg.secretKey t hval hk h1 h2
  have hksalt : cfg.secretKey ++ salt ≠ [] := by simp [hk]
  obtain ⟨sh', hsh', hd'⟩ := C29_secure_roundtrip H psk (cfg.secretKey ++ salt) t hp hksalt h1 h2
  have : sh' = sh := by rw [hsh] at hsh'; simpa using hsh'.symm
  subst this
  refine ⟨{ name := cc.rememberName, value := v, maxAge := cc.rememberExpire }, sh', ?_, rfl, rfl, ?_, ?_⟩
  · unfold writeRemember; rw [hcr, hv]; rfl
  · unfold hasRemember
    rw [getCookie_append]
    simp only
    rw [hd]
    simp only [isExpired, secsDuration_id he he2]
    by_cases hn : now ≤ t + cc.rememberExpire * 1000000000
    · rw [if_pos hn, if_neg (by simp; omega),
        splitN1_2 bar _ _ (fun h => (escByte_plain 124 (queryEscape_bytes psk 124 h)).2.2 rfl)]
      simp only
      rw [query_roundtrip, query_roundtrip]
    · rw [if_neg hn, if_pos (by simp; omega)]
  · intro psk'
    unfold validRemember
    have hshne : sh' ≠ [] := (encode_b64Bytes H hsh).2
    by_cases hpe : psk' = []
    · rw [if_pos (Or.inl hpe)]
      have : psk' ≠ psk := fun e => hp (e ▸ hpe)
      simp [this]
    · rw [if_neg (by simp [hpe, hs, hshne]), hd']
      simp only [isExpired, secsDuration_id he he2]
      by_cases hn : now ≤ t + cc.rememberExpire * 1000000000
      · rw [if_neg (by simp; omega)]
        by_cases e : psk = psk'
        · subst e; simp [hn]
        · have : psk' ≠ psk := fun x => e x.symm
          simp [e, this]
      · rw [if_pos (by simp; omega)]
        simp [hn]

/-- With another salt (a changed password, say) the stored hash is refused, unless the two salted keys
give the same MAC. -/
theorem C32_remember_wrong_salt (H : Hmac) (cfg : Config) (cc : CookieConfig)
    (psk salt salt' psk' saltHash : Str) (t now : Int) (h1 : 0 < t) (h2 : t < 2 ^ 63)
    (hsh : encodeSecure H psk (cfg.secretKey ++ salt) t = some saltHash)
    (hm : H.sum (cfg.secretKey ++ salt') (psk ++ fmtInt t) ≠ H.sum (cfg.secretKey ++ salt) (psk ++ fmtInt t)) :
    validRemember H cfg cc psk' salt' saltHash now = false := by
  unfold validRemember
  split
  · rfl
  · rw [C30_wrong_key_rejected H psk _ _ saltHash t h1 h2 hsh hm]

/-- Full statement missing: `HasRemember` should accept only cookies written by `WriteRemember`.  It does
not: any value signed with the secret key that contains no `|` — every session cookie, for instance — is
reported as a remembered user with an empty key and hash. (`ValidRemember` then refuses the empty key.) -/
theorem C32_session_cookie_accepted_violated (H : Hmac) (cfg : Config) (cc : CookieConfig)
    (sid : Str) (t now : Int) (hs : sid ≠ []) (hbar : bar ∉ sid) (hk : cfg.secretKey ≠ [])
    (h1 : 0 < t) (h2 : t < 2 ^ 63) (he : 0 ≤ cc.rememberExpire) (he2 : cc.rememberExpire ≤ 9223372036)
    (hn : now ≤ t + cc.rememberExpire * 1000000000) :
    ∃ c, (writeSessionCookie H cfg cc [] sid t).1 = [c] ∧
      hasRemember H cfg cc [(cc.rememberName, c.value)] now = some ([], []) ∧
      ∀ salt, validRemember H cfg cc [] salt [] now = false := by
  obtain ⟨v, hv, hd⟩ := C29_secure_roundtrip H sid cfg.secretKey t hs hk h1 h2
  refine ⟨{ name := cc.cookieName, value := v,
            maxAge := if cc.cookieExpire ≥ 0 then cc.cookieExpire else 0 }, ?_, ?_, ?_⟩
  · unfold writeSessionCookie; rw [hv]
  · unfold hasRemember
    have hg : getCookie [(cc.rememberName, v)] cc.rememberName = some v := getCookie_append [] _ _
    rw [hg]
    simp only
    rw [hd]
    simp only [isExpired, secsDuration_id he he2]
    rw [if_neg (by simp; omega)]
    have : splitN1 bar 2 sid = [sid] := by
      rw [splitN1, if_neg hbar]
    rw [this]
  · intro salt
    unfold validRemember; rw [if_pos (Or.inl rfl)]

/-! ## The last cookie of a name wins -/

/-- Cookies of other names, and earlier cookies of the same name, do not matter. -/
theorem C31_last_cookie_wins (cs after : Cookies) (n v : Str) (h : ∀ c ∈ after, c.1 ≠ n) :
    getCookie (cs ++ (n, v) :: after) n = some v := by
  unfold getCookie
  rw [List.reverse_append, List.reverse_cons, List.find?_append, List.find?_append]
  have : after.reverse.find? (fun c => c.1 == n) = none := by
    rw [List.find?_eq_none]
    intro c hc
    have := h c (by simpa using hc)
    simpa using this
  rw [this]; simp

/-! ## The hypotheses are satisfiable -/

/-- A toy MAC: twenty copies of a checksum of key and message. -/
def toyMac : Hmac where
  sum k m := List.replicate 20 ((k ++ 0 :: m).foldl (fun a c => a * 31 + c) 7)
  len := by simp

example : decodeSecure toyMac ((encodeSecure toyMac b!"user 42" b!"key" 1700000000000000000).getD []) b!"key" =
    some (b!"user 42", 1700000000000000000) := by decide +kernel

/-- the forgery of `C30_boundary_not_signed_violated`, executed -/
example : decodeSecure toyMac (Spec.attack ((encodeSecure toyMac b!"user42" b!"key" 1700).getD [])) b!"key" =
    some (b!"user4", 21700) := by decide +kernel

example : readSid toyMac { secretKey := b!"k", sessionExpire := 60 }
    [(b!"sid", Spec.attack ((encodeSecure toyMac b!"ABC9" b!"k" 1700000000000000000).getD []))] b!"sid"
    1900000000000000000 = some (b!"ABC", 9223372036854775807) := by decide +kernel

example : (writeRemember toyMac { secretKey := b!"k", sessionExpire := 60 }
    { cookieName := b!"s", rememberName := b!"r", cookieExpire := 1, rememberExpire := 100 }
    b!"bob|x" b!"pw" 1700000000000000000).isSome = true := by decide +kernel

/-- A MAC with exactly one signed message. -/
def oneMac : Hmac where
  sum _ m := if m = b!"ABC17" then List.replicate 20 1 else List.replicate 20 0
  len := by intro k m; split <;> simp

/-- an issued list and a cookie meeting all hypotheses of `C30_authentic_fixed_length_partial` -/
example : ∃ v, encodeSecure oneMac b!"ABC" b!"k" 17 = some v ∧
    Spec.NotForged oneMac b!"k" (Spec.messages [(b!"ABC", 17)]) v ∧
    decodeSecure oneMac v b!"k" = some (b!"ABC", 17) := by
  refine ⟨_, rfl, ?_, by decide +kernel⟩
  intro m h
  have hc : Spec.carriedHash (b64Encode (queryEscape b!"ABC" ++ comma :: (fmtInt 17 ++ comma ::
      hexEncode (oneMac.sum b!"k" (b!"ABC" ++ fmtInt 17))))) = some (hexEncode (List.replicate 20 1)) := by
    decide +kernel
  rw [hc] at h
  have h2 : List.replicate 20 1 = oneMac.sum b!"k" m := hexEncode_inj (by simpa using h)
  by_cases hm : m = b!"ABC17"
  · subst hm; decide +kernel
  · exfalso
    have : oneMac.sum b!"k" m = List.replicate 20 0 := if_neg hm
    rw [this] at h2
    exact absurd h2 (by decide)

theorem queryUnescape_ne_nil {s r : Str} (h : queryUnescape s = some r) (hs : s ≠ []) : r ≠ [] := by
  unfold queryUnescape at h
  split at h
  · exact absurd rfl hs
  · split at h
    · rw [Option.map_eq_some_iff] at h
      obtain ⟨a, -, rfl⟩ := h
      simp
    · cases h
  · split at h
    · cases h
    · rw [Option.map_eq_some_iff] at h
      obtain ⟨a, -, rfl⟩ := h
      simp

/-- Whatever is accepted is a non-empty value with a positive time. -/
theorem C30_accepted_nonempty (H : Hmac) (key v raw : Str) (t : Int)
    (h : decodeSecure H v key = some (raw, t)) : raw ≠ [] ∧ 0 < t := by
  obtain ⟨p0, p1, p2, h1, h2, h3, -⟩ := decode_some H h
  refine ⟨queryUnescape_ne_nil h2 ?_, h3⟩
  intro h0
  unfold decodeSecure at h
  rw [h1] at h
  simp [h0] at h

/-- `WriteRemember` refuses exactly the empty secret, the empty user key and the empty salt: then no cookie
is set. -/
theorem C32_remember_refuses (H : Hmac) (cfg : Config) (cc : CookieConfig) (psk salt : Str) (now : Int) :
    writeRemember H cfg cc psk salt now = none ↔ cfg.secretKey = [] ∨ psk = [] ∨ salt = [] := by
  unfold writeRemember createRemember
  by_cases h : cfg.secretKey = [] ∨ psk = [] ∨ salt = []
  · rw [if_pos h]; simp [h]
  · rw [if_neg h]
    simp only [h, iff_false]
    simp only [not_or] at h
    cases h1 : encodeSecure H psk (cfg.secretKey ++ salt) now with
    | none =>
      rcases (C29_encode_refuses H _ _ _).1 h1 with h2 | h2
      · exact absurd h2 h.2.1
      · exact absurd (List.append_eq_nil_iff.1 h2).1 h.1
    | some sh =>
      cases h2 : encodeSecure H (queryEscape psk ++ bar :: queryEscape sh) cfg.secretKey now with
      | none =>
        rcases (C29_encode_refuses H _ _ _).1 h2 with h3 | h3
        · simp at h3
        · exact absurd h3 h.1
      | some v => simp [h2]

end Verif.Sess
