import Verif.Props.Cookie
import Verif.Proofs.Num
/-!
# C103, C104: which cookies are accepted, exactly; cookies of one purpose used for another
-/
namespace Verif.Sess
open Verif.Go Verif.Go.NumSpec

/-! ## Specification -/

/-- The text `b` is accepted as the (positive) time `t`: an optional plus sign and digits; times beyond the
largest 64-bit number are clamped to it; and once the digits exceed 2^64 - 1 anything may follow. -/
def Spec.TimeText (b : Str) (t : Int) : Prop :=
  ∃ sgn ds rest, b = sgn ++ (ds ++ rest) ∧ (sgn = [] ∨ sgn = [43]) ∧ Digits ds ∧
    (rest = [] ∨ 2 ^ 64 ≤ decimal ds) ∧ 0 < decimal ds ∧
    t = if decimal ds < 2 ^ 63 then (decimal ds : Int) else 2 ^ 63 - 1

/-- The cookie value `v` carries the value `raw` and the time `t`, signed with `key`: its base64 content is
three fields separated by commas (blanks around them are ignored): the escaped value, the time, and the
hexadecimal MAC of the value followed by the time's text. -/
def Spec.Carries (H : Hmac) (key v raw : Str) (t : Int) : Prop :=
  ∃ a b c, (b64Decode v).1 = a ++ 44 :: (b ++ 44 :: c) ∧ 44 ∉ a ∧ 44 ∉ b ∧
    raw ≠ [] ∧ queryUnescape (trimSpace a) = some raw ∧ Spec.TimeText (trimSpace b) t ∧
    trimSpace c = hexEncode (H.sum key (raw ++ trimSpace b))

/-! ## Parsing times -/

theorem loop_cases (max : Nat) (s : Str) : ∀ acc, acc ≤ max →
    (parseUintLoop max acc s).2 = some .syn ∨
    (∃ ds rest, s = ds ++ rest ∧ (∀ c ∈ ds, 48 ≤ c.toNat ∧ c.toNat ≤ 57) ∧
      (rest = [] ∨ max < ds.foldl (fun a c => a * 10 + (c.toNat - 48)) acc) ∧
      (parseUintLoop max acc s).1 = min max (ds.foldl (fun a c => a * 10 + (c.toNat - 48)) acc)) := by
  induction s with
  | nil =>
    intro acc h
    refine Or.inr ⟨[], [], rfl, by simp, Or.inl rfl, ?_⟩
    simp only [parseUintLoop, List.foldl_nil]; omega
  | cons c cs ih =>
    intro acc h
    simp only [parseUintLoop]
    cases hd : digitVal? c with
    | none => exact Or.inl rfl
    | some d =>
      obtain ⟨hc, rfl⟩ := isDig_of_digitVal hd
      simp only []
      by_cases hm : acc * 10 + (c.toNat - 48) > max
      · rw [if_pos hm]
        refine Or.inr ⟨[c], cs, rfl, ?_, Or.inr ?_, ?_⟩
        · intro x hx; simp at hx; subst hx; exact hc
        · simpa using hm
        · simp only [List.foldl_cons, List.foldl_nil]; omega
      · rw [if_neg hm]
        rcases ih (acc * 10 + (c.toNat - 48)) (by omega) with e | ⟨ds, rest, rfl, h1, h2, h3⟩
        · exact Or.inl e
        · refine Or.inr ⟨c :: ds, rest, rfl, ?_, h2, h3⟩
          intro x hx
          rcases List.mem_cons.1 hx with rfl | hx
          · exact hc
          · exact h1 x hx

theorem loop_prefix (max acc : Nat) (ds rest : Str) (h : ∀ c ∈ ds, 48 ≤ c.toNat ∧ c.toNat ≤ 57) (ha : acc ≤ max)
    (hr : rest = [] ∨ max < ds.foldl (fun a c => a * 10 + (c.toNat - 48)) acc) :
    (parseUintLoop max acc (ds ++ rest)).1 = min max (ds.foldl (fun a c => a * 10 + (c.toNat - 48)) acc) ∧
    (parseUintLoop max acc (ds ++ rest)).2 ≠ some .syn := by
  rw [parseUintLoop_append, parseUintLoop_eq _ _ _ h ha]
  by_cases hm : ds.foldl (fun a c => a * 10 + (c.toNat - 48)) acc ≤ max
  · rw [if_pos hm]
    rcases hr with rfl | hr
    · simp only [parseUintLoop]; exact ⟨by omega, by simp⟩
    · omega
  · rw [if_neg hm]
    simp only []
    exact ⟨by omega, by simp⟩

theorem signRange_pos (un : Nat) (e : Option NumErr) (h : e ≠ some .syn) :
    (signRange 64 false (un, e)).1 = if un < 2 ^ 63 then (un : Int) else 2 ^ 63 - 1 := by
  have : ∀ e' : Option NumErr, e' ≠ some .syn →
      (signRange 64 false (un, e')).1 = if un < 2 ^ 63 then (un : Int) else 2 ^ 63 - 1 := by
    intro e' he
    have hs : signRange 64 false (un, e') = signRange 64 false (un, none) := by
      cases e' with
      | none => rfl
      | some x =>
        cases x with
        | syn => exact absurd rfl he
        | rng => rfl
    rw [hs]
    simp only [signRange]
    by_cases hlt : un < 2 ^ 63
    · rw [if_pos hlt, if_neg (by simp; omega), if_neg (by simp), if_neg (by simp)]
    · rw [if_neg hlt, if_pos (by simp; omega)]
      rfl
  exact this e h

/-- What `ParseInt(b, 10, 64)` makes a positive number, its error being ignored. -/
theorem timeText_iff (b : Str) (t : Int) :
    Spec.TimeText b t ↔ 0 < t ∧ (parseInt 64 b).1 = t := by
  constructor
  · rintro ⟨sgn, ds, rest, rfl, hs, hd, hr, hp, rfl⟩
    have hbody : (if (sgn ++ (ds ++ rest)).head? = some 43 ∨ (sgn ++ (ds ++ rest)).head? = some 45
        then (sgn ++ (ds ++ rest)).drop 1 else sgn ++ (ds ++ rest)) = ds ++ rest := by
      rcases hs with rfl | rfl
      · have := digits_head ds hd
        have e : (ds ++ rest).head? = ds.head? := by
          cases ds with
          | nil => exact absurd rfl hd.1
          | cons _ _ => rfl
        rw [List.nil_append, e, if_neg (by simp [this])]
      · rfl
    have hneg : ((sgn ++ (ds ++ rest)).head? == some 45) = false := by
      rcases hs with rfl | rfl
      · have := digits_head ds hd
        have e : (ds ++ rest).head? = ds.head? := by
          cases ds with
          | nil => exact absurd rfl hd.1
          | cons _ _ => rfl
        rw [List.nil_append, e]
        simpa using this.2
      · rfl
    have hpu : (parseUint 64 (ds ++ rest)).1 = min (2 ^ 64 - 1) (decimal ds) ∧
        (parseUint 64 (ds ++ rest)).2 ≠ some .syn := by
      unfold parseUint
      rw [if_neg (by simp [hd.1])]
      refine loop_prefix _ 0 ds rest hd.2 (by omega) ?_
      rcases hr with h | h
      · exact Or.inl h
      · refine Or.inr ?_; unfold decimal at h; omega
    unfold parseInt
    rw [hbody, hneg]
    generalize parseUint 64 (ds ++ rest) = pu at hpu
    obtain ⟨un, e⟩ := pu
    simp only at hpu
    obtain ⟨rfl, hns⟩ := hpu
    rw [signRange_pos _ _ hns]
    by_cases hlt : decimal ds < 2 ^ 63
    · rw [if_pos hlt, if_pos (by omega)]
      refine ⟨by omega, ?_⟩
      congr 1
      omega
    · rw [if_neg hlt, if_neg (by omega)]
      exact ⟨by omega, rfl⟩
  · rintro ⟨h0, rfl⟩
    unfold parseInt at h0 ⊢
    generalize hb : (if b.head? = some 43 ∨ b.head? = some 45 then b.drop 1 else b) = body at h0 ⊢
    cases hneg : (b.head? == some 45) with
    | true =>
      exfalso
      rw [hneg] at h0
      generalize parseUint 64 body = pu at h0
      obtain ⟨un, e⟩ := pu
      have : (signRange 64 true (un, e)).1 ≤ 0 := by
        cases e with
        | none => simp only [signRange]; split <;> (try split) <;> simp_all <;> omega
        | some e =>
          cases e with
          | syn => simp [signRange]
          | rng => simp only [signRange]; split <;> (try split) <;> simp_all <;> omega
      omega
    | false =>
      rw [hneg] at h0
      have hne : body ≠ [] := by
        rintro rfl
        simp [parseUint, signRange] at h0
      have hpu : parseUint 64 body = parseUintLoop (2 ^ 64 - 1) 0 body := by
        unfold parseUint; rw [if_neg hne]
      rw [hpu] at h0 ⊢
      rcases loop_cases (2 ^ 64 - 1) body 0 (by omega) with e | ⟨ds, rest, rfl, hds, hr, hv⟩
      · exfalso
        generalize parseUintLoop (2 ^ 64 - 1) 0 body = pu at h0 e
        obtain ⟨un, e'⟩ := pu
        simp only at e
        subst e
        simp [signRange] at h0
      · have hns : (parseUintLoop (2 ^ 64 - 1) 0 (ds ++ rest)).2 ≠ some .syn :=
          (loop_prefix _ 0 ds rest hds (by omega) hr).2
        generalize parseUintLoop (2 ^ 64 - 1) 0 (ds ++ rest) = pu at h0 hv hns ⊢
        obtain ⟨un, e⟩ := pu
        simp only at hv hns
        subst hv
        have hsr : (signRange 64 false (min (2 ^ 64 - 1) (ds.foldl (fun a c => a * 10 + (c.toNat - 48)) 0), e)).1 =
            if min (2 ^ 64 - 1) (decimal ds) < 2 ^ 63 then ((min (2 ^ 64 - 1) (decimal ds) : Nat) : Int)
            else 2 ^ 63 - 1 := signRange_pos _ _ hns
        rw [hsr] at h0 ⊢
        have hdne : ds ≠ [] := by
          rintro rfl
          rcases hr with rfl | hr
          · exact hne rfl
          · simp at hr
        have hdig : Digits ds := ⟨hdne, hds⟩
        have hpos : 0 < decimal ds := by
          by_cases hz : decimal ds = 0
          · rw [hz] at h0; simp at h0
          · omega
        refine ⟨if b.head? = some 43 then [43] else [], ds, rest, ?_, ?_, hdig, ?_, hpos, ?_⟩
        · have h45 : b.head? ≠ some 45 := by simpa using hneg
          by_cases h43 : b.head? = some 43
          · rw [if_pos (Or.inl h43)] at hb
            rw [if_pos h43, ← hb]
            cases b with
            | nil => simp at h43
            | cons x xs => simp at h43; subst h43; rfl
          · rw [if_neg (by simp [h43, h45])] at hb
            rw [if_neg h43, hb]; rfl
        · by_cases h43 : b.head? = some 43
          · rw [if_pos h43]; exact Or.inr rfl
          · rw [if_neg h43]; exact Or.inl rfl
        · rcases hr with h | h
          · exact Or.inl h
          · refine Or.inr ?_; unfold decimal; omega
        · by_cases hlt : decimal ds < 2 ^ 63
          · rw [if_pos hlt, if_pos (by omega)]
            congr 1
            omega
          · rw [if_neg hlt, if_neg (by omega)]

/-! ## C103 -/

theorem splitN1_3_inv {sep : UInt8} {s p0 p1 p2 : Str} (h : splitN1 sep 3 s = [p0, p1, p2]) :
    s = p0 ++ sep :: (p1 ++ sep :: p2) ∧ sep ∉ p0 ∧ sep ∉ p1 := by
  have tk : ∀ u : Str, sep ∈ u → u = u.takeWhile (· != sep) ++ sep :: (u.dropWhile (· != sep)).drop 1 ∧
      sep ∉ u.takeWhile (· != sep) := by
    intro u hu
    induction u with
    | nil => simp at hu
    | cons c cs ih =>
      by_cases hc : c = sep
      · subst hc; simp
      · have hcs : sep ∈ cs := by
          rcases List.mem_cons.1 hu with e | e
          · exact absurd e.symm hc
          · exact e
        obtain ⟨h1, h2⟩ := ih hcs
        have hb : (c != sep) = true := by simpa using hc
        rw [List.takeWhile_cons, List.dropWhile_cons, if_pos hb, if_pos hb]
        refine ⟨?_, ?_⟩
        · rw [List.cons_append, ← h1]
        · simp only [List.mem_cons, not_or]
          exact ⟨fun e => hc e.symm, h2⟩
  simp only [splitN1] at h
  by_cases h1 : sep ∈ s
  · rw [if_pos h1] at h
    by_cases h2 : sep ∈ (s.dropWhile (· != sep)).drop 1
    · rw [if_pos h2] at h
      simp only [List.cons.injEq] at h
      obtain ⟨e0, e1, e2, -⟩ := h
      obtain ⟨a1, a2⟩ := tk s h1
      obtain ⟨b1, b2⟩ := tk _ h2
      rw [e1, e2] at b1
      rw [e1] at b2
      rw [b1, e0] at a1
      rw [e0] at a2
      exact ⟨a1, a2, b2⟩
    · rw [if_neg h2] at h; simp at h
  · rw [if_neg h1] at h; simp at h

/-- **C103**: for every cookie value and key, `DecodeSecureValue` accepts exactly the values that carry, signed
with the key, a non-empty value and a positive time, and returns these. -/
theorem C103_decode_iff (H : Hmac) (key v raw : Str) (t : Int) :
    decodeSecure H v key = some (raw, t) ↔ Spec.Carries H key v raw t := by
  constructor
  · intro h
    obtain ⟨p0, p1, p2, hs, hu, hpos, ht, hh⟩ := decode_some H h
    obtain ⟨e, h0, h1⟩ := splitN1_3_inv hs
    refine ⟨p0, p1, p2, e, h0, h1, (C30_accepted_nonempty H key v raw t h).1, hu, ?_, hh⟩
    rw [timeText_iff]
    exact ⟨hpos, ht.symm⟩
  · rintro ⟨a, b, c, e, ha, hb, hr, hu, ht, hc⟩
    rw [timeText_iff] at ht
    obtain ⟨h0, rfl⟩ := ht
    unfold decodeSecure
    rw [e, show (44 : UInt8) = comma from rfl, splitN1_3 comma a b c ha hb]
    simp only []
    rw [if_neg, if_neg (by omega), hu]
    · simp only []
      rw [if_neg (by rw [hc]; simp)]
    · rintro (h | h | h)
      · rw [h] at hu
        simp [queryUnescape] at hu
        exact hr hu
      · rw [h] at h0
        revert h0; decide
      · rw [h] at hc
        have := congrArg List.length hc
        rw [hexEncode_length, H.len] at this
        simp at this

/-- **C103**: and it rejects everything else. -/
theorem C103_decode_none_iff (H : Hmac) (key v : Str) :
    decodeSecure H v key = none ↔ ∀ raw t, ¬ Spec.Carries H key v raw t := by
  constructor
  · intro h raw t hc
    rw [← C103_decode_iff] at hc
    rw [h] at hc; simp at hc
  · intro h
    cases hd : decodeSecure H v key with
    | none => rfl
    | some p =>
      obtain ⟨raw, t⟩ := p
      exact absurd ((C103_decode_iff H key v raw t).1 hd) (h raw t)

theorem getCookie_iff (cs : Cookies) (name cv : Str) : getCookie cs name = some cv ↔
    ∃ before after, cs = before ++ (name, cv) :: after ∧ ∀ c ∈ after, c.1 ≠ name := by
  constructor
  · intro h
    unfold getCookie at h
    cases hf : cs.reverse.find? (fun c => c.1 == name) with
    | none => rw [hf] at h; simp at h
    | some c =>
      rw [hf] at h
      simp only [Option.map_some, Option.some.injEq] at h
      rw [List.find?_eq_some_iff_append] at hf
      obtain ⟨hc, as, bs, e, hall⟩ := hf
      have e' : cs = bs.reverse ++ c :: as.reverse := by
        have := congrArg List.reverse e
        simpa using this
      obtain ⟨cn, cvv⟩ := c
      simp only [beq_iff_eq] at hc h
      subst hc h
      refine ⟨bs.reverse, as.reverse, e', ?_⟩
      intro c hc
      have := hall c (by simpa using hc)
      simpa using this
  · rintro ⟨before, after, rfl, h⟩
    exact C31_last_cookie_wins before after name cv h

/-- **C103**: the session id of a request, for every configuration and clock: the last session cookie, unescaped,
carries it and `now` is not after the time plus the expiry, computed in 64-bit nanoseconds. -/
theorem C103_session_id_iff (H : Hmac) (cfg : Config) (cs : Cookies) (name sid : Str) (now t : Int) :
    readSid H cfg cs name now = some (sid, t) ↔
      ∃ before cv after v, cs = before ++ (name, cv) :: after ∧ (∀ c ∈ after, c.1 ≠ name) ∧
        queryUnescape cv = some v ∧ Spec.Carries H cfg.secretKey v sid t ∧
        now ≤ t + wrapS 64 (cfg.sessionExpire * 1000000000) := by
  have hget := getCookie_iff cs name
  constructor
  · intro h
    unfold readSid at h
    cases hg : getCookie cs name with
    | none => rw [hg] at h; simp at h
    | some cv =>
      rw [hg] at h
      simp only [] at h
      obtain ⟨before, after, e, ha⟩ := (hget cv).1 hg
      cases hu : queryUnescape cv with
      | none => rw [hu] at h; simp at h
      | some v =>
        rw [hu] at h
        simp only [] at h
        cases hd : decodeSecure H v cfg.secretKey with
        | none => rw [hd] at h; simp at h
        | some p =>
          rw [hd] at h
          obtain ⟨s, u⟩ := p
          simp only [] at h
          by_cases hx : isExpired u (secsDuration cfg.sessionExpire) now = true
          · rw [if_pos hx] at h; simp at h
          · rw [if_neg hx] at h
            simp only [Option.some.injEq, Prod.mk.injEq] at h
            obtain ⟨rfl, rfl⟩ := h
            refine ⟨before, cv, after, v, e, ha, hu, (C103_decode_iff H _ _ _ _).1 hd, ?_⟩
            exact Int.not_lt.1 (fun h => hx (decide_eq_true h))
  · rintro ⟨before, cv, after, v, e, ha, hu, hc, hn⟩
    unfold readSid
    rw [(hget cv).2 ⟨before, after, e, ha⟩]
    simp only []
    rw [hu]
    simp only []
    rw [(C103_decode_iff H _ _ _ _).2 hc]
    simp only []
    rw [if_neg]
    intro hx
    exact Int.not_le.2 (of_decide_eq_true hx) hn

/-- **C103**: a user key is validated exactly when its hash carries it, signed with the secret key and the salt,
and is not expired. -/
theorem C103_valid_remember_iff (H : Hmac) (cfg : Config) (cc : CookieConfig) (psk salt saltHash : Str) (now : Int) :
    validRemember H cfg cc psk salt saltHash now = true ↔
      salt ≠ [] ∧ ∃ t, Spec.Carries H (cfg.secretKey ++ salt) saltHash psk t ∧
        now ≤ t + wrapS 64 (cc.rememberExpire * 1000000000) := by
  unfold validRemember
  constructor
  · intro h
    split at h
    · simp at h
    · rename_i hne
      simp only [not_or] at hne
      refine ⟨hne.2.1, ?_⟩
      cases hd : decodeSecure H saltHash (cfg.secretKey ++ salt) with
      | none => rw [hd] at h; simp at h
      | some p =>
        obtain ⟨u, t⟩ := p
        rw [hd] at h
        simp only [] at h
        by_cases hx : isExpired t (secsDuration cc.rememberExpire) now = true
        · rw [if_pos hx] at h; simp at h
        · rw [if_neg hx] at h
          have : u = psk := by simpa using h
          subst this
          exact ⟨t, (C103_decode_iff H _ _ _ _).1 hd, Int.not_lt.1 (fun h => hx (decide_eq_true h))⟩
  · rintro ⟨hs, t, hc, hn⟩
    have hp : psk ≠ [] := by
      obtain ⟨_, _, _, _, _, _, h, _⟩ := hc
      exact h
    have hsh : saltHash ≠ [] := by
      rintro rfl
      obtain ⟨a, b, c, e, _⟩ := hc
      have : (b64Decode ([] : Str)).1 = [] := rfl
      rw [this] at e
      simp at e
    rw [if_neg (by simp [hp, hs, hsh]), (C103_decode_iff H _ _ _ _).2 hc]
    simp only []
    rw [if_neg (show ¬ isExpired t (secsDuration cc.rememberExpire) now = true from
      fun hx => Int.not_le.2 (of_decide_eq_true hx) hn)]
    simp

/-- What a signed value says to `HasRemember`: two parts around the first bar, each escaped; a value without a bar
is taken for an empty user key and an empty hash. -/
def Spec.RememberParts (value psk saltHash : Str) : Prop :=
  (∃ a b, value = a ++ 124 :: b ∧ 124 ∉ a ∧ queryUnescape a = some psk ∧ queryUnescape b = some saltHash) ∨
  (124 ∉ value ∧ psk = [] ∧ saltHash = [])

/-- **C103**: a user is reported as remembered exactly when the last remember-me cookie (its value is not unescaped
here) carries a signed, unexpired value that says so. -/
theorem C103_has_remember_iff (H : Hmac) (cfg : Config) (cc : CookieConfig) (cs : Cookies) (psk saltHash : Str)
    (now : Int) :
    hasRemember H cfg cc cs now = some (psk, saltHash) ↔
      ∃ before cv after value t, cs = before ++ (cc.rememberName, cv) :: after ∧
        (∀ c ∈ after, c.1 ≠ cc.rememberName) ∧ Spec.Carries H cfg.secretKey cv value t ∧
        now ≤ t + wrapS 64 (cc.rememberExpire * 1000000000) ∧ Spec.RememberParts value psk saltHash := by
  have parts : ∀ value : Str, ((match splitN1 bar 2 value with
        | [a, b] =>
          match queryUnescape a, queryUnescape b with
          | some psk, some saltHash => some (psk, saltHash)
          | _, _ => none
        | _ => some ([], [])) : Option (Str × Str)) = some (psk, saltHash) ↔
      Spec.RememberParts value psk saltHash := by
    intro value
    by_cases hb : bar ∈ value
    · obtain ⟨a, b, rfl, ha⟩ : ∃ a b, value = a ++ bar :: b ∧ bar ∉ a  :=
        List.eq_append_cons_of_mem hb
      rw [splitN1_2 bar a b ha]
      simp only []
      constructor
      · intro h
        cases h1 : queryUnescape a with
        | none => rw [h1] at h; simp at h
        | some x =>
          cases h2 : queryUnescape b with
          | none => rw [h1, h2] at h; simp at h
          | some y =>
            rw [h1, h2] at h
            simp only [Option.some.injEq, Prod.mk.injEq] at h
            obtain ⟨rfl, rfl⟩ := h
            exact Or.inl ⟨a, b, rfl, ha, h1, h2⟩
      · rintro (⟨a', b', e, ha', h1, h2⟩ | ⟨h, -, -⟩)
        · have h3 : splitN1 bar 2 (a ++ bar :: b) = splitN1 bar 2 (a' ++ bar :: b') := congrArg _ e
          rw [splitN1_2 bar a b ha, splitN1_2 bar a' b' ha'] at h3
          simp only [List.cons.injEq] at h3
          obtain ⟨rfl, rfl, -⟩ := h3
          rw [h1, h2]
        · exact absurd (by simp [bar]) h
    · have : splitN1 bar 2 value = [value] := by rw [splitN1, if_neg hb]
      rw [this]
      simp only [Option.some.injEq, Prod.mk.injEq]
      constructor
      · rintro ⟨rfl, rfl⟩
        exact Or.inr ⟨hb, rfl, rfl⟩
      · rintro (⟨a, b, rfl, -⟩ | ⟨-, rfl, rfl⟩)
        · exact absurd (by simp [bar]) hb
        · exact ⟨rfl, rfl⟩
  constructor
  · intro h
    unfold hasRemember at h
    cases hg : getCookie cs cc.rememberName with
    | none => rw [hg] at h; simp at h
    | some cv =>
      rw [hg] at h
      simp only [] at h
      obtain ⟨before, after, e, ha⟩ := (getCookie_iff cs _ cv).1 hg
      cases hd : decodeSecure H cv cfg.secretKey with
      | none => rw [hd] at h; simp at h
      | some p =>
        rw [hd] at h
        obtain ⟨value, t⟩ := p
        simp only [] at h
        by_cases hx : isExpired t (secsDuration cc.rememberExpire) now = true
        · rw [if_pos hx] at h; simp at h
        · rw [if_neg hx] at h
          exact ⟨before, cv, after, value, t, e, ha, (C103_decode_iff H _ _ _ _).1 hd,
            Int.not_lt.1 (fun h => hx (decide_eq_true h)), (parts value).1 h⟩
  · rintro ⟨before, cv, after, value, t, e, ha, hc, hn, hp⟩
    unfold hasRemember
    rw [(getCookie_iff cs _ cv).2 ⟨before, after, e, ha⟩]
    simp only []
    rw [(C103_decode_iff H _ _ _ _).2 hc]
    simp only []
    rw [if_neg (show ¬ isExpired t (secsDuration cc.rememberExpire) now = true from
      fun hx => Int.not_le.2 (of_decide_eq_true hx) hn)]
    exact (parts value).2 hp

/-! ## C104: cookies signed for one purpose, presented for another -/

/-- The value a remember-me cookie signs with the secret key: the escaped user key, a bar, and the escaped salted
hash. -/
def Spec.rememberValue (H : Hmac) (sk psk salt : Str) (t : Int) : Str :=
  queryEscape psk ++ 124 ::
    queryEscape (b64Encode (queryEscape psk ++ 44 :: (fmtInt t ++ 44 :: hexEncode (H.sum (sk ++ salt) (psk ++ fmtInt t)))))

/-- What a server has signed with its secret key: session cookies `(sid, time)` and remember-me cookies
`(user key, salt, time)`. -/
def Spec.signed (H : Hmac) (sk : Str) (sessions : List (Str × Int)) (remembered : List (Str × Str × Int)) : List Str :=
  sessions.map (fun i => i.1 ++ fmtInt i.2) ++
    remembered.map (fun r => Spec.rememberValue H sk r.1 r.2.1 r.2.2 ++ fmtInt r.2.2)

/-- It is what the model's encoder signs. -/
theorem C104_signed_is_signed (H : Hmac) (sk psk salt v : Str) (t : Int)
    (h : createRemember H sk psk salt t = some v) :
    encodeSecure H (Spec.rememberValue H sk psk salt t) sk t = some v := by
  unfold createRemember at h
  by_cases hne : sk = [] ∨ psk = [] ∨ salt = []
  · rw [if_pos hne] at h; simp at h
  · rw [if_neg hne] at h
    simp only [not_or] at hne
    rw [encode_eq H hne.2.1 (by simp [hne.1])] at h
    exact h

/-- A time text is not positive when fewer than twenty bytes stand before a byte that is neither digit nor
plus. -/
theorem time_not_pos {pre more : Str} {x : UInt8} {t : Int} (hx : ¬ (48 ≤ x.toNat ∧ x.toNat ≤ 57)) (hx' : x ≠ 43)
    (hl : pre.length < 20) : ¬ Spec.TimeText (pre ++ x :: more) t := by
  have hbig : ∀ ds : Str, (∀ c ∈ ds, 48 ≤ c.toNat ∧ c.toNat ≤ 57) →
      ∀ a, ds.foldl (fun a c => a * 10 + (c.toNat - 48)) a < (a + 1) * 10 ^ ds.length := by
    intro ds
    induction ds with
    | nil => intro _ a; simp
    | cons c cs ih =>
      intro h a
      have h1 := ih (fun c hc => h c (by simp [hc])) (a * 10 + (c.toNat - 48))
      have h2 := h c (by simp)
      have h3 : (a * 10 + (c.toNat - 48) + 1) * 10 ^ cs.length ≤ ((a + 1) * 10) * 10 ^ cs.length :=
        Nat.mul_le_mul_right _ (by omega)
      rw [List.foldl_cons, List.length_cons, Nat.pow_succ, Nat.mul_comm (10 ^ cs.length) 10, ← Nat.mul_assoc]
      omega
  have core : ∀ (p ds rest : Str), p.length < 20 → p ++ x :: more = ds ++ rest → Digits ds →
      (rest = [] ∨ 2 ^ 64 ≤ decimal ds) → False := by
    intro p ds rest hp e hd hr
    have hlen : p.length < ds.length := by
      rcases hr with rfl | hr
      · rw [List.append_nil] at e
        rw [← e]; simp
      · have := hbig ds hd.2 0
        unfold decimal at hr
        by_cases hlt : ds.length < 20
        · have hm : 10 ^ ds.length ≤ 10 ^ 19 := Nat.pow_le_pow_right (by omega) (by omega)
          omega
        · omega
    have hget : (p ++ x :: more)[p.length]? = some x := by simp
    rw [e, List.getElem?_append_left hlen] at hget
    exact hx (hd.2 x (List.mem_of_getElem? hget))
  rintro ⟨sgn, ds, rest, e, hs, hd, hr, -, -⟩
  rcases hs with rfl | rfl
  · exact core pre ds rest hl e hd hr
  · cases pre with
    | nil =>
      simp only [List.nil_append, List.cons_append, List.cons.injEq] at e
      exact hx' e.1
    | cons y ys =>
      simp only [List.cons_append, List.cons.injEq, List.nil_append] at e
      exact core ys ds rest (by simp at hl; omega) e.2 hd hr

/-- Bytes of escaped texts, commas, digits: their base64 groups begin with a letter. -/
def lettered (c : UInt8) : Bool := 32 ≤ c.toNat && c.toNat < 128

theorem b64_unreserved : ∀ n : Fin 64, unreserved (b64Char n.val) = true := by decide

theorem b64_letter (c : UInt8) (h : lettered c = true) :
    ¬ (48 ≤ (b64Char (c.toNat / 4)).toNat ∧ (b64Char (c.toNat / 4)).toNat ≤ 57) ∧ b64Char (c.toNat / 4) ≠ 43 := by
  revert h
  exact forall_u8 (P := fun c => lettered c = true →
    ¬ (48 ≤ (b64Char (c.toNat / 4)).toNat ∧ (b64Char (c.toNat / 4)).toNat ≤ 57) ∧ b64Char (c.toNat / 4) ≠ 43)
    (by decide +kernel) c

theorem esc_cons_unres {c : UInt8} (cs : Str) (h : unreserved c = true) :
    queryEscape (c :: cs) = c :: queryEscape cs := by
  have := unreserved_ne c h
  simp only [queryEscape]
  rw [if_neg this.2.2, if_pos h]

theorem esc_b64_head (c : UInt8) (r : Str) (hc : lettered c = true) :
    ∃ x more, queryEscape (b64Encode (c :: r)) = x :: more ∧ ¬ (48 ≤ x.toNat ∧ x.toNat ≤ 57) ∧ x ≠ 43 := by
  have hq : c.toNat / 4 < 64 := by have := c.toNat_lt; omega
  have hu : unreserved (b64Char (c.toNat / 4)) = true := b64_unreserved ⟨_, hq⟩
  have hl := b64_letter c hc
  match r with
  | [] => exact ⟨_, _, by rw [b64Encode, esc_cons_unres _ hu], hl.1, hl.2⟩
  | [b] => exact ⟨_, _, by rw [b64Encode, esc_cons_unres _ hu], hl.1, hl.2⟩
  | b :: d :: r => exact ⟨_, _, by rw [b64Encode, esc_cons_unres _ hu], hl.1, hl.2⟩

/-- In the escaped base64 text of such bytes a letter comes within four bytes of any place that is not in the last
group. -/
theorem esc_b64_letter : ∀ (k : Nat) (s : Str), (∀ c ∈ s, lettered c = true) → k < s.length - 3 →
    ∃ pre x more, (queryEscape (b64Encode s)).drop k = pre ++ x :: more ∧ pre.length < 4 ∧
      ¬ (48 ≤ x.toNat ∧ x.toNat ≤ 57) ∧ x ≠ 43 := by
  intro k
  induction k using Nat.strongRecOn with
  | _ k ih =>
    intro s hs hk
    match s, hs, hk with
    | [], _, hk => simp at hk
    | [_], _, hk => simp at hk
    | [_, _], _, hk => simp at hk
    | a :: b :: c :: r, hs, hk =>
      have bnd : ∀ n, n < 64 → unreserved (b64Char n) = true := fun n h => b64_unreserved ⟨n, h⟩
      have ha := a.toNat_lt
      have hb := b.toNat_lt
      have hc := c.toNat_lt
      have e : queryEscape (b64Encode (a :: b :: c :: r)) =
          b64Char (a.toNat / 4) :: b64Char (a.toNat % 4 * 16 + b.toNat / 16) ::
          b64Char (b.toNat % 16 * 4 + c.toNat / 64) :: b64Char (c.toNat % 64) :: queryEscape (b64Encode r) := by
        rw [b64Encode, esc_cons_unres _ (bnd _ (by omega)), esc_cons_unres _ (bnd _ (by omega)),
          esc_cons_unres _ (bnd _ (by omega)), esc_cons_unres _ (bnd _ (by omega))]
      rw [e]
      have hl := b64_letter a (hs a (by simp))
      have hrne : r ≠ [] := by rintro rfl; simp at hk
      obtain ⟨d, r', rfl⟩ : ∃ d r', r = d :: r' := by
        cases r with
        | nil => exact absurd rfl hrne
        | cons d r' => exact ⟨d, r', rfl⟩
      obtain ⟨x, more, hx, hx1, hx2⟩ := esc_b64_head d r' (hs d (by simp))
      match k, ih, hk with
      | 0, _, _ => exact ⟨[], _, _, rfl, by simp, hl.1, hl.2⟩
      | 1, _, _ => exact ⟨[_, _, _], x, more, by rw [hx]; rfl, by simp, hx1, hx2⟩
      | 2, _, _ => exact ⟨[_, _], x, more, by rw [hx]; rfl, by simp, hx1, hx2⟩
      | 3, _, _ => exact ⟨[_], x, more, by rw [hx]; rfl, by simp, hx1, hx2⟩
      | k + 4, ih, hk =>
        have := ih k (by omega) (d :: r') (fun c hc => hs c (by simp only [List.mem_cons] at hc ⊢; simp [hc]))
          (by simp only [List.length_cons] at hk ⊢; omega)
        exact this


theorem lettered_plain (c : UInt8) (h : plain c = true) : lettered c = true := by
  have := plain_bounds h
  unfold lettered
  simp; omega

theorem remember_time_not_pos (H : Hmac) (sk psk salt : Str) (t t' : Int) (hp : psk ≠ []) (h1 : 0 < t)
    (hl : (queryEscape psk).length < 40) :
    ¬ Spec.TimeText ((Spec.rememberValue H sk psk salt t ++ fmtInt t).drop 20) t' := by
  have hE : queryEscape psk ≠ [] := queryEscape_ne_nil hp
  have hE1 : 1 ≤ (queryEscape psk).length := by
    cases h : queryEscape psk with
    | nil => exact absurd h hE
    | cons _ _ => simp
  have hbar : ¬ (48 ≤ (124 : UInt8).toNat ∧ (124 : UInt8).toNat ≤ 57) := by decide
  unfold Spec.rememberValue
  generalize hs : (queryEscape psk ++ 44 :: (fmtInt t ++ 44 :: hexEncode (H.sum (sk ++ salt) (psk ++ fmtInt t)))) = s
  have hslen : 44 ≤ s.length := by
    rw [← hs]
    have h2 : 1 ≤ (fmtInt t).length := by
      cases h : fmtInt t with
      | nil => exact absurd h (okField_time h1).1
      | cons _ _ => simp
    simp only [List.length_append, List.length_cons, hexEncode_length, H.len]
    omega
  have hslet : ∀ c ∈ s, lettered c = true := by
    rw [← hs]
    intro c hc
    simp only [List.mem_append, List.mem_cons] at hc
    rcases hc with hc | rfl | hc | rfl | hc
    · exact lettered_plain c ((okField_esc hp).2 c hc).1
    · decide
    · exact lettered_plain c ((okField_time h1).2 c hc).1
    · decide
    · exact lettered_plain c ((okField_hex H _ _).2 c hc).1
  rw [List.append_assoc, List.cons_append]
  by_cases hge : 20 ≤ (queryEscape psk).length
  · rw [List.drop_append_of_le_length hge]
    exact time_not_pos hbar (by decide) (by rw [List.length_drop]; omega)
  · have hd : (queryEscape psk ++ 124 :: (queryEscape (b64Encode s) ++ fmtInt t)).drop 20 =
        (queryEscape (b64Encode s) ++ fmtInt t).drop (19 - (queryEscape psk).length) := by
      rw [List.drop_append, List.drop_eq_nil_of_le (by omega), List.nil_append]
      have : 20 - (queryEscape psk).length = (19 - (queryEscape psk).length) + 1 := by omega
      rw [this]; rfl
    rw [hd]
    obtain ⟨pre, x, more, e, hpre, hx1, hx2⟩ := esc_b64_letter (19 - (queryEscape psk).length) s hslet (by omega)
    have hle : 19 - (queryEscape psk).length ≤ (queryEscape (b64Encode s)).length := by
      by_cases hle : 19 - (queryEscape psk).length ≤ (queryEscape (b64Encode s)).length
      · exact hle
      · rw [List.drop_eq_nil_of_le (by omega)] at e
        simp at e
    rw [List.drop_append_of_le_length hle, e, List.append_assoc, List.cons_append]
    exact time_not_pos hx1 hx2 (by omega)

/-- **C104** (partial: user keys of at most 39 escaped bytes). If the MAC cannot be forged, the server's session
ids have the manager's length of 20 bytes, and the escaped user keys of its remember-me cookies are shorter than 40
bytes, every cookie accepted for a session id of that length was issued as a session cookie, for that id and time:
remember-me cookies, although signed with the same key, cannot be turned into session cookies. -/
theorem C104_session_was_issued_partial (H : Hmac) (sk v raw : Str) (t : Int)
    (sessions : List (Str × Int)) (remembered : List (Str × Str × Int))
    (hs : ∀ i ∈ sessions, i.1.length = 20 ∧ 0 < i.2 ∧ i.2 < 2 ^ 63)
    (hr : ∀ r ∈ remembered, r.1 ≠ [] ∧ 0 < r.2.2 ∧ (queryEscape r.1).length < 40)
    (hf : Spec.NotForged H sk (Spec.signed H sk sessions remembered) v)
    (h : decodeSecure H v sk = some (raw, t)) (hlen : raw.length = 20) :
    (raw, t) ∈ sessions := by
  obtain ⟨a, b, c, e, ha, hb, hne, hu, ht, hc⟩ := (C103_decode_iff H sk v raw t).1 h
  have hm := hf (raw ++ trimSpace b) (by
    unfold Spec.carriedHash
    rw [e, splitN1_3 44 a b c ha hb]; simp [hc])
  unfold Spec.signed at hm
  rcases List.mem_append.1 hm with hm | hm
  · obtain ⟨i, hi, ei⟩ := List.mem_map.1 hm
    obtain ⟨hil, hi1, hi2⟩ := hs i hi
    have := List.append_inj ei (by rw [hil, hlen])
    obtain ⟨i1, i2⟩ := i
    simp only at this hi1 hi2
    obtain ⟨rfl, hb'⟩ := this
    rw [timeText_iff, ← hb', parse_time hi1 hi2] at ht
    rw [← ht.2]; exact hi
  · exfalso
    obtain ⟨r, hri, er⟩ := List.mem_map.1 hm
    obtain ⟨h1, h2, h3⟩ := hr r hri
    have hd := remember_time_not_pos H sk r.1 r.2.1 r.2.2 t h1 h2 h3
    rw [er, List.drop_append, List.drop_eq_nil_of_le (by omega), hlen] at hd
    simp only [Nat.sub_self, List.drop_zero, List.nil_append] at hd
    exact hd ht

/-- The attack on longer user keys: from a remember-me cookie, without the key, cut the value after its first
twenty bytes and let the time begin there. -/
def Spec.cutAt20 (cookie : Str) : Str :=
  match splitN1 44 3 (b64Decode cookie).1 with
  | [a, b, c] =>
    b64Encode (((queryUnescape a).getD []).take 20 ++ 44 :: ((((queryUnescape a).getD []).drop 20 ++ b) ++ 44 :: c))
  | _ => []

/-- Twenty nines. -/
def Spec.nines : Str := List.replicate 20 57

theorem esc_unres (s r : Str) (h : ∀ c ∈ s, unreserved c = true) : queryEscape (s ++ r) = s ++ queryEscape r := by
  induction s with
  | nil => rfl
  | cons c cs ih =>
    rw [List.cons_append, esc_cons_unres _ (h c (by simp)), ih (fun c hc => h c (by simp [hc]))]
    rfl

theorem unres_plain (c : UInt8) : unreserved c = true → plain c = true ∧ c ≠ 44 ∧ c ≠ 37 ∧ c ≠ 43 :=
  forall_u8 (P := fun c => unreserved c = true → plain c = true ∧ c ≠ 44 ∧ c ≠ 37 ∧ c ≠ 43) (by decide +kernel) c

/-- **C104 fails** for longer user keys: whoever may choose a user key, chooses a session id `sid` of the manager's
length followed by twenty nines. The remember-me cookie written for it can be cut, without knowing the secret key,
into a session cookie for `sid`, an id that was never issued; it is accepted until the year 2262, whatever the
expiry. -/
theorem C104_session_was_issued_violated (H : Hmac) (cfg : Config) (cc : CookieConfig) (sid salt : Str) (t now : Int)
    (name : Str) (hl : sid.length = 20) (hu : ∀ c ∈ sid, unreserved c = true) (hk : cfg.secretKey ≠ [])
    (hs : salt ≠ []) (h1 : 0 < t) (he : 0 ≤ cfg.sessionExpire) (he2 : cfg.sessionExpire ≤ 9223372036)
    (hnow : now < 2 ^ 63) :
    ∃ c, writeRemember H cfg cc (sid ++ Spec.nines) salt t = some c ∧
      readSid H cfg [(name, Spec.cutAt20 c.value)] name now = some (sid, 2 ^ 63 - 1) := by
  have hp : sid ++ Spec.nines ≠ [] := by simp [Spec.nines]
  obtain ⟨sh, hsh, hcr⟩ := createRemember_eq H (salt := salt) t hk hp hs
  have hval : queryEscape (sid ++ Spec.nines) ++ bar :: queryEscape sh ≠ [] := by simp
  have hv := encode_eq H hval hk t
  rw [← hcr] at hv
  have hnu : ∀ c ∈ Spec.nines, unreserved c = true := by decide
  have hesc : queryEscape (sid ++ Spec.nines) = sid ++ Spec.nines := by
    have := esc_unres (sid ++ Spec.nines) [] (by
      intro c hc
      rcases List.mem_append.1 hc with hc | hc
      · exact hu c hc
      · exact hnu c hc)
    rw [List.append_nil] at this
    rw [this]; simp [queryEscape]
  rw [hesc] at hv hval
  generalize hS : queryEscape sh = S at hv hval
  have hSp : ∀ c ∈ S, plain c = true ∧ c ≠ 44 := by
    intro c hc
    rw [← hS] at hc
    have := escByte_plain c (queryEscape_bytes sh c hc)
    exact ⟨this.1, this.2.1⟩
  have hSne : S ≠ [] := hS ▸ queryEscape_ne_nil (encode_b64Bytes H hsh).2
  refine ⟨⟨cc.rememberName, _, cc.rememberExpire⟩, by unfold writeRemember; rw [hv]; rfl, ?_⟩
  show readSid H cfg [(name, Spec.cutAt20 (b64Encode _))] name now = _
  have hcut : Spec.cutAt20 (b64Encode (packText (queryEscape ((sid ++ Spec.nines) ++ bar :: S)) (fmtInt t)
      (hexEncode (H.sum cfg.secretKey (((sid ++ Spec.nines) ++ bar :: S) ++ fmtInt t))))) =
      b64Encode (packText sid ((Spec.nines ++ bar :: S) ++ fmtInt t)
        (hexEncode (H.sum cfg.secretKey (sid ++ ((Spec.nines ++ bar :: S) ++ fmtInt t))))) := by
    unfold Spec.cutAt20
    rw [b64_roundtrip]
    simp only
    unfold packText
    have := splitN1_3 comma (queryEscape ((sid ++ Spec.nines) ++ bar :: S)) (fmtInt t)
      (hexEncode (H.sum cfg.secretKey (((sid ++ Spec.nines) ++ bar :: S) ++ fmtInt t)))
      (fun h => ((okField_esc hval).2 44 h).2 rfl) (fun h => ((okField_time h1).2 44 h).2 rfl)
    rw [show (44 : UInt8) = comma from rfl, this]
    simp only
    rw [query_roundtrip]
    have e1 : ((some ((sid ++ Spec.nines) ++ bar :: S)).getD []).take 20 = sid := by
      simp only [Option.getD_some]
      rw [List.append_assoc, ← hl, List.take_left']
      rfl
    have e2 : ((some ((sid ++ Spec.nines) ++ bar :: S)).getD []).drop 20 = Spec.nines ++ bar :: S := by
      simp only [Option.getD_some]
      rw [List.append_assoc, ← hl, List.drop_left']
      rfl
    rw [e1, e2]
    simp only [List.append_assoc]
  have hcut' : Spec.cutAt20 (b64Encode _) = _ := hcut
  rw [hcut']
  have hd : decodeSecure H (b64Encode (packText sid ((Spec.nines ++ bar :: S) ++ fmtInt t)
        (hexEncode (H.sum cfg.secretKey (sid ++ ((Spec.nines ++ bar :: S) ++ fmtInt t)))))) cfg.secretKey =
      some (sid, 2 ^ 63 - 1) := by
    have hsidp : ∀ c ∈ sid, plain c = true := fun c hc => (unres_plain c (hu c hc)).1
    have hmid : ∀ c ∈ (Spec.nines ++ bar :: S) ++ fmtInt t, plain c = true ∧ c ≠ 44 := by
      intro c hc
      simp only [List.mem_append, List.mem_cons] at hc
      rcases hc with (hc | rfl | hc) | hc
      · have := unres_plain c (hnu c hc)
        exact ⟨this.1, this.2.1⟩
      · decide
      · exact hSp c hc
      · exact (okField_time h1).2 c hc
    rw [C103_decode_iff]
    refine ⟨sid, (Spec.nines ++ bar :: S) ++ fmtInt t, _, by rw [b64_roundtrip]; rfl,
      fun h => (unres_plain 44 (hu 44 h)).2.1 rfl, fun h => (hmid 44 h).2 rfl, ?_, ?_, ?_, ?_⟩
    · rintro rfl; simp at hl
    · rw [trimSpace_plain _ hsidp]
      exact queryUnescape_plain _ (fun c hc => (unres_plain c (hu c hc)).2.2)
    · rw [trimSpace_plain _ (fun c hc => (hmid c hc).1)]
      refine ⟨[], Spec.nines, bar :: S ++ fmtInt t, by simp, Or.inl rfl, ?_, Or.inr ?_, ?_, ?_⟩
      · exact ⟨by decide, by decide⟩
      · decide
      · decide
      · rw [if_neg (by decide)]
    · rw [trimSpace_plain _ (fun c hc => (hmid c hc).1),
        trimSpace_plain _ (fun c hc => ((okField_hex H _ _).2 c hc).1)]
  have hun : ∀ s, queryUnescape (b64Encode s) = some (b64Encode s) := by
    intro s
    apply queryUnescape_plain
    intro x hx
    have := b64Byte_ne x (b64Encode_bytes s x hx)
    exact ⟨this.2.2.1, this.2.2.2.1⟩
  rw [C103_session_id_iff]
  refine ⟨[], _, [], _, rfl, by simp, hun _, (C103_decode_iff H _ _ _ _).1 hd, ?_⟩
  have : wrapS 64 (cfg.sessionExpire * 1000000000) = cfg.sessionExpire * 1000000000 := secsDuration_id he he2
  rw [this]; omega

/-! ## Examples -/

/-- The hypotheses of `C104_session_was_issued_partial` are met by a server that issued one session and one
remember-me cookie, and a cookie that is accepted. -/
example : ∃ v, decodeSecure toyMac v b!"key" = some (b!"0123456789ABCDEFGHIJ", 1500000000000000000) ∧
    (queryEscape b!"user@example.org").length < 40 :=
  ⟨_, (C29_secure_roundtrip toyMac b!"0123456789ABCDEFGHIJ" b!"key" 1500000000000000000 (by decide) (by decide)
    (by decide) (by decide)).choose_spec.2, by decide +kernel⟩

/-- Blanks around the fields, a plus sign, and junk after twenty digits are all accepted. -/
example : Spec.TimeText b!"+0042" 42 :=
  ⟨[43], b!"0042", [], rfl, Or.inr rfl, ⟨by decide, by decide⟩, Or.inl rfl, by decide, by decide⟩

example : Spec.TimeText b!"99999999999999999999|junk" (2 ^ 63 - 1) :=
  ⟨[], b!"99999999999999999999", b!"|junk", rfl, Or.inl rfl, ⟨by decide, by decide⟩, Or.inr (by decide),
    by decide, by decide⟩

end Verif.Sess
