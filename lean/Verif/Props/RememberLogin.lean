import Verif.Props.CookieExact
import Verif.Props.SessionOff
/-!
# C185: logging in with a remember-me cookie
-/
namespace Verif.Sess
open Verif.Go

/-! ## Specification -/

/-- What a program does for a visitor without a session: it asks `HasRemember` for the user key, looks the user's salt up, and asks
`ValidRemember`; `users`: the salts of the users there are. -/
def Spec.autoLogin (H : Hmac) (cfg : Config) (cc : CookieConfig) (users : Str → Option Str) (cs : Cookies) (now : Int) : Option Str :=
  match hasRemember H cfg cc cs now with
  | none => none
  | some (psk, saltHash) =>
    match users psk with
    | none => none
    | some salt => if validRemember H cfg cc psk salt saltHash now then some psk else none

/-- What has been signed with the secret key followed by this salt, `remembered` being the remember-me cookies that were written: `(user key,
salt, time)`. -/
def Spec.salted (remembered : List (Str × Str × Int)) (salt : Str) : List Str :=
  (remembered.filter fun r => r.2.1 = salt).map fun r => r.1 ++ fmtInt r.2.2

/-- A salt that was used for a user is not another user's salt now. -/
def Spec.OwnSalts (users : Str → Option Str) (remembered : List (Str × Str × Int)) : Prop :=
  ∀ r ∈ remembered, ∀ psk, users psk = some r.2.1 → psk = r.1

/-- The hash in the request was not made without its key. -/
def Spec.HashNotForged (H : Hmac) (cfg : Config) (cc : CookieConfig) (users : Str → Option Str) (remembered : List (Str × Str × Int))
    (cs : Cookies) (now : Int) : Prop :=
  ∀ psk saltHash salt, hasRemember H cfg cc cs now = some (psk, saltHash) → users psk = some salt →
    Spec.NotForged H (cfg.secretKey ++ salt) (Spec.salted remembered salt) saltHash

/-! ## Proofs -/

theorem autoLogin_some {H : Hmac} {cfg : Config} {cc : CookieConfig} {users : Str → Option Str} {cs : Cookies} {now : Int} {psk : Str}
    (h : Spec.autoLogin H cfg cc users cs now = some psk) :
    ∃ saltHash salt, hasRemember H cfg cc cs now = some (psk, saltHash) ∧ users psk = some salt ∧
      validRemember H cfg cc psk salt saltHash now = true := by
  unfold Spec.autoLogin at h
  cases hh : hasRemember H cfg cc cs now with
  | none => rw [hh] at h; cases h
  | some p =>
    obtain ⟨p, sh⟩ := p
    rw [hh] at h
    dsimp only at h
    cases hu : users p with
    | none => rw [hu] at h; cases h
    | some salt =>
      rw [hu] at h
      dsimp only at h
      cases hv : validRemember H cfg cc p salt sh now with
      | false => rw [hv] at h; cases h
      | true =>
        rw [hv, if_pos rfl] at h
        cases h
        exact ⟨sh, salt, rfl, hu, hv⟩

/-- **C185, who is logged in.** If the MAC cannot be forged and salts are not shared, whoever is logged in had a remember-me cookie written for
this very user with the salt that the user has now, and not longer ago than `RememberExpire` (in 64-bit nanoseconds) — whatever cookies
the request carries. -/
theorem C185_login_sound (H : Hmac) (cfg : Config) (cc : CookieConfig) (users : Str → Option Str) (remembered : List (Str × Str × Int))
    (cs : Cookies) (now : Int) (psk : Str) (hr : ∀ r ∈ remembered, 0 < r.2.2 ∧ r.2.2 < 2 ^ 63) (ho : Spec.OwnSalts users remembered)
    (hf : Spec.HashNotForged H cfg cc users remembered cs now) (h : Spec.autoLogin H cfg cc users cs now = some psk) :
    ∃ salt t, users psk = some salt ∧ (psk, salt, t) ∈ remembered ∧ now ≤ t + wrapS 64 (cc.rememberExpire * 1000000000) := by
  obtain ⟨sh, salt, h1, h2, h3⟩ := autoLogin_some h
  obtain ⟨-, t, ⟨a, b, c, e, ha, hb, -, -, ht, hc⟩, hn⟩ := (C103_valid_remember_iff H cfg cc psk salt sh now).1 h3
  have hm := hf psk sh salt h1 h2 (psk ++ trimSpace b) (by
    unfold Spec.carriedHash
    rw [e, splitN1_3 44 a b c ha hb]; simp [hc])
  obtain ⟨r, hrf, er⟩ := List.mem_map.1 hm
  obtain ⟨hri, hsd⟩ := List.mem_filter.1 hrf
  clear hrf
  have hs := of_decide_eq_true hsd
  clear hsd
  obtain ⟨r1, r2, r3⟩ := r
  dsimp only at hs er
  subst hs
  have hp : psk = r1 := ho (r1, r2, r3) hri psk h2
  subst hp
  have hb' := List.append_cancel_left er
  rw [timeText_iff, ← hb', parse_time (hr (psk, r2, r3) hri).1 (hr (psk, r2, r3) hri).2] at ht
  refine ⟨r2, r3, h2, hri, ?_⟩
  have : r3 = t := ht.2
  rw [this]; exact hn

/-- **C185, changing the salt logs out everywhere.** A user for whom no cookie has been written since the salt was changed is not logged in by any
cookie. -/
theorem C185_salt_changed (H : Hmac) (cfg : Config) (cc : CookieConfig) (users : Str → Option Str) (remembered : List (Str × Str × Int))
    (cs : Cookies) (now : Int) (psk salt : Str) (hr : ∀ r ∈ remembered, 0 < r.2.2 ∧ r.2.2 < 2 ^ 63) (ho : Spec.OwnSalts users remembered)
    (hf : Spec.HashNotForged H cfg cc users remembered cs now) (hu : users psk = some salt) (hold : ∀ r ∈ remembered, r.1 = psk → r.2.1 ≠ salt) :
    Spec.autoLogin H cfg cc users cs now ≠ some psk := by
  intro h
  obtain ⟨s, t, h1, h2, -⟩ := C185_login_sound H cfg cc users remembered cs now psk hr ho hf h
  rw [hu] at h1
  cases h1
  exact hold _ h2 rfl rfl

/-- **C185, the round trip.** Whoever comes back with the cookie that `WriteRemember` gave, other cookies before it, is logged in until the moment it
expires, and not after it; for `RememberExpire` from 0 to 292 years. -/
theorem C185_login_roundtrip (H : Hmac) (cfg : Config) (cc : CookieConfig) (users : Str → Option Str) (before : Cookies) (psk salt : Str)
    (t now : Int) (hk : cfg.secretKey ≠ []) (hp : psk ≠ []) (hs : salt ≠ []) (hu : users psk = some salt) (h1 : 0 < t) (h2 : t < 2 ^ 63)
    (he : 0 ≤ cc.rememberExpire) (he2 : cc.rememberExpire ≤ 9223372036) :
    ∃ c, writeRemember H cfg cc psk salt t = some c ∧ c.name = cc.rememberName ∧
      Spec.autoLogin H cfg cc users (before ++ [(c.name, c.value)]) now =
        if now ≤ t + cc.rememberExpire * 1000000000 then some psk else none := by
  obtain ⟨c, sh, a1, a2, -, a4, a5⟩ := C32_remember_roundtrip H cfg cc before psk salt t now hk hp hs h1 h2 he he2
  refine ⟨c, a1, a2, ?_⟩
  unfold Spec.autoLogin
  rw [a4]
  by_cases hn : now ≤ t + cc.rememberExpire * 1000000000
  · rw [if_pos hn, if_pos hn]
    simp only [hu, a5, hn, and_self, decide_true, if_true]
  · rw [if_neg hn, if_neg hn]

/-- **C185, lifetimes that are not positive or too long.** With a `RememberExpire` of zero, a negative one, or one from 292 to 584 years nobody is ever
logged in by a cookie that was written before now. -/
theorem C185_off (H : Hmac) (cfg : Config) (cc : CookieConfig) (users : Str → Option Str) (remembered : List (Str × Str × Int))
    (cs : Cookies) (now : Int) (hr : ∀ r ∈ remembered, 0 < r.2.2 ∧ r.2.2 < 2 ^ 63 ∧ r.2.2 < now) (ho : Spec.OwnSalts users remembered)
    (hf : Spec.HashNotForged H cfg cc users remembered cs now) (he : Spec.Off cc.rememberExpire) :
    Spec.autoLogin H cfg cc users cs now = none := by
  cases h : Spec.autoLogin H cfg cc users cs now with
  | none => rfl
  | some psk =>
    obtain ⟨s, t, -, h2, h3⟩ := C185_login_sound H cfg cc users remembered cs now psk (fun r h => ⟨(hr r h).1, (hr r h).2.1⟩) ho hf h
    have h4 : wrapS 64 (cc.rememberExpire * 1000000000) ≤ 0 := secsDuration_off he
    have := (hr _ h2).2.2
    dsimp only at this
    omega

theorem bar_inj : ∀ {a a' b b' : Str}, a ++ 124 :: b = a' ++ 124 :: b' → 124 ∉ a → 124 ∉ a' → a = a' ∧ b = b'
  | [], [], _, _, h, _, _ => ⟨rfl, (List.cons.inj h).2⟩
  | [], c :: a', _, _, h, _, h2 => absurd ((List.cons.inj h).1 ▸ List.mem_cons_self ..) h2
  | c :: a, [], _, _, h, h1, _ => absurd ((List.cons.inj h).1 ▸ List.mem_cons_self ..) h1
  | c :: a, c' :: a', _, _, h, h1, h2 => by
    obtain ⟨e1, e2⟩ := List.cons.inj h
    obtain ⟨e3, e4⟩ := bar_inj e2 (fun h => h1 (List.mem_cons_of_mem _ h)) (fun h => h2 (List.mem_cons_of_mem _ h))
    exact ⟨by rw [e1, e3], e4⟩

/-- **C185, even with shared salts** nobody is logged in for whom no remember-me cookie was ever written, if the remember-me cookies in the request are
not forged and session ids have no bar. -/
theorem C185_login_known (H : Hmac) (cfg : Config) (cc : CookieConfig) (users : Str → Option Str) (sessions : List (Str × Int))
    (remembered : List (Str × Str × Int)) (cs : Cookies) (now : Int) (psk : Str) (hs : ∀ i ∈ sessions, 124 ∉ i.1 ∧ 0 < i.2)
    (hf : ∀ before cv after, cs = before ++ (cc.rememberName, cv) :: after →
      Spec.NotForged H cfg.secretKey (Spec.signed H cfg.secretKey sessions remembered) cv)
    (h : Spec.autoLogin H cfg cc users cs now = some psk) : ∃ salt t, (psk, salt, t) ∈ remembered := by
  obtain ⟨sh, salt, h1, -, h3⟩ := autoLogin_some h
  obtain ⟨before, cv, after, value, t, e0, -, ⟨a, b, c, e, ha, hb, -, -, -, hc⟩, -, hp⟩ := (C103_has_remember_iff H cfg cc cs psk sh now).1 h1
  have hm := hf before cv after e0 (value ++ trimSpace b) (by
    unfold Spec.carriedHash
    rw [e, splitN1_3 44 a b c ha hb]; simp [hc])
  rcases hp with ⟨x, y, rfl, hx, hux, -⟩ | ⟨-, rfl, -⟩
  · unfold Spec.signed at hm
    rcases List.mem_append.1 hm with hm | hm
    · obtain ⟨i, hi, ei⟩ := List.mem_map.1 hm
      exfalso
      have : (124 : UInt8) ∈ i.1 ++ fmtInt i.2 := by rw [ei]; simp
      rcases List.mem_append.1 this with h | h
      · exact (hs i hi).1 h
      · obtain ⟨n, hn⟩ : ∃ n : Nat, i.2 = n := ⟨i.2.toNat, by have := (hs i hi).2; omega⟩
        rw [hn] at h
        have : isDig 124 := natDec_digits n 124 (by simpa [fmtInt] using h)
        exact absurd this (by unfold isDig; decide)
    · obtain ⟨r, hr, er⟩ := List.mem_map.1 hm
      unfold Spec.rememberValue at er
      rw [List.append_assoc, List.append_assoc, List.cons_append, List.cons_append] at er
      have := (bar_inj er (fun h => (escByte_plain 124 (queryEscape_bytes r.1 124 h)).2.2 rfl) hx).1
      rw [← this, query_roundtrip] at hux
      cases hux
      exact ⟨r.2.1, r.2.2, hr⟩
  · unfold validRemember at h3
    simp at h3

/-! ## An example -/

namespace LoginEx

/-- A MAC that has been used once for `bob17`, with the key `kpw`. -/
def mac : Hmac where
  sum k m := if k = b!"kpw" ∧ m = b!"bob17" then List.replicate 20 1 else List.replicate 20 0
  len := by intro k m; split <;> simp

def cfg : Config := { secretKey := b!"k", sessionExpire := 60 }
def cc : CookieConfig := { cookieName := b!"s", rememberName := b!"r", cookieExpire := 1, rememberExpire := 100 }
def users : Str → Option Str := fun u => if u = b!"bob" then some b!"pw" else none
def cookies : Cookies := [(b!"r", (createRemember mac b!"k" b!"bob" b!"pw" 17).getD [])]

/-- The hypotheses of `C185_login_sound` are met in a case where somebody is logged in. -/
theorem met : Spec.autoLogin mac cfg cc users cookies 100000000017 = some b!"bob" ∧
    Spec.autoLogin mac cfg cc users cookies 100000000018 = none ∧
    Spec.autoLogin mac cfg { cc with rememberExpire := 0 } users cookies 18 = none ∧
    Spec.OwnSalts users [(b!"bob", b!"pw", 17)] ∧ Spec.HashNotForged mac cfg cc users [(b!"bob", b!"pw", 17)] cookies 100000000017 := by
  refine ⟨by decide +kernel, by decide +kernel, by decide +kernel, ?_, ?_⟩
  · intro r hr psk h
    rw [List.mem_singleton.1 hr] at h ⊢
    unfold users at h
    split at h
    · assumption
    · cases h
  · intro psk sh salt h hu m hm
    have e : hasRemember mac cfg cc cookies 100000000017 =
        some (b!"bob", (encodeSecure mac b!"bob" b!"kpw" 17).getD []) := by decide +kernel
    rw [e] at h
    cases h
    unfold users at hu
    rw [if_pos rfl] at hu
    cases hu
    have hc : Spec.carriedHash ((encodeSecure mac b!"bob" b!"kpw" 17).getD []) = some (hexEncode (List.replicate 20 1)) := by decide +kernel
    rw [hc] at hm
    have h2 : List.replicate 20 1 = mac.sum b!"kpw" m := hexEncode_inj (by simpa [cfg] using hm)
    by_cases hb : m = b!"bob17"
    · subst hb; decide +kernel
    · exfalso
      have : mac.sum b!"kpw" m = List.replicate 20 0 := if_neg (fun h => hb h.2)
      rw [this] at h2
      exact absurd h2 (by decide)

end LoginEx

end Verif.Sess
