import Verif.Props.Session
import Verif.Props.Cookie
import Verif.Props.CacheLife
/-! C183: a `SessionExpire` that is not positive, or does not fit. -/
namespace Verif.Sess
open Verif.Go

/-- The lifetimes (in seconds) with which no session survives a request: zero, negative ones down to -292 years, and those from 292 to
584 years. -/
def Spec.Off (e : Int) : Prop := -9223372036 ≤ e ∧ e ≤ 0 ∨ 9223372037 ≤ e ∧ e ≤ 18446744073

/-- Each session cookie of the request was written by the manager before now. -/
def Spec.Earlier (H : Hmac) (cfg : Config) (cc : CookieConfig) (now : Int) (cs : Cookies) : Prop :=
  ∀ v, (cc.cookieName, v) ∈ cs → ∃ cs0 sid t c, 0 < t ∧ t < now ∧ t < 2 ^ 63 ∧ (writeSessionCookie H cfg cc cs0 sid t).1 = [c] ∧ c.value = v

theorem secsDuration_off {e : Int} (h : Spec.Off e) : secsDuration e ≤ 0 := by
  have e1 : secsDuration e = (e * 1000000000 + 9223372036854775808) % 18446744073709551616 - 9223372036854775808 := rfl
  rw [e1]
  rcases h with ⟨h1, h2⟩ | ⟨h1, h2⟩
  · rw [Int.emod_eq_of_lt (by omega) (by omega)]
    omega
  · rw [show e * 1000000000 + 9223372036854775808 = (e * 1000000000 - 9223372036854775808) + 18446744073709551616 by omega,
      Int.add_emod_right, Int.emod_eq_of_lt (by omega) (by omega)]
    omega

/-- No session cookie is accepted any more once it is sent back. -/
theorem C183_refused (H : Hmac) (cfg : Config) (cc : CookieConfig) (now : Int) (cs : Cookies) (he : Spec.Off cfg.sessionExpire)
    (hcs : Spec.Earlier H cfg cc now cs) : readSid H cfg cs cc.cookieName now = none := by
  unfold readSid
  cases hg : getCookie cs cc.cookieName with
  | none => rfl
  | some v =>
    have hm : (cc.cookieName, v) ∈ cs := by
      unfold getCookie at hg
      obtain ⟨⟨n, v'⟩, h1, h2⟩ := Option.map_eq_some_iff.1 hg
      have h3 := List.find?_some h1
      have h4 := List.mem_of_find?_eq_some h1
      simp only [beq_iff_eq] at h3
      subst h3 h2
      exact List.mem_reverse.1 h4
    obtain ⟨cs0, sid, t, c, h1, h2, h3, h4, rfl⟩ := hcs v hm
    have hs : sid ≠ [] ∧ cfg.secretKey ≠ [] := by
      constructor <;> rintro hh <;> simp [writeSessionCookie, encodeSecure, hh] at h4
    have hd : ∃ w, queryUnescape c.value = some w ∧ decodeSecure H w cfg.secretKey = some (sid, t) := by
      unfold writeSessionCookie at h4
      cases hw : encodeSecure H sid cfg.secretKey t with
      | none => rw [hw] at h4; cases h4
      | some w =>
        rw [hw] at h4
        cases h4
        obtain ⟨x, hx, hd⟩ := C29_secure_roundtrip H sid cfg.secretKey t hs.1 hs.2 h1 h3
        rw [hw] at hx
        cases hx
        exact ⟨w, unescape_encode H hw, hd⟩
    obtain ⟨w, hw, hd⟩ := hd
    simp only [hw, hd]
    rw [if_pos]
    unfold isExpired
    have := secsDuration_off he
    exact decide_eq_true (by omega)

theorem earlier_nil (H : Hmac) (cfg : Config) (cc : CookieConfig) (now : Int) : Spec.Earlier H cfg cc now [] := by
  intro v h; cases h

/-- What the manager writes is, for any later request, a cookie written earlier. -/
theorem earlier_written (H : Hmac) (cfg : Config) (cc : CookieConfig) (t now : Int) (cs : Cookies) (sid : Str) (h1 : 0 < t) (h2 : t < now)
    (h3 : t < 2 ^ 63) (h : Spec.Earlier H cfg cc t cs) : Spec.Earlier H cfg cc now (writeSessionCookie H cfg cc cs sid t).2 := by
  have old : ∀ v, (cc.cookieName, v) ∈ cs → ∃ cs0 sid t c, 0 < t ∧ t < now ∧ t < 2 ^ 63 ∧
      (writeSessionCookie H cfg cc cs0 sid t).1 = [c] ∧ c.value = v := fun v hv => by
    obtain ⟨cs0, sid', t', c, a1, a2, a3, a4⟩ := h v hv
    exact ⟨cs0, sid', t', c, a1, by omega, a3, a4⟩
  intro v hv
  cases hw : encodeSecure H sid cfg.secretKey t with
  | none =>
    simp only [writeSessionCookie, hw] at hv
    exact old v hv
  | some w =>
    simp only [writeSessionCookie, hw] at hv
    rcases List.mem_append.1 hv with hv | hv
    · exact old v hv
    · simp only [List.mem_singleton, Prod.mk.injEq, true_and] at hv
      subst hv
      exact ⟨cs, sid, t, ⟨cc.cookieName, v, if cc.cookieExpire ≥ 0 then cc.cookieExpire else 0⟩, h1, h2, h3,
        by simp only [writeSessionCookie, hw], rfl⟩

section
variable {σ V : Type} (C : CacheApi σ) (K : Conv V) (cfg : Config) (H : Hmac) (cc : CookieConfig)

/-- One request: `Start` gives a new, empty session and does not ask the cache; `Destroy` does nothing, so that what was stored stays
stored; `Regenerate` loses what was stored, its session has only what is given to it. -/
theorem C183_request (f fg fs fd fr : Fault) (now : Int) (newSid : Str) (params : List (Str → Option V)) (cs : Cookies) (s : σ)
    (he : Spec.Off cfg.sessionExpire) (hcs : Spec.Earlier H cfg cc now cs) :
    (∃ set cs', start C K cfg H cc f now newSid cs s = (s, .done (.ok (create newSid [])) set cs')) ∧
    managerDestroy C cfg H cc f now cs s = (s, []) ∧
    (∃ set cs', managerRegenerate C K cfg H cc fg fs fd fr now newSid params cs s = (s, .done (.ok (create newSid params)) set cs')) := by
  have hr := C183_refused H cfg cc now cs he hcs
  refine ⟨⟨_, _, by unfold start; rw [hr]⟩, by unfold managerDestroy; rw [hr], ⟨_, _, by unfold managerRegenerate; rw [hr]⟩⟩

/-- A visit: the time, the id that `CreateSid` makes, and the state of the cache, in which the program, other visitors and time may have
done anything. -/
structure Spec.OffVisit (σ : Type) where
  now : Int
  newSid : Str
  fault : Fault
  cache : σ

/-- What a client sees who sends back all cookies it was ever given: the sessions of its visits. -/
def Spec.offVisits : List (Spec.OffVisit σ) → Cookies → List (σ × Except SErr (Handle V))
  | [], _ => []
  | v :: l, cs =>
    match start C K cfg H cc v.fault v.now v.newSid cs v.cache with
    | (s, .done r _ cs') => (s, r) :: Spec.offVisits l cs'
    | (_, .panic) => []

/-- Times that increase. -/
def Spec.Onward : Int → List (Spec.OffVisit σ) → Prop
  | _, [] => True
  | t, v :: l => t < v.now ∧ v.now < 2 ^ 63 ∧ Spec.Onward v.now l

/-- **C183**: a client that always sends back its cookies gets a new and empty session on every visit, whatever the program stored. -/
theorem C183_every_visit (l : List (Spec.OffVisit σ)) (t : Int) (cs : Cookies) (ht : 0 ≤ t) (hl : Spec.Onward t l)
    (he : Spec.Off cfg.sessionExpire) (hcs : ∀ now, t < now → Spec.Earlier H cfg cc now cs) :
    Spec.offVisits C K cfg H cc l cs = l.map fun v => (v.cache, .ok (create v.newSid [])) := by
  induction l generalizing t cs with
  | nil => rfl
  | cons v l ih =>
    obtain ⟨h1, h2, h3⟩ := hl
    have hr := C183_refused H cfg cc v.now cs he (hcs v.now h1)
    have e : start C K cfg H cc v.fault v.now v.newSid cs v.cache = (v.cache, .done (.ok (create v.newSid []))
        (writeSessionCookie H cfg cc cs v.newSid v.now).1 (writeSessionCookie H cfg cc cs v.newSid v.now).2) := by
      unfold start; rw [hr]; rfl
    unfold Spec.offVisits
    rw [e]
    simp only [List.map_cons]
    rw [ih v.now _ (by omega) h3 (fun now hn => earlier_written H cfg cc v.now now cs v.newSid (by omega) hn h2 (hcs v.now h1))]

end

/-- With a negative lifetime what such a session stores in redis stays there for ever, unless the program writes or deletes that very key
through the cache: the manager no longer knows its id. -/
theorem C183_kept {V : Type} (K : Conv V) (cfg : Config) (pre : Str) (hd : Handle V) (s : Cache.Server) (now t : Int) (b : Str)
    (h : List (Int × Cache.Op)) (he : cfg.sessionExpire < 0) (hc : hd.closed = false) (hch : hd.changed = true) (hm : K.marshal hd.values = some b)
    (hl : ∀ x ∈ h, Cache.LifeSpec.Leaves hd.sid x.2) :
    (flush ⟨Cache.redis pre⟩ K cfg .none now hd s).2.2 = none ∧
    (Cache.redis pre t (.get hd.sid) (Cache.final (Cache.redis pre) h (flush ⟨Cache.redis pre⟩ K cfg .none now hd s).2.1)).2 = .val b := by
  have e : flush ⟨Cache.redis pre⟩ K cfg .none now hd s = ({ hd with changed := false },
      (Cache.redis pre now (.set hd.sid (.bytes b) [cfg.sessionExpire]) s).1,
      outErr (Cache.redis pre now (.set hd.sid (.bytes b) [cfg.sessionExpire]) s).2) := by
    unfold flush save
    rw [hc, hch, hm]
    rfl
  obtain ⟨h1, h2, -⟩ := Cache.C176_redis pre hd.sid (.bytes b) [cfg.sessionExpire] now t s h
    (by intro p hp; simp only [List.head?_cons, Option.some.injEq] at hp; omega) hl
  rw [e, h1]
  refine ⟨rfl, ?_⟩
  have h3 := h2 (by
    have : Cache.LifeSpec.asked [cfg.sessionExpire] = none := by simp only [Cache.LifeSpec.asked]; rw [if_pos he]
    rw [this]; trivial)
  exact h3

/-- Two visits with the lifetime -1, which for the caches means "for ever": two sessions. -/
theorem ex_off : Spec.offVisits ⟨Cache.redis []⟩ (V := Unit) ⟨fun _ => none, fun _ => none⟩ ⟨b!"key", -1⟩ toyMac ⟨b!"sid", b!"auto", -1, 0⟩
    [⟨5, b!"a", .none, fun _ => none⟩, ⟨6, b!"b", .none, fun _ => none⟩] [] =
      [(fun _ => none, .ok (create b!"a" [])), (fun _ => none, .ok (create b!"b" []))] :=
  C183_every_visit _ _ _ _ _ _ 0 [] (by omega) ⟨by decide, by decide, by decide, by decide, trivial⟩ (.inl ⟨by decide, by decide⟩)
    fun _ _ => earlier_nil _ _ _ _

end Verif.Sess
