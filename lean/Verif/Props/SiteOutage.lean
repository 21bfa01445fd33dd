import Verif.Props.Site
/-!
# C169: an outage of the session cache costs nobody the session
-/
namespace Verif.Sess
open Verif.Go
open Verif.Cache (Op Out)

/-! ## Specification -/

/-- What the application does with a session while the cache cannot be reached. -/
def Spec.UseDown {V : Type} : Use V → Prop
  | .flush f => f = .lost
  | .touch f => f = .lost
  | .destroy f => f = .lost
  | _ => True

/-- A request while the cache cannot be reached: reading a session may also fail because the answer does not arrive. -/
def Spec.VisitDown {V : Type} : Visit V → Prop
  | .start _ f => f ≠ .none
  | .destroy f => f = .lost
  | .regenerate _ _ fg _ _ _ => fg ≠ .none
  | _ => True

/-- An event while the cache cannot be reached. -/
def Spec.EventDown {B V : Type} : Event B V → Prop
  | .call _ _ v => Spec.VisitDown v
  | .answer .. => True
  | .use _ _ _ u => Spec.UseDown u
  | .collect _ f => f = .lost

/-- A request of this browser carries a valid session cookie. -/
def Spec.HasSession (H : Hmac) (cfg : Config) (cc : CookieConfig) (jar : List Entry) (p : Place) : Prop :=
  ∃ sid t, readSid H cfg (readCookies [cookieHeader (send p jar)]) cc.cookieName p.now = some (sid, t)

/-- The application opens a session for the request - as it is, or with a new id. -/
def Spec.Opens {V : Type} : Visit V → Prop
  | .start .. => True
  | .regenerate .. => True
  | _ => False

/-- During the outage the browser, which has a session cookie, makes any number of requests for which the application opens the session; only
responses to these reach it (those before the outage, `k` of them, have arrived). Everybody else does anything. -/
def Spec.Patient {B V : Type} (H : Hmac) (cfg : Config) (cc : CookieConfig) (jar : List Entry) (k : Nat) (b : B) : Event B V → Prop
  | .call x p v => x = b → Spec.Opens v ∧ Spec.HasSession H cfg cc jar p
  | .answer x i _ => x = b → k ≤ i
  | _ => True

section
variable {B σ V : Type} [DecidableEq B] (C : CacheApi σ) (K : Conv V) (cfg : Config) (H : Hmac) (cc : CookieConfig) (at' : Attrs)
variable (isIP : Str → Bool) (date : Int → Str)

/-- Reading changes nothing in the cache. -/
def Spec.ReadOnly (C : CacheApi σ) : Prop := ∀ now k s, (C.step now (.get k) s).1 = s

theorem call_down {f : Fault} (hC : Spec.ReadOnly C) (hf : f ≠ .none) (now : Int) (k : Str) (s : σ) :
    call C f now (.get k) s = (s, .failed) := by
  cases f with
  | none => exact absurd rfl hf
  | lost => rfl
  | late => show ((C.step now (.get k) s).1, Out.failed) = _; rw [hC]

theorem read_down {f : Fault} (hC : Spec.ReadOnly C) (hf : f ≠ .none) (now : Int) (sid : Str) (s : σ) :
    read C K f now sid s = (s, .error .cache) := by
  unfold read
  rw [call_down C hC hf]

theorem regenerate_down {f : Fault} (hC : Spec.ReadOnly C) (hf : f ≠ .none) (fs fd fr : Fault) (now : Int) (old sid : Str) (s : σ) :
    regenerate C K cfg f fs fd fr now old sid s = (s, .error .cache) := by
  unfold regenerate
  rw [call_down C hC hf]

/-- **C169**: while the cache cannot be reached, a request with a session cookie is refused with an error: no other session is made in its place,
no cookie is changed, and nothing is changed in the cache. -/
theorem C169_start (hC : Spec.ReadOnly C) (f : Fault) (hf : f ≠ .none) (now : Int) (n : Str) (cs : Cookies) (s : σ) (sid : Str) (t : Int)
    (hr : readSid H cfg cs cc.cookieName now = some (sid, t)) :
    start C K cfg H cc f now n cs s = (s, .done (.error .cache) [] cs) := by
  unfold start
  rw [hr]
  simp only [read_down C K hC hf]

/-- **C169**: a visitor without a session cookie is served during an outage like at any other time. -/
theorem C169_newcomer (f : Fault) (now : Int) (n : Str) (cs : Cookies) (s : σ) (hr : readSid H cfg cs cc.cookieName now = none) :
    start C K cfg H cc f now n cs s = start C K cfg H cc .none now n cs s ∧
    ∃ h : Handle V, ∃ set cs', start C K cfg H cc f now n cs s = (s, .done (.ok h) set cs') ∧ h.sid = n := by
  unfold start
  rw [hr]
  exact ⟨rfl, _, _, _, rfl, rfl⟩

/-- **C123**: that logging out ends the session is false during an outage: `Destroy` has no error to report (sessions/manager.go:79-80), the cookie is
taken back, but the session stays in the cache: whoever has a copy of the cookie gets it, then and later, as before. -/
theorem C123_logout_in_outage_violated (now : Int) (cs : Cookies) (s : σ) (sid : Str) (t : Int)
    (hr : readSid H cfg cs cc.cookieName now = some (sid, t)) :
    (managerDestroy C cfg H cc .lost now cs s).2 = [{ name := cc.cookieName, value := [], maxAge := -1 }] ∧
    ∀ now' n, start C K cfg H cc .none now' n cs (managerDestroy C cfg H cc .lost now cs s).1 = start C K cfg H cc .none now' n cs s := by
  unfold managerDestroy
  rw [hr]
  exact ⟨rfl, fun _ _ => rfl⟩

theorem callStep_down (hC : Spec.ReadOnly C) (p : Place) (v : Visit V) (hv : Spec.VisitDown v) (br : Browser V) (s : σ) :
    (callStep C K cfg H cc at' isIP date p v br s).1 = s := by
  cases v with
  | start n f =>
    unfold callStep start
    simp only
    cases readSid H cfg (readCookies [cookieHeader (send p br.jar)]) cc.cookieName p.now with
    | none => rfl
    | some x =>
      simp only [read_down C K hC hv]
  | destroy f =>
    cases hv
    unfold callStep managerDestroy
    simp only
    cases readSid H cfg (readCookies [cookieHeader (send p br.jar)]) cc.cookieName p.now with
    | none => rfl
    | some x => rfl
  | regenerate n ps fg fs fd fr =>
    unfold callStep managerRegenerate
    simp only
    cases readSid H cfg (readCookies [cookieHeader (send p br.jar)]) cc.cookieName p.now with
    | none => rfl
    | some x => simp only [regenerate_down C K cfg hC hv]
  | remember psk salt => rfl
  | forget => rfl

theorem useStep_down (i : Nat) (now : Int) (u : Use V) (hu : Spec.UseDown u) (br : Browser V) (s : σ) :
    (useStep C K cfg i now u br s).1 = s ∧ (useStep C K cfg i now u br s).2.1.jar = br.jar ∧
    (useStep C K cfg i now u br s).2.1.answers = br.answers ∧ (useStep C K cfg i now u br s).2.1.stores.length = br.stores.length ∧
    ∀ g, (useStep C K cfg i now u br s).2.2 ≠ .got g := by
  unfold useStep
  cases br.stores[i]? with
  | none => exact ⟨rfl, rfl, rfl, rfl, fun g => by simp⟩
  | some h =>
    cases u with
    | flush f =>
      cases hu
      refine ⟨?_, rfl, rfl, by simp, fun g => by simp⟩
      show (flush C K cfg .lost now h s).2.1 = s
      unfold flush
      split
      · rfl
      · split
        · rfl
        · unfold save
          cases K.marshal h.values <;> rfl
    | touch f => cases hu; exact ⟨rfl, rfl, rfl, rfl, fun g => by simp⟩
    | destroy f => cases hu; exact ⟨rfl, rfl, rfl, by simp, fun g => by simp⟩
    | set k v => exact ⟨rfl, rfl, rfl, by simp, fun g => by simp⟩
    | delete k => exact ⟨rfl, rfl, rfl, by simp, fun g => by simp⟩
    | clean => exact ⟨rfl, rfl, rfl, by simp, fun g => by simp⟩
    | get k => exact ⟨rfl, rfl, rfl, rfl, fun g => by simp⟩
    | has k => exact ⟨rfl, rfl, rfl, rfl, fun g => by simp⟩

theorem callStep_patient (hC : Spec.ReadOnly C) (p : Place) (v : Visit V) (hv : Spec.VisitDown v) (ho : Spec.Opens v) (br : Browser V) (s : σ)
    (hs : Spec.HasSession H cfg cc br.jar p) :
    (callStep C K cfg H cc at' isIP date p v br s).2.1.jar = br.jar ∧ (callStep C K cfg H cc at' isIP date p v br s).2.1.stores = br.stores ∧
    (∃ l, (callStep C K cfg H cc at' isIP date p v br s).2.1.answers = br.answers ++ l ∧ ∀ a ∈ l, a.2 = []) ∧
    ((callStep C K cfg H cc at' isIP date p v br s).2.2 = .err ∨ (callStep C K cfg H cc at' isIP date p v br s).2.2 = .panic) := by
  obtain ⟨sid, t, hr⟩ := hs
  cases v with
  | start n f =>
    unfold callStep
    simp only [C169_start C K cfg H cc hC f hv p.now n _ s sid t hr]
    refine ⟨trivial, ?_, ⟨_, rfl, ?_⟩, .inl rfl⟩
    · simp [storeOf]
    · intro a ha
      rw [List.mem_singleton.1 ha]
      rfl
  | regenerate n ps fg fs fd fr =>
    unfold callStep managerRegenerate
    simp only [hr, regenerate_down C K cfg hC hv]
    exact ⟨trivial, trivial, ⟨[], by simp, by simp⟩, .inr trivial⟩
  | destroy f => cases ho
  | remember psk salt => cases ho
  | forget => cases ho

/-- **C169**: whatever happens while the cache cannot be reached, nothing is changed in it. -/
theorem C169_frozen (hC : Spec.ReadOnly C) (es : List (Event B V)) (w : Site B σ V) (hd : ∀ e ∈ es, Spec.EventDown e) :
    (siteRun C K cfg H cc at' isIP date es w).1.cache = w.cache := by
  induction es generalizing w with
  | nil => rfl
  | cons e es ih =>
    have h1 : (siteStep C K cfg H cc at' isIP date e w).1.cache = w.cache := by
      have := hd e (by simp)
      cases e with
      | call b p v => exact callStep_down C K cfg H cc at' isIP date hC p v this _ _
      | answer b i now => rfl
      | use b i now u => exact (useStep_down C K cfg i now u this _ _).1
      | collect now f => cases this; rfl
    have h2 := ih (siteStep C K cfg H cc at' isIP date e w).1 (fun e he => hd e (by simp [he]))
    exact h2.trans h1

theorem patient_run (hC : Spec.ReadOnly C) (b : B) (jar : List Entry) (k : Nat) (es : List (Event B V)) (w : Site B σ V)
    (hd : ∀ e ∈ es, Spec.EventDown e) (hp : ∀ e ∈ es, Spec.Patient H cfg cc jar k b e) (hj : (w.browsers b).jar = jar)
    (ha : ∀ i a, k ≤ i → (w.browsers b).answers[i]? = some a → a.2 = []) (hk : k ≤ (w.browsers b).answers.length) :
    ((siteRun C K cfg H cc at' isIP date es w).1.browsers b).jar = jar ∧
    (∀ g, (b, Obs.got g) ∈ (siteRun C K cfg H cc at' isIP date es w).2 → g = .err ∨ g = .panic) ∧
    ((siteRun C K cfg H cc at' isIP date es w).1.browsers b).stores.length = (w.browsers b).stores.length := by
  induction es generalizing w with
  | nil => exact ⟨hj, fun g hg => by simp [siteRun] at hg, rfl⟩
  | cons e es ih =>
    have key : ((siteStep C K cfg H cc at' isIP date e w).1.browsers b).jar = jar ∧
        (∀ i a, k ≤ i → ((siteStep C K cfg H cc at' isIP date e w).1.browsers b).answers[i]? = some a → a.2 = []) ∧
        k ≤ ((siteStep C K cfg H cc at' isIP date e w).1.browsers b).answers.length ∧
        (∀ g, (b, Obs.got g) ∈ (siteStep C K cfg H cc at' isIP date e w).2 → g = .err ∨ g = .panic) ∧
        ((siteStep C K cfg H cc at' isIP date e w).1.browsers b).stores.length = (w.browsers b).stores.length := by
      have hde := hd e (by simp)
      have hpe := hp e (by simp)
      cases e with
      | call x p v =>
        by_cases hx : x = b
        · subst hx
          obtain ⟨ho, hs⟩ := hpe rfl
          rw [← hj] at hs
          obtain ⟨c1, c2, ⟨l, c3, c3'⟩, c4⟩ := callStep_patient C K cfg H cc at' isIP date hC p v hde ho (w.browsers x) w.cache hs
          have eb : (siteStep C K cfg H cc at' isIP date (.call x p v) w).1.browsers x =
              (callStep C K cfg H cc at' isIP date p v (w.browsers x) w.cache).2.1 := by simp [siteStep]
          rw [eb, c1, c2, c3]
          refine ⟨hj, ?_, by simp; omega, ?_, rfl⟩
          · intro i a hi hia
            rw [List.getElem?_append] at hia
            split at hia
            · exact ha i a hi hia
            · exact c3' a (List.mem_of_getElem? hia)
          · intro g hg
            have : (x, Obs.got g) ∈ [(x, Obs.got (V := V) (callStep C K cfg H cc at' isIP date p v (w.browsers x) w.cache).2.2)] := hg
            simp only [List.mem_singleton, Prod.mk.injEq, Obs.got.injEq, true_and] at this
            subst this
            exact c4
        · have eb : (siteStep C K cfg H cc at' isIP date (.call x p v) w).1.browsers b = w.browsers b := by
            simp [siteStep, Ne.symm hx]
          rw [eb]
          refine ⟨hj, ha, hk, ?_, rfl⟩
          intro g hg
          have : (b, Obs.got g) ∈ [(x, Obs.got (V := V) (callStep C K cfg H cc at' isIP date p v (w.browsers x) w.cache).2.2)] := hg
          simp only [List.mem_singleton, Prod.mk.injEq] at this
          exact absurd this.1.symm hx
      | answer x i now =>
        by_cases hx : x = b
        · subst hx
          have hi := hpe rfl
          have eb : (siteStep C K cfg H cc at' isIP date (.answer x i now) w).1.browsers x = answerStep i now (w.browsers x) := by simp [siteStep]
          have ea : answerStep i now (w.browsers x) = w.browsers x := by
            unfold answerStep
            cases h : (w.browsers x).answers[i]? with
            | none => rfl
            | some a => simp only [ha i a hi h]; rfl
          rw [eb, ea]
          exact ⟨hj, ha, hk, fun g hg => by simp [siteStep] at hg, rfl⟩
        · have eb : (siteStep C K cfg H cc at' isIP date (.answer x i now) w).1.browsers b = w.browsers b := by
            simp [siteStep, Ne.symm hx]
          rw [eb]
          exact ⟨hj, ha, hk, fun g hg => by simp [siteStep] at hg, rfl⟩
      | use x i now u =>
        obtain ⟨_, u1, u2, u3, u4⟩ := useStep_down C K cfg i now u hde (w.browsers x) w.cache
        have hobs : ∀ g, (b, Obs.got g) ∈ (siteStep C K cfg H cc at' isIP date (.use x i now u) w).2 → g = .err ∨ g = .panic := by
          intro g hg
          have : (b, Obs.got g) ∈ [(x, (useStep C K cfg i now u (w.browsers x) w.cache).2.2)] := hg
          simp only [List.mem_singleton, Prod.mk.injEq] at this
          exact absurd this.2.symm (u4 g)
        by_cases hx : x = b
        · subst hx
          have eb : (siteStep C K cfg H cc at' isIP date (.use x i now u) w).1.browsers x =
              (useStep C K cfg i now u (w.browsers x) w.cache).2.1 := by simp [siteStep]
          rw [eb, u1, u2, u3]
          exact ⟨hj, ha, hk, hobs, rfl⟩
        · have eb : (siteStep C K cfg H cc at' isIP date (.use x i now u) w).1.browsers b = w.browsers b := by
            simp [siteStep, Ne.symm hx]
          rw [eb]
          exact ⟨hj, ha, hk, hobs, rfl⟩
      | collect now f => exact ⟨hj, ha, hk, fun g hg => by simp [siteStep] at hg, rfl⟩
    obtain ⟨k1, k2, k3, k4, k5⟩ := key
    obtain ⟨r1, r2, r3⟩ := ih (siteStep C K cfg H cc at' isIP date e w).1 (fun e he => hd e (by simp [he])) (fun e he => hp e (by simp [he])) k1 k2 k3
    refine ⟨r1, ?_, r3.trans k5⟩
    intro g hg
    have : (b, Obs.got g) ∈ (siteStep C K cfg H cc at' isIP date e w).2 ++
        (siteRun C K cfg H cc at' isIP date es (siteStep C K cfg H cc at' isIP date e w).1).2 := hg
    rcases List.mem_append.1 this with h | h
    · exact k4 g h
    · exact r2 g h

/-- What a request gives depends on the cookies of the browser and on the cache only. -/
theorem callStep_jar (p : Place) (v : Visit V) (br br' : Browser V) (hj : br.jar = br'.jar) (s : σ) :
    (callStep C K cfg H cc at' isIP date p v br s).2.2 = (callStep C K cfg H cc at' isIP date p v br' s).2.2 ∧
    (callStep C K cfg H cc at' isIP date p v br s).1 = (callStep C K cfg H cc at' isIP date p v br' s).1 ∧
    ∃ l, (callStep C K cfg H cc at' isIP date p v br s).2.1.stores = br.stores ++ l ∧
      (callStep C K cfg H cc at' isIP date p v br' s).2.1.stores = br'.stores ++ l := by
  unfold callStep
  rw [hj]
  cases v with
  | start n f =>
    simp only
    cases hs : start C K cfg H cc f p.now n (readCookies [cookieHeader (send p br'.jar)]) s with
    | mk s' o =>
      cases o with
      | done r set cs => exact ⟨rfl, rfl, _, rfl, rfl⟩
      | panic => exact ⟨rfl, rfl, [], by simp, by simp⟩
  | destroy f => exact ⟨rfl, rfl, [], by simp, by simp⟩
  | regenerate n ps fg fs fd fr =>
    simp only
    cases hs : managerRegenerate C K cfg H cc fg fs fd fr p.now n ps (readCookies [cookieHeader (send p br'.jar)]) s with
    | mk s' o =>
      cases o with
      | done r set cs => exact ⟨rfl, rfl, _, rfl, rfl⟩
      | panic => exact ⟨rfl, rfl, [], by simp, by simp⟩
  | remember psk salt => exact ⟨rfl, rfl, [], by simp, by simp⟩
  | forget => exact ⟨rfl, rfl, [], by simp, by simp⟩

/-- **C169**: a browser with a session comes through an outage. While the cache cannot be reached, however often it asks and whatever the other
browsers do, no request of it gets a session - each gets an error, or panics - and its cookies do not change. After the outage any request of it gets exactly
what it would have got if the outage had not been: the same result, and the same session with the same values. -/
theorem C169_outage (hC : Spec.ReadOnly C) (b : B) (es : List (Event B V)) (w : Site B σ V) (hd : ∀ e ∈ es, Spec.EventDown e)
    (hp : ∀ e ∈ es, Spec.Patient H cfg cc (w.browsers b).jar (w.browsers b).answers.length b e) :
    (∀ g, (b, Obs.got g) ∈ (siteRun C K cfg H cc at' isIP date es w).2 → g = .err ∨ g = .panic) ∧
    ((siteRun C K cfg H cc at' isIP date es w).1.browsers b).jar = (w.browsers b).jar ∧
    ∀ p v, (siteStep C K cfg H cc at' isIP date (.call b p v) (siteRun C K cfg H cc at' isIP date es w).1).2 =
        (siteStep C K cfg H cc at' isIP date (.call b p v) w).2 ∧
      (siteStep C K cfg H cc at' isIP date (.call b p v) (siteRun C K cfg H cc at' isIP date es w).1).1.cache =
        (siteStep C K cfg H cc at' isIP date (.call b p v) w).1.cache ∧
      ∃ l, ((siteStep C K cfg H cc at' isIP date (.call b p v) (siteRun C K cfg H cc at' isIP date es w).1).1.browsers b).stores =
          ((siteRun C K cfg H cc at' isIP date es w).1.browsers b).stores ++ l ∧
        ((siteStep C K cfg H cc at' isIP date (.call b p v) w).1.browsers b).stores = (w.browsers b).stores ++ l := by
  obtain ⟨h1, h2, _⟩ := patient_run C K cfg H cc at' isIP date hC b _ _ es w hd hp rfl
    (fun i a hi hia => by rw [List.getElem?_eq_none hi] at hia; cases hia) (Nat.le_refl _)
  have h3 := C169_frozen C K cfg H cc at' isIP date hC es w hd
  refine ⟨h2, h1, fun p v => ?_⟩
  have hc := callStep_jar C K cfg H cc at' isIP date p v _ _ h1 w.cache
  simp only [siteStep, h3, if_true]
  exact ⟨by rw [hc.1], hc.2.1, hc.2.2⟩

end

/-- Reading changes nothing in redis, memcached and MongoDB. -/
theorem C169_backends (pre : Str) (ae : Bool) :
    Spec.ReadOnly ⟨Cache.redis pre⟩ ∧ Spec.ReadOnly ⟨Cache.memcache pre⟩ ∧ Spec.ReadOnly ⟨Cache.mgo ae⟩ := by
  refine ⟨fun now k s => ?_, fun now k s => ?_, fun now k s => ?_⟩
  · simp only [Cache.redis]
    split <;> rfl
  · simp only [Cache.memcache]
    split
    · split <;> rfl
    · rfl
  · simp only [Cache.mgo]
    split <;> rfl

/-! ## Example -/

namespace OutageEx

/-- A place of the site at a time. -/
def pl (t : Int) : Place := ⟨b!"a.example.com", true, b!"/", t⟩

/-- Browser 0 opens a session, saves a value and gets its cookie. -/
def before : List (Event Nat Nat) :=
  [.call 0 (pl 1000000000) (.start b!"s1" .none), .use 0 0 1000000000 (.set b!"u" 7), .use 0 0 1500000000 (.flush .none), .answer 0 0 2000000000]

/-- The outage: browser 0 asks three times, browser 1 is new and cannot save. -/
def outage : List (Event Nat Nat) :=
  [.call 0 (pl 3000000000) (.start b!"s2" .lost), .call 1 (pl 3000000000) (.start b!"s3" .lost), .call 0 (pl 3500000000) (.start b!"s4" .late),
   .answer 0 2 4000000000, .use 1 0 4000000000 (.set b!"u" 9), .use 1 0 4000000000 (.flush .lost), .collect 4000000000 .lost,
   .answer 0 1 4500000000, .call 0 (pl 4500000000) (.regenerate b!"s5" [] .lost .none .none .none)]

/-- The site of `exSite`. -/
def run (es : List (Event Nat Nat)) (w : Site Nat Cache.Server Nat) : Site Nat Cache.Server Nat × List (Nat × Obs Nat) :=
  siteRun ⟨Cache.redis b!"p"⟩ exConv ⟨b!"key", 60⟩ toyMac ⟨b!"sid", b!"rem", 0, 100⟩ ⟨true, b!".example.com"⟩ (fun _ => false) (fun _ => []) es w

/-- The site when the outage begins. -/
def w0 : Site Nat Cache.Server Nat := (run before (Site.new (fun _ => none))).1

end OutageEx
open OutageEx

/-- What is seen, with the outage and without: browser 0 has its session and the value in it afterwards. -/
theorem C169_example :
    (run outage w0).2 = [(0, .got .err), (1, .got (.sid b!"s3")), (0, .got .err), (1, .nothing), (1, .result (some .cache)), (0, .got .panic)] ∧
    (run [.call 0 (pl 5000000000) (.start b!"s6" .none), .use 0 1 5000000000 (.get b!"u")] (run outage w0).1).2 =
      [(0, .got (.sid b!"s1")), (0, .value (some 7))] := by decide +kernel

/-- The example meets the hypotheses of `C169_outage`. -/
theorem C169_example_meets : (∀ e ∈ outage, Spec.EventDown e) ∧
    ∀ e ∈ outage, Spec.Patient toyMac ⟨b!"key", 60⟩ ⟨b!"sid", b!"rem", 0, 100⟩ (w0.browsers 0).jar (w0.browsers 0).answers.length 0 e := by
  have hs : ∀ t : Int, (readSid toyMac ⟨b!"key", 60⟩ (readCookies [cookieHeader (send (pl t) (w0.browsers 0).jar)]) b!"sid" t).isSome = true →
      Spec.HasSession toyMac ⟨b!"key", 60⟩ ⟨b!"sid", b!"rem", 0, 100⟩ (w0.browsers 0).jar (pl t) := by
    intro t h
    obtain ⟨x, hx⟩ := Option.isSome_iff_exists.1 h
    exact ⟨x.1, x.2, hx⟩
  have h3 := hs 3000000000 (by decide +kernel)
  have h35 := hs 3500000000 (by decide +kernel)
  have h45 := hs 4500000000 (by decide +kernel)
  have hl : (w0.browsers 0).answers.length = 1 := by decide +kernel
  rw [hl]
  constructor
  · intro e he
    simp only [outage, List.mem_cons, List.not_mem_nil, or_false] at he
    rcases he with rfl | rfl | rfl | rfl | rfl | rfl | rfl | rfl | rfl
    · exact fun h => by cases h
    · exact fun h => by cases h
    · exact fun h => by cases h
    · trivial
    · trivial
    · rfl
    · rfl
    · trivial
    · exact fun h => by cases h
  · intro e he
    simp only [outage, List.mem_cons, List.not_mem_nil, or_false] at he
    rcases he with rfl | rfl | rfl | rfl | rfl | rfl | rfl | rfl | rfl
    · exact fun _ => ⟨trivial, h3⟩
    · exact fun h => by cases h
    · exact fun _ => ⟨trivial, h35⟩
    · exact fun _ => by decide
    · trivial
    · trivial
    · trivial
    · exact fun _ => by decide
    · exact fun _ => ⟨trivial, h45⟩

end Verif.Sess
