import Verif.Props.Site
import Verif.Props.Session
/-!
# C135: what a request saves, the next request of the browser finds
-/
namespace Verif.Sess
open Verif.Go
open Verif.Cache (Op Out second)

/-! ## Specification -/

/-- A modification of a session store. -/
inductive Spec.Mod (V : Type) where
  | set (k : Str) (v : V)
  | delete (k : Str)
  | clean

/-- the modification, as a use of the store -/
def Spec.Mod.use {V : Type} : Spec.Mod V → Use V
  | .set k v => .set k v
  | .delete k => .delete k
  | .clean => .clean

/-- The values after these modifications of an empty session: the last thing said about the key. -/
def Spec.kept {V : Type} (ms : List (Spec.Mod V)) (k : Str) : Option V :=
  (ms.reverse.findSome? fun m => match m with
    | .set k' v => if k' = k then some (some v) else none
    | .delete k' => if k' = k then some none else none
    | .clean => some none).getD none

/-- An event of browser `b` (a collection is nobody's). -/
def Spec.own {B V : Type} [DecidableEq B] (b : B) (e : Event B V) : Bool :=
  Spec.mine b e && (match e with | .collect _ _ => false | _ => true)

/-- The first two requests of a browser: the first opens a session, modifies and saves it; its response arrives; the second opens
a session and asks for `k`. -/
def Spec.twoRequests {B V : Type} (b : B) (p q : Place) (n m : Str) (f : Fault) (ms : List (Int × Spec.Mod V)) (t1 ta t2 : Int) (k : Str) :
    List (Event B V) :=
  .call b p (.start n f) :: ms.map (fun x => .use b 0 x.1 x.2.use) ++
    [.use b 0 t1 (.flush .none), .answer b 0 ta, .call b q (.start m .none), .use b 1 t2 (.get k)]

/-! ## Collections in between -/

section
variable {B σ V : Type} [DecidableEq B] (C : CacheApi σ) (K : Conv V) (cfg : Config) (H : Hmac) (cc : CookieConfig) (at' : Attrs)
variable (isIP : Str → Bool) (date : Int → Str)

theorem siteRun_append (a b : List (Event B V)) (w : Site B σ V) :
    siteRun C K cfg H cc at' isIP date (a ++ b) w =
      ((siteRun C K cfg H cc at' isIP date b (siteRun C K cfg H cc at' isIP date a w).1).1,
        (siteRun C K cfg H cc at' isIP date a w).2 ++
          (siteRun C K cfg H cc at' isIP date b (siteRun C K cfg H cc at' isIP date a w).1).2) := by
  induction a generalizing w with
  | nil => rfl
  | cons e a ih =>
    simp only [List.cons_append, siteRun]
    rw [ih, List.append_assoc]

def isCollect : Event B V → Bool
  | .collect _ _ => true
  | _ => false

variable {C cfg}
variable {good : Str → Prop} (L : Lawful C cfg.sessionExpire good)
include L

theorem collects (T : Int) (n : Str) : ∀ (cs : List (Event B V)) (w : Site B σ V), (∀ e ∈ cs, isCollect e = true) →
    (∀ t f, Event.collect t f ∈ cs → t ≤ T) →
    ∃ s', siteRun C K cfg H cc at' isIP date cs w = (⟨w.browsers, s'⟩, []) ∧ L.view s' T n = L.view w.cache T n
  | [], w, _, _ => ⟨w.cache, rfl, rfl⟩
  | e :: cs, w, h1, h2 => by
    cases e with
    | collect t f =>
      obtain ⟨s', e1, e2⟩ := collects T n cs ⟨w.browsers, (call C f t .gc w.cache).1⟩ (fun e he => h1 e (List.mem_cons_of_mem _ he))
        (fun t f hm => h2 t f (List.mem_cons_of_mem _ hm))
      refine ⟨s', ?_, ?_⟩
      · simp only [siteRun, siteStep, e1, List.nil_append]
      · rw [e2]
        have ht := h2 t f List.mem_cons_self
        have hgc : L.view (C.step t .gc w.cache).1 T n = L.view w.cache T n :=
          L.frame_view w.cache t .gc n T (by simp) (by simp [Cache.Spec.keyOf]) ht
        cases f with
        | none => exact hgc
        | lost => rfl
        | late => exact hgc
    | call b p v => exact absurd (h1 _ List.mem_cons_self) (by simp [isCollect])
    | answer b i t => exact absurd (h1 _ List.mem_cons_self) (by simp [isCollect])
    | use b i t u => exact absurd (h1 _ List.mem_cons_self) (by simp [isCollect])

/-- the next event that is not a collection -/
theorem next (T : Int) (n : Str) (es : List (Event B V)) (e : Event B V) (rest : List (Event B V)) (w : Site B σ V)
    (hf : es.filter (fun e => !isCollect e) = e :: rest) (ht : ∀ t f, Event.collect t f ∈ es → t ≤ T) :
    ∃ es' s', es'.filter (fun e => !isCollect e) = rest ∧ (∀ t f, Event.collect t f ∈ es' → t ≤ T) ∧
      L.view s' T n = L.view w.cache T n ∧
      (siteRun C K cfg H cc at' isIP date es w).2 = (siteStep C K cfg H cc at' isIP date e ⟨w.browsers, s'⟩).2 ++
        (siteRun C K cfg H cc at' isIP date es' (siteStep C K cfg H cc at' isIP date e ⟨w.browsers, s'⟩).1).2 := by
  obtain ⟨cs, es', rfl, hcs, he, hr⟩ := List.filter_eq_cons_iff.1 hf
  obtain ⟨s', e1, e2⟩ := collects K H cc at' isIP date L T n cs w (fun e he => by simpa using hcs e he)
    (fun t f hm => ht t f (List.mem_append.2 (Or.inl hm)))
  refine ⟨es', s', hr, fun t f hm => ht t f (List.mem_append.2 (Or.inr (List.mem_cons_of_mem _ hm))), e2, ?_⟩
  rw [siteRun_append, e1]
  simp only [siteRun, List.nil_append]

/-! ## The two requests -/

def modify (h : Handle V) : Spec.Mod V → Handle V
  | .set k v => h.set k v
  | .delete k => h.delete k
  | .clean => h.clean

omit L in
theorem kept_snoc (ms : List (Spec.Mod V)) (m : Spec.Mod V) (h : Handle V) (hv : h.values = Spec.kept ms) :
    (modify h m).values = Spec.kept (ms ++ [m]) := by
  funext k
  unfold Spec.kept
  rw [List.reverse_append, List.reverse_singleton, List.singleton_append, List.findSome?_cons]
  cases m with
  | set k' v =>
    simp only [modify, Handle.set, Cache.upd]
    by_cases e : k = k'
    · subst e; simp
    · rw [if_neg e, if_neg (fun x => e x.symm), hv]; rfl
  | delete k' =>
    simp only [modify, Handle.delete, Cache.upd]
    by_cases e : k = k'
    · subst e; simp
    · rw [if_neg e, if_neg (fun x => e x.symm), hv]; rfl
  | clean => rfl

omit L in
theorem modify_flags (h : Handle V) (m : Spec.Mod V) : (modify h m).sid = h.sid ∧ (modify h m).closed = h.closed ∧ (modify h m).changed = true := by
  cases m <;> exact ⟨rfl, rfl, rfl⟩

omit L in
theorem modStep (b : B) (t : Int) (m : Spec.Mod V) (w : Site B σ V) (jar : List Entry) (as : List (Str × List Str)) (h : Handle V)
    (hb : w.browsers b = ⟨jar, as, [h]⟩) :
    siteStep C K cfg H cc at' isIP date (.use b 0 t m.use) w =
      (⟨fun x => if x = b then ⟨jar, as, [modify h m]⟩ else w.browsers x, w.cache⟩, [(b, .nothing)]) := by
  simp only [siteStep, hb]
  cases m <;> rfl

theorem mods (b : B) (T : Int) (n : Str) (jar : List Entry) (as : List (Str × List Str)) (after : List (Event B V)) :
    ∀ (ms : List (Int × Spec.Mod V)) (es : List (Event B V)) (w : Site B σ V) (h : Handle V) (past : List (Spec.Mod V)),
      es.filter (fun e => !isCollect e) = ms.map (fun x => Event.use b 0 x.1 x.2.use) ++ after →
      (∀ t f, Event.collect t f ∈ es → t ≤ T) → w.browsers b = ⟨jar, as, [h]⟩ → h.sid = n → h.closed = false →
      (past ≠ [] → h.changed = true) → h.values = Spec.kept past →
      ∃ es' w' h', es'.filter (fun e => !isCollect e) = after ∧ (∀ t f, Event.collect t f ∈ es' → t ≤ T) ∧
        w'.browsers b = ⟨jar, as, [h']⟩ ∧ h'.sid = n ∧ h'.closed = false ∧ (past ++ ms.map (·.2) ≠ [] → h'.changed = true) ∧
        h'.values = Spec.kept (past ++ ms.map (·.2)) ∧
        (siteRun C K cfg H cc at' isIP date es w).2 = ms.map (fun _ => (b, .nothing)) ++ (siteRun C K cfg H cc at' isIP date es' w').2
  | [], es, w, h, past, hf, ht, hb, hs, hc, hch, hv =>
    ⟨es, w, h, hf, ht, hb, hs, hc, by simpa using hch, by simpa using hv, rfl⟩
  | (t, m) :: ms, es, w, h, past, hf, ht, hb, hs, hc, hch, hv => by
    obtain ⟨es1, s1, hf1, ht1, _, e1⟩ := next K H cc at' isIP date L T n es _ _ w hf ht
    rw [modStep K H cc at' isIP date b t m ⟨w.browsers, s1⟩ jar as h hb] at e1
    obtain ⟨m1, m2, m3⟩ := modify_flags h m
    obtain ⟨es', w', h', r1, r2, r3, r4, r5, r6, r7, r8⟩ := mods b T n jar as after ms es1
      ⟨fun x => if x = b then ⟨jar, as, [modify h m]⟩ else w.browsers x, s1⟩ (modify h m) (past ++ [m]) hf1 ht1 (by simp)
      (by rw [m1, hs]) (by rw [m2, hc]) (fun _ => m3) (kept_snoc past m h hv)
    refine ⟨es', w', h', r1, r2, r3, r4, r5, ?_, ?_, ?_⟩
    · intro _; exact r6 (by simp)
    · rw [r7]; simp
    · rw [e1, r8]; rfl

omit L in
theorem texts_one (f : SetCookie → GoCookie) (c : SetCookie) : (texts isIP f [c]).filterMap uaRead = received isIP (f c) := by
  unfold texts received
  rw [List.filterMap_cons]
  cases setCookieText isIP (f c) with
  | none => rfl
  | some t =>
    simp only [List.filterMap_nil, List.filterMap_cons, Option.bind_some]
    cases uaRead t <;> rfl

omit L in
/-- a session cookie that arrives at a browser without cookies is sent back in the same group of hosts, until it expires -/
theorem sent_back (c : SetCookie) (p q : Place) (ta : Int) (g : Str) (hage : 0 ≤ c.maxAge)
    (hg1 : Spec.group (wireDomain at'.domain) p.host = some g) (hg2 : Spec.group (wireDomain at'.domain) q.host = some g)
    (hq : ∃ t, q.path = 47 :: t) (hs : at'.secure = true → q.https = true) (hx : 0 < c.maxAge → q.now < ta + c.maxAge * 1000000000) :
    send q (storeAll p.host ta [{ sessionAttrs at' c with maxAge := Spec.age (sessionAttrs at' c).maxAge }] []) = [(c.name, c.value)] := by
  have hage' : Spec.age (sessionAttrs at' c).maxAge = c.maxAge := by
    unfold Spec.age; rw [if_neg (show ¬ (sessionAttrs at' c).maxAge < 0 by show ¬ c.maxAge < 0; omega)]; rfl
  rw [hage']
  have hsame : ({ sessionAttrs at' c with maxAge := c.maxAge } : HttpCookie) = sessionAttrs at' c := rfl
  rw [hsame]
  unfold Spec.group at hg1 hg2
  have hstore : storeAll p.host ta [sessionAttrs at' c] [] = [entryOf p.host ta (sessionAttrs at' c)] := by
    show store p.host ta (sessionAttrs at' c) [] = _
    unfold store
    have h1 : ¬ ((sessionAttrs at' c).domain ≠ [] ∧ within p.host (sessionAttrs at' c).domain = false) := by
      rintro ⟨a, b⟩
      rw [if_neg (show ¬ wireDomain at'.domain = [] from a)] at hg1
      split at hg1
      · rename_i hh
        rw [show within p.host (sessionAttrs at' c).domain = true from (within_iff _ _).2 hh] at b; cases b
      · cases hg1
    rw [if_neg h1, if_neg (show ¬ (sessionAttrs at' c).maxAge < 0 by show ¬ c.maxAge < 0; omega)]
    rfl
  rw [hstore]
  have hsent : Entry.sent q (entryOf p.host ta (sessionAttrs at' c)) = true := by
    obtain ⟨t, hq⟩ := hq
    unfold Entry.sent
    simp only [Bool.and_eq_true]
    refine ⟨⟨⟨?_, ?_⟩, ?_⟩, ?_⟩
    · by_cases hd : wireDomain at'.domain = []
      · rw [if_pos hd] at hg1 hg2
        have e : p.host = q.host := by rw [Option.some.injEq] at hg1 hg2; rw [hg1, hg2]
        simp [entryOf, sessionAttrs, hd, e]
      · rw [if_neg hd] at hg2
        have hw : within q.host (wireDomain at'.domain) = true := by
          split at hg2
          · rename_i hh; exact (within_iff _ _).2 hh
          · cases hg2
        simp [entryOf, sessionAttrs, hd, hw]
    · simp [entryOf, sessionAttrs, pathMatch, hq, List.isPrefixOf]
    · simp only [entryOf, sessionAttrs]
      cases hb : at'.secure with
      | false => rfl
      | true => rw [hs hb]; rfl
    · simp only [entryOf, sessionAttrs]
      by_cases h0 : c.maxAge > 0
      · simp only [h0, if_true]; exact decide_eq_true (hx h0)
      · simp only [h0, if_false]; rfl
  unfold send
  rw [List.filter_cons, if_pos hsent]
  rfl

variable (hn : Spec.Token cc.cookieName) (hip : isIP [] = false) (hd : Spec.Domain at'.domain)
  (hk : cfg.secretKey ≠ []) (he : 0 < cfg.sessionExpire) (he2 : cfg.sessionExpire ≤ 9223372036)
include hn hip hd hk he he2

theorem trip_alone (hK : K.Faithful) (b : B) (p q : Place) (n m : Str) (f : Fault) (ms : List (Int × Spec.Mod V)) (t1 ta t2 : Int) (k : Str)
    (es : List (Event B V)) (s : σ) (g : Str) (bytes : Str)
    (hes : es.filter (fun e => !isCollect e) = Spec.twoRequests b p q n m f ms t1 ta t2 k)
    (hgood : good n) (hn0 : n ≠ []) (hp1 : 0 < p.now) (hp2 : p.now < 2 ^ 63) (hms : ms ≠ [])
    (hsave : K.marshal (Spec.kept (ms.map (·.2))) = some bytes)
    (hq : ∃ t, q.path = 47 :: t) (hg1 : Spec.group (wireDomain at'.domain) p.host = some g)
    (hg2 : Spec.group (wireDomain at'.domain) q.host = some g) (hs : at'.secure = true → q.https = true)
    (hx : 0 < cc.cookieExpire → q.now < ta + cc.cookieExpire * 1000000000)
    (hp : q.now ≤ p.now + cfg.sessionExpire * 1000000000) (ht1 : t1 ≤ q.now) (ht2 : q.now < t1 + cfg.sessionExpire * second)
    (hgc : ∀ t f, Event.collect t f ∈ es → t ≤ q.now) :
    (siteRun C K cfg H cc at' isIP date es (Site.new s)).2 = (b, .got (.sid n)) :: ms.map (fun _ => (b, .nothing)) ++
      [(b, .result none), (b, .got (.sid n)), (b, .value (Spec.kept (ms.map (·.2)) k))] := by
  -- the first call
  obtain ⟨es1, s1, hf1, hc1, _, e1⟩ := next K H cc at' isIP date L q.now n es _ _ (Site.new s) hes hgc
  obtain ⟨c, c1, c2, c3, c4⟩ := C31_session_cookie_roundtrip H cfg cc [] [] n p.now q.now hn0 hk hp1 hp2 (by omega) he2
  have hempty : readCookies [cookieHeader (send p [])] = [] := read_header [] (fun c hc => by cases hc)
  have hst : start C K cfg H cc f p.now n (readCookies [cookieHeader (send p [])]) s1 =
      (s1, .done (.ok (create n [])) [c] ([] ++ [(c.name, c.value)])) := by
    rw [hempty]
    unfold start
    rw [show readSid H cfg [] cc.cookieName p.now = none from rfl]
    simp only
    rw [show (create (V := V) n []).sid = n from rfl, c1, c3]
  have hcall : siteStep C K cfg H cc at' isIP date (.call b p (.start n f)) ⟨(Site.new s : Site B σ V).browsers, s1⟩ =
      (⟨fun x => if x = b then ⟨[], [(p.host, texts isIP (sessionCookie at' []) [c])], [create n []]⟩ else Browser.new, s1⟩,
        [(b, .got (.sid n))]) := by
    simp only [siteStep, Site.new, callStep, Browser.new]
    rw [hst]
    rfl
  rw [hcall] at e1
  -- the modifications
  obtain ⟨es2, w2, h2, hf2, hc2, hb2, hs2, hcl2, hch2, hv2, e2⟩ := mods K H cc at' isIP date L b q.now n []
    [(p.host, texts isIP (sessionCookie at' []) [c])] _ ms es1
    ⟨fun x => if x = b then ⟨[], [(p.host, texts isIP (sessionCookie at' []) [c])], [create n []]⟩ else Browser.new, s1⟩
    (create n []) [] hf1 hc1 (if_pos rfl) rfl rfl
    (fun h => absurd rfl h) rfl
  rw [List.nil_append] at hv2 hch2
  have hch2 := hch2 (by simpa using hms)
  -- the flush
  obtain ⟨es3, s3, hf3, hc3, _, e3⟩ := next K H cc at' isIP date L q.now n es2 _ _ w2 hf2 hc2
  have hflush : flush C K cfg .none t1 h2 s3 =
      ({ h2 with changed := false }, (C.step t1 (.set n (.bytes bytes) [cfg.sessionExpire]) s3).1, none) := by
    unfold flush save
    rw [hcl2, hch2, hv2, hsave, hs2]
    simp only [Bool.false_eq_true, if_false, call, L.set_out s3 t1 n (.bytes bytes) hgood]
    rfl
  have hfl : siteStep C K cfg H cc at' isIP date (.use b 0 t1 (.flush .none)) ⟨w2.browsers, s3⟩ =
      (⟨fun x => if x = b then ⟨[], [(p.host, texts isIP (sessionCookie at' []) [c])], [{ h2 with changed := false }]⟩ else w2.browsers x,
        (C.step t1 (.set n (.bytes bytes) [cfg.sessionExpire]) s3).1⟩, [(b, .result none)]) := by
    simp only [siteStep, hb2, useStep, List.getElem?_cons_zero, hflush, List.set_cons_zero]
  rw [hfl] at e3
  have hview3 : L.view (C.step t1 (.set n (.bytes bytes) [cfg.sessionExpire]) s3).1 q.now n = some bytes := by
    rw [L.set_view s3 t1 n (.bytes bytes) q.now hgood ht1, if_pos ht2]; rfl
  -- the response
  obtain ⟨es4, s4, hf4, hc4, hv4, e4⟩ := next K H cc at' isIP date L q.now n es3 _ _
    ⟨fun x => if x = b then ⟨[], [(p.host, texts isIP (sessionCookie at' []) [c])], [{ h2 with changed := false }]⟩ else w2.browsers x,
        (C.step t1 (.set n (.bytes bytes) [cfg.sessionExpire]) s3).1⟩ hf3 hc3
  have hans : siteStep C K cfg H cc at' isIP date (.answer b 0 ta) ⟨fun x => if x = b then
        ⟨[], [(p.host, texts isIP (sessionCookie at' []) [c])], [{ h2 with changed := false }]⟩ else w2.browsers x, s4⟩ =
      (⟨fun x => if x = b then ⟨storeAll p.host ta [{ sessionAttrs at' c with maxAge := Spec.age (sessionAttrs at' c).maxAge }] [],
        [(p.host, texts isIP (sessionCookie at' []) [c])], [{ h2 with changed := false }]⟩ else w2.browsers x, s4⟩, []) := by
    have hc : Spec.Pair (c.name, c.value) := written_pair cfg H cc hn [] n p.now c (by rw [c1]; exact List.mem_singleton_self _)
    simp only [siteStep, if_true, answerStep, List.getElem?_cons_zero]
    rw [texts_one, session_received at' isIP hip hd [] (by simp) c hc]
    congr 2
    funext x
    by_cases hxb : x = b
    · rw [if_pos hxb, if_pos hxb]
    · rw [if_neg hxb, if_neg hxb, if_neg hxb]
  rw [hans] at e4
  -- the second call
  obtain ⟨es5, s5, hf5, hc5, hv5, e5⟩ := next K H cc at' isIP date L q.now n es4 _ _
    ⟨fun x => if x = b then ⟨storeAll p.host ta [{ sessionAttrs at' c with maxAge := Spec.age (sessionAttrs at' c).maxAge }] [],
        [(p.host, texts isIP (sessionCookie at' []) [c])], [{ h2 with changed := false }]⟩ else w2.browsers x, s4⟩ hf4 hc4
  have hcm : c.maxAge = if cc.cookieExpire ≥ 0 then cc.cookieExpire else 0 := by
    have : c ∈ (writeSessionCookie H cfg cc [] n p.now).1 := by rw [c1]; exact List.mem_singleton_self _
    unfold writeSessionCookie at this
    split at this
    · cases this
    · rw [List.mem_singleton] at this; rw [this]
  have hback : readCookies [cookieHeader (send q (storeAll p.host ta
      [{ sessionAttrs at' c with maxAge := Spec.age (sessionAttrs at' c).maxAge }] []))] = [(c.name, c.value)] := by
    have hc : Spec.Pair (c.name, c.value) := written_pair cfg H cc hn [] n p.now c (by rw [c1]; exact List.mem_singleton_self _)
    rw [sent_back at' c p q ta g (by rw [hcm]; split <;> omega) hg1 hg2 hq hs (by rw [hcm]; split <;> intro h <;> first | exact hx (by omega) | omega)]
    exact read_header _ (fun d hd => by rw [List.mem_singleton] at hd; subst hd; exact hc)
  rw [if_pos hp, List.nil_append] at c4
  have hread : read C K .none q.now n s5 = (s5, .ok ⟨n, Spec.kept (ms.map (·.2)), false, false⟩) := by
    unfold read
    simp only [call]
    rw [L.get_spec s5 q.now n hgood, hv5, hv4, hview3]
    simp only [hK _ _ hsave]
  have hst2 : start C K cfg H cc .none q.now m [(c.name, c.value)] s5 =
      (s5, .done (.ok ⟨n, Spec.kept (ms.map (·.2)), false, false⟩) [] [(c.name, c.value)]) := by
    unfold start
    rw [c4]
    simp only
    rw [hread]
  have hcall2 : siteStep C K cfg H cc at' isIP date (.call b q (.start m .none)) ⟨fun x => if x = b then
        ⟨storeAll p.host ta [{ sessionAttrs at' c with maxAge := Spec.age (sessionAttrs at' c).maxAge }] [],
        [(p.host, texts isIP (sessionCookie at' []) [c])], [{ h2 with changed := false }]⟩ else w2.browsers x, s5⟩ =
      (⟨fun x => if x = b then ⟨storeAll p.host ta [{ sessionAttrs at' c with maxAge := Spec.age (sessionAttrs at' c).maxAge }] [],
        [(p.host, texts isIP (sessionCookie at' []) [c]), (q.host, [])],
        [{ h2 with changed := false }, ⟨n, Spec.kept (ms.map (·.2)), false, false⟩]⟩ else
          (if x = b then ⟨storeAll p.host ta [{ sessionAttrs at' c with maxAge := Spec.age (sessionAttrs at' c).maxAge }] [],
        [(p.host, texts isIP (sessionCookie at' []) [c])], [{ h2 with changed := false }]⟩ else w2.browsers x), s5⟩, [(b, .got (.sid n))]) := by
    simp only [siteStep, if_true, callStep]
    rw [hback, hst2]
    rfl
  rw [hcall2] at e5
  -- the value
  obtain ⟨es6, s6, hf6, hc6, hv6, e6⟩ := next K H cc at' isIP date L q.now n es5 _ _
    ⟨fun x => if x = b then ⟨storeAll p.host ta [{ sessionAttrs at' c with maxAge := Spec.age (sessionAttrs at' c).maxAge }] [],
        [(p.host, texts isIP (sessionCookie at' []) [c]), (q.host, [])],
        [{ h2 with changed := false }, ⟨n, Spec.kept (ms.map (·.2)), false, false⟩]⟩ else
          (if x = b then ⟨storeAll p.host ta [{ sessionAttrs at' c with maxAge := Spec.age (sessionAttrs at' c).maxAge }] [],
        [(p.host, texts isIP (sessionCookie at' []) [c])], [{ h2 with changed := false }]⟩ else w2.browsers x), s5⟩ hf5 hc5
  have hlast : (siteRun C K cfg H cc at' isIP date es6 (siteStep C K cfg H cc at' isIP date (.use b 1 t2 (.get k)) ⟨fun x => if x = b then
        ⟨storeAll p.host ta [{ sessionAttrs at' c with maxAge := Spec.age (sessionAttrs at' c).maxAge }] [],
        [(p.host, texts isIP (sessionCookie at' []) [c]), (q.host, [])],
        [{ h2 with changed := false }, ⟨n, Spec.kept (ms.map (·.2)), false, false⟩]⟩ else
          (if x = b then ⟨storeAll p.host ta [{ sessionAttrs at' c with maxAge := Spec.age (sessionAttrs at' c).maxAge }] [],
        [(p.host, texts isIP (sessionCookie at' []) [c])], [{ h2 with changed := false }]⟩ else w2.browsers x), s6⟩).1).2 = [] := by
    obtain ⟨s7, e7, _⟩ := collects K H cc at' isIP date L q.now n es6 _ (fun e he => by
      have := List.filter_eq_nil_iff.1 hf6 e he
      simpa using this) hc6
    rw [e7]
  rw [hlast, List.append_nil] at e6
  rw [e1, e2, e3, e4, e5, e6]
  simp only [siteStep, if_true, useStep, List.getElem?_cons_succ, List.getElem?_cons_zero, Handle.get, List.singleton_append, List.nil_append,
    List.cons_append, List.append_assoc]

end

/-- Two requests of a browser, at ordinary times and places, that belong to the same group of hosts, the second one early enough for
the cookie and for the saved session. -/
structure Spec.Reachable {V : Type} (cfg : Config) (cc : CookieConfig) (at' : Attrs) (p q : Place) (n : Str) (ms : List (Int × Spec.Mod V)) (t1 ta : Int) : Prop where
  id : n ≠ []
  modified : ms ≠ []
  begun : 0 < p.now ∧ p.now < 2 ^ 63
  path : ∃ t, q.path = 47 :: t
  group : ∃ g, Spec.group (wireDomain at'.domain) p.host = some g ∧ Spec.group (wireDomain at'.domain) q.host = some g
  secure : at'.secure = true → q.https = true
  cookie : 0 < cc.cookieExpire → q.now < ta + cc.cookieExpire * 1000000000
  session : q.now ≤ p.now + cfg.sessionExpire * 1000000000
  saved : t1 ≤ q.now ∧ q.now < t1 + cfg.sessionExpire * 1000000000

section
variable {B σ V : Type} [DecidableEq B] (C : CacheApi σ) (K : Conv V) (cfg : Config) (H : Hmac) (cc : CookieConfig) (at' : Attrs)
variable (isIP : Str → Bool) (date : Int → Str)
variable (hn : Spec.Token cc.cookieName) (hr : Spec.Token cc.rememberName) (hne : cc.cookieName ≠ cc.rememberName)
  (hip : isIP [] = false) (hd : Spec.Domain at'.domain) (hdate : ∀ t, 59 ∉ date t)
  (hk : cfg.secretKey ≠ []) (he : 0 < cfg.sessionExpire) (he2 : cfg.sessionExpire ≤ 9223372036)

include hn hr hne hip hd hdate hk he he2 in
theorem trip {α : Type} {entry : Str → σ → α} (hl : ∀ k, Cache.Local C.step k (entry k)) {good : Str → Prop}
    (L : Lawful C cfg.sessionExpire good) (hK : K.Faithful) (b : B) (p q : Place) (n m : Str) (f : Fault)
    (ms : List (Int × Spec.Mod V)) (t1 ta t2 : Int) (k : Str) (bytes : Str)
    (es : List (Event B V)) (s : σ) (hes : es.filter (Spec.own b) = Spec.twoRequests b p q n m f ms t1 ta t2 k)
    (ho : Spec.OrdinaryEvents es) (hf : Spec.Fresh es b) (hgood : good n) (hrch : Spec.Reachable cfg cc at' p q n ms t1 ta)
    (hsave : K.marshal (Spec.kept (ms.map (·.2))) = some bytes) (hgc : ∀ t f, Event.collect t f ∈ es → t ≤ q.now) :
    (Spec.seenBy b (siteRun C K cfg H cc at' isIP date es (Site.new s)).2).map (·.2) = .got (.sid n) :: ms.map (fun _ => .nothing) ++
      [.result none, .got (.sid n), .value (Spec.kept (ms.map (·.2)) k)] := by
  obtain ⟨g, g1, g2⟩ := hrch.group
  have hes' : (es.filter (Spec.mine b)).filter (fun e => !isCollect e) = Spec.twoRequests b p q n m f ms t1 ta t2 k := by
    rw [List.filter_filter, ← hes]
    congr 1
    funext e
    unfold Spec.own isCollect
    cases e <;> simp
  rw [(C134_noninterference C K cfg H cc at' isIP date hn hr hne hip hd hdate hl es b s ho hf).1,
    trip_alone K H cc at' isIP date L hn hip hd hk he he2 hK b p q n m f ms t1 ta t2 k (es.filter (Spec.mine b)) s g bytes hes' hgood
      hrch.id hrch.begun.1 hrch.begun.2 hrch.modified hsave hrch.path g1 g2 hrch.secure hrch.cookie hrch.session hrch.saved.1 hrch.saved.2
      (fun t f h => hgc t f (List.mem_filter.1 h).1)]
  have : ∀ (l : List (B × Obs V)), (∀ x ∈ l, x.1 = b) → Spec.seenBy b l = l := by
    intro l hl
    unfold Spec.seenBy
    exact List.filter_eq_self.2 (fun x hx => by simpa using hl x hx)
  rw [this]
  · simp
  · intro x hx
    simp only [List.cons_append, List.mem_cons, List.mem_append, List.mem_map, List.not_mem_nil, or_false] at hx
    rcases hx with rfl | ⟨_, _, rfl⟩ | rfl | rfl | rfl <;> rfl

include hn hr hne hip hd hdate hk he in
/-- **C135**: with redis, memcached or MongoDB, whatever the other browsers do and whenever sessions are collected: the first
request of a browser opens a session, modifies it in any way and saves it, its response arrives, and then the second request
gets the same session with exactly the values saved. -/
theorem C135_saved_values_come_back (hK : K.Faithful) (b : B) (p q : Place) (n m : Str) (f : Fault)
    (ms : List (Int × Spec.Mod V)) (t1 ta t2 : Int) (k : Str) (bytes : Str)
    (es : List (Event B V)) (hes : es.filter (Spec.own b) = Spec.twoRequests b p q n m f ms t1 ta t2 k)
    (ho : Spec.OrdinaryEvents es) (hf : Spec.Fresh es b) (hrch : Spec.Reachable cfg cc at' p q n ms t1 ta)
    (hsave : K.marshal (Spec.kept (ms.map (·.2))) = some bytes) (hgc : ∀ t f, Event.collect t f ∈ es → t ≤ q.now) :
    (cfg.sessionExpire ≤ 9223372036 → ∀ pre (s : Cache.Server),
      (Spec.seenBy b (siteRun ⟨Cache.redis pre⟩ K cfg H cc at' isIP date es (Site.new s)).2).map (·.2) =
        .got (.sid n) :: ms.map (fun _ => .nothing) ++ [.result none, .got (.sid n), .value (Spec.kept (ms.map (·.2)) k)]) ∧
    (cfg.sessionExpire ≤ 2592000 → ∀ pre (s : Cache.Server), Cache.legalKey (pre ++ n) = true →
      (Spec.seenBy b (siteRun ⟨Cache.memcache pre⟩ K cfg H cc at' isIP date es (Site.new s)).2).map (·.2) =
        .got (.sid n) :: ms.map (fun _ => .nothing) ++ [.result none, .got (.sid n), .value (Spec.kept (ms.map (·.2)) k)]) ∧
    (cfg.sessionExpire ≤ 9223372036 → ∀ ae (s : Cache.Coll),
      (Spec.seenBy b (siteRun ⟨Cache.mgo ae⟩ K cfg H cc at' isIP date es (Site.new s)).2).map (·.2) =
        .got (.sid n) :: ms.map (fun _ => .nothing) ++ [.result none, .got (.sid n), .value (Spec.kept (ms.map (·.2)) k)]) := by
  refine ⟨fun h pre s => ?_, fun h pre s hl => ?_, fun h ae s => ?_⟩
  · exact trip _ K cfg H cc at' isIP date hn hr hne hip hd hdate hk he h (entry := fun k s => s (pre ++ k))
      (fun k => Cache.redis_indep pre k) (redisLawful pre he h) hK b p q n m f ms t1 ta t2 k bytes es s hes ho hf trivial hrch hsave hgc
  · exact trip _ K cfg H cc at' isIP date hn hr hne hip hd hdate hk he (by omega) (entry := fun k s => s (pre ++ k))
      (fun k => Cache.memcache_indep pre k) (memcacheLawful pre he h) hK b p q n m f ms t1 ta t2 k bytes es s hes ho hf hl hrch hsave hgc
  · exact trip _ K cfg H cc at' isIP date hn hr hne hip hd hdate hk he h (entry := fun k c => c k)
      (fun k => Cache.mgo_indep ae k) (mgoLawful ae he h) hK b p q n m f ms t1 ta t2 k bytes es s hes ho hf trivial hrch hsave hgc

end

/-- the history `exSite` (two browsers; browser 0 saves `u = 7`) meets the hypotheses for browser 0 -/
example : (exSite b!"s2").filter (Spec.own 0) = Spec.twoRequests 0 ⟨b!"a.example.com", true, b!"/", 1000000000⟩
      ⟨b!"b.example.com", true, b!"/", 3000000000⟩ b!"s1" b!"s4" .none [(1000000000, .set b!"u" 7)] 1500000000 2000000000 3000000000 b!"u" ∧
    (∀ t f, Event.collect t f ∈ exSite b!"s2" → t ≤ 3000000000) ∧
    Spec.kept [Spec.Mod.set b!"u" 7] b!"u" = some 7 ∧
    Spec.Reachable ⟨b!"key", 60⟩ ⟨b!"sid", b!"rem", 0, 100⟩ ⟨true, b!".example.com"⟩ ⟨b!"a.example.com", true, b!"/", 1000000000⟩
      ⟨b!"b.example.com", true, b!"/", 3000000000⟩ b!"s1" [(1000000000, Spec.Mod.set b!"u" 7)] 1500000000 2000000000 := by
  refine ⟨rfl, ?_, by decide, ?_⟩
  · intro t f h
    simp only [exSite, List.mem_cons, List.not_mem_nil, Event.collect.injEq, reduceCtorEq, or_false, false_or] at h
    omega
  · exact ⟨by decide, by simp, by decide, ⟨_, rfl⟩, ⟨b!"example.com", (group_iff _ _ _).2 ⟨Or.inr (by decide), by decide⟩,
      (group_iff _ _ _).2 ⟨Or.inr (by decide), by decide⟩⟩, fun _ => rfl, fun h => absurd h (by decide), by decide, by decide⟩

/-- a converter that reads back what it wrote and saves some values -/
example : ∃ K : Conv Nat, K.Faithful ∧ K.marshal (Spec.kept [Spec.Mod.set b!"u" 7]) = some b!"x" := by
  classical
  refine ⟨⟨fun vs => if vs = Spec.kept [Spec.Mod.set b!"u" 7] then some b!"x" else none,
    fun _ => some (Spec.kept [Spec.Mod.set b!"u" 7])⟩, ?_, if_pos rfl⟩
  intro vs b h
  simp only at h ⊢
  split at h
  · rename_i e; rw [e]
  · cases h

end Verif.Sess
