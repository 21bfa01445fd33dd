import Verif.Model.Site
import Verif.Props.Wire
import Verif.Props.CacheKeys
/-!
# C134: a browser's sessions do not depend on the other browsers
-/
namespace Verif.Sess
open Verif.Go
open Verif.Cache (Op Out)

/-! ## Specification -/

/-- The id drawn in a request, if one is (C37: at random). -/
def Spec.newId {V : Type} : Visit V → Option Str
  | .start n _ => some n
  | .regenerate n _ _ _ _ _ => some n
  | _ => none

/-- The ids drawn in requests of browser `b`. -/
def Spec.issued {B V : Type} (es : List (Event B V)) (b : B) (sid : Str) : Prop :=
  ∃ p v, Event.call b p v ∈ es ∧ Spec.newId v = some sid

/-- The events of browser `b`, and the collections. -/
def Spec.mine {B V : Type} [DecidableEq B] (b : B) : Event B V → Bool
  | .call x _ _ => decide (x = b)
  | .answer x _ _ => decide (x = b)
  | .use x _ _ _ => decide (x = b)
  | .collect _ _ => true

/-- What is seen in requests of browser `b`. -/
def Spec.seenBy {B V : Type} [DecidableEq B] (b : B) (os : List (B × Obs V)) : List (B × Obs V) := os.filter (fun o => decide (o.1 = b))

/-! ## Confined cache use -/

section
variable {σ α : Type} (entry : Str → σ → α) (ids : Str → Prop)

/-- the caches agree on the keys `ids` -/
def Agree (s s' : σ) : Prop := ∀ k, ids k → entry k s = entry k s'

/-- an operation on the cache that uses no keys but `ids` -/
structure Confined {β : Type} (op : σ → σ × β) : Prop where
  frame : ∀ s k, ¬ ids k → entry k (op s).1 = entry k s
  same : ∀ s s', Agree entry ids s s' → (op s).2 = (op s').2 ∧ Agree entry ids (op s).1 (op s').1

variable {entry ids}

theorem Confined.pure {β : Type} (b : β) : Confined entry ids (fun s => (s, b)) :=
  ⟨fun _ _ _ => rfl, fun _ _ h => ⟨rfl, h⟩⟩

theorem Confined.bind {β γ : Type} {op : σ → σ × β} {g : β → σ → σ × γ} (h1 : Confined entry ids op)
    (h2 : ∀ a, Confined entry ids (g a)) : Confined entry ids (fun s => g (op s).2 (op s).1) := by
  constructor
  · intro s k hk
    rw [(h2 _).frame _ k hk, h1.frame s k hk]
  · intro s s' h
    obtain ⟨e, ha⟩ := h1.same s s' h
    rw [e]
    exact (h2 _).same _ _ ha

theorem Confined.map {β γ : Type} {op : σ → σ × β} (h1 : Confined entry ids op) (g : β → γ) :
    Confined entry ids (fun s => ((op s).1, g (op s).2)) :=
  Confined.bind (g := fun a s => (s, g a)) h1 (fun a => Confined.pure (g a))

theorem Confined.of_eq {β : Type} {op op' : σ → σ × β} (h : Confined entry ids op) (e : ∀ s, op' s = op s) : Confined entry ids op' := by
  have : op' = op := funext e
  rw [this]; exact h

variable {C : CacheApi σ} (hl : ∀ k, Cache.Local C.step k (entry k))
include hl

theorem confined_call (f : Fault) (now : Int) (o : Op) (k : Str) (hk : Cache.Spec.keyOf o = some k) (hi : ids k) :
    Confined entry ids (call C f now o) := by
  have hframe : ∀ s k', ¬ ids k' → entry k' (C.step now o s).1 = entry k' s := by
    intro s k' hk'
    exact (hl k').other now o s k hk (fun e => hk' (e ▸ hi))
  have hsame : ∀ s s', Agree entry ids s s' → Agree entry ids (C.step now o s).1 (C.step now o s').1 := by
    intro s s' h k' hk'
    exact (hl k').same now o s s' (h k' hk')
  cases f with
  | none => exact ⟨hframe, fun s s' h => ⟨(hl k).out now o s s' (h k hi) hk, hsame s s' h⟩⟩
  | lost => exact ⟨fun _ _ _ => rfl, fun _ _ h => ⟨rfl, h⟩⟩
  | late => exact ⟨hframe, fun s s' h => ⟨rfl, hsame s s' h⟩⟩

variable {V : Type} (K : Conv V) (cfg : Config)

theorem confined_read (f : Fault) (now : Int) (sid : Str) (hi : ids sid) : Confined entry ids (read C K f now sid) := by
  refine ((confined_call hl f now (.get sid) sid rfl hi).map (fun o =>
    (match o with
    | .val b =>
      match K.unmarshal b with
      | none => .error .conv
      | some vs => .ok { sid := sid, values := vs, changed := false, closed := false }
    | .missed => .error .notFound
    | _ => .error .cache : Except SErr (Handle V)))).of_eq ?_
  intro s
  unfold read
  cases h : call C f now (.get sid) s with
  | mk s' o =>
    cases o with
    | val b => simp only; cases K.unmarshal b <;> rfl
    | _ => rfl

theorem confined_destroySid (f : Fault) (now : Int) (sid : Str) (hi : ids sid) : Confined entry ids (destroySid C f now sid) :=
  (confined_call hl f now (.delete sid) sid rfl hi).map outErr

theorem confined_save (f : Fault) (now : Int) (h : Handle V) (hi : ids h.sid) : Confined entry ids (save C K cfg f now h) := by
  cases hm : K.marshal h.values with
  | none =>
    refine (Confined.pure (some SErr.conv)).of_eq ?_
    intro s; unfold save; rw [hm]
  | some b =>
    refine ((confined_call hl f now (.set h.sid (.bytes b) [cfg.sessionExpire]) h.sid rfl hi).map outErr).of_eq ?_
    intro s; unfold save; rw [hm]

theorem confined_flush (f : Fault) (now : Int) (h : Handle V) (hi : ids h.sid) :
    Confined entry ids (fun s => ((flush C K cfg f now h s).2.1, (flush C K cfg f now h s).1, (flush C K cfg f now h s).2.2)) := by
  by_cases hc : h.closed = true
  · refine (Confined.pure (h, (none : Option SErr))).of_eq ?_
    intro s; unfold flush; rw [if_pos hc]
  · by_cases hg : h.changed = false
    · refine (Confined.pure (h, (none : Option SErr))).of_eq ?_
      intro s; unfold flush; rw [if_neg hc, if_pos hg]
    · refine ((confined_save hl K cfg f now h hi).map (fun e => ({ h with changed := false }, e))).of_eq ?_
      intro s; unfold flush; rw [if_neg hc, if_neg hg]

theorem confined_touch (f : Fault) (now : Int) (h : Handle V) (hi : ids h.sid) : Confined entry ids (touch C cfg f now h) :=
  (confined_call hl f now (.touch h.sid [cfg.sessionExpire]) h.sid rfl hi).map outErr

theorem confined_destroy (f : Fault) (now : Int) (h : Handle V) (hi : ids h.sid) :
    Confined entry ids (fun s => ((destroy C f now h s).2.1, (destroy C f now h s).1, (destroy C f now h s).2.2)) :=
  ((confined_destroySid hl f now h.sid hi).map (fun e => (({ h with closed := true, values := fun _ => none } : Handle V), e))).of_eq
    (fun _ => rfl)

theorem confined_regenerate (fg fs fd fr : Fault) (now : Int) (old sid : Str) (ho : ids old) (hi : ids sid) :
    Confined entry ids (regenerate C K cfg fg fs fd fr now old sid) := by
  refine (Confined.bind (confined_call hl fg now (.get old) old rfl ho) (g := fun o s =>
    (match o with
    | .val b =>
      match (call C fs now (.set sid (.text b) [cfg.sessionExpire]) s).2 with
      | .ok => read C K fr now sid (destroySid C fd now old (call C fs now (.set sid (.text b) [cfg.sessionExpire]) s).1).1
      | _ => ((call C fs now (.set sid (.text b) [cfg.sessionExpire]) s).1, .error .cache)
    | .missed => (s, .error .notFound)
    | _ => (s, .error .cache) : σ × Except SErr (Handle V))) ?_).of_eq ?_
  · intro o
    cases o with
    | val b =>
      refine (Confined.bind (confined_call hl fs now (.set sid (.text b) [cfg.sessionExpire]) sid rfl hi) (g := fun o s =>
        (match o with
        | .ok => read C K fr now sid (destroySid C fd now old s).1
        | _ => (s, .error .cache) : σ × Except SErr (Handle V))) ?_).of_eq ?_
      · intro o
        cases o with
        | ok =>
          exact (Confined.bind (confined_destroySid hl fd now old ho) (g := fun _ s => read C K fr now sid s)
            (fun _ => confined_read hl K fr now sid hi)).of_eq (fun _ => rfl)
        | val _ => exact Confined.pure _
        | bool _ => exact Confined.pure _
        | missed => exact Confined.pure _
        | failed => exact Confined.pure _
      · intro s; rfl
    | _ => exact Confined.pure _
  · intro s
    unfold regenerate
    cases h : call C fg now (.get old) s with
    | mk s1 o =>
      cases o with
      | val b =>
        simp only
        cases h2 : call C fs now (.set sid (.text b) [cfg.sessionExpire]) s1 with
        | mk s2 o2 => cases o2 <;> rfl
      | _ => rfl

variable (H : Hmac) (cc : CookieConfig)

theorem confined_start (f : Fault) (now : Int) (n : Str) (cs : Cookies)
    (hr : ∀ sid t, readSid H cfg cs cc.cookieName now = some (sid, t) → ids sid) :
    Confined entry ids (start C K cfg H cc f now n cs) := by
  cases h : readSid H cfg cs cc.cookieName now with
  | none =>
    refine (Confined.pure (MOut.done (.ok (create n [])) (writeSessionCookie H cfg cc cs n now).1
      (writeSessionCookie H cfg cc cs n now).2)).of_eq ?_
    intro s; unfold start; rw [h]; rfl
  | some x =>
    obtain ⟨sid, t⟩ := x
    refine ((confined_read hl K f now sid (hr sid t h)).map (fun r => (match r with
      | .error .notFound => MOut.done (.ok (create sid [])) [] cs
      | r => .done r [] cs : MOut V))).of_eq ?_
    intro s
    unfold start
    rw [h]
    simp only
    cases hr : read C K f now sid s with
    | mk s' r =>
      cases r with
      | ok h => rfl
      | error e => cases e <;> rfl

theorem confined_managerDestroy (f : Fault) (now : Int) (cs : Cookies)
    (hr : ∀ sid t, readSid H cfg cs cc.cookieName now = some (sid, t) → ids sid) :
    Confined entry ids (managerDestroy C cfg H cc f now cs) := by
  cases h : readSid H cfg cs cc.cookieName now with
  | none =>
    refine (Confined.pure ([] : List SetCookie)).of_eq ?_
    intro s; unfold managerDestroy; rw [h]
  | some x =>
    obtain ⟨sid, t⟩ := x
    refine ((confined_destroySid hl f now sid (hr sid t h)).map
      (fun _ => [({ name := cc.cookieName, value := [], maxAge := -1 } : SetCookie)])).of_eq ?_
    intro s; unfold managerDestroy; rw [h]

theorem confined_managerRegenerate (fg fs fd fr : Fault) (now : Int) (n : Str) (hn : ids n) (ps : List (Str → Option V)) (cs : Cookies)
    (hr : ∀ sid t, readSid H cfg cs cc.cookieName now = some (sid, t) → ids sid) :
    Confined entry ids (managerRegenerate C K cfg H cc fg fs fd fr now n ps cs) := by
  cases h : readSid H cfg cs cc.cookieName now with
  | none =>
    refine (Confined.pure (MOut.done (.ok (create n ps)) (writeSessionCookie H cfg cc cs n now).1
      (writeSessionCookie H cfg cc cs n now).2)).of_eq ?_
    intro s; unfold managerRegenerate; rw [h]; rfl
  | some x =>
    obtain ⟨sid, t⟩ := x
    refine ((confined_regenerate hl K cfg fg fs fd fr now sid n (hr sid t h) hn).map (fun r => (match r with
      | .ok h => MOut.done (.ok h) (writeSessionCookie H cfg cc cs h.sid now).1 (writeSessionCookie H cfg cc cs h.sid now).2
      | .error .notFound => .done (.ok (create n ps)) (writeSessionCookie H cfg cc cs n now).1
          (writeSessionCookie H cfg cc cs n now).2
      | .error _ => .panic : MOut V))).of_eq ?_
    intro s
    unfold managerRegenerate
    rw [h]
    simp only
    cases hr : regenerate C K cfg fg fs fd fr now sid n s with
    | mk s' r =>
      cases r with
      | ok h => rfl
      | error e => cases e <;> rfl

end

/-! ## What a browser owns -/

section
variable (H : Hmac) (cfg : Config) (cc : CookieConfig) (ids : Str → Prop)

/-- a cookie value that carries an id among `ids`, or nothing -/
def GoodVal (v : Str) : Prop :=
  v = [] ∨ ∃ sid t, ids sid ∧ 0 < t ∧ t < 2 ^ 63 ∧ encodeSecure H sid cfg.secretKey t = some v

def OkCookie (n v : Str) : Prop := Spec.Pair (n, v) ∧ (n = cc.cookieName → GoodVal H cfg ids v)

structure Owned {V : Type} (br : Browser V) : Prop where
  jar : ∀ e ∈ br.jar, OkCookie H cfg cc ids e.name e.value
  answers : ∀ a ∈ br.answers, ∀ t ∈ a.2, ∀ x, uaRead t = some x → OkCookie H cfg cc ids x.name x.value
  stores : ∀ h ∈ br.stores, ids h.sid

theorem Owned.new {V : Type} : Owned H cfg cc ids (Browser.new : Browser V) :=
  ⟨fun _ h => (by cases h), fun _ h => (by cases h), fun _ h => (by cases h)⟩

variable {H cfg cc ids}

theorem decode_nil : decodeSecure H [] cfg.secretKey = none := rfl

theorem Owned.readSid {V : Type} {br : Browser V} (h : Owned H cfg cc ids br) (p : Place) (now : Int) (sid : Str) (t : Int)
    (hr : Sess.readSid H cfg (readCookies [cookieHeader (send p br.jar)]) cc.cookieName now = some (sid, t)) : ids sid := by
  rw [read_header _ (send_pairs (fun e he => (h.jar e he).1) p)] at hr
  unfold Sess.readSid at hr
  cases hg : getCookie (send p br.jar) cc.cookieName with
  | none => rw [hg] at hr; cases hr
  | some v =>
    rw [hg] at hr
    simp only at hr
    unfold getCookie at hg
    obtain ⟨x, hx, rfl⟩ := Option.map_eq_some_iff.1 hg
    have hn : x.1 = cc.cookieName := by have := List.find?_some hx; simpa using this
    have hm := List.mem_reverse.1 (List.mem_of_find?_eq_some hx)
    unfold send at hm
    obtain ⟨e, he, rfl⟩ := List.mem_map.1 hm
    rcases (h.jar e (List.mem_filter.1 he).1).2 hn with hv | ⟨sid', t', hi, h1, h2, henc⟩
    · simp only at hr
      rw [hv] at hr
      cases hr
    · simp only at hr
      rw [unescape_encode H henc] at hr
      simp only at hr
      obtain ⟨hraw, hkey, _⟩ := encode_some H henc
      obtain ⟨v', hv', hd⟩ := C29_secure_roundtrip H sid' cfg.secretKey t' hraw hkey h1 h2
      rw [henc] at hv'
      cases hv'
      rw [hd] at hr
      simp only at hr
      split at hr
      · cases hr
      · cases hr; exact hi

end

section
variable {σ V : Type} (C : CacheApi σ) (K : Conv V) (cfg : Config) (H : Hmac) (cc : CookieConfig) (at' : Attrs)
variable (isIP : Str → Bool) (date : Int → Str) {ids : Str → Prop}
variable (hn : Spec.Token cc.cookieName) (hr : Spec.Token cc.rememberName) (hne : cc.cookieName ≠ cc.rememberName)
  (hip : isIP [] = false) (hd : Spec.Domain at'.domain) (hdate : ∀ t, 59 ∉ date t)

include hip hd in
theorem texts_session (d : Str) (hdt : 59 ∉ d) (set : List SetCookie) (h : ∀ c ∈ set, OkCookie H cfg cc ids c.name c.value) :
    ∀ t ∈ texts isIP (sessionCookie at' d) set, ∀ x, uaRead t = some x → OkCookie H cfg cc ids x.name x.value := by
  intro t ht x hx
  unfold texts at ht
  obtain ⟨c, hc, ht⟩ := List.mem_filterMap.1 ht
  have := session_received at' isIP hip hd d hdt c (h c hc).1
  unfold received at this
  rw [ht, Option.bind_some, hx] at this
  simp only [Option.toList_some, List.cons.injEq, and_true] at this
  subst this
  exact h c hc

include hip in
theorem texts_remember (set : List SetCookie) (h : ∀ c ∈ set, OkCookie H cfg cc ids c.name c.value) :
    ∀ t ∈ texts isIP (rememberCookie at') set, ∀ x, uaRead t = some x → OkCookie H cfg cc ids x.name x.value := by
  intro t ht x hx
  unfold texts at ht
  obtain ⟨c, hc, ht⟩ := List.mem_filterMap.1 ht
  have := remember_received at' isIP hip c (h c hc).1
  unfold received at this
  rw [ht, Option.bind_some, hx] at this
  simp only [Option.toList_some, List.cons.injEq, and_true] at this
  subst this
  exact h c hc

include hn in
theorem written_ok (cs : Cookies) (sid : Str) (t : Int) (hi : ids sid) (h1 : 0 < t) (h2 : t < 2 ^ 63) :
    ∀ c ∈ (writeSessionCookie H cfg cc cs sid t).1, OkCookie H cfg cc ids c.name c.value := by
  intro c hc
  refine ⟨written_pair cfg H cc hn cs sid t c hc, fun _ => Or.inr ⟨sid, t, hi, h1, h2, ?_⟩⟩
  unfold writeSessionCookie at hc
  cases he : encodeSecure H sid cfg.secretKey t with
  | none => rw [he] at hc; cases hc
  | some v =>
    rw [he] at hc
    simp only [List.mem_singleton] at hc
    subst hc
    rfl

theorem Owned.answer {br : Browser V} (h : Owned H cfg cc ids br) (i : Nat) (now : Int) : Owned H cfg cc ids (answerStep i now br) := by
  unfold answerStep
  cases hi : br.answers[i]? with
  | none => exact h
  | some a =>
    refine ⟨?_, h.answers, h.stores⟩
    have ha := h.answers a (List.mem_of_getElem? hi)
    have gen : ∀ (xs : List HttpCookie) (jar : List Entry), (∀ x ∈ xs, OkCookie H cfg cc ids x.name x.value) →
        (∀ e ∈ jar, OkCookie H cfg cc ids e.name e.value) →
        ∀ e ∈ storeAll a.1 now xs jar, OkCookie H cfg cc ids e.name e.value := by
      intro xs
      induction xs with
      | nil => intro jar _ hj; exact hj
      | cons x xs ih =>
        intro jar hx hj
        show ∀ e ∈ storeAll a.1 now xs (store a.1 now x jar), _
        refine ih _ (fun y hy => hx y (List.mem_cons_of_mem _ hy)) ?_
        intro e he
        rcases mem_store he with he | ⟨e1, e2⟩
        · exact hj e he
        · rw [e1, e2]; exact hx x List.mem_cons_self
    refine gen _ _ ?_ h.jar
    intro x hx
    obtain ⟨t, ht, hx⟩ := List.mem_filterMap.1 hx
    exact ha t ht x hx

theorem Owned.add {br : Browser V} (h : Owned H cfg cc ids br) (host : Str) (ts : List Str) (hs : List (Handle V))
    (h1 : ∀ t ∈ ts, ∀ x, uaRead t = some x → OkCookie H cfg cc ids x.name x.value) (h2 : ∀ x ∈ hs, ids x.sid) :
    Owned H cfg cc ids (⟨br.jar, br.answers ++ [(host, ts)], br.stores ++ hs⟩ : Browser V) := by
  refine ⟨h.jar, ?_, ?_⟩
  · intro a ha
    rcases List.mem_append.1 ha with ha | ha
    · exact h.answers a ha
    · rw [List.mem_singleton] at ha; subst ha; exact h1
  · intro x hx
    rcases List.mem_append.1 hx with hx | hx
    · exact h.stores x hx
    · exact h2 x hx

theorem read_sid {f : Fault} {now : Int} {sid : Str} {s s' : σ} {h : Handle V} (hr : read C K f now sid s = (s', .ok h)) : h.sid = sid := by
  unfold read at hr
  split at hr
  · split at hr
    · cases hr
    · cases hr; rfl
  · cases hr
  · cases hr

theorem regenerate_sid {fg fs fd fr : Fault} {now : Int} {old n : Str} {s s' : σ} {h : Handle V}
    (hr : regenerate C K cfg fg fs fd fr now old n s = (s', .ok h)) : h.sid = n := by
  unfold regenerate at hr
  split at hr
  · split at hr
    · exact read_sid C K hr
    · cases hr
  · cases hr
  · cases hr

include hn hr hne hip hd hdate in
/-- a request of a browser leaves it with its own ids only -/
theorem Owned.call {br : Browser V} (h : Owned H cfg cc ids br) (p : Place) (v : Visit V) (ho : Spec.Ordinary (p, v))
    (hi : ∀ n, Spec.newId v = some n → ids n) (s : σ) :
    Owned H cfg cc ids (callStep C K cfg H cc at' isIP date p v br s).2.1 := by
  obtain ⟨o1, o2, o3, o4⟩ := ho
  simp only at o1 o2 o4
  cases v with
  | start n f =>
    have hin := hi n rfl
    simp only [callStep]
    cases hst : start C K cfg H cc f p.now n (readCookies [cookieHeader (send p br.jar)]) s with
    | mk s' r =>
      cases r with
      | panic => exact h
      | done r set cs' =>
        simp only
        unfold start at hst
        cases hrs : Sess.readSid H cfg (readCookies [cookieHeader (send p br.jar)]) cc.cookieName p.now with
        | none =>
          rw [hrs] at hst
          cases hst
          refine h.add cfg H cc _ _ _ (texts_session cfg H cc at' isIP hip hd [] (by simp) _
            (written_ok cfg H cc hn _ _ _ hin o1 o2)) ?_
          intro x hx
          simp only [storeOf, List.mem_singleton] at hx
          subst hx; exact hin
        | some x =>
          obtain ⟨sid, t⟩ := x
          have hsid := h.readSid p p.now sid t hrs
          rw [hrs] at hst
          simp only at hst
          cases hrd : read C K f p.now sid s with
          | mk s2 r2 =>
            rw [hrd] at hst
            have fin : (∀ x ∈ storeOf r, ids x.sid) → set = [] → Owned H cfg cc ids (⟨br.jar,
                br.answers ++ [(p.host, texts isIP (sessionCookie at' []) set)], br.stores ++ storeOf r⟩ : Browser V) := by
              intro hx hset
              subst hset
              exact h.add cfg H cc _ _ _ (fun t ht => by cases ht) hx
            cases r2 with
            | ok hd2 =>
              simp only [Prod.mk.injEq, MOut.done.injEq] at hst
              obtain ⟨-, rfl, rfl, -⟩ := hst
              refine fin ?_ rfl
              intro x hx
              simp only [storeOf, List.mem_singleton] at hx
              subst hx
              rw [read_sid C K hrd]; exact hsid
            | error e =>
              cases e <;> simp only [Prod.mk.injEq, MOut.done.injEq] at hst <;> obtain ⟨-, rfl, rfl, -⟩ := hst <;>
                refine fin ?_ rfl <;> intro x hx
              · simp only [storeOf, List.mem_singleton] at hx
                subst hx; exact hsid
              all_goals cases hx
  | destroy f =>
    simp only [callStep]
    cases hst : managerDestroy C cfg H cc f p.now (readCookies [cookieHeader (send p br.jar)]) s with
    | mk s' set =>
      simp only
      have := h.add cfg H cc p.host (texts isIP (sessionCookie at' (date p.now)) set) [] (texts_session cfg H cc at' isIP hip hd _ (hdate _) _ ?_)
        (fun x hx => by cases hx)
      · rw [List.append_nil] at this; exact this
      · intro c hc
        refine ⟨destroy_pairs C cfg H cc hn f p.now _ s s' set hst c hc, fun _ => Or.inl ?_⟩
        unfold managerDestroy at hst
        split at hst
        · cases hst; cases hc
        · cases hst
          rw [List.mem_singleton] at hc; subst hc; rfl
  | regenerate n ps fg fs fd fr =>
    have hin := hi n rfl
    simp only [callStep]
    cases hst : managerRegenerate C K cfg H cc fg fs fd fr p.now n ps (readCookies [cookieHeader (send p br.jar)]) s with
    | mk s' r =>
      cases r with
      | panic => exact h
      | done r set cs' =>
        simp only
        have fin : ∀ (hd2 : Handle V), hd2.sid = n → r = .ok hd2 →
            set = (writeSessionCookie H cfg cc (readCookies [cookieHeader (send p br.jar)]) n p.now).1 →
            Owned H cfg cc ids (⟨br.jar, br.answers ++ [(p.host, texts isIP (sessionCookie at' []) set)], br.stores ++ storeOf r⟩ : Browser V) := by
          intro hd2 h1 h2 h3
          subst h2 h3
          refine h.add cfg H cc _ _ _ (texts_session cfg H cc at' isIP hip hd [] (by simp) _
            (written_ok cfg H cc hn _ _ _ hin o1 o2)) ?_
          intro x hx
          simp only [storeOf, List.mem_singleton] at hx
          subst hx; rw [h1]; exact hin
        unfold managerRegenerate at hst
        cases hrs : Sess.readSid H cfg (readCookies [cookieHeader (send p br.jar)]) cc.cookieName p.now with
        | none =>
          rw [hrs] at hst
          simp only [Prod.mk.injEq, MOut.done.injEq] at hst
          obtain ⟨-, e1, e2, -⟩ := hst
          exact fin (create n ps) rfl e1.symm e2.symm
        | some x =>
          obtain ⟨old, t⟩ := x
          rw [hrs] at hst
          simp only at hst
          cases hrg : regenerate C K cfg fg fs fd fr p.now old n s with
          | mk s2 r2 =>
            rw [hrg] at hst
            cases r2 with
            | ok hd2 =>
              simp only [Prod.mk.injEq, MOut.done.injEq] at hst
              obtain ⟨-, e1, e2, -⟩ := hst
              have hs := regenerate_sid C K cfg hrg
              rw [hs] at e2
              exact fin hd2 hs e1.symm e2.symm
            | error e =>
              cases e <;> simp only [Prod.mk.injEq, MOut.done.injEq, reduceCtorEq, and_false] at hst
              obtain ⟨-, e1, e2, -⟩ := hst
              exact fin (create n ps) rfl e1.symm e2.symm
  | remember psk salt =>
    simp only [callStep]
    have := h.add cfg H cc p.host (texts isIP (rememberCookie at') (writeRemember H cfg cc psk salt p.now).toList) []
      (texts_remember cfg H cc at' isIP hip _ ?_) (fun x hx => by cases hx)
    · rw [List.append_nil] at this; exact this
    · intro c hc
      unfold writeRemember createRemember at hc
      split at hc
      · cases hc
      · split at hc
        · cases hc
        · cases he : encodeSecure H (queryEscape psk ++ bar :: queryEscape _) cfg.secretKey p.now with
          | none => rw [he] at hc; cases hc
          | some v =>
            rw [he] at hc
            simp only [Option.map_some, Option.toList_some, List.mem_singleton] at hc
            subst hc
            exact ⟨⟨hr, encode_octets H he⟩, fun e => absurd e.symm hne⟩
  | forget =>
    simp only [callStep]
    have := h.add cfg H cc p.host (texts isIP (rememberCookie at') [destroyRemember cc]) []
      (texts_remember cfg H cc at' isIP hip _ ?_) (fun x hx => by cases hx)
    · rw [List.append_nil] at this; exact this
    · intro c hc
      rw [List.mem_singleton] at hc
      subst hc
      exact ⟨⟨hr, fun c hc => by cases hc⟩, fun e => absurd e.symm hne⟩

theorem mem_set_sid {hs : List (Handle V)} {i : Nat} {h' : Handle V} (hm : ∀ x ∈ hs, ids x.sid) (h2 : ids h'.sid) :
    ∀ x ∈ hs.set i h', ids x.sid := by
  intro x hx
  rcases List.mem_or_eq_of_mem_set hx with hx | rfl
  · exact hm x hx
  · exact h2

theorem flush_sid (f : Fault) (now : Int) (h : Handle V) (s : σ) : (flush C K cfg f now h s).1.sid = h.sid := by
  unfold flush
  split
  · rfl
  · split <;> rfl

theorem Owned.use {br : Browser V} (h : Owned H cfg cc ids br) (i : Nat) (now : Int) (u : Use V) (s : σ) :
    Owned H cfg cc ids (useStep C K cfg i now u br s).2.1 := by
  unfold useStep
  cases hi : br.stores[i]? with
  | none => exact h
  | some x =>
    have hx := h.stores x (List.mem_of_getElem? hi)
    cases u with
    | set k v => exact ⟨h.jar, h.answers, mem_set_sid h.stores hx⟩
    | delete k => exact ⟨h.jar, h.answers, mem_set_sid h.stores hx⟩
    | clean => exact ⟨h.jar, h.answers, mem_set_sid h.stores hx⟩
    | get k => exact h
    | has k => exact h
    | flush f => exact ⟨h.jar, h.answers, mem_set_sid h.stores (by rw [flush_sid]; exact hx)⟩
    | touch f => exact h
    | destroy f => exact ⟨h.jar, h.answers, mem_set_sid h.stores hx⟩

/-! ## Steps use the keys of their browser only -/

variable {α : Type} {entry : Str → σ → α} (hl : ∀ k, Cache.Local C.step k (entry k))
include hl

theorem confined_use {br : Browser V} (h : Owned H cfg cc ids br) (i : Nat) (now : Int) (u : Use V) :
    Confined entry ids (useStep C K cfg i now u br) := by
  cases hi : br.stores[i]? with
  | none =>
    refine (Confined.pure (br, Obs.nothing)).of_eq ?_
    intro s; unfold useStep; rw [hi]
  | some x =>
    have hx := h.stores x (List.mem_of_getElem? hi)
    cases u with
    | set k v =>
      refine (Confined.pure ({ br with stores := br.stores.set i (x.set k v) }, Obs.nothing)).of_eq ?_
      intro s; unfold useStep; rw [hi]
    | delete k =>
      refine (Confined.pure ({ br with stores := br.stores.set i (x.delete k) }, Obs.nothing)).of_eq ?_
      intro s; unfold useStep; rw [hi]
    | clean =>
      refine (Confined.pure ({ br with stores := br.stores.set i x.clean }, Obs.nothing)).of_eq ?_
      intro s; unfold useStep; rw [hi]
    | get k =>
      refine (Confined.pure (br, Obs.value (x.get k))).of_eq ?_
      intro s; unfold useStep; rw [hi]
    | has k =>
      refine (Confined.pure (br, Obs.bool (x.has k))).of_eq ?_
      intro s; unfold useStep; rw [hi]
    | flush f =>
      refine ((confined_flush hl K cfg f now x hx).map (fun r => ((⟨br.jar, br.answers, br.stores.set i r.1⟩ : Browser V), Obs.result r.2))).of_eq ?_
      intro s; unfold useStep; rw [hi]
    | touch f =>
      refine ((confined_touch hl cfg f now x hx).map (fun e => (br, Obs.result e))).of_eq ?_
      intro s; unfold useStep; rw [hi]
    | destroy f =>
      refine ((confined_destroy hl f now x hx).map (fun r => ((⟨br.jar, br.answers, br.stores.set i r.1⟩ : Browser V), Obs.result r.2))).of_eq ?_
      intro s; unfold useStep; rw [hi]

theorem confined_callStep {br : Browser V} (h : Owned H cfg cc ids br) (p : Place) (v : Visit V)
    (hi : ∀ n, Spec.newId v = some n → ids n) : Confined entry ids (callStep C K cfg H cc at' isIP date p v br) := by
  have hrs := fun sid t e => h.readSid p p.now sid t e
  cases v with
  | start n f =>
    refine ((confined_start hl K cfg H cc f p.now n _ hrs).map (fun r => (match r with
      | .done r set _ => (⟨br.jar, br.answers ++ [(p.host, texts isIP (sessionCookie at' []) set)], br.stores ++ storeOf r⟩, gotOf r)
      | .panic => (br, .panic) : Browser V × Got))).of_eq ?_
    intro s
    simp only [callStep]
    cases start C K cfg H cc f p.now n (readCookies [cookieHeader (send p br.jar)]) s with
    | mk s' r => cases r <;> rfl
  | destroy f =>
    refine ((confined_managerDestroy hl cfg H cc f p.now _ hrs).map (fun set =>
      ((⟨br.jar, br.answers ++ [(p.host, texts isIP (sessionCookie at' (date p.now)) set)], br.stores⟩ : Browser V), Got.unit))).of_eq ?_
    intro s
    rfl
  | regenerate n ps fg fs fd fr =>
    refine ((confined_managerRegenerate hl K cfg H cc fg fs fd fr p.now n (hi n rfl) ps _ hrs).map (fun r => (match r with
      | .done r set _ => (⟨br.jar, br.answers ++ [(p.host, texts isIP (sessionCookie at' []) set)], br.stores ++ storeOf r⟩, gotOf r)
      | .panic => (br, .panic) : Browser V × Got))).of_eq ?_
    intro s
    simp only [callStep]
    cases managerRegenerate C K cfg H cc fg fs fd fr p.now n ps (readCookies [cookieHeader (send p br.jar)]) s with
    | mk s' r => cases r <;> rfl
  | remember psk salt => exact Confined.pure _
  | forget => exact Confined.pure _

end

/-! ## Noninterference -/

section
variable {B σ V : Type} [DecidableEq B] (C : CacheApi σ) (K : Conv V) (cfg : Config) (H : Hmac) (cc : CookieConfig) (at' : Attrs)
variable (isIP : Str → Bool) (date : Int → Str)
variable (hn : Spec.Token cc.cookieName) (hr : Spec.Token cc.rememberName) (hne : cc.cookieName ≠ cc.rememberName)
  (hip : isIP [] = false) (hd : Spec.Domain at'.domain) (hdate : ∀ t, 59 ∉ date t)
variable {α : Type} {entry : Str → σ → α} (hl : ∀ k, Cache.Local C.step k (entry k))

/-- the requests of a history happen at an ordinary time and place, with ids that are not empty -/
def Spec.OrdinaryEvents (es : List (Event B V)) : Prop := ∀ b p v, Event.call b p v ∈ es → Spec.Ordinary (p, v)

/-- No id drawn for browser `b` is drawn for another one (C37: ids are 256 random bits). -/
def Spec.Fresh (es : List (Event B V)) (b : B) : Prop := ∀ x sid, x ≠ b → Spec.issued es b sid → ¬ Spec.issued es x sid

include hn hr hne hip hd hdate hl in
theorem noninterference (all : List (Event B V)) (b : B) (ho : Spec.OrdinaryEvents all) (hf : Spec.Fresh all b) :
    ∀ (es : List (Event B V)) (w w' : Site B σ V), (∀ e ∈ es, e ∈ all) →
      (∀ x, Owned H cfg cc (Spec.issued all x) (w.browsers x)) → w.browsers b = w'.browsers b →
      Agree entry (Spec.issued all b) w.cache w'.cache →
      Spec.seenBy b (siteRun C K cfg H cc at' isIP date es w).2 =
        Spec.seenBy b (siteRun C K cfg H cc at' isIP date (es.filter (Spec.mine b)) w').2 ∧
      (siteRun C K cfg H cc at' isIP date es w).1.browsers b =
        (siteRun C K cfg H cc at' isIP date (es.filter (Spec.mine b)) w').1.browsers b := by
  intro es
  induction es with
  | nil => intro w w' _ _ hb _; exact ⟨rfl, hb⟩
  | cons e es ih =>
    intro w w' hall how hb ha
    have hall' : ∀ e ∈ es, e ∈ all := fun x hx => hall x (List.mem_cons_of_mem _ hx)
    have he : e ∈ all := hall e List.mem_cons_self
    -- a step of a browser other than `b` whose cache use is confined
    have other : ∀ (x : B) (hx : x ≠ b) (β : Type) (op : σ → σ × β), Confined entry (Spec.issued all x) op →
        Agree entry (Spec.issued all b) (op w.cache).1 w'.cache := by
      intro x hx β op hop k hk
      rw [hop.frame _ k (hf x k hx hk)]
      exact ha k hk
    have seen_other : ∀ (x : B) (hx : x ≠ b) (o : Obs V) (os : List (B × Obs V)), Spec.seenBy b ([(x, o)] ++ os) = Spec.seenBy b os := by
      intro x hx o os
      unfold Spec.seenBy
      rw [List.singleton_append, List.filter_cons_of_neg (by simpa using hx)]
    have seen_mine : ∀ (o : Obs V) (os : List (B × Obs V)), Spec.seenBy b ([(b, o)] ++ os) = (b, o) :: Spec.seenBy b os := by
      intro o os
      unfold Spec.seenBy
      rw [List.singleton_append, List.filter_cons_of_pos (by simp)]
    cases e with
    | call x p v =>
      have hids : ∀ n, Spec.newId v = some n → Spec.issued all x n := fun n h => ⟨p, v, he, h⟩
      have hown := (how x).call C K cfg H cc at' isIP date hn hr hne hip hd hdate p v (ho x p v he) hids w.cache
      have hcon := confined_callStep C K cfg H cc at' isIP date hl (how x) p v hids
      have how' : ∀ y, Owned H cfg cc (Spec.issued all y)
          (if y = x then (callStep C K cfg H cc at' isIP date p v (w.browsers x) w.cache).2.1 else w.browsers y) := by
        intro y
        by_cases hy : y = x
        · subst hy; rw [if_pos rfl]; exact hown
        · rw [if_neg hy]; exact how y
      by_cases hx : x = b
      · subst hx
        rw [List.filter_cons_of_pos (by simp [Spec.mine])]
        simp only [siteRun, siteStep]
        rw [seen_mine, seen_mine, ← hb]
        obtain ⟨e1, e2⟩ := hcon.same _ _ ha
        obtain ⟨r1, r2⟩ := ih ⟨fun y => if y = x then (callStep C K cfg H cc at' isIP date p v (w.browsers x) w.cache).2.1 else w.browsers y,
            (callStep C K cfg H cc at' isIP date p v (w.browsers x) w.cache).1⟩
          ⟨fun y => if y = x then (callStep C K cfg H cc at' isIP date p v (w.browsers x) w'.cache).2.1 else w'.browsers y,
            (callStep C K cfg H cc at' isIP date p v (w.browsers x) w'.cache).1⟩ hall' how' (by simp only [if_true]; rw [e1]) e2
        refine ⟨?_, r2⟩
        rw [r1]
        exact congrArg (fun o => (x, Obs.got o) :: _) (congrArg Prod.snd e1)
      · rw [List.filter_cons_of_neg (by simp [Spec.mine, hx])]
        simp only [siteRun, siteStep]
        rw [seen_other x hx]
        exact ih ⟨fun y => if y = x then (callStep C K cfg H cc at' isIP date p v (w.browsers x) w.cache).2.1 else w.browsers y,
            (callStep C K cfg H cc at' isIP date p v (w.browsers x) w.cache).1⟩ w' hall' how'
          (by simp only []; rw [if_neg (fun h => hx h.symm)]; exact hb) (other x hx _ _ hcon)
    | answer x i now =>
      have how' : ∀ y, Owned H cfg cc (Spec.issued all y) (if y = x then answerStep i now (w.browsers x) else w.browsers y) := by
        intro y
        by_cases hy : y = x
        · subst hy; rw [if_pos rfl]; exact (how y).answer cfg H cc i now
        · rw [if_neg hy]; exact how y
      by_cases hx : x = b
      · subst hx
        rw [List.filter_cons_of_pos (by simp [Spec.mine])]
        simp only [siteRun, siteStep, List.nil_append]
        rw [← hb]
        exact ih ⟨fun y => if y = x then answerStep i now (w.browsers x) else w.browsers y, w.cache⟩
          ⟨fun y => if y = x then answerStep i now (w.browsers x) else w'.browsers y, w'.cache⟩ hall' how' (by simp) ha
      · rw [List.filter_cons_of_neg (by simp [Spec.mine, hx])]
        simp only [siteRun, siteStep, List.nil_append]
        exact ih ⟨fun y => if y = x then answerStep i now (w.browsers x) else w.browsers y, w.cache⟩ w' hall' how'
          (by simp only []; rw [if_neg (fun h => hx h.symm)]; exact hb) ha
    | use x i now u =>
      have hown := (how x).use C K cfg H cc i now u w.cache
      have hcon := confined_use C K cfg H cc hl (how x) i now u
      have how' : ∀ y, Owned H cfg cc (Spec.issued all y)
          (if y = x then (useStep C K cfg i now u (w.browsers x) w.cache).2.1 else w.browsers y) := by
        intro y
        by_cases hy : y = x
        · subst hy; rw [if_pos rfl]; exact hown
        · rw [if_neg hy]; exact how y
      by_cases hx : x = b
      · subst hx
        rw [List.filter_cons_of_pos (by simp [Spec.mine])]
        simp only [siteRun, siteStep]
        rw [seen_mine, seen_mine, ← hb]
        obtain ⟨e1, e2⟩ := hcon.same _ _ ha
        obtain ⟨r1, r2⟩ := ih ⟨fun y => if y = x then (useStep C K cfg i now u (w.browsers x) w.cache).2.1 else w.browsers y,
            (useStep C K cfg i now u (w.browsers x) w.cache).1⟩
          ⟨fun y => if y = x then (useStep C K cfg i now u (w.browsers x) w'.cache).2.1 else w'.browsers y,
            (useStep C K cfg i now u (w.browsers x) w'.cache).1⟩ hall' how' (by simp only [if_true]; rw [e1]) e2
        refine ⟨?_, r2⟩
        rw [r1]
        exact congrArg (fun o => (x, o) :: _) (congrArg Prod.snd e1)
      · rw [List.filter_cons_of_neg (by simp [Spec.mine, hx])]
        simp only [siteRun, siteStep]
        rw [seen_other x hx]
        exact ih ⟨fun y => if y = x then (useStep C K cfg i now u (w.browsers x) w.cache).2.1 else w.browsers y,
            (useStep C K cfg i now u (w.browsers x) w.cache).1⟩ w' hall' how'
          (by simp only []; rw [if_neg (fun h => hx h.symm)]; exact hb) (other x hx _ _ hcon)
    | collect now f =>
      rw [List.filter_cons_of_pos rfl]
      simp only [siteRun, siteStep, List.nil_append]
      refine ih ⟨w.browsers, (Sess.call C f now .gc w.cache).1⟩ ⟨w'.browsers, (Sess.call C f now .gc w'.cache).1⟩ hall' how hb ?_
      intro k hk
      cases f with
      | none => exact (hl k).same now .gc _ _ (ha k hk)
      | lost => exact ha k hk
      | late => exact (hl k).same now .gc _ _ (ha k hk)

/-- A site before its first request, with whatever the cache holds. -/
def Site.new (s : σ) : Site B σ V := ⟨fun _ => Browser.new, s⟩

include hn hr hne hip hd hdate hl in
/-- **C134** for every cache whose keys are independent (C101). -/
theorem C134_noninterference (es : List (Event B V)) (b : B) (s : σ) (ho : Spec.OrdinaryEvents es) (hf : Spec.Fresh es b) :
    Spec.seenBy b (siteRun C K cfg H cc at' isIP date es (Site.new s)).2 =
      Spec.seenBy b (siteRun C K cfg H cc at' isIP date (es.filter (Spec.mine b)) (Site.new s)).2 ∧
    ((siteRun C K cfg H cc at' isIP date es (Site.new s)).1.browsers b).jar =
      ((siteRun C K cfg H cc at' isIP date (es.filter (Spec.mine b)) (Site.new s)).1.browsers b).jar := by
  obtain ⟨h1, h2⟩ := noninterference C K cfg H cc at' isIP date hn hr hne hip hd hdate hl es b ho hf es (Site.new s) (Site.new s)
    (fun _ h => h) (fun x => Owned.new H cfg cc _) rfl (fun _ _ => rfl)
  exact ⟨h1, by rw [h2]⟩

end

section
variable {B V : Type} [DecidableEq B] (K : Conv V) (cfg : Config) (H : Hmac) (cc : CookieConfig) (at' : Attrs)
variable (isIP : Str → Bool) (date : Int → Str)
variable (hn : Spec.Token cc.cookieName) (hr : Spec.Token cc.rememberName) (hne : cc.cookieName ≠ cc.rememberName)
  (hip : isIP [] = false) (hd : Spec.Domain at'.domain) (hdate : ∀ t, 59 ∉ date t)
include hn hr hne hip hd hdate

/-- **C134** for redis, memcached and MongoDB: whatever the other browsers do, and whenever, a browser sees what it sees
alone. -/
theorem C134_backends (pre : Str) (ae : Bool) (es : List (Event B V)) (b : B) (s : Cache.Server) (c : Cache.Coll)
    (ho : Spec.OrdinaryEvents es) (hf : Spec.Fresh es b) :
    Spec.seenBy b (siteRun ⟨Cache.redis pre⟩ K cfg H cc at' isIP date es (Site.new s)).2 =
      Spec.seenBy b (siteRun ⟨Cache.redis pre⟩ K cfg H cc at' isIP date (es.filter (Spec.mine b)) (Site.new s)).2 ∧
    Spec.seenBy b (siteRun ⟨Cache.memcache pre⟩ K cfg H cc at' isIP date es (Site.new s)).2 =
      Spec.seenBy b (siteRun ⟨Cache.memcache pre⟩ K cfg H cc at' isIP date (es.filter (Spec.mine b)) (Site.new s)).2 ∧
    Spec.seenBy b (siteRun ⟨Cache.mgo ae⟩ K cfg H cc at' isIP date es (Site.new c)).2 =
      Spec.seenBy b (siteRun ⟨Cache.mgo ae⟩ K cfg H cc at' isIP date (es.filter (Spec.mine b)) (Site.new c)).2 :=
  ⟨(C134_noninterference _ K cfg H cc at' isIP date hn hr hne hip hd hdate (entry := fun k s => s (pre ++ k))
      (fun k => Cache.redis_indep pre k) es b s ho hf).1,
   (C134_noninterference _ K cfg H cc at' isIP date hn hr hne hip hd hdate (entry := fun k s => s (pre ++ k))
      (fun k => Cache.memcache_indep pre k) es b s ho hf).1,
   (C134_noninterference _ K cfg H cc at' isIP date hn hr hne hip hd hdate (entry := fun k c => c k)
      (fun k => Cache.mgo_indep ae k) es b c ho hf).1⟩

end

/-! ## A concrete history -/

/-- two browsers open sessions at the same time; browser 0 saves a value; both come back and look for it. `t` is the id drawn for
browser 1 -/
def exSite (t : Str) : List (Event Nat Nat) :=
  [.call 0 ⟨b!"a.example.com", true, b!"/", 1000000000⟩ (.start b!"s1" .none),
   .call 1 ⟨b!"b.example.com", true, b!"/", 1000000000⟩ (.start t .none),
   .use 0 0 1000000000 (.set b!"u" 7),
   .answer 1 0 1500000000,
   .use 0 0 1500000000 (.flush .none),
   .answer 0 0 2000000000,
   .collect 2500000000 .none,
   .call 1 ⟨b!"a.example.com", true, b!"/", 3000000000⟩ (.start b!"s3" .none),
   .call 0 ⟨b!"b.example.com", true, b!"/", 3000000000⟩ (.start b!"s4" .none),
   .use 1 1 3000000000 (.get b!"u"),
   .use 0 1 3000000000 (.get b!"u")]

/-- a converter for sessions with the one key `u` -/
def exConv : Conv Nat :=
  ⟨fun vs => some (match vs b!"u" with | none => [] | some n => [n.toUInt8]),
   fun b => some (fun k => if k = b!"u" then (b.head?).map UInt8.toNat else none)⟩

def exRun (t : Str) : List (Nat × Obs Nat) :=
  (siteRun ⟨Cache.redis b!"p"⟩ exConv ⟨b!"key", 60⟩ toyMac ⟨b!"sid", b!"rem", 0, 100⟩ ⟨true, b!".example.com"⟩ (fun _ => false)
    (fun _ => []) (exSite t) (Site.new (fun _ => none))).2

/-- with different ids, browser 0 finds its value and browser 1 finds nothing -/
theorem exSite_run : exRun b!"s2" = [(0, .got (.sid b!"s1")), (1, .got (.sid b!"s2")), (0, .nothing), (0, .result none),
    (1, .got (.sid b!"s2")), (0, .got (.sid b!"s1")), (1, .value none), (0, .value (some 7))] := by decide +kernel

/-- the freshness of the ids matters: had browser 1 drawn the id of browser 0, it would see the value of browser 0 -/
theorem C134_fresh_needed : exRun b!"s1" = [(0, .got (.sid b!"s1")), (1, .got (.sid b!"s1")), (0, .nothing), (0, .result none),
    (1, .got (.sid b!"s1")), (0, .got (.sid b!"s1")), (1, .value (some 7)), (0, .value (some 7))] := by decide +kernel

/-- the history meets the hypotheses of `C134_noninterference` -/
example : Spec.OrdinaryEvents (exSite b!"s2") ∧ Spec.Fresh (exSite b!"s2") 0 ∧ Spec.Fresh (exSite b!"s2") 1 := by
  refine ⟨?_, ?_, ?_⟩
  · intro b p v h
    simp only [exSite, List.mem_cons, List.not_mem_nil, Event.call.injEq, reduceCtorEq, or_false, false_or] at h
    rcases h with ⟨_, rfl, rfl⟩ | ⟨_, rfl, rfl⟩ | ⟨_, rfl, rfl⟩ | ⟨_, rfl, rfl⟩ <;> exact ⟨by decide, by decide, ⟨_, rfl⟩, by decide⟩
  · rintro x sid hx ⟨p, v, h, hv⟩ ⟨p', v', h', hv'⟩
    simp only [exSite, List.mem_cons, List.not_mem_nil, Event.call.injEq, reduceCtorEq, or_false, false_or] at h h'
    rcases h with ⟨_, rfl, rfl⟩ | ⟨h, _⟩ | ⟨h, _⟩ | ⟨_, rfl, rfl⟩ <;> try exact absurd h (by decide)
    all_goals
      injection hv with hv; subst hv
      rcases h' with ⟨h', _⟩ | ⟨_, rfl, rfl⟩ | ⟨_, rfl, rfl⟩ | ⟨h', _⟩ <;> try exact absurd h' hx
      all_goals exact absurd hv' (by decide)
  · rintro x sid hx ⟨p, v, h, hv⟩ ⟨p', v', h', hv'⟩
    simp only [exSite, List.mem_cons, List.not_mem_nil, Event.call.injEq, reduceCtorEq, or_false, false_or] at h h'
    rcases h with ⟨h, _⟩ | ⟨_, rfl, rfl⟩ | ⟨_, rfl, rfl⟩ | ⟨h, _⟩ <;> try exact absurd h (by decide)
    all_goals
      injection hv with hv; subst hv
      rcases h' with ⟨_, rfl, rfl⟩ | ⟨h', _⟩ | ⟨h', _⟩ | ⟨_, rfl, rfl⟩ <;> try exact absurd h' hx
      all_goals exact absurd hv' (by decide)

end Verif.Sess
