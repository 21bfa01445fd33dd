import Verif.Model.SessionFine
import Verif.Props.Site
import Verif.Props.SessionWorld
/-!
# C161, C162: requests of sessions whose cache calls interleave

The unit of interleaving is one call of the cache provider (`Model/SessionFine.lean`).
-/
namespace Verif.Sess
open Verif.Go
open Verif.Cache (Op Out Val toStr second)

/-! ## Specification -/

/-- The session ids an operation is about. -/
def Spec.jobIds {V : Type} : Job V → List Str
  | .read sid => [sid]
  | .save sid _ => [sid]
  | .destroy sid => [sid]
  | .touch sid => [sid]
  | .regenerate old new => [old, new]

/-- The events of a group of requests, and the collections. -/
def Spec.ofGroup {P V : Type} (mine : P → Bool) : FEvent P V → Bool
  | .start p _ => mine p
  | .run p _ _ => mine p
  | .collect _ _ => true

/-- The requests of the group and the other requests are about different sessions. -/
def Spec.Apart {P V : Type} (mine : P → Bool) (es : List (FEvent P V)) : Prop :=
  ∀ p j q j', .start p j ∈ es → .start q j' ∈ es → mine p = true → mine q = false →
    ∀ k, k ∈ Spec.jobIds j → k ∉ Spec.jobIds j'

/-- Some request of the history saves these values under the id. -/
def Spec.SavedIn {P V : Type} (es : List (FEvent P V)) (sid : Str) (vs : Str → Option V) : Prop :=
  ∃ p, .start p (.save sid vs) ∈ es

/-- The second id is the first one, or was made from it by regenerating, in one or more steps. -/
inductive Spec.Descends {P V : Type} (es : List (FEvent P V)) (r : Str) : Str → Prop where
  | same : Spec.Descends es r r
  | regenerated (p : P) (old new : Str) : Spec.Descends es r old → .start p (.regenerate old new) ∈ es →
      Spec.Descends es r new

/-- Times do not go back. -/
def Spec.FOrdered {P V : Type} : Int → List (FEvent P V) → Prop
  | _, [] => True
  | t0, .start _ _ :: r => Spec.FOrdered t0 r
  | t0, .run _ t _ :: r => t0 ≤ t ∧ Spec.FOrdered t r
  | t0, .collect t _ :: r => t0 ≤ t ∧ Spec.FOrdered t r

/-- The event is not after this time. -/
def Spec.Until {P V : Type} (T : Int) : FEvent P V → Prop
  | .start _ _ => True
  | .run _ t _ => t ≤ T
  | .collect t _ => t ≤ T

/-- The id that the next cache call of a request may change: where it is about to save, destroy, touch; within `Regenerate`
the new id (store) and then the old id (destroy). -/
def Spec.writes {V : Type} : Pc V → Option Str
  | .go (.save sid _) => some sid
  | .go (.destroy sid) => some sid
  | .go (.touch sid) => some sid
  | .copy _ new _ => some new
  | .drop old _ => some old
  | _ => none

/-- Nobody but `me` makes a call that changes one of the ids, while the history runs. -/
def Spec.LeftAlone {P σ V : Type} [DecidableEq P] (C : CacheApi σ) (K : Conv V) (cfg : Config) (me : P → Bool) (ids : List Str) :
    List (FEvent P V) → FWorld P σ V → Prop
  | [], _ => True
  | e :: es, w => (∀ q t f, e = .run q t f → me q = false → ∀ k ∈ ids, Spec.writes (w.procs q) ≠ some k) ∧
      Spec.LeftAlone C K cfg me ids es (fineStep C K cfg e w)

/-! ## A request alone -/

section
variable {P σ V : Type} [DecidableEq P] {C : CacheApi σ} {K : Conv V} {cfg : Config}

/-- **C161** (the pieces are the operations): a request that nobody interrupts does what `Model/Session.lean` says of the
whole operation. -/
theorem C161_alone (p : P) (old new : Str) (fg fs fd fr : Fault) (t : Int) (w : FWorld P σ V) :
    (fineRun C K cfg [.start p (.regenerate old new), .run p t fg, .run p t fs, .run p t fd, .run p t fr] w).cache =
      (regenerate C K cfg fg fs fd fr t old new w.cache).1 ∧
    (fineRun C K cfg [.start p (.regenerate old new), .run p t fg, .run p t fs, .run p t fd, .run p t fr] w).procs p =
      Pc.opened (regenerate C K cfg fg fs fd fr t old new w.cache).2 := by
  simp only [fineRun, fineStep, if_true, pcStep, regenerate]
  cases h1 : call C fg t (.get old) w.cache with
  | mk s1 o1 =>
    cases o1 with
    | val b =>
      simp only [afterGet, pcStep]
      cases h2 : call C fs t (.set new (.text b) [cfg.sessionExpire]) s1 with
      | mk s2 o2 =>
        cases o2 <;> simp [afterSet, pcStep, Pc.opened]
    | _ => simp [afterGet, pcStep, Pc.opened]

end

/-! ## Requests of different sessions -/

/-- the ids a request in progress may still use -/
def pcIds {V : Type} : Pc V → List Str
  | .idle => []
  | .go j => Spec.jobIds j
  | .copy old new _ => [old, new]
  | .drop old new => [old, new]
  | .reread new => [new]
  | .done _ => []

section
variable {P σ V α : Type} [DecidableEq P] {C : CacheApi σ} {entry : Str → σ → α} {ids : Str → Prop}
  (hl : ∀ k, Cache.Local C.step k (entry k)) (K : Conv V) (cfg : Config)

include hl in
theorem confined_pc (f : Fault) (now : Int) (pc : Pc V) (h : ∀ k ∈ pcIds pc, ids k) :
    Confined entry ids (pcStep C K cfg f now pc) := by
  cases pc with
  | idle => exact Confined.pure _
  | done r => exact Confined.pure _
  | go j =>
    cases j with
    | read sid => exact (confined_read hl K f now sid (h sid (by simp [pcIds, Spec.jobIds]))).map Pc.opened
    | save sid vs =>
      exact (confined_save hl K cfg f now ⟨sid, vs, true, false⟩ (h sid (by simp [pcIds, Spec.jobIds]))).map Pc.ended
    | destroy sid => exact (confined_destroySid hl f now sid (h sid (by simp [pcIds, Spec.jobIds]))).map Pc.ended
    | touch sid =>
      exact (confined_call hl f now (.touch sid [cfg.sessionExpire]) sid rfl (h sid (by simp [pcIds, Spec.jobIds]))).map
        (fun o => Pc.ended (outErr o))
    | regenerate old new =>
      exact (confined_call hl f now (.get old) old rfl (h old (by simp [pcIds, Spec.jobIds]))).map (afterGet old new)
  | copy old new b =>
    exact (confined_call hl f now (.set new (.text b) [cfg.sessionExpire]) new rfl (h new (by simp [pcIds]))).map (afterSet old new)
  | drop old new => exact (confined_destroySid hl f now old (h old (by simp [pcIds]))).map (fun _ => Pc.reread new)
  | reread new => exact (confined_read hl K f now new (h new (by simp [pcIds]))).map Pc.opened

theorem pcIds_opened (r : Except SErr (Handle V)) : pcIds (Pc.opened r) = [] := by cases r <;> rfl
theorem pcIds_ended (r : Option SErr) : pcIds (Pc.ended r : Pc V) = [] := by cases r <;> rfl

/-- a request goes on with the ids it began with -/
theorem pcIds_step (f : Fault) (now : Int) (pc : Pc V) (s : σ) : ∀ k ∈ pcIds (pcStep C K cfg f now pc s).2, k ∈ pcIds pc := by
  intro k hk
  cases pc with
  | idle => exact hk
  | done r => exact hk
  | go j =>
    cases j with
    | read sid => simp [pcStep, pcIds_opened] at hk
    | save sid vs => simp [pcStep, pcIds_ended] at hk
    | destroy sid => simp [pcStep, pcIds_ended] at hk
    | touch sid => simp [pcStep, pcIds_ended] at hk
    | regenerate old new =>
      simp only [pcStep] at hk
      cases h : (call C f now (.get old) s).2 <;> rw [h] at hk <;> simp [afterGet, pcIds] at hk
      simpa [pcIds, Spec.jobIds] using hk
  | copy old new b =>
    simp only [pcStep] at hk
    cases h : (call C f now (.set new (.text b) [cfg.sessionExpire]) s).2 <;> rw [h] at hk <;> simp [afterSet, pcIds] at hk
    simpa [pcIds] using hk
  | drop old new =>
    simp [pcStep, pcIds] at hk
    simp [pcIds, hk]
  | reread new => simp [pcStep, pcIds_opened] at hk

include hl in
theorem separate (mine : P → Bool) (all : List (FEvent P V)) (hA : Spec.Apart mine all) :
    ∀ (es : List (FEvent P V)) (w w' : FWorld P σ V), (∀ e ∈ es, e ∈ all) →
      (∀ p, mine p = true → w.procs p = w'.procs p) →
      (∀ p, mine p = true → ∀ k ∈ pcIds (w.procs p), ∃ q j, FEvent.start q j ∈ all ∧ mine q = true ∧ k ∈ Spec.jobIds j) →
      (∀ p, mine p = false → ∀ k ∈ pcIds (w.procs p), ¬ ∃ q j, FEvent.start q j ∈ all ∧ mine q = true ∧ k ∈ Spec.jobIds j) →
      Agree entry (fun k => ∃ q j, FEvent.start q j ∈ all ∧ mine q = true ∧ k ∈ Spec.jobIds j) w.cache w'.cache →
      ∀ p, mine p = true → (fineRun C K cfg es w).procs p = (fineRun C K cfg (es.filter (Spec.ofGroup mine)) w').procs p := by
  intro es
  induction es with
  | nil => intro w w' _ hp _ _ _ p hm; exact hp p hm
  | cons e r ih =>
    intro w w' hs hp h1 h2 ha p hm
    have hs' : ∀ e ∈ r, e ∈ all := fun e he => hs e (List.mem_cons_of_mem _ he)
    cases e with
    | start q j =>
      have hq := hs (.start q j) List.mem_cons_self
      have n1 : ∀ p, mine p = true → ∀ k ∈ pcIds ((fineStep C K cfg (.start q j) w).procs p),
          ∃ q j, FEvent.start q j ∈ all ∧ mine q = true ∧ k ∈ Spec.jobIds j := by
        intro p hp' k hk
        simp only [fineStep] at hk
        by_cases e : p = q
        · rw [if_pos e] at hk; exact ⟨q, j, hq, e ▸ hp', hk⟩
        · rw [if_neg e] at hk; exact h1 p hp' k hk
      have n2 : ∀ p, mine p = false → ∀ k ∈ pcIds ((fineStep C K cfg (.start q j) w).procs p),
          ¬ ∃ q j, FEvent.start q j ∈ all ∧ mine q = true ∧ k ∈ Spec.jobIds j := by
        intro p hp' k hk
        simp only [fineStep] at hk
        by_cases e : p = q
        · rw [if_pos e] at hk
          rintro ⟨q', j', a, b, c⟩
          exact hA q' j' q j a hq b (e ▸ hp') k c hk
        · rw [if_neg e] at hk; exact h2 p hp' k hk
      cases hmq : mine q with
      | true =>
        rw [List.filter_cons_of_pos (by exact hmq)]
        refine ih (fineStep C K cfg (.start q j) w) (fineStep C K cfg (.start q j) w') hs' (fun p hp' => ?_) n1 n2 ha p hm
        simp only [fineStep]
        by_cases e : p = q
        · rw [if_pos e, if_pos e]
        · rw [if_neg e, if_neg e]; exact hp p hp'
      | false =>
        rw [List.filter_cons_of_neg (by simp [Spec.ofGroup, hmq])]
        refine ih _ _ hs' (fun p hp' => ?_) n1 n2 ha p hm
        have : p ≠ q := fun e => by rw [e, hmq] at hp'; cases hp'
        simp only [fineStep]
        rw [if_neg this]; exact hp p hp'
    | collect now f =>
      rw [List.filter_cons_of_pos (by rfl)]
      refine ih (fineStep C K cfg (.collect now f) w) (fineStep C K cfg (.collect now f) w') hs' hp h1 h2 ?_ p hm
      intro k hk
      cases f with
      | none => exact (hl k).same now .gc _ _ (ha k hk)
      | lost => exact ha k hk
      | late => exact (hl k).same now .gc _ _ (ha k hk)
    | run q now f =>
      have n1 : ∀ p, mine p = true → ∀ k ∈ pcIds ((fineStep C K cfg (.run q now f) w).procs p),
          ∃ q j, FEvent.start q j ∈ all ∧ mine q = true ∧ k ∈ Spec.jobIds j := by
        intro p hp' k hk
        simp only [fineStep] at hk
        by_cases e : p = q
        · rw [if_pos e] at hk; exact h1 p hp' k (e ▸ pcIds_step K cfg f now _ _ k hk)
        · rw [if_neg e] at hk; exact h1 p hp' k hk
      have n2 : ∀ p, mine p = false → ∀ k ∈ pcIds ((fineStep C K cfg (.run q now f) w).procs p),
          ¬ ∃ q j, FEvent.start q j ∈ all ∧ mine q = true ∧ k ∈ Spec.jobIds j := by
        intro p hp' k hk
        simp only [fineStep] at hk
        by_cases e : p = q
        · rw [if_pos e] at hk; exact h2 p hp' k (e ▸ pcIds_step K cfg f now _ _ k hk)
        · rw [if_neg e] at hk; exact h2 p hp' k hk
      cases hmq : mine q with
      | true =>
        rw [List.filter_cons_of_pos (by exact hmq)]
        obtain ⟨e1, e2⟩ := (confined_pc hl K cfg f now (w.procs q) (h1 q hmq)).same _ _ ha
        refine ih (fineStep C K cfg (.run q now f) w) (fineStep C K cfg (.run q now f) w') hs' (fun p hp' => ?_) n1 n2 ?_ p hm
        · simp only [fineStep]
          by_cases e : p = q
          · rw [if_pos e, if_pos e, e1, hp q hmq]
          · rw [if_neg e, if_neg e]; exact hp p hp'
        · simp only [fineStep]; rw [hp q hmq] at e2 ⊢; exact e2
      | false =>
        rw [List.filter_cons_of_neg (by simp [Spec.ofGroup, hmq])]
        refine ih _ _ hs' (fun p hp' => ?_) n1 n2 ?_ p hm
        · have : p ≠ q := fun e => by rw [e, hmq] at hp'; cases hp'
          simp only [fineStep]
          rw [if_neg this]; exact hp p hp'
        · intro k hk
          have := (confined_pc (ids := fun k => ¬ ∃ q j, FEvent.start q j ∈ all ∧ mine q = true ∧ k ∈ Spec.jobIds j) hl K cfg f now
            (w.procs q) (h2 q hmq)).frame w.cache k (fun h => h hk)
          rw [show (fineStep C K cfg (.run q now f) w).cache = (pcStep C K cfg f now (w.procs q) w.cache).1 from rfl, this]
          exact ha k hk

/-- no request is at work -/
def FWorld.new (s : σ) : FWorld P σ V := ⟨fun _ => .idle, s⟩

include hl in
/-- **C161** for every cache whose keys are independent (C101): however the cache calls of all requests interleave, the requests
of a group get what they get without the other requests, if these are about other sessions. -/
theorem C161_separate (mine : P → Bool) (es : List (FEvent P V)) (s : σ) (hA : Spec.Apart mine es) (p : P) (hp : mine p = true) :
    (fineRun C K cfg es (FWorld.new s)).procs p =
      (fineRun C K cfg (es.filter (Spec.ofGroup mine)) (FWorld.new s)).procs p :=
  separate hl K cfg mine es hA es _ _ (fun _ h => h) (fun _ _ => rfl) (fun _ _ _ h => by cases h) (fun _ _ _ h => by cases h)
    (fun _ _ => rfl) p hp

end

section
variable {P V : Type} [DecidableEq P] (K : Conv V) (cfg : Config)

/-- **C161** for redis, memcached and MongoDB. -/
theorem C161_separate_backends (pre : Str) (ae : Bool) (mine : P → Bool) (es : List (FEvent P V)) (s : Cache.Server) (c : Cache.Coll)
    (hA : Spec.Apart mine es) (p : P) (hp : mine p = true) :
    (fineRun ⟨Cache.redis pre⟩ K cfg es (FWorld.new s)).procs p =
      (fineRun ⟨Cache.redis pre⟩ K cfg (es.filter (Spec.ofGroup mine)) (FWorld.new s)).procs p ∧
    (fineRun ⟨Cache.memcache pre⟩ K cfg es (FWorld.new s)).procs p =
      (fineRun ⟨Cache.memcache pre⟩ K cfg (es.filter (Spec.ofGroup mine)) (FWorld.new s)).procs p ∧
    (fineRun ⟨Cache.mgo ae⟩ K cfg es (FWorld.new c)).procs p =
      (fineRun ⟨Cache.mgo ae⟩ K cfg (es.filter (Spec.ofGroup mine)) (FWorld.new c)).procs p :=
  ⟨C161_separate (entry := fun k s => s (pre ++ k)) (fun k => Cache.redis_indep pre k) K cfg mine es s hA p hp,
   C161_separate (entry := fun k s => s (pre ++ k)) (fun k => Cache.memcache_indep pre k) K cfg mine es s hA p hp,
   C161_separate (entry := fun k c => c k) (fun k => Cache.mgo_indep ae k) K cfg mine es c hA p hp⟩
end

/-! ## What is read was saved, as a whole -/

section
variable {P σ V : Type} [DecidableEq P] {C : CacheApi σ} {K : Conv V} {cfg : Config} {good : Str → Prop}
  (L : Lawful C cfg.sessionExpire good)

/-- these bytes were saved under the id or under one it comes from -/
def Orig (K : Conv V) (all : List (FEvent P V)) (k b : Str) : Prop :=
  ∃ r vs, Spec.SavedIn all r vs ∧ Spec.Descends all r k ∧ K.marshal vs = some b

def PcOk (K : Conv V) (good : Str → Prop) (all : List (FEvent P V)) : Pc V → Prop
  | .idle => True
  | .go j => ∃ p, FEvent.start p j ∈ all
  | .copy old new b => Orig K all old b ∧ good old ∧ good new ∧ ∃ p, FEvent.start p (.regenerate old new) ∈ all
  | .drop old new => good old ∧ good new
  | .reread new => good new
  | .done (.ok (some h)) => ∃ r, Spec.SavedIn all r h.values ∧ Spec.Descends all r h.sid
  | .done _ => True

theorem view_call {t t' : Int} {f : Fault} {o : Op} {s : σ} {k b : Str} (hc : o ≠ .clean) (ht : t ≤ t')
    (hk : Cache.Spec.keyOf o ≠ some k) (h : L.view (call C f t o s).1 t' k = some b) : L.view s t' k = some b := by
  cases f with
  | lost => exact h
  | none => rw [show (call C .none t o s).1 = (C.step t o s).1 from rfl, L.frame_view s t o k t' hc hk ht] at h; exact h
  | late => rw [show (call C .late t o s).1 = (C.step t o s).1 from rfl, L.frame_view s t o k t' hc hk ht] at h; exact h

include L in
theorem cache_get (f : Fault) (t : Int) (k : Str) (s : σ) (hg : good k) : (call C f t (.get k) s).1 = s := by
  cases f with
  | lost => rfl
  | none => rw [show (call C .none t (.get k) s).1 = (C.step t (.get k) s).1 from rfl, L.get_spec s t k hg]
  | late => rw [show (call C .late t (.get k) s).1 = (C.step t (.get k) s).1 from rfl, L.get_spec s t k hg]

theorem out_get {f : Fault} {t : Int} {k b : Str} {s : σ} (hg : good k) (h : (call C f t (.get k) s).2 = .val b) :
    L.view s t k = some b := by
  cases f with
  | lost => cases h
  | late => cases h
  | none =>
    rw [show (call C .none t (.get k) s).2 = (C.step t (.get k) s).2 from rfl, L.get_spec s t k hg] at h
    cases hv : L.view s t k with
    | none => rw [hv] at h; cases h
    | some v => rw [hv] at h; simp only [Out.val.injEq] at h; rw [h]

include L in
theorem read_cache (f : Fault) (t : Int) (k : Str) (s : σ) (hg : good k) : (Sess.read C K f t k s).1 = s := by
  have := cache_get L f t k s hg
  unfold Sess.read
  cases h : call C f t (.get k) s with
  | mk s' o =>
    rw [h] at this
    simp only at this
    subst this
    cases o with
    | val b => simp only; cases K.unmarshal b <;> rfl
    | _ => rfl

theorem read_ok {f : Fault} {t : Int} {k : Str} {s : σ} {h : Handle V} (hg : good k) (hr : (Sess.read C K f t k s).2 = .ok h) :
    ∃ b, L.view s t k = some b ∧ K.unmarshal b = some h.values ∧ h.sid = k := by
  unfold Sess.read at hr
  cases hc : call C f t (.get k) s with
  | mk s' o =>
    rw [hc] at hr
    cases o with
    | val b =>
      refine ⟨b, out_get L hg (f := f) (by rw [hc]), ?_⟩
      simp only at hr
      cases hu : K.unmarshal b with
      | none => rw [hu] at hr; cases hr
      | some vs => rw [hu] at hr; simp only [Except.ok.injEq] at hr; subst hr; exact ⟨rfl, rfl⟩
    | _ => cases hr

theorem opened_ok (all : List (FEvent P V)) (hK : K.Faithful) {f : Fault} {t : Int} {k : Str} {s : σ} (hg : good k)
    (h : ∀ b, L.view s t k = some b → Orig K all k b) : PcOk K good all (Pc.opened (Sess.read C K f t k s).2) := by
  cases hr : (Sess.read C K f t k s).2 with
  | error e => exact trivial
  | ok hd =>
    obtain ⟨b, h1, h2, h3⟩ := read_ok L hg hr
    obtain ⟨r, vs, a, d, m⟩ := h b h1
    rw [hK vs b m] at h2
    exact ⟨r, (Option.some.inj h2) ▸ a, h3 ▸ d⟩

theorem ended_ok (all : List (FEvent P V)) (r : Option SErr) : PcOk K good all (Pc.ended r) := by cases r <;> exact trivial

theorem prov_step (all : List (FEvent P V)) (hK : K.Faithful)
    (hg : ∀ p j, FEvent.start p j ∈ all → ∀ k ∈ Spec.jobIds j, good k)
    (hT : L.TouchStrict ∨ ∀ p sid, FEvent.start p (.touch sid) ∉ all)
    (t : Int) (f : Fault) (pc : Pc V) (s : σ)
    (hv : ∀ k, good k → ∀ t', t ≤ t' → ∀ b, L.view s t' k = some b → Orig K all k b) (hp : PcOk K good all pc) :
    (∀ k, good k → ∀ t', t ≤ t' → ∀ b, L.view (pcStep C K cfg f t pc s).1 t' k = some b → Orig K all k b) ∧
      PcOk K good all (pcStep C K cfg f t pc s).2 := by
  have del : ∀ sid, good sid → ∀ k, good k → ∀ t', t ≤ t' → ∀ b, L.view (call C f t (.delete sid) s).1 t' k = some b → Orig K all k b := by
    intro sid hgs k hk t' ht b hb
    by_cases e : sid = k
    · subst e
      cases f with
      | lost => exact hv sid hk t' ht b hb
      | none =>
        rw [show (call C .none t (.delete sid) s).1 = (C.step t (.delete sid) s).1 from rfl,
          L.gone_view _ t sid t' (L.delete_gone s t sid hk) ht] at hb
        cases hb
      | late =>
        rw [show (call C .late t (.delete sid) s).1 = (C.step t (.delete sid) s).1 from rfl,
          L.gone_view _ t sid t' (L.delete_gone s t sid hk) ht] at hb
        cases hb
    · exact hv k hk t' ht b (view_call L (by simp) ht (by simp [Cache.Spec.keyOf, e]) hb)
  have set : ∀ sid v, good sid → Orig K all sid (toStr v) → ∀ k, good k → ∀ t', t ≤ t' → ∀ b,
      L.view (call C f t (.set sid v [cfg.sessionExpire]) s).1 t' k = some b → Orig K all k b := by
    intro sid v hgs ho k hk t' ht b hb
    by_cases e : sid = k
    · subst e
      have key : ∀ b, L.view (C.step t (.set sid v [cfg.sessionExpire]) s).1 t' sid = some b → Orig K all sid b := by
        intro b hb
        rw [L.set_view s t sid v t' hk ht] at hb
        split at hb
        · rw [← Option.some.inj hb]; exact ho
        · cases hb
      cases f with
      | lost => exact hv sid hk t' ht b hb
      | none => exact key b hb
      | late => exact key b hb
    · exact hv k hk t' ht b (view_call L (by simp) ht (by simp [Cache.Spec.keyOf, e]) hb)
  cases pc with
  | idle => exact ⟨hv, trivial⟩
  | done r => exact ⟨hv, hp⟩
  | go j =>
    obtain ⟨p, hp⟩ := hp
    cases j with
    | read sid =>
      have hs := hg p _ hp sid (by simp [Spec.jobIds])
      refine ⟨?_, opened_ok L all hK hs (fun b hb => hv sid hs t (Int.le_refl t) b hb)⟩
      rw [show (pcStep C K cfg f t (.go (.read sid)) s).1 = (Sess.read C K f t sid s).1 from rfl, read_cache L f t sid s hs]
      exact hv
    | save sid vs =>
      have hs := hg p _ hp sid (by simp [Spec.jobIds])
      refine ⟨?_, ended_ok all _⟩
      simp only [pcStep, Sess.save]
      cases hm : K.marshal vs with
      | none => exact hv
      | some b => exact set sid (.bytes b) hs ⟨sid, vs, ⟨p, hp⟩, .same, hm⟩
    | destroy sid =>
      have hs := hg p _ hp sid (by simp [Spec.jobIds])
      exact ⟨del sid hs, ended_ok all _⟩
    | touch sid =>
      have hs := hg p _ hp sid (by simp [Spec.jobIds])
      refine ⟨?_, ended_ok all _⟩
      intro k hk t' ht b hb
      by_cases e : sid = k
      · subst e
        have key : ∀ b, L.view (C.step t (.touch sid [cfg.sessionExpire]) s).1 t' sid = some b → Orig K all sid b := by
          intro b hb
          cases hvs : L.view s t sid with
          | some b' =>
            rw [L.touch_view s t sid b' t' hk hvs ht] at hb
            split at hb
            · rw [← Option.some.inj hb]; exact hv sid hk t (Int.le_refl t) b' hvs
            · cases hb
          | none =>
            cases hT with
            | inl hT => rw [hT s t sid t' hk hvs ht] at hb; cases hb
            | inr hT => exact absurd hp (hT p sid)
        cases f with
        | lost => exact hv sid hk t' ht b hb
        | none => exact key b hb
        | late => exact key b hb
      · exact hv k hk t' ht b (view_call L (by simp) ht (by simp [Cache.Spec.keyOf, e]) hb)
    | regenerate old new =>
      have ho := hg p _ hp old (by simp [Spec.jobIds])
      have hn := hg p _ hp new (by simp [Spec.jobIds])
      constructor
      · rw [show (pcStep C K cfg f t (.go (.regenerate old new)) s).1 = (call C f t (.get old) s).1 from rfl, cache_get L f t old s ho]
        exact hv
      · rw [show (pcStep C K cfg f t (.go (.regenerate old new)) s).2 = afterGet old new (call C f t (.get old) s).2 from rfl]
        cases h : (call C f t (.get old) s).2 with
        | val b => exact ⟨hv old ho t (Int.le_refl t) b (out_get L ho h), ho, hn, p, hp⟩
        | _ => exact trivial
  | copy old new b =>
    obtain ⟨⟨r, vs, a, d, m⟩, ho, hn, p, hs⟩ := hp
    refine ⟨set new (.text b) hn ⟨r, vs, a, .regenerated p old new d hs, m⟩, ?_⟩
    rw [show (pcStep C K cfg f t (.copy old new b) s).2 =
      afterSet old new (call C f t (.set new (.text b) [cfg.sessionExpire]) s).2 from rfl]
    cases h : (call C f t (.set new (.text b) [cfg.sessionExpire]) s).2 with
    | ok => exact ⟨ho, hn⟩
    | _ => exact trivial
  | drop old new => exact ⟨del old hp.1, hp.2⟩
  | reread new =>
    refine ⟨?_, opened_ok L all hK hp (fun b hb => hv new hp t (Int.le_refl t) b hb)⟩
    rw [show (pcStep C K cfg f t (.reread new) s).1 = (Sess.read C K f t new s).1 from rfl, read_cache L f t new s hp]
    exact hv

theorem prov_run (all : List (FEvent P V)) (hK : K.Faithful)
    (hg : ∀ p j, FEvent.start p j ∈ all → ∀ k ∈ Spec.jobIds j, good k)
    (hT : L.TouchStrict ∨ ∀ p sid, FEvent.start p (.touch sid) ∉ all) :
    ∀ (es : List (FEvent P V)) (t : Int) (w : FWorld P σ V), (∀ e ∈ es, e ∈ all) → Spec.FOrdered t es →
      (∀ k, good k → ∀ t', t ≤ t' → ∀ b, L.view w.cache t' k = some b → Orig K all k b) →
      (∀ p, PcOk K good all (w.procs p)) → ∀ p, PcOk K good all ((fineRun C K cfg es w).procs p) := by
  intro es
  induction es with
  | nil => intro t w _ _ _ h p; exact h p
  | cons e r ih =>
    intro t w hs ho hv h p
    have hs' : ∀ e ∈ r, e ∈ all := fun e he => hs e (List.mem_cons_of_mem _ he)
    cases e with
    | start q j =>
      refine ih t (fineStep C K cfg (.start q j) w) hs' ho hv (fun p => ?_) p
      simp only [fineStep]
      by_cases e : p = q
      · rw [if_pos e]; exact ⟨q, hs _ List.mem_cons_self⟩
      · rw [if_neg e]; exact h p
    | collect now f =>
      refine ih now (fineStep C K cfg (.collect now f) w) hs' ho.2 (fun k hk t' ht b hb => ?_) h p
      exact hv k hk t' (by have := ho.1; omega) b (view_call L (f := f) (by simp) ht (by simp [Cache.Spec.keyOf]) hb)
    | run q now f =>
      obtain ⟨a, b⟩ := prov_step L all hK hg hT now f (w.procs q) w.cache
        (fun k hk t' ht b hb => hv k hk t' (by have := ho.1; omega) b hb) (h q)
      refine ih now (fineStep C K cfg (.run q now f) w) hs' ho.2 a (fun p => ?_) p
      simp only [fineStep]
      by_cases e : p = q
      · rw [if_pos e]; exact b
      · rw [if_neg e]; exact h p

/-- **C161** (no mixtures, no inventions): however the cache calls of any number of requests interleave, and whatever calls fail,
the values with which a session is opened are, all together, what some request of the history saved under this id, or under an id
this one was regenerated from. -/
theorem C161_whole (hK : K.Faithful) (es : List (FEvent P V)) (t : Int) (s : σ) (ho : Spec.FOrdered t es)
    (h0 : ∀ sid t', good sid → t ≤ t' → L.view s t' sid = none)
    (hg : ∀ p j, FEvent.start p j ∈ es → ∀ k ∈ Spec.jobIds j, good k)
    (hT : L.TouchStrict ∨ ∀ p sid, FEvent.start p (.touch sid) ∉ es) (p : P) (h : Handle V)
    (hp : (fineRun C K cfg es (FWorld.new s)).procs p = .done (.ok (some h))) :
    ∃ r, Spec.SavedIn es r h.values ∧ Spec.Descends es r h.sid := by
  have := prov_run L es hK hg hT es t (FWorld.new s) (fun _ h => h) ho
    (fun k hk t' ht b hb => by rw [show (FWorld.new s : FWorld P σ V).cache = s from rfl, h0 k t' hk ht] at hb; cases hb)
    (fun _ => trivial) p
  rw [hp] at this
  exact this

/-! ## Undisturbed requests -/

theorem leftAlone_view {t : Int} {f : Fault} {pc : Pc V} {s : σ} {k : Str}
    (hgood : ∀ x ∈ pcIds pc, good x) (hk : Spec.writes pc ≠ some k) :
    ∀ t', t ≤ t' → L.view (pcStep C K cfg f t pc s).1 t' k = L.view s t' k := by
  intro t' ht
  have hcall : ∀ o : Op, o ≠ .clean → Cache.Spec.keyOf o ≠ some k → L.view (call C f t o s).1 t' k = L.view s t' k := by
    intro o hc ho
    cases f with
    | lost => rfl
    | none => exact L.frame_view s t o k t' hc ho ht
    | late => exact L.frame_view s t o k t' hc ho ht
  cases pc with
  | idle => rfl
  | done r => rfl
  | go j =>
    cases j with
    | read sid =>
      rw [show (pcStep C K cfg f t (.go (.read sid)) s).1 = (Sess.read C K f t sid s).1 from rfl,
        read_cache L f t sid s (hgood sid (by simp [pcIds, Spec.jobIds]))]
    | save sid vs =>
      simp only [pcStep, Sess.save]
      cases hm : K.marshal vs with
      | none => rfl
      | some b => exact hcall _ (by simp) (by simpa [Spec.writes, Cache.Spec.keyOf] using hk)
    | destroy sid => exact hcall _ (by simp) (by simpa [Spec.writes, Cache.Spec.keyOf] using hk)
    | touch sid => exact hcall _ (by simp) (by simpa [Spec.writes, Cache.Spec.keyOf] using hk)
    | regenerate old new =>
      rw [show (pcStep C K cfg f t (.go (.regenerate old new)) s).1 = (call C f t (.get old) s).1 from rfl,
        cache_get L f t old s (hgood old (by simp [pcIds, Spec.jobIds]))]
  | copy old new b => exact hcall _ (by simp) (by simpa [Spec.writes, Cache.Spec.keyOf] using hk)
  | drop old new => exact hcall _ (by simp) (by simpa [Spec.writes, Cache.Spec.keyOf] using hk)
  | reread new =>
    rw [show (pcStep C K cfg f t (.reread new) s).1 = (Sess.read C K f t new s).1 from rfl,
      read_cache L f t new s (hgood new (by simp [pcIds]))]

/-- no request has anything to do with an unusable id -/
def AllGood (good : Str → Prop) (w : FWorld P σ V) : Prop := ∀ p, ∀ k ∈ pcIds (w.procs p), good k

theorem AllGood.step {e : FEvent P V} {w : FWorld P σ V} (h : AllGood good w)
    (hg : ∀ p j, e = .start p j → ∀ k ∈ Spec.jobIds j, good k) : AllGood good (fineStep C K cfg e w) := by
  intro p k hk
  cases e with
  | start q j =>
    simp only [fineStep] at hk
    by_cases e : p = q
    · rw [if_pos e] at hk; exact hg q j rfl k hk
    · rw [if_neg e] at hk; exact h p k hk
  | run q t f =>
    simp only [fineStep] at hk
    by_cases e : p = q
    · rw [if_pos e] at hk; exact h q k (pcIds_step K cfg f t _ _ k hk)
    · rw [if_neg e] at hk; exact h p k hk
  | collect t f => exact h p k hk

theorem event_view {e : FEvent P V} {w : FWorld P σ V} {t' : Int} {k : Str} (hgw : AllGood good w)
    (hle : Spec.Until t' e) (hk : ∀ q t f, e = .run q t f → Spec.writes (w.procs q) ≠ some k) :
    L.view (fineStep C K cfg e w).cache t' k = L.view w.cache t' k := by
  cases e with
  | start q j => rfl
  | run q t1 f => exact leftAlone_view L (hgw q) (hk q t1 f rfl) t' hle
  | collect t1 f =>
    cases f with
    | lost => rfl
    | none => exact L.frame_view w.cache t1 .gc k t' (by simp) (by simp [Cache.Spec.keyOf]) hle
    | late => exact L.frame_view w.cache t1 .gc k t' (by simp) (by simp [Cache.Spec.keyOf]) hle

theorem Until.mono {T T' : Int} (h : T ≤ T') {e : FEvent P V} (hu : Spec.Until T e) : Spec.Until T' e := by
  cases e with
  | start => trivial
  | run q t f => exact Int.le_trans hu h
  | collect t f => exact Int.le_trans hu h

theorem run_view {me : P → Bool} {k : Str} {ids : List Str} (hk : k ∈ ids) {T t' : Int} (hT : T ≤ t') :
    ∀ (es : List (FEvent P V)) (w : FWorld P σ V), AllGood good w →
      (∀ p j, FEvent.start p j ∈ es → ∀ k ∈ Spec.jobIds j, good k) → (∀ e ∈ es, Spec.Until T e) →
      (∀ q t f, FEvent.run q t f ∈ es → me q = false) → Spec.LeftAlone C K cfg me ids es w →
      L.view (fineRun C K cfg es w).cache t' k = L.view w.cache t' k ∧ AllGood good (fineRun C K cfg es w) := by
  intro es
  induction es with
  | nil => intro w h _ _ _ _; exact ⟨rfl, h⟩
  | cons e r ih =>
    intro w hgw hg hu hm hl
    obtain ⟨a, b⟩ := ih (fineStep C K cfg e w) (hgw.step fun p j he => hg p j (he ▸ List.mem_cons_self))
      (fun p j hj => hg p j (List.mem_cons_of_mem _ hj)) (fun e he => hu e (List.mem_cons_of_mem _ he))
      (fun q t f h => hm q t f (List.mem_cons_of_mem _ h)) hl.2
    refine ⟨?_, b⟩
    rw [show fineRun C K cfg (e :: r) w = fineRun C K cfg r (fineStep C K cfg e w) from rfl, a]
    exact event_view L hgw (Until.mono hT (hu e List.mem_cons_self))
      (fun q t f he => hl.1 q t f he (hm q t f (he ▸ List.mem_cons_self)) k hk)

theorem fineRun_append (a b : List (FEvent P V)) (w : FWorld P σ V) :
    fineRun C K cfg (a ++ b) w = fineRun C K cfg b (fineRun C K cfg a w) := by
  induction a generalizing w with
  | nil => rfl
  | cons e r ih => exact ih (fineStep C K cfg e w)

include L in
/-- **C161** (an acknowledged save stays): a save that works is acknowledged; and if after it nobody makes a call that changes this
session, then whatever requests of other sessions and readers of this one do in between, and however they interleave, a
request that reads the session at a later time, before it expires, finds exactly the values saved. -/
theorem C161_last_save (hK : K.Faithful) (p q : P) (sid : Str) (vs : Str → Option V) (b : Str) (hm : K.marshal vs = some b)
    (t t' : Int) (w : FWorld P σ V) (hp : w.procs p = .go (.save sid vs)) (hgw : AllGood good w)
    (es : List (FEvent P V)) (hg : ∀ p j, FEvent.start p j ∈ es → ∀ k ∈ Spec.jobIds j, good k)
    (hu : ∀ e ∈ es, Spec.Until t' e) (ht : t ≤ t') (hlife : t' < t + cfg.sessionExpire * second)
    (hl : Spec.LeftAlone C K cfg (fun _ => false) [sid] es (fineRun C K cfg [.run p t .none] w)) :
    (fineRun C K cfg [.run p t .none] w).procs p = .done (.ok none) ∧
    (fineRun C K cfg (.run p t .none :: es ++ [.start q (.read sid), .run q t' .none]) w).procs q =
      .done (.ok (some ⟨sid, vs, false, false⟩)) := by
  have hs : good sid := hgw p sid (by rw [hp]; simp [pcIds, Spec.jobIds])
  have hstep : pcStep C K cfg .none t (w.procs p) w.cache =
      ((C.step t (.set sid (.bytes b) [cfg.sessionExpire]) w.cache).1, .done (.ok none)) := by
    rw [hp]
    simp only [pcStep, Sess.save, hm, call]
    rw [L.set_out w.cache t sid _ hs]; rfl
  have h1 : fineRun C K cfg [.run p t .none] w = fineStep C K cfg (.run p t .none) w := rfl
  have hw1 : (fineStep C K cfg (.run p t .none) w).cache = (C.step t (.set sid (.bytes b) [cfg.sessionExpire]) w.cache).1 := by
    show (pcStep C K cfg .none t (w.procs p) w.cache).1 = _
    rw [hstep]
  refine ⟨?_, ?_⟩
  · show (if p = p then (pcStep C K cfg .none t (w.procs p) w.cache).2 else _) = _
    rw [if_pos rfl, hstep]
  · rw [List.cons_append, show ∀ l : List (FEvent P V), fineRun C K cfg (.run p t .none :: l) w = fineRun C K cfg l (fineStep C K cfg (.run p t .none) w) from fun _ => rfl,
      fineRun_append]
    obtain ⟨hv, _⟩ := run_view L (me := fun _ => false) (ids := [sid]) (k := sid) (by simp) (Int.le_refl t') es (fineStep C K cfg (.run p t .none) w)
      (hgw.step fun p' j he => by cases he) hg hu (fun _ _ _ _ => rfl) hl
    rw [hw1, L.set_view w.cache t sid _ t' hs ht, if_pos hlife] at hv
    have hr : Sess.read C K .none t' sid (fineRun C K cfg es (fineStep C K cfg (.run p t .none) w)).cache =
        ((fineRun C K cfg es (fineStep C K cfg (.run p t .none) w)).cache, .ok ⟨sid, vs, false, false⟩) := by
      unfold Sess.read
      simp only [call]
      rw [L.get_spec _ t' sid hs, hv]
      show (match K.unmarshal b with | none => _ | some vs => _) = _
      rw [hK vs b hm]
    generalize fineRun C K cfg es (fineStep C K cfg (.run p t .none) w) = w2 at hr ⊢
    simp only [fineRun, fineStep, if_true, pcStep]
    rw [hr]; rfl

/-! ## Regenerating while others are at work -/

/-- how far the undisturbed `Regenerate` of `p` is -/
def RegInv (old new : Str) (vs : Str → Option V) (b : Str) (T t : Int) (pc : Pc V) (s : σ) : Prop :=
  match pc with
  | .go (.regenerate o n) => o = old ∧ n = new ∧ ∀ t', t ≤ t' → t' ≤ T → L.view s t' old = some b
  | .copy o n b' => o = old ∧ n = new ∧ b' = b
  | .drop o n => o = old ∧ n = new ∧ ∀ t', t ≤ t' → t' ≤ T → L.view s t' new = some b
  | .reread n => n = new ∧ (∀ t', t ≤ t' → t' ≤ T → L.view s t' new = some b) ∧ ∀ t', t ≤ t' → L.view s t' old = none
  | .done (.ok (some h)) => h = ⟨new, vs, false, false⟩ ∧ (∀ t', t ≤ t' → t' ≤ T → L.view s t' new = some b) ∧
      ∀ t', t ≤ t' → L.view s t' old = none
  | _ => False

theorem RegInv.frame {old new : Str} {vs : Str → Option V} {b : Str} {T t t1 : Int} {pc : Pc V} {s s' : σ}
    (h : RegInv L old new vs b T t pc s) (ht : t ≤ t1)
    (ho : ∀ t', t1 ≤ t' → L.view s' t' old = L.view s t' old) (hn : ∀ t', t1 ≤ t' → L.view s' t' new = L.view s t' new) :
    RegInv L old new vs b T t1 pc s' := by
  cases pc with
  | idle => exact h
  | go j =>
    cases j with
    | regenerate o n => exact ⟨h.1, h.2.1, fun t' a c => by rw [ho t' a]; exact h.2.2 t' (by omega) c⟩
    | _ => exact h
  | copy o n b' => exact h
  | drop o n => exact ⟨h.1, h.2.1, fun t' a c => by rw [hn t' a]; exact h.2.2 t' (by omega) c⟩
  | reread n =>
    exact ⟨h.1, fun t' a c => by rw [hn t' a]; exact h.2.1 t' (by omega) c, fun t' a => by rw [ho t' a]; exact h.2.2 t' (by omega)⟩
  | done r =>
    cases r with
    | error e => exact h
    | ok x =>
      cases x with
      | none => exact h
      | some hd =>
        exact ⟨h.1, fun t' a c => by rw [hn t' a]; exact h.2.1 t' (by omega) c, fun t' a => by rw [ho t' a]; exact h.2.2 t' (by omega)⟩

theorem RegInv.step (hK : K.Faithful) {old new : Str} {vs : Str → Option V} {b : Str} (hm : K.marshal vs = some b) {T t t0 t1 : Int}
    {pc : Pc V} {s : σ} (ho : good old) (hn : good new) (hne : old ≠ new) (hT : T < t0 + cfg.sessionExpire * second)
    (h : RegInv L old new vs b T t pc s) (ht : t ≤ t1) (h0 : t0 ≤ t) (hT1 : t1 ≤ T) :
    RegInv L old new vs b T t1 (pcStep C K cfg .none t1 pc s).2 (pcStep C K cfg .none t1 pc s).1 := by
  have get : ∀ k, good k → L.view s t1 k = some b → C.step t1 (.get k) s = (s, .val b) := by
    intro k hk hv
    rw [L.get_spec s t1 k hk, hv]
  cases pc with
  | idle => exact h
  | go j =>
    cases j with
    | regenerate o n =>
      obtain ⟨rfl, rfl, hv⟩ := h
      simp only [pcStep, call]
      rw [get o ho (hv t1 ht hT1)]
      exact ⟨rfl, rfl, rfl⟩
    | _ => exact h.elim
  | copy o n b' =>
    obtain ⟨rfl, rfl, rfl⟩ := h
    simp only [pcStep, call]
    rw [L.set_out s t1 n _ hn]
    refine ⟨rfl, rfl, fun t' a c => ?_⟩
    rw [L.set_view s t1 n (.text b') t' hn a, if_pos (by omega)]; rfl
  | drop o n =>
    obtain ⟨rfl, rfl, hv⟩ := h
    refine ⟨rfl, fun t' a c => ?_, fun t' a => ?_⟩
    · show L.view (C.step t1 (.delete o) s).1 t' n = some b
      rw [L.frame_view s t1 (.delete o) n t' (by simp) (by simp [Cache.Spec.keyOf, hne]) a]
      exact hv t' (by omega) c
    · exact L.gone_view _ t1 o t' (L.delete_gone s t1 o ho) a
  | reread n =>
    obtain ⟨rfl, hv, hg⟩ := h
    have hr : Sess.read C K .none t1 n s = (s, .ok ⟨n, vs, false, false⟩) := by
      unfold Sess.read
      simp only [call]
      rw [get n hn (hv t1 ht hT1)]
      show (match K.unmarshal b with | none => _ | some vs => _) = _
      rw [hK vs b hm]
    simp only [pcStep]
    rw [hr]
    exact ⟨rfl, fun t' a c => hv t' (by omega) c, fun t' a => hg t' (by omega)⟩
  | done r =>
    cases r with
    | error e => exact h
    | ok x =>
      cases x with
      | none => exact h
      | some hd => exact ⟨h.1, fun t' a c => h.2.1 t' (by omega) c, fun t' a => h.2.2 t' (by omega)⟩

/-- **C162**, for a `Regenerate` whose calls do not fail and during which nobody else makes a call that changes the old or the new
session: however other requests interleave with it - readers of both sessions among them - it ends, when it ends, with a store
under the new id with the values of the old session; from then on the new id has these values and the old id is not found. -/
theorem C162_moves_partial (hK : K.Faithful) (p : P) (old new : Str) (vs : Str → Option V) (hne : old ≠ new) (t0 T : Int)
    (hT : T < t0 + cfg.sessionExpire * second) (w : FWorld P σ V) (hp : w.procs p = .go (.regenerate old new))
    (hgw : AllGood good w) (hh : L.Holds K w.cache t0 (T + 1) old vs)
    (es : List (FEvent P V)) (hg : ∀ q j, FEvent.start q j ∈ es → ∀ k ∈ Spec.jobIds j, good k)
    (hu : ∀ e ∈ es, Spec.Until T e) (hord : Spec.FOrdered t0 es)
    (hmine : ∀ e ∈ es, (∀ j, e ≠ .start p j) ∧ ∀ t f, e = .run p t f → f = .none)
    (hl : Spec.LeftAlone C K cfg (fun q => decide (q = p)) [old, new] es w) (ht0 : t0 ≤ T)
    (r : Except SErr (Option (Handle V))) (hr : (fineRun C K cfg es w).procs p = .done r) :
    r = .ok (some ⟨new, vs, false, false⟩) ∧
    Sess.read C K .none T new (fineRun C K cfg es w).cache = ((fineRun C K cfg es w).cache, .ok ⟨new, vs, false, false⟩) ∧
    ∀ t', T ≤ t' → Sess.read C K .none t' old (fineRun C K cfg es w).cache = ((fineRun C K cfg es w).cache, .error .notFound) := by
  obtain ⟨b, hm, hv⟩ := hh
  have ho : good old := hgw p old (by rw [hp]; simp [pcIds, Spec.jobIds])
  have hn : good new := hgw p new (by rw [hp]; simp [pcIds, Spec.jobIds])
  have gen : ∀ (es : List (FEvent P V)) (t : Int) (w : FWorld P σ V), AllGood good w → t0 ≤ t → t ≤ T →
      RegInv L old new vs b T t (w.procs p) w.cache → (∀ q j, FEvent.start q j ∈ es → ∀ k ∈ Spec.jobIds j, good k) →
      (∀ e ∈ es, Spec.Until T e) → Spec.FOrdered t es →
      (∀ e ∈ es, (∀ j, e ≠ .start p j) ∧ ∀ t f, e = .run p t f → f = .none) →
      Spec.LeftAlone C K cfg (fun q => decide (q = p)) [old, new] es w →
      ∃ t', t' ≤ T ∧ RegInv L old new vs b T t' ((fineRun C K cfg es w).procs p) (fineRun C K cfg es w).cache := by
    intro es
    induction es with
    | nil => intro t w _ _ htT h _ _ _ _ _; exact ⟨t, htT, h⟩
    | cons e r ih =>
      intro t w hgw h0 htT h hg hu hord hmine hl
      have hgw' := hgw.step (C := C) (K := K) (cfg := cfg) (e := e) fun p j he => hg p j (he ▸ List.mem_cons_self)
      have hg' : ∀ q j, FEvent.start q j ∈ r → ∀ k ∈ Spec.jobIds j, good k := fun q j hj => hg q j (List.mem_cons_of_mem _ hj)
      have hu' : ∀ e ∈ r, Spec.Until T e := fun e he => hu e (List.mem_cons_of_mem _ he)
      have hm' : ∀ e ∈ r, (∀ j, e ≠ .start p j) ∧ ∀ t f, e = .run p t f → f = .none := fun e he => hmine e (List.mem_cons_of_mem _ he)
      have hue := hu e List.mem_cons_self
      have hme := hmine e List.mem_cons_self
      cases e with
      | start q j =>
        refine ih t _ hgw' h0 htT ?_ hg' hu' hord hm' hl.2
        have : p ≠ q := fun e => hme.1 j (by rw [e])
        simp only [fineStep]
        rw [if_neg this]; exact h
      | collect t1 f =>
        refine ih t1 _ hgw' (by have := hord.1; omega) hue ?_ hg' hu' hord.2 hm' hl.2
        refine h.frame L hord.1 (fun t' a => ?_) (fun t' a => ?_)
        · exact event_view (e := .collect t1 f) L hgw (by exact a) (fun _ _ _ he => by cases he)
        · exact event_view (e := .collect t1 f) L hgw (by exact a) (fun _ _ _ he => by cases he)
      | run q t1 f =>
        refine ih t1 _ hgw' (by have := hord.1; omega) hue ?_ hg' hu' hord.2 hm' hl.2
        by_cases hq : q = p
        · subst hq
          have hf := hme.2 t1 f rfl
          subst hf
          show RegInv L old new vs b T t1 (if q = q then (pcStep C K cfg .none t1 (w.procs q) w.cache).2 else _)
            (pcStep C K cfg .none t1 (w.procs q) w.cache).1
          rw [if_pos rfl]
          exact RegInv.step L hK hm ho hn hne hT h hord.1 h0 hue
        · show RegInv L old new vs b T t1 (if p = q then _ else w.procs p) _
          rw [if_neg (fun e => hq e.symm)]
          have hw := hl.1 q t1 f rfl (by simp [hq])
          refine h.frame L hord.1 (fun t' a => ?_) (fun t' a => ?_)
          · exact event_view (e := .run q t1 f) L hgw (by exact a) (fun _ _ _ he => by cases he; exact hw old (by simp))
          · exact event_view (e := .run q t1 f) L hgw (by exact a) (fun _ _ _ he => by cases he; exact hw new (by simp))
  obtain ⟨t1, h1, hI⟩ := gen es t0 w hgw (Int.le_refl t0) ht0
    (by rw [hp]; exact ⟨rfl, rfl, fun t' a c => hv t' a (by omega)⟩) hg hu hord hmine hl
  rw [hr] at hI
  cases r with
  | error e => exact hI.elim
  | ok x =>
    cases x with
    | none => exact hI.elim
    | some hd =>
      obtain ⟨rfl, a, c⟩ := hI
      refine ⟨rfl, ?_, fun t' ht' => ?_⟩
      · unfold Sess.read
        simp only [call]
        rw [L.get_spec _ T new hn, a T h1 (Int.le_refl T)]
        show (match K.unmarshal b with | none => _ | some vs => _) = _
        rw [hK vs b hm]
      · unfold Sess.read
        simp only [call]
        rw [L.get_spec _ t' old ho, c t' (by omega)]

end

/-! ## The three caches -/

section
variable {P V : Type} [DecidableEq P] {K : Conv V} {cfg : Config}

/-- **C161** for redis. -/
theorem C161_whole_redis (pre : Str) (hE : 0 < cfg.sessionExpire) (hE2 : cfg.sessionExpire ≤ 9223372036) (hK : K.Faithful)
    (es : List (FEvent P V)) (t : Int) (ho : Spec.FOrdered t es) (p : P) (h : Handle V)
    (hp : (fineRun ⟨Cache.redis pre⟩ K cfg es (FWorld.new fun _ => none)).procs p = .done (.ok (some h))) :
    ∃ r, Spec.SavedIn es r h.values ∧ Spec.Descends es r h.sid :=
  C161_whole (redisLawful pre hE hE2) hK es t _ ho (fun _ _ _ _ => rfl) (fun _ _ _ _ _ => trivial)
    (.inl (redis_touchStrict pre hE hE2)) p h hp

/-- **C161** for memcached: expiry at most 30 days, legal keys. -/
theorem C161_whole_memcache (pre : Str) (hE : 0 < cfg.sessionExpire) (hE2 : cfg.sessionExpire ≤ 2592000) (hK : K.Faithful)
    (es : List (FEvent P V)) (t : Int) (ho : Spec.FOrdered t es)
    (hg : ∀ p j, FEvent.start p j ∈ es → ∀ k ∈ Spec.jobIds j, Cache.legalKey (pre ++ k) = true) (p : P) (h : Handle V)
    (hp : (fineRun ⟨Cache.memcache pre⟩ K cfg es (FWorld.new fun _ => none)).procs p = .done (.ok (some h))) :
    ∃ r, Spec.SavedIn es r h.values ∧ Spec.Descends es r h.sid :=
  C161_whole (memcacheLawful pre hE hE2) hK es t _ ho (fun _ _ _ _ => rfl) hg (.inl (memcache_touchStrict pre hE hE2)) p h hp

/-- **C161** for MongoDB: without touch, which there brings an expired session back (C42). -/
theorem C161_whole_mgo (ae : Bool) (hE : 0 < cfg.sessionExpire) (hE2 : cfg.sessionExpire ≤ 9223372036) (hK : K.Faithful)
    (es : List (FEvent P V)) (t : Int) (ho : Spec.FOrdered t es) (hT : ∀ p sid, FEvent.start p (.touch sid) ∉ es) (p : P) (h : Handle V)
    (hp : (fineRun ⟨Cache.mgo ae⟩ K cfg es (FWorld.new fun _ => none)).procs p = .done (.ok (some h))) :
    ∃ r, Spec.SavedIn es r h.values ∧ Spec.Descends es r h.sid :=
  C161_whole (mgoLawful ae hE hE2) hK es t _ ho (fun _ _ _ _ => rfl) (fun _ _ _ _ _ => trivial) (.inr hT) p h hp

end

/-! ## Examples -/

namespace FineEx

/-- session values with one key, `u` -/
def just (n : Nat) : Str → Option Nat := fun k => if k = b!"u" then some n else none

def run (es : List (FEvent Nat Nat)) : FWorld Nat Cache.Server Nat :=
  fineRun ⟨Cache.redis b!"p"⟩ exConv ⟨b!"key", 60⟩ es (FWorld.new fun _ => none)

/-- what is seen of the end of a request: an error, or the value of `u` in the session it got -/
def shown : Pc Nat → Option (Option SErr × Option Nat)
  | .done (.ok (some h)) => some (none, h.get b!"u")
  | .done (.ok none) => some (none, none)
  | .done (.error e) => some (some e, none)
  | _ => none

/-- a session `s1` with `u = 7` -/
def before : List (FEvent Nat Nat) := [.start 0 (.save b!"s1" (just 7)), .run 0 1 .none]

/-- request 1 regenerates `s1` as `s2`; request 2 saves `u = 9` under `s1`, after `k` calls of request 1; then both ids are read -/
def race (k : Nat) : List (FEvent Nat Nat) :=
  before ++ [.start 1 (.regenerate b!"s1" b!"s2"), .start 2 (.save b!"s1" (just 9))] ++ List.replicate k (.run 1 2 .none) ++
    [.run 2 2 .none] ++ List.replicate (4 - k) (.run 1 2 .none) ++
    [.start 3 (.read b!"s1"), .run 3 3 .none, .start 4 (.read b!"s2"), .run 4 3 .none]

def outcome (k : Nat) : List (Option (Option SErr × Option Nat)) := [1, 2, 3, 4].map fun p => shown ((run (race k)).procs p)

/-- a save before the first call of `Regenerate`: it is carried over, and the old id is gone -/
theorem race_before : outcome 0 = [some (none, some 9), some (none, none), some (some .notFound, none), some (none, some 9)] := by
  decide +kernel

end FineEx

/-- **C162** is false of the code when another request saves the session meanwhile: after the first or the second call of
`Regenerate`, the save is acknowledged and lost. -/
theorem C162_update_lost_violated :
    FineEx.outcome 1 = [some (none, some 7), some (none, none), some (some .notFound, none), some (none, some 7)] ∧
    FineEx.outcome 2 = [some (none, some 7), some (none, none), some (some .notFound, none), some (none, some 7)] := by
  decide +kernel

/-- **C162** is false of the code when another request saves the session after the old id was destroyed: the old id is back, and
both ids have a life of their own. -/
theorem C162_old_id_back_violated :
    FineEx.outcome 3 = [some (none, some 7), some (none, none), some (none, some 9), some (none, some 7)] := by
  decide +kernel

/-- the history of `FineEx.race 0`, seen from request 3 which reads `s1`: it belongs with 0, 1, 2 and 4; a further request 5 of another
session changes nothing (`C161_separate`) -/
example : Spec.Apart (fun p => decide (p < 5)) (FineEx.race 2 ++ [.start 5 (.regenerate b!"s5" b!"s6"), .run 5 3 .none]) := by
  intro p j q j' hp hq h1 h2 k hk hk'
  simp only [FineEx.race, FineEx.before, List.mem_append, List.mem_cons, List.not_mem_nil, FEvent.start.injEq, reduceCtorEq, or_false, false_or,
    List.replicate] at hp hq
  have hq5 : q = 5 ∧ j' = .regenerate b!"s5" b!"s6" := by
    rcases hq with (((h | h | h) | h | h) | h) <;> first | exact h | (obtain ⟨rfl, _⟩ := h; exact absurd h2 (by decide))
  obtain ⟨rfl, rfl⟩ := hq5
  rcases hp with (((⟨_, rfl⟩ | ⟨_, rfl⟩ | ⟨_, rfl⟩) | ⟨_, rfl⟩ | ⟨_, rfl⟩) | ⟨rfl, _⟩)
  all_goals first | exact absurd h1 (by decide) | skip
  all_goals
    simp only [Spec.jobIds, List.mem_cons, List.not_mem_nil, or_false] at hk hk'
    rcases hk' with rfl | rfl
    all_goals first | exact absurd hk (by decide) | (rcases hk with hk | hk <;> exact absurd hk (by decide))

/-- the hypotheses of `C161_whole` are met by these histories -/
example (k : Nat) (h : k ≤ 4) : Spec.FOrdered 0 (FineEx.race k) := by
  have : k = 0 ∨ k = 1 ∨ k = 2 ∨ k = 3 ∨ k = 4 := by omega
  rcases this with rfl | rfl | rfl | rfl | rfl <;> simp [FineEx.race, FineEx.before, Spec.FOrdered, List.replicate]

/-- with a reader of both ids between its calls, `Regenerate` is undisturbed (`C162_moves_partial`) -/
example : Spec.LeftAlone ⟨Cache.redis b!"p"⟩ exConv ⟨b!"key", 60⟩ (fun q => decide (q = (1 : Nat))) [b!"s1", b!"s2"]
    [.start 2 (.read b!"s1"), .run 1 2 .none, .run 2 2 .none, .run 1 2 .none, .start 3 (.read b!"s2"), .run 3 2 .none, .run 1 2 .none, .run 1 2 .none]
    (FineEx.run (FineEx.before ++ [.start 1 (.regenerate b!"s1" b!"s2")])) := by
  have hw : ∀ (w : FWorld Nat Cache.Server Nat) (sid : Str), w.procs 2 = .go (.read sid) → Spec.writes (w.procs 2) = none := by
    intro w sid h; rw [h]; rfl
  simp only [Spec.LeftAlone]
  refine ⟨?_, ?_, ?_, ?_, ?_, ?_, ?_, ?_, trivial⟩ <;> intro q t f he hq k hk <;> cases he
  all_goals first | exact absurd hq (by decide) | (show Spec.writes _ ≠ some k; exact fun h => by cases h)

end Verif.Sess
