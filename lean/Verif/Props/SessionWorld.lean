import Verif.Props.Session
/-!
# C105: sessions of many requests, exactly

Any number of session stores, of the same or of different sessions, are opened, changed, flushed, touched,
destroyed and regenerated over one cache, with network failures. The abstract machine below has no cache, no
converter and no bytes: what is saved of a session is a table of values with a deadline.
-/
namespace Verif.Sess
open Verif.Go
open Verif.Cache (Op Out Val toStr second)

/-! ## Histories -/

/-- One call. Stores are numbered in the order in which they were opened. -/
inductive WOp (V : Type) where
  | create (sid : Str) (params : List (Str → Option V))
  | read (sid : Str) (f : Fault)
  | set (i : Nat) (k : Str) (v : V)
  | delete (i : Nat) (k : Str)
  | clean (i : Nat)
  | get (i : Nat) (k : Str)
  | flush (i : Nat) (f : Fault)
  | touch (i : Nat) (f : Fault)
  | destroy (i : Nat) (f : Fault)
  | destroyId (sid : Str) (f : Fault)
  | regenerate (old sid : Str) (fg fs fd fr : Fault)

/-- What the caller sees. (The results of touch and destroy are not compared: the caches differ in them.) -/
inductive WObs (V : Type) where
  | nothing
  | value (v : Option V)
  | result (e : Option SErr)
  | opened (e : Option SErr)

/-! ### the code -/

section
variable {σ V : Type} (C : CacheApi σ) (K : Conv V) (cfg : Config)

/-- The result of opening a store. -/
def opened (hs : List (Handle V)) (r : σ × Except SErr (Handle V)) : (List (Handle V) × σ) × WObs V :=
  match r with
  | (s, .ok h) => ((hs ++ [h], s), .opened none)
  | (s, .error e) => ((hs, s), .opened (some e))

/-- One call on the code's stores and cache. -/
def wstep (now : Int) (op : WOp V) (hs : List (Handle V)) (s : σ) : (List (Handle V) × σ) × WObs V :=
  match op with
  | .create sid ps => ((hs ++ [Sess.create sid ps], s), .opened none)
  | .read sid f => opened hs (Sess.read C K f now sid s)
  | .set i k v => ((hs.modify i (·.set k v), s), .nothing)
  | .delete i k => ((hs.modify i (·.delete k), s), .nothing)
  | .clean i => ((hs.modify i (·.clean), s), .nothing)
  | .get i k => ((hs, s), .value (hs[i]?.bind (·.get k)))
  | .flush i f =>
    match hs[i]? with
    | none => ((hs, s), .result none)
    | some h => ((hs.set i (Sess.flush C K cfg f now h s).1, (Sess.flush C K cfg f now h s).2.1),
        .result (Sess.flush C K cfg f now h s).2.2)
  | .touch i f =>
    match hs[i]? with
    | none => ((hs, s), .nothing)
    | some h => ((hs, (Sess.touch C cfg f now h s).1), .nothing)
  | .destroy i f =>
    match hs[i]? with
    | none => ((hs, s), .nothing)
    | some h => ((hs.set i (Sess.destroy C f now h s).1, (Sess.destroy C f now h s).2.1), .nothing)
  | .destroyId sid f => ((hs, (destroySid C f now sid s).1), .nothing)
  | .regenerate old sid fg fs fd fr => opened hs (Sess.regenerate C K cfg fg fs fd fr now old sid s)

/-- A history of timed calls: what is seen. -/
def wrun : List (Int × WOp V) → List (Handle V) → σ → List (WObs V)
  | [], _, _ => []
  | (t, op) :: r, hs, s =>
    (wstep C K cfg t op hs s).2 :: wrun r (wstep C K cfg t op hs s).1.1 (wstep C K cfg t op hs s).1.2
end

/-! ### Specification -/

/-- An open store: a private copy of the session's values, whether something is to be saved, whether it was
destroyed. -/
structure Spec.Store (V : Type) where
  sid : Str
  values : Str → Option V
  dirty : Bool
  dead : Bool

/-- The open stores, and for each session id the saved values with their deadline. -/
structure Spec.World (V : Type) where
  stores : List (Spec.Store V)
  saved : Str → Option ((Str → Option V) × Int)

section
variable {V : Type}

/-- The values of a session that can be read at a time. -/
def Spec.World.seen (w : Spec.World V) (now : Int) (sid : Str) : Option (Str → Option V) :=
  match w.saved sid with
  | some (vs, d) => if now < d then some vs else none
  | none => none

/-- Replace what is saved of one session. -/
def Spec.World.save (w : Spec.World V) (sid : Str) (x : Option ((Str → Option V) × Int)) : Spec.World V :=
  { w with saved := fun k => if k = sid then x else w.saved k }

/-- Reading a session opens a new, clean store. -/
def Spec.World.read (w : Spec.World V) (now : Int) (sid : Str) (f : Fault) : Spec.World V × WObs V :=
  if f ≠ .none then (w, .opened (some .cache))
  else match w.seen now sid with
    | none => (w, .opened (some .notFound))
    | some vs => ({ w with stores := w.stores ++ [⟨sid, vs, false, false⟩] }, .opened none)

open Classical in
/-- One call. `savable` tells which values the converter can write, `life` is the session expiry. -/
noncomputable def Spec.World.step (savable : (Str → Option V) → Prop) (life : Int) (now : Int) (op : WOp V)
    (w : Spec.World V) : Spec.World V × WObs V :=
  match op with
  | .create sid ps =>
    ({ w with stores := w.stores ++ [⟨sid, ps.head?.getD (fun _ => none), decide (ps ≠ []), false⟩] }, .opened none)
  | .read sid f => w.read now sid f
  | .set i k v =>
    ({ w with stores := w.stores.modify i fun x =>
        { x with dirty := true, values := fun k' => if k' = k then some v else x.values k' } }, .nothing)
  | .delete i k =>
    ({ w with stores := w.stores.modify i fun x =>
        { x with dirty := true, values := fun k' => if k' = k then none else x.values k' } }, .nothing)
  | .clean i =>
    ({ w with stores := w.stores.modify i fun x => { x with dirty := true, values := fun _ => none } }, .nothing)
  | .get i k => (w, .value (w.stores[i]?.bind (·.values k)))
  | .flush i f =>
    match w.stores[i]? with
    | none => (w, .result none)
    | some x =>
      if x.dead = true ∨ x.dirty = false then (w, .result none)
      else if ¬ savable x.values then
        ({ w with stores := w.stores.set i { x with dirty := false } }, .result (some .conv))
      else
        let w' := { w with stores := w.stores.set i { x with dirty := false } }
        (if f = .lost then w' else w'.save x.sid (some (x.values, now + life)),
          .result (if f = .none then none else some .cache))
  | .touch i f =>
    match w.stores[i]? with
    | none => (w, .nothing)
    | some x =>
      match w.seen now x.sid with
      | none => (w, .nothing)
      | some vs => (if f = .lost then w else w.save x.sid (some (vs, now + life)), .nothing)
  | .destroy i f =>
    match w.stores[i]? with
    | none => (w, .nothing)
    | some x =>
      let w' := { w with stores := w.stores.set i { x with dead := true, values := fun _ => none } }
      (if f = .lost then w' else w'.save x.sid none, .nothing)
  | .destroyId sid f => (if f = .lost then w else w.save sid none, .nothing)
  | .regenerate old sid fg fs fd fr =>
    if fg ≠ .none then (w, .opened (some .cache))
    else match w.seen now old with
      | none => (w, .opened (some .notFound))
      | some vs =>
        let w1 := if fs = .lost then w else w.save sid (some (vs, now + life))
        if fs ≠ .none then (w1, .opened (some .cache))
        else (if fd = .lost then w1 else w1.save old none).read now sid fr

/-- What is seen of a history. -/
noncomputable def Spec.World.run (savable : (Str → Option V) → Prop) (life : Int) :
    List (Int × WOp V) → Spec.World V → List (WObs V)
  | [], _ => []
  | (t, op) :: r, w => (w.step savable life t op).2 :: Spec.World.run savable life r (w.step savable life t op).1

/-- Times do not go back. -/
def Spec.Ordered : Int → List (Int × WOp V) → Prop
  | _, [] => True
  | t0, (t, _) :: r => t0 ≤ t ∧ Spec.Ordered t r

/-- The ids given to the calls are usable ones. -/
def Spec.UsesGood (good : Str → Prop) : WOp V → Prop
  | .create sid _ => good sid
  | .read sid _ => good sid
  | .destroyId sid _ => good sid
  | .regenerate old sid _ _ _ _ => good old ∧ good sid
  | _ => True
end

/-- Touching a missing key creates nothing. -/
def Lawful.TouchStrict {σ : Type} {C : CacheApi σ} {E : Int} {good : Str → Prop} (L : Lawful C E good) : Prop :=
  ∀ s t k t', good k → L.view s t k = none → t ≤ t' → L.view (C.step t (.touch k [E]) s).1 t' k = none

/-! ## The refinement -/

section
variable {σ V : Type} {C : CacheApi σ} (K : Conv V) {cfg : Config} {good : Str → Prop}
  (L : Lawful C cfg.sessionExpire good)

/-- the abstract store of a handle -/
def ofHandle (h : Handle V) : Spec.Store V := ⟨h.sid, h.values, h.changed, h.closed⟩

/-- what the cache shows of a session from `t` on -/
def Shows (s : σ) (t : Int) (sid : Str) (x : Option ((Str → Option V) × Int)) : Prop :=
  match x with
  | none => ∀ t', t ≤ t' → L.view s t' sid = none
  | some (vs, d) => ∃ b, K.marshal vs = some b ∧ ∀ t', t ≤ t' → L.view s t' sid = if t' < d then some b else none

structure Rel (t : Int) (hs : List (Handle V)) (s : σ) (w : Spec.World V) : Prop where
  stores : w.stores = hs.map ofHandle
  ids : ∀ (i : Nat) (h : Handle V), hs[i]? = some h → good h.sid
  saved : ∀ sid, good sid → Shows K L s t sid (w.saved sid)

variable {K L}

theorem Shows.later {s : σ} {t t1 : Int} {sid : Str} {x : Option ((Str → Option V) × Int)}
    (h : Shows K L s t sid x) (ht : t ≤ t1) : Shows K L s t1 sid x := by
  cases x with
  | none => exact fun t' a => h t' (by omega)
  | some p =>
    obtain ⟨vs, d⟩ := p
    obtain ⟨b, h1, h2⟩ := h
    exact ⟨b, h1, fun t' a => h2 t' (by omega)⟩

theorem Rel.later {t t1 : Int} {hs : List (Handle V)} {s : σ} {w : Spec.World V} (h : Rel K L t hs s w)
    (ht : t ≤ t1) : Rel K L t1 hs s w :=
  ⟨h.stores, h.ids, fun sid hg => (h.saved sid hg).later ht⟩

/-- the view now, abstractly -/
theorem Rel.view_seen {t : Int} {hs : List (Handle V)} {s : σ} {w : Spec.World V} (h : Rel K L t hs s w) {sid : Str}
    (hg : good sid) :
    match w.seen t sid with
    | none => L.view s t sid = none
    | some vs => ∃ b, K.marshal vs = some b ∧ L.view s t sid = some b := by
  have hs := h.saved sid hg
  unfold Spec.World.seen
  cases hx : w.saved sid with
  | none => rw [hx] at hs; exact hs t (Int.le_refl t)
  | some p =>
    rw [hx] at hs
    obtain ⟨vs, d⟩ := p
    obtain ⟨b, h1, h2⟩ := hs
    have := h2 t (Int.le_refl t)
    simp only []
    by_cases hd : t < d
    · rw [if_pos hd]; rw [if_pos hd] at this; exact ⟨b, h1, this⟩
    · rw [if_neg hd]; rw [if_neg hd] at this; exact this

/-- a cache call on one id changes what is saved of that id -/
theorem Rel.save {t : Int} {hs : List (Handle V)} {s s' : σ} {w : Spec.World V} (h : Rel K L t hs s w) {sid : Str}
    {x : Option ((Str → Option V) × Int)} (hx : Shows K L s' t sid x)
    (hf : ∀ k, good k → k ≠ sid → ∀ t', t ≤ t' → L.view s' t' k = L.view s t' k) :
    Rel K L t hs s' (w.save sid x) := by
  refine ⟨h.stores, h.ids, fun k hk => ?_⟩
  unfold Spec.World.save
  simp only []
  by_cases e : k = sid
  · subst e; rw [if_pos rfl]; exact hx
  · rw [if_neg e]
    have := h.saved k hk
    cases hw : w.saved k with
    | none =>
      rw [hw] at this
      intro t' a
      rw [hf k hk e t' a]; exact this t' a
    | some p =>
      obtain ⟨vs, d⟩ := p
      rw [hw] at this
      obtain ⟨b, h1, h2⟩ := this
      exact ⟨b, h1, fun t' a => by rw [hf k hk e t' a]; exact h2 t' a⟩

theorem frame_of {t : Int} {s : σ} {o : Op} {sid : Str} (hc : o ≠ .clean) (hk : Cache.Spec.keyOf o = some sid) :
    ∀ k, good k → k ≠ sid → ∀ t', t ≤ t' → L.view (C.step t o s).1 t' k = L.view s t' k := by
  intro k _ hne t' a
  exact L.frame_view s t o k t' hc (by rw [hk]; intro e; exact hne (Option.some.inj e).symm) a

/-- saving -/
theorem Rel.set {t : Int} {hs : List (Handle V)} {s : σ} {w : Spec.World V} (h : Rel K L t hs s w) {sid : Str}
    (hg : good sid) {vs : Str → Option V} {b : Str} (hm : K.marshal vs = some b) {v : Val} (hv : toStr v = b) :
    Rel K L t hs (C.step t (.set sid v [cfg.sessionExpire]) s).1
      (w.save sid (some (vs, t + cfg.sessionExpire * second))) := by
  refine h.save ⟨b, hm, fun t' a => ?_⟩ (frame_of (by simp) rfl)
  rw [L.set_view s t sid v t' hg a, hv]

/-- deleting -/
theorem Rel.delete {t : Int} {hs : List (Handle V)} {s : σ} {w : Spec.World V} (h : Rel K L t hs s w) {sid : Str}
    (hg : good sid) (f : Fault) :
    Rel K L t hs (destroySid C f t sid s).1 (if f = .lost then w else w.save sid none) := by
  have key : Rel K L t hs (C.step t (.delete sid) s).1 (w.save sid none) :=
    h.save (fun t' a => L.gone_view _ t sid t' (L.delete_gone s t sid hg) a) (frame_of (by simp) rfl)
  cases f with
  | none => exact key
  | late => exact key
  | lost => exact h

/-- touching -/
theorem Rel.touch {t : Int} {hs : List (Handle V)} {s : σ} {w : Spec.World V} (h : Rel K L t hs s w) {sid : Str}
    (hg : good sid) (hT : L.TouchStrict) (f : Fault) :
    Rel K L t hs (call C f t (.touch sid [cfg.sessionExpire]) s).1
      (match w.seen t sid with
        | none => w
        | some vs => if f = .lost then w else w.save sid (some (vs, t + cfg.sessionExpire * second))) := by
  have hv := h.view_seen hg
  have key : Rel K L t hs (C.step t (.touch sid [cfg.sessionExpire]) s).1
      (match w.seen t sid with
        | none => w
        | some vs => w.save sid (some (vs, t + cfg.sessionExpire * second))) := by
    cases hw : w.seen t sid with
    | none =>
      rw [hw] at hv
      simp only [] at hv ⊢
      have h2 := h.save (sid := sid) (x := none)
        (s' := (C.step t (.touch sid [cfg.sessionExpire]) s).1)
        (fun t' a => hT s t sid t' hg hv a) (frame_of (by simp) rfl)
      refine ⟨h.stores, h.ids, fun k hk => ?_⟩
      by_cases e : k = sid
      · subst e
        have hsv := h.saved k hk
        cases hx : w.saved k with
        | none => exact fun t' a => hT s t k t' hg hv a
        | some p =>
          obtain ⟨vs, d⟩ := p
          rw [hx] at hsv
          obtain ⟨b, h3, h4⟩ := hsv
          refine ⟨b, h3, fun t' a => ?_⟩
          have hd : ¬ t < d := by
            intro hd
            have := h4 t (Int.le_refl t)
            rw [hv, if_pos hd] at this
            cases this
          rw [hT s t k t' hg hv a, if_neg (by omega)]
      · have := h2.saved k hk
        unfold Spec.World.save at this
        simp only [] at this
        rw [if_neg e] at this
        exact this
    | some vs =>
      rw [hw] at hv
      obtain ⟨b, h1, h3⟩ := hv
      simp only []
      refine h.save ⟨b, h1, fun t' a => ?_⟩ (frame_of (by simp) rfl)
      rw [L.touch_view s t sid b t' hg h3 a]
  cases f with
  | none =>
    cases hw : w.seen t sid with
    | none => rw [hw] at key; exact key
    | some vs => rw [hw] at key; exact key
  | late =>
    cases hw : w.seen t sid with
    | none => rw [hw] at key; exact key
    | some vs => rw [hw] at key; exact key
  | lost =>
    cases hw : w.seen t sid with
    | none => exact h
    | some vs => exact h

/-- changing the stores only -/
theorem Rel.stores' {t : Int} {hs hs' : List (Handle V)} {s : σ} {w : Spec.World V} {st : List (Spec.Store V)}
    (h : Rel K L t hs s w) (h1 : st = hs'.map ofHandle) (h2 : ∀ (i : Nat) (h : Handle V), hs'[i]? = some h → good h.sid) :
    Rel K L t hs' s { w with stores := st } :=
  ⟨h1, h2, h.saved⟩

theorem ids_append {hs : List (Handle V)} {x : Handle V} (h : ∀ (i : Nat) (h : Handle V), hs[i]? = some h → good h.sid) (hx : good x.sid) :
    ∀ (i : Nat) (h : Handle V), (hs ++ [x])[i]? = some h → good h.sid := by
  intro i y hy
  have : y ∈ hs ++ [x] := List.mem_of_getElem? hy
  rcases List.mem_append.1 this with hm | hm
  · obtain ⟨j, hj⟩ := List.getElem?_of_mem hm
    exact h j y hj
  · simp at hm; subst hm; exact hx

theorem ids_modify {hs : List (Handle V)} {i : Nat} {g : Handle V → Handle V}
    (h : ∀ (i : Nat) (h : Handle V), hs[i]? = some h → good h.sid) (hg : ∀ x, (g x).sid = x.sid) :
    ∀ (j : Nat) (h : Handle V), (hs.modify i g)[j]? = some h → good h.sid := by
  intro j y hy
  rw [List.getElem?_modify] at hy
  cases hj : hs[j]? with
  | none => rw [hj] at hy; simp at hy
  | some z =>
    rw [hj] at hy
    have hy := Option.some.inj (show some (if i = j then g z else z) = some y from hy)
    by_cases e : i = j
    · rw [if_pos e] at hy; rw [← hy, hg]; exact h j z hj
    · rw [if_neg e] at hy; rw [← hy]; exact h j z hj

theorem ids_set {hs : List (Handle V)} {i : Nat} {x : Handle V}
    (h : ∀ (i : Nat) (h : Handle V), hs[i]? = some h → good h.sid) (hx : good x.sid) :
    ∀ (j : Nat) (h : Handle V), (hs.set i x)[j]? = some h → good h.sid := by
  intro j y hy
  rw [List.getElem?_set] at hy
  by_cases e : i = j
  · rw [if_pos e] at hy
    by_cases hl : i < hs.length
    · rw [if_pos hl] at hy; simp at hy; subst hy; exact hx
    · rw [if_neg hl] at hy; simp at hy
  · rw [if_neg e] at hy; exact h j y hy

theorem map_modify_of {hs : List (Handle V)} {i : Nat} {g : Handle V → Handle V} {g' : Spec.Store V → Spec.Store V}
    (hg : ∀ x, ofHandle (g x) = g' (ofHandle x)) :
    (hs.map ofHandle).modify i g' = (hs.modify i g).map ofHandle := by
  apply List.ext_getElem?
  intro j
  rw [List.getElem?_modify, List.getElem?_map, List.getElem?_map, List.getElem?_modify]
  cases hs[j]? with
  | none => rfl
  | some x =>
    by_cases e : i = j
    · simp [e, hg]
    · simp [e]

theorem map_set_of {hs : List (Handle V)} {i : Nat} {x : Handle V} {y : Spec.Store V} (hy : y = ofHandle x) :
    (hs.map ofHandle).set i y = (hs.set i x).map ofHandle := by
  rw [hy, List.map_set]

theorem outErr_call_set (f : Fault) (t : Int) (sid : Str) (v : Val) (s : σ) (hg : good sid)
    (L : Lawful C cfg.sessionExpire good) :
    outErr (call C f t (.set sid v [cfg.sessionExpire]) s).2 = if f = .none then none else some .cache := by
  cases f with
  | none => simp only [call, if_true]; rw [L.set_out s t sid v hg]; rfl
  | lost => rfl
  | late => rfl


theorem Rel.read (hK : K.Faithful) {t : Int} {hs : List (Handle V)} {s : σ} {w : Spec.World V}
    (h : Rel K L t hs s w) {sid : Str} (hg : good sid) (f : Fault) :
    (opened hs (Sess.read C K f t sid s)).2 = (w.read t sid f).2 ∧
      Rel K L t (opened hs (Sess.read C K f t sid s)).1.1 (opened hs (Sess.read C K f t sid s)).1.2
        (w.read t sid f).1 := by
  have hv := h.view_seen hg
  unfold Spec.World.read
  cases f with
  | lost => exact ⟨rfl, h⟩
  | late =>
    have : Sess.read C K .late t sid s = (s, .error .cache) := by
      unfold Sess.read; simp only [call]; rw [L.get_spec s t sid hg]
    rw [this]; exact ⟨rfl, h⟩
  | none =>
    rw [if_neg (by simp)]
    cases hw : w.seen t sid with
    | none =>
      rw [hw] at hv
      have : Sess.read C K .none t sid s = (s, .error .notFound) := by
        unfold Sess.read; simp only [call]; rw [L.get_spec s t sid hg, hv]
      rw [this]; exact ⟨rfl, h⟩
    | some vs =>
      rw [hw] at hv
      obtain ⟨b, h1, h2⟩ := hv
      have : Sess.read C K .none t sid s = (s, .ok ⟨sid, vs, false, false⟩) := by
        unfold Sess.read; simp only [call]; rw [L.get_spec s t sid hg, h2]
        show (match K.unmarshal b with | none => _ | some vs => _) = _
        rw [hK vs b h1]
      rw [this]
      refine ⟨rfl, h.stores' ?_ (ids_append h.ids hg)⟩
      show _ = (hs ++ [(⟨sid, vs, false, false⟩ : Handle V)]).map ofHandle
      rw [h.stores, List.map_append]; rfl

/-- One call. -/
theorem step_rel (hK : K.Faithful) {t : Int} {hs : List (Handle V)} {s : σ} {w : Spec.World V}
    (h : Rel K L t hs s w) (op : WOp V) (hu : Spec.UsesGood good op)
    (hT : L.TouchStrict ∨ ∀ i f, op ≠ .touch i f) :
    (wstep C K cfg t op hs s).2 =
        (w.step (fun vs => ∃ b, K.marshal vs = some b) (cfg.sessionExpire * second) t op).2 ∧
      Rel K L t (wstep C K cfg t op hs s).1.1 (wstep C K cfg t op hs s).1.2
        (w.step (fun vs => ∃ b, K.marshal vs = some b) (cfg.sessionExpire * second) t op).1 := by
  have hget : ∀ i : Nat, w.stores[i]? = hs[i]?.map ofHandle := by
    intro i; rw [h.stores, List.getElem?_map]
  cases op with
  | create sid ps =>
    refine ⟨rfl, h.stores' ?_ (ids_append h.ids hu)⟩
    show _ = (hs ++ [Sess.create sid ps]).map ofHandle
    rw [h.stores, List.map_append]
    congr 1
    simp only [List.map_cons, List.map_nil, ofHandle, Sess.create]
    cases ps with
    | nil => simp
    | cons _ _ => simp
  | read sid f => exact h.read hK hu f
  | set i k v =>
    refine ⟨rfl, h.stores' ?_ (ids_modify h.ids (fun _ => rfl))⟩
    rw [h.stores]; exact map_modify_of (fun _ => rfl)
  | delete i k =>
    refine ⟨rfl, h.stores' ?_ (ids_modify h.ids (fun _ => rfl))⟩
    rw [h.stores]; exact map_modify_of (fun _ => rfl)
  | clean i =>
    refine ⟨rfl, h.stores' ?_ (ids_modify h.ids (fun _ => rfl))⟩
    rw [h.stores]; exact map_modify_of (fun _ => rfl)
  | get i k =>
    refine ⟨?_, h⟩
    show WObs.value (hs[i]?.bind (·.get k)) = WObs.value (w.stores[i]?.bind (·.values k))
    rw [hget i]
    cases hs[i]? <;> rfl
  | flush i f =>
    simp only [wstep, Spec.World.step]
    rw [hget i]
    cases hi : hs[i]? with
    | none => exact ⟨rfl, h⟩
    | some x =>
      have hgx := h.ids i x hi
      simp only [Option.map_some]
      by_cases hc : x.closed = true ∨ x.changed = false
      · rw [if_pos (show (ofHandle x).dead = true ∨ (ofHandle x).dirty = false from hc)]
        have hfl : Sess.flush C K cfg f t x s = (x, s, none) := by
          unfold Sess.flush
          by_cases h1 : x.closed = true
          · rw [if_pos h1]
          · rw [if_neg h1, if_pos (hc.resolve_left h1)]
        rw [hfl]
        refine ⟨rfl, ?_⟩
        have : hs.set i x = hs := by
          apply List.ext_getElem?
          intro j
          rw [List.getElem?_set]
          by_cases e : i = j
          · subst e
            have hl : i < hs.length := by
              by_cases hl : i < hs.length
              · exact hl
              · rw [List.getElem?_eq_none (by omega)] at hi; cases hi
            rw [if_pos rfl, if_pos hl, hi]
          · rw [if_neg e]
        rw [this]; exact h
      · rw [if_neg (show ¬ ((ofHandle x).dead = true ∨ (ofHandle x).dirty = false) from hc)]
        simp only [not_or, Bool.not_eq_true, Bool.not_eq_false] at hc
        have hfl : Sess.flush C K cfg f t x s =
            ({ x with changed := false }, (Sess.save C K cfg f t x s).1, (Sess.save C K cfg f t x s).2) := by
          unfold Sess.flush
          rw [if_neg (by rw [hc.1]; simp), if_neg (by rw [hc.2]; simp)]
        rw [hfl]
        have hset : w.stores.set i { ofHandle x with dirty := false } =
            (hs.set i { x with changed := false }).map ofHandle := by
          rw [h.stores]; exact map_set_of rfl
        have hids := ids_set (i := i) (x := { x with changed := false }) h.ids hgx
        cases hm : K.marshal x.values with
        | none =>
          rw [if_pos (show ¬ ∃ b, K.marshal (ofHandle x).values = some b from by
            show ¬ ∃ b, K.marshal x.values = some b
            rw [hm]; simp)]
          have hsv : Sess.save C K cfg f t x s = (s, some .conv) := by
            unfold Sess.save; rw [hm]
          rw [hsv]
          exact ⟨rfl, h.stores' hset hids⟩
        | some b =>
          rw [if_neg (show ¬ ¬ ∃ b, K.marshal (ofHandle x).values = some b from by
            show ¬ ¬ ∃ b, K.marshal x.values = some b
            rw [hm]; simp)]
          have hsv : Sess.save C K cfg f t x s =
              ((call C f t (.set x.sid (.bytes b) [cfg.sessionExpire]) s).1,
                outErr (call C f t (.set x.sid (.bytes b) [cfg.sessionExpire]) s).2) := by
            unfold Sess.save; rw [hm]
          rw [hsv]
          refine ⟨?_, ?_⟩
          · simp only []
            rw [outErr_call_set f t x.sid (.bytes b) s hgx L]
          · have h' := h.stores' hset hids
            have key := h'.set (sid := x.sid) hgx hm (v := .bytes b) rfl
            cases f with
            | none => exact key
            | late => exact key
            | lost => exact h'
  | touch i f =>
    have hT : L.TouchStrict := hT.resolve_right (fun hn => hn i f rfl)
    simp only [wstep, Spec.World.step]
    rw [hget i]
    cases hi : hs[i]? with
    | none => exact ⟨rfl, h⟩
    | some x =>
      have hgx := h.ids i x hi
      have := h.touch hgx hT f
      simp only [Option.map_some]
      have e : (ofHandle x).sid = x.sid := rfl
      rw [e]
      cases hw : w.seen t x.sid with
      | none => rw [hw] at this; exact ⟨rfl, this⟩
      | some vs => rw [hw] at this; exact ⟨rfl, this⟩
  | destroy i f =>
    simp only [wstep, Spec.World.step]
    rw [hget i]
    cases hi : hs[i]? with
    | none => exact ⟨rfl, h⟩
    | some x =>
      have hgx := h.ids i x hi
      refine ⟨rfl, ?_⟩
      have hset : w.stores.set i { ofHandle x with dead := true, values := fun _ => none } =
          (hs.set i { x with closed := true, values := fun _ => none }).map ofHandle := by
        rw [h.stores]; exact map_set_of rfl
      have hids := ids_set (i := i) (x := { x with closed := true, values := fun _ => none }) h.ids hgx
      exact (h.stores' hset hids).delete hgx f
  | destroyId sid f => exact ⟨rfl, h.delete hu f⟩
  | regenerate old sid fg fs fd fr =>
    obtain ⟨ho, hn⟩ := hu
    have hv := h.view_seen ho
    simp only [wstep, Spec.World.step]
    cases fg with
    | lost => exact ⟨rfl, h⟩
    | late =>
      have : Sess.regenerate C K cfg .late fs fd fr t old sid s = (s, .error .cache) := by
        unfold Sess.regenerate; simp only [call]; rw [L.get_spec s t old ho]
      rw [this]; exact ⟨rfl, h⟩
    | none =>
      rw [if_neg (by simp)]
      cases hw : w.seen t old with
      | none =>
        rw [hw] at hv
        have : Sess.regenerate C K cfg .none fs fd fr t old sid s = (s, .error .notFound) := by
          unfold Sess.regenerate; simp only [call]; rw [L.get_spec s t old ho, hv]
        rw [this]; exact ⟨rfl, h⟩
      | some vs =>
        rw [hw] at hv
        obtain ⟨b, h1, h2⟩ := hv
        have key := h.set (sid := sid) hn h1 (v := .text b) rfl
        simp only []
        cases fs with
        | lost =>
          have : Sess.regenerate C K cfg .none .lost fd fr t old sid s = (s, .error .cache) := by
            unfold Sess.regenerate; simp only [call]; rw [L.get_spec s t old ho, h2]
          rw [this]; exact ⟨rfl, h⟩
        | late =>
          have : Sess.regenerate C K cfg .none .late fd fr t old sid s =
              ((C.step t (.set sid (.text b) [cfg.sessionExpire]) s).1, .error .cache) := by
            unfold Sess.regenerate; simp only [call]; rw [L.get_spec s t old ho, h2]
          rw [this]; exact ⟨rfl, key⟩
        | none =>
          have hset : C.step t (.set sid (.text b) [cfg.sessionExpire]) s =
              ((C.step t (.set sid (.text b) [cfg.sessionExpire]) s).1, .ok) := by
            rw [← L.set_out s t sid (.text b) hn]
          have : Sess.regenerate C K cfg .none .none fd fr t old sid s =
              Sess.read C K fr t sid (destroySid C fd t old
                (C.step t (.set sid (.text b) [cfg.sessionExpire]) s).1).1 := by
            unfold Sess.regenerate; simp only [call]; rw [L.get_spec s t old ho, h2]
            simp only []
            rw [hset]
          rw [this, if_neg (show ¬ (Fault.none ≠ Fault.none) from fun h => h rfl)]
          exact (key.delete ho fd).read hK hn fr

/-- **C105**: for every history of calls on any number of session stores over one cache, with failing calls
anywhere, everything the callers see (what reading a session gives, the values in the stores, the results of
flushes) is what the abstract table of sessions says. The cache may be any session cache; it starts without
sessions. Touching needs a cache where touching a missing key creates nothing. -/
theorem C105_sessions_refine (hK : K.Faithful) (hist : List (Int × WOp V)) (t0 : Int) (s : σ)
    (h0 : ∀ sid t, good sid → t0 ≤ t → L.view s t sid = none)
    (ho : Spec.Ordered t0 hist) (hg : ∀ x ∈ hist, Spec.UsesGood good x.2)
    (hT : L.TouchStrict ∨ ∀ x ∈ hist, ∀ i f, x.2 ≠ .touch i f) :
    wrun C K cfg hist [] s =
      Spec.World.run (fun vs => ∃ b, K.marshal vs = some b) (cfg.sessionExpire * second) hist
        ⟨[], fun _ => none⟩ := by
  have gen : ∀ (hist : List (Int × WOp V)) (t0 : Int) (hs : List (Handle V)) (s : σ) (w : Spec.World V),
      Rel K L t0 hs s w → Spec.Ordered t0 hist → (∀ x ∈ hist, Spec.UsesGood good x.2) →
      (L.TouchStrict ∨ ∀ x ∈ hist, ∀ i f, x.2 ≠ .touch i f) →
      wrun C K cfg hist hs s =
        Spec.World.run (fun vs => ∃ b, K.marshal vs = some b) (cfg.sessionExpire * second) hist w := by
    intro hist
    induction hist with
    | nil => intros; rfl
    | cons x r ih =>
      intro t0 hs s w hR ho hg hT
      obtain ⟨t, op⟩ := x
      obtain ⟨h1, h2⟩ := step_rel hK (hR.later ho.1) op (hg (t, op) (by simp))
        (hT.imp id (fun h => h (t, op) (by simp)))
      simp only [wrun, Spec.World.run]
      rw [h1, ih t _ _ _ h2 ho.2 (fun x hx => hg x (by simp [hx])) (hT.imp id (fun h x hx => h x (by simp [hx])))]
  exact gen hist t0 [] s _ ⟨rfl, by simp, fun sid hgs t' a => h0 sid t' hgs a⟩ ho hg hT

end

/-! ## The three caches -/

theorem redis_touchStrict (pre : Str) {E : Int} (h0 : 0 < E) (h : E ≤ 9223372036) :
    (redisLawful pre h0 h).TouchStrict := by
  intro s t k t' _ hv ht
  show srvView pre (Cache.redis pre t (.touch k [E]) s).1 t' k = none
  have hl : Cache.live s t (pre ++ k) = none := by
    have : (Cache.live s t (pre ++ k)).map (·.1) = none := hv
    simpa using this
  have hs : (Cache.redis pre t (.touch k [E]) s).1 = s := by
    simp only [Cache.redis, hl]
    split <;> rfl
  rw [hs]
  unfold srvView
  rw [live_none_later hl ht]; rfl

theorem memcache_touchStrict (pre : Str) {E : Int} (h0 : 0 < E) (h : E ≤ 2592000) :
    (memcacheLawful pre h0 h).TouchStrict := by
  intro s t k t' hk hv ht
  show srvView pre (Cache.memcache pre t (.touch k [E]) s).1 t' k = none
  have hl : Cache.live s t (pre ++ k) = none := by
    have : (Cache.live s t (pre ++ k)).map (·.1) = none := hv
    simpa using this
  simp only [Cache.memcache, hk, if_true, hl]
  unfold srvView
  rw [live_none_later hl ht]; rfl

section
variable {V : Type} {K : Conv V} {cfg : Config}

/-- **C105** for redis. -/
theorem C105_sessions_redis (pre : Str) (hE : 0 < cfg.sessionExpire) (hE2 : cfg.sessionExpire ≤ 9223372036)
    (hK : K.Faithful) (hist : List (Int × WOp V)) (t0 : Int) (ho : Spec.Ordered t0 hist) :
    wrun ⟨Cache.redis pre⟩ K cfg hist [] (fun _ => none) =
      Spec.World.run (fun vs => ∃ b, K.marshal vs = some b) (cfg.sessionExpire * 1000000000) hist
        ⟨[], fun _ => none⟩ :=
  C105_sessions_refine (L := redisLawful pre hE hE2) hK hist t0 _ (fun _ _ _ _ => rfl) ho
    (fun x _ => by cases x.2 <;> simp [Spec.UsesGood]) (Or.inl (redis_touchStrict pre hE hE2))

/-- **C105** for memcached: expiry at most 30 days, legal keys. -/
theorem C105_sessions_memcache (pre : Str) (hE : 0 < cfg.sessionExpire) (hE2 : cfg.sessionExpire ≤ 2592000)
    (hK : K.Faithful) (hist : List (Int × WOp V)) (t0 : Int) (ho : Spec.Ordered t0 hist)
    (hg : ∀ x ∈ hist, Spec.UsesGood (fun k => Cache.legalKey (pre ++ k) = true) x.2) :
    wrun ⟨Cache.memcache pre⟩ K cfg hist [] (fun _ => none) =
      Spec.World.run (fun vs => ∃ b, K.marshal vs = some b) (cfg.sessionExpire * 1000000000) hist
        ⟨[], fun _ => none⟩ :=
  C105_sessions_refine (L := memcacheLawful pre hE hE2) hK hist t0 _ (fun _ _ _ _ => rfl) ho hg
    (Or.inl (memcache_touchStrict pre hE hE2))

/-- **C105** for MongoDB: without touch (touching an expired session brings it back there, C42). -/
theorem C105_sessions_mgo (ae : Bool) (hE : 0 < cfg.sessionExpire) (hE2 : cfg.sessionExpire ≤ 9223372036)
    (hK : K.Faithful) (hist : List (Int × WOp V)) (t0 : Int) (ho : Spec.Ordered t0 hist)
    (hT : ∀ x ∈ hist, ∀ i f, x.2 ≠ .touch i f) :
    wrun ⟨Cache.mgo ae⟩ K cfg hist [] (fun _ => none) =
      Spec.World.run (fun vs => ∃ b, K.marshal vs = some b) (cfg.sessionExpire * 1000000000) hist
        ⟨[], fun _ => none⟩ :=
  C105_sessions_refine (L := mgoLawful ae hE hE2) hK hist t0 _ (fun _ _ _ _ => rfl) ho
    (fun x _ => by cases x.2 <;> simp [Spec.UsesGood]) (Or.inr hT)
end

/-! ## Example: the last flush wins, as a whole -/

/-- Two requests of one session: both read it, each sets a different key, both flush. The update of the first to
flush is lost. -/
def lostUpdate (a b : Str) : List (Int × WOp Str) :=
  [(1, .create b!"S" [fun _ => none]), (2, .flush 0 .none), (3, .read b!"S" .none), (3, .read b!"S" .none),
   (4, .set 1 a b!"x"), (5, .set 2 b b!"y"), (6, .flush 1 .none), (7, .flush 2 .none), (8, .read b!"S" .none),
   (9, .get 3 a), (9, .get 3 b)]

example (a b : Str) (h : a ≠ b) (savable : (Str → Option Str) → Prop) (hs : ∀ vs, savable vs) :
    (Spec.World.run savable 100 (lostUpdate a b) ⟨[], fun _ => none⟩)[9]? = some (.value none) ∧
    (Spec.World.run savable 100 (lostUpdate a b) ⟨[], fun _ => none⟩)[10]? = some (.value (some b!"y")) := by
  constructor
  · simp [Spec.World.run, lostUpdate, Spec.World.step, Spec.World.read, Spec.World.seen, Spec.World.save, hs, h]
  · simp [Spec.World.run, lostUpdate, Spec.World.step, Spec.World.read, Spec.World.seen, Spec.World.save, hs]

example : Spec.Ordered 0 (lostUpdate b!"a" b!"b") := by simp [Spec.Ordered, lostUpdate]

end Verif.Sess
