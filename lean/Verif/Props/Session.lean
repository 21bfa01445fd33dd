import Verif.Props.SessionCache
import Verif.Props.Cookie
/-!
# C33–C36: sessions

The theorems are about any cache that satisfies `Lawful` (`Props/SessionCache.lean` shows it of redis,
memcached and MongoDB) and any converter that reads back what it wrote.
-/
namespace Verif.Sess
open Verif.Go
open Verif.Cache (Op Out Val toStr second)

/-! ## Histories of one session store -/

/-- What can happen while a session store is open: calls on it (the networked ones may fail), and calls of
anybody else on the cache. -/
inductive HOp (V : Type) where
  | set (k : Str) (v : V)
  | delete (k : Str)
  | clean
  | flush (f : Fault)
  | touch (f : Fault)
  | destroy (f : Fault)
  | other (o : Op)

/-- One event at time `t`; the third component is the error returned, if any. -/
def hstep {σ V : Type} (C : CacheApi σ) (K : Conv V) (cfg : Config) (t : Int) (e : HOp V)
    (st : Handle V × σ) : (Handle V × σ) × Option SErr :=
  match e with
  | .set k v => ((st.1.set k v, st.2), none)
  | .delete k => ((st.1.delete k, st.2), none)
  | .clean => ((st.1.clean, st.2), none)
  | .flush f =>
    let r := flush C K cfg f t st.1 st.2
    ((r.1, r.2.1), r.2.2)
  | .touch f =>
    let r := touch C cfg f t st.1 st.2
    ((st.1, r.1), r.2)
  | .destroy f =>
    let r := destroy C f t st.1 st.2
    ((r.1, r.2.1), r.2.2)
  | .other o => ((st.1, (C.step t o st.2).1), none)

/-- A history: events with their times. -/
def hrun {σ V : Type} (C : CacheApi σ) (K : Conv V) (cfg : Config) :
    List (Int × HOp V) → Handle V × σ → Handle V × σ
  | [], st => st
  | (t, e) :: h, st => hrun C K cfg h (hstep C K cfg t e st).1

/-- Every flush of the history returned no error. -/
def FlushesOk {σ V : Type} (C : CacheApi σ) (K : Conv V) (cfg : Config) :
    List (Int × HOp V) → Handle V × σ → Prop
  | [], _ => True
  | (t, e) :: h, st =>
    (match e with
      | .flush _ => (hstep C K cfg t e st).2 = none
      | _ => True) ∧ FlushesOk C K cfg h (hstep C K cfg t e st).1

/-! ### Specification -/

/-- What an event says about key `k`: `some (some v)` it now has value `v`, `some none` it now has none,
`none` it is not about `k`. -/
def Spec.says {V : Type} (k : Str) : HOp V → Option (Option V)
  | .set k' v => if k' = k then some (some v) else none
  | .delete k' => if k' = k then some none else none
  | .clean => some none
  | .destroy _ => some none
  | _ => none

/-- The last thing said about `k`, or the initial value. -/
def Spec.lastSaid {V : Type} (h : List (Int × HOp V)) (init : Str → Option V) (k : Str) : Option V :=
  ((h.reverse.findSome? (fun e => Spec.says k e.2)).getD (init k))

/-- The times do not go backwards and lie in `[t0, d)`. -/
def Spec.Within {V : Type} : Int → Int → List (Int × HOp V) → Prop
  | t0, d, [] => t0 < d
  | t0, d, (t, _) :: h => t0 ≤ t ∧ Spec.Within t d h

/-- Nobody else touches this session id, or empties the cache. -/
def Spec.Undisturbed {V : Type} (sid : Str) (h : List (Int × HOp V)) : Prop :=
  ∀ t o, (t, HOp.other o) ∈ h → o ≠ .clean ∧ Cache.Spec.keyOf o ≠ some sid

/-- No destroy in the history. -/
def Spec.NoDestroy {V : Type} (h : List (Int × HOp V)) : Prop := ∀ t f, (t, HOp.destroy f) ∉ h

/-- The converter reads back what it wrote. -/
def Conv.Faithful {V : Type} (K : Conv V) : Prop := ∀ vs b, K.marshal vs = some b → K.unmarshal b = some vs

/-! ## C33: the store is a map -/

section
variable {σ V : Type} (C : CacheApi σ) (K : Conv V) (cfg : Config)

theorem flush_values (f : Fault) (t : Int) (h : Handle V) (s : σ) :
    (flush C K cfg f t h s).1.values = h.values ∧ (flush C K cfg f t h s).1.sid = h.sid ∧
      (flush C K cfg f t h s).1.closed = h.closed := by
  unfold flush
  split
  · exact ⟨rfl, rfl, rfl⟩
  · split <;> exact ⟨rfl, rfl, rfl⟩

theorem hstep_values (t : Int) (e : HOp V) (st : Handle V × σ) (k : Str) :
    (hstep C K cfg t e st).1.1.values k = (Spec.says k e).getD (st.1.values k) := by
  cases e with
  | set k' v =>
    simp only [hstep, Handle.set, Cache.upd, Spec.says]
    by_cases h : k = k'
    · simp [h]
    · have h' : ¬ k' = k := fun e => h (Eq.symm e)
      simp [h, h']
  | delete k' =>
    simp only [hstep, Handle.delete, Cache.upd, Spec.says]
    by_cases h : k = k'
    · simp [h]
    · have h' : ¬ k' = k := fun e => h (Eq.symm e)
      simp [h, h']
  | clean => rfl
  | flush f => simp only [hstep, Spec.says, (flush_values C K cfg f t st.1 st.2).1]; rfl
  | touch f => rfl
  | destroy f => rfl
  | other o => rfl

/-- **C33** (in memory). Whatever the history of a session store (modifications, flushes and touches that work
or fail, other users of the cache), `Get k` gives the last value set for `k`, unless it was deleted (or
everything was cleaned or destroyed) since; when nothing was said about `k`, the value it had at first. -/
theorem C33_get_last_set (h : List (Int × HOp V)) (st : Handle V × σ) (k : Str) :
    (hrun C K cfg h st).1.get k = Spec.lastSaid h st.1.values k := by
  unfold Spec.lastSaid Handle.get
  induction h generalizing st with
  | nil => rfl
  | cons x h ih =>
    obtain ⟨t, e⟩ := x
    simp only [hrun, List.reverse_cons, List.findSome?_append]
    rw [ih, hstep_values]
    cases (h.reverse.findSome? (fun e => Spec.says k e.2)) with
    | some v => rfl
    | none =>
      cases hs : Spec.says k e <;> simp [hs]

/-- `Has` agrees with `Get`. -/
theorem C33_has_iff_get (h : Handle V) (k : Str) : h.has k = true ↔ ∃ v, h.get k = some v := by
  unfold Handle.has Handle.get
  rw [Option.isSome_iff_exists]

/-- The session id never changes. -/
theorem C33_sid_constant (h : List (Int × HOp V)) (st : Handle V × σ) : (hrun C K cfg h st).1.sid = st.1.sid := by
  induction h generalizing st with
  | nil => rfl
  | cons x h ih =>
    obtain ⟨t, e⟩ := x
    simp only [hrun]
    rw [ih]
    cases e with
    | flush f => exact (flush_values C K cfg f t st.1 st.2).2.1
    | _ => rfl

/-! ### in the backend -/

variable {C cfg}
variable {good : Str → Prop} (L : Lawful C cfg.sessionExpire good)
include L

/-- The backend holds these values under this id, to be seen from `t` until `d`. -/
def Lawful.Holds (K : Conv V) (s : σ) (t d : Int) (sid : Str) (vs : Str → Option V) : Prop :=
  ∃ b, K.marshal vs = some b ∧ ∀ t', t ≤ t' → t' < d → L.view s t' sid = some b

theorem Lawful.Holds.later {s : σ} {t t1 d : Int} {sid : Str} {vs : Str → Option V}
    (h : L.Holds K s t d sid vs) (ht : t ≤ t1) : L.Holds K s t1 d sid vs := by
  obtain ⟨b, h1, h2⟩ := h
  exact ⟨b, h1, fun t' a b => h2 t' (by omega) b⟩

omit L in
theorem toStr_bytes (b : Str) : toStr (.bytes b) = b := rfl

/-- A save whose call is carried out makes the backend hold the values. -/
theorem save_holds {h : Handle V} (hg : good h.sid) (f : Fault) (t : Int) (s : σ)
    (hok : (save C K cfg f t h s).2 = none) :
    L.Holds K (save C K cfg f t h s).1 t (t + cfg.sessionExpire * second) h.sid h.values := by
  unfold save at hok ⊢
  cases hm : K.marshal h.values with
  | none => rw [hm] at hok; cases hok
  | some b =>
    rw [hm] at hok
    simp only at hok ⊢
    cases f with
    | lost => cases hok
    | late => cases hok
    | none =>
      refine ⟨b, hm, fun t' h1 h2 => ?_⟩
      simp only [call]
      rw [L.set_view s t h.sid (.bytes b) t' hg h1, if_pos h2, toStr_bytes]

/-- One event keeps "flushed means held", as long as flushes do not fail. -/
theorem hstep_holds {d : Int} {t t1 : Int} (e : HOp V) (st : Handle V × σ) (ht : t ≤ t1) (hd : t1 < d)
    (hdE : d ≤ t + cfg.sessionExpire * second)
    (hg : good st.1.sid) (hc : st.1.closed = false)
    (hnd : ∀ f, e ≠ .destroy f)
    (hu : ∀ o, e = .other o → o ≠ .clean ∧ Cache.Spec.keyOf o ≠ some st.1.sid)
    (hf : ∀ f, e = .flush f → (hstep C K cfg t1 e st).2 = none)
    (hi : st.1.changed = false → L.Holds K st.2 t d st.1.sid st.1.values) :
    (hstep C K cfg t1 e st).1.1.sid = st.1.sid ∧ (hstep C K cfg t1 e st).1.1.closed = false ∧
      ((hstep C K cfg t1 e st).1.1.changed = false →
        L.Holds K (hstep C K cfg t1 e st).1.2 t1 d st.1.sid (hstep C K cfg t1 e st).1.1.values) := by
  obtain ⟨h, s⟩ := st
  simp only at hg hc hu hi
  cases e with
  | set k v => exact ⟨rfl, hc, fun hx => by cases hx⟩
  | delete k => exact ⟨rfl, hc, fun hx => by cases hx⟩
  | clean => exact ⟨rfl, hc, fun hx => by cases hx⟩
  | flush f =>
    refine ⟨(flush_values C K cfg f t1 h s).2.1, ?_, ?_⟩
    · show (flush C K cfg f t1 h s).1.closed = false
      rw [(flush_values C K cfg f t1 h s).2.2, hc]
    · intro _
      have ho := hf f rfl
      simp only [hstep] at ho ⊢
      rw [(flush_values C K cfg f t1 h s).1]
      unfold flush at ho ⊢
      simp only [hc, Bool.false_eq_true, if_false] at ho ⊢
      by_cases hch : h.changed = false
      · rw [if_pos hch] at ho ⊢
        exact (hi hch).later K L ht
      · rw [if_neg hch] at ho ⊢
        simp only at ho ⊢
        obtain ⟨b, h1, h2⟩ := save_holds K L hg f t1 s ho
        exact ⟨b, h1, fun t' a b => h2 t' a (by omega)⟩
  | touch f =>
    refine ⟨rfl, hc, fun hx => ?_⟩
    obtain ⟨b, h1, h2⟩ := hi hx
    refine ⟨b, h1, fun t' a c => ?_⟩
    have hb := h2 t1 ht hd
    have key : L.view (C.step t1 (.touch h.sid [cfg.sessionExpire]) s).1 t' h.sid = some b := by
      rw [L.touch_view s t1 h.sid b t' hg hb a, if_pos (by omega)]
    simp only [hstep, touch]
    cases f with
    | none => exact key
    | late => exact key
    | lost => exact h2 t' (by omega) c
  | destroy f => exact absurd rfl (hnd f)
  | other o =>
    obtain ⟨h1, h2⟩ := hu o rfl
    refine ⟨rfl, hc, fun hx => ?_⟩
    obtain ⟨b, h3, h4⟩ := hi hx
    refine ⟨b, h3, fun t' a c => ?_⟩
    simp only [hstep]
    rw [L.frame_view s t1 o h.sid t' h1 h2 a]
    exact h4 t' (by omega) c

theorem hrun_holds {d : Int} : ∀ (h : List (Int × HOp V)) (t : Int) (st : Handle V × σ),
    Spec.Within t d h → d ≤ t + cfg.sessionExpire * second → good st.1.sid → st.1.closed = false →
    Spec.Undisturbed st.1.sid h → Spec.NoDestroy h → FlushesOk C K cfg h st →
    (st.1.changed = false → L.Holds K st.2 t d st.1.sid st.1.values) →
    ∀ t1, (∀ x ∈ h, x.1 ≤ t1) → t ≤ t1 →
    (hrun C K cfg h st).1.closed = false ∧
      ((hrun C K cfg h st).1.changed = false →
        L.Holds K (hrun C K cfg h st).2 t1 d st.1.sid (hrun C K cfg h st).1.values)
  | [], t, st, _, _, _, hc, _, _, _, hi, t1, _, ht1 =>
    ⟨hc, fun hx => (hi hx).later K L ht1⟩
  | (u, e) :: h, t, st, hw, hdE, hg, hc, hu, hnd, hf, hi, t1, hb, ht1 => by
    simp only [hrun]
    have hud : u < d := by
      clear hdE hg hc hu hnd hf hi hb ht1
      have : ∀ (h : List (Int × HOp V)) (u : Int), Spec.Within u d h → u < d := by
        intro h
        induction h with
        | nil => intro u hw; exact hw
        | cons x h ih =>
          intro u hw
          obtain ⟨v, e⟩ := x
          have := ih v hw.2
          have := hw.1
          omega
      exact this h u hw.2
    obtain ⟨i1, i2, i3⟩ := hstep_holds K L e st hw.1 hud hdE hg hc
      (fun f hx => hnd u f (hx ▸ List.mem_cons_self ..))
      (fun o hx => hu u o (hx ▸ List.mem_cons_self ..))
      (fun f hx => by subst hx; exact hf.1) hi
    have := hrun_holds h u (hstep C K cfg u e st).1 hw.2 (by have := hw.1; omega) (by rw [i1]; exact hg) i2
      (by rw [i1]; exact fun t o hm => hu t o (List.mem_cons_of_mem _ hm))
      (fun t f hm => hnd t f (List.mem_cons_of_mem _ hm)) hf.2
      (by rw [i1]; exact i3) t1 (fun x hx => hb x (List.mem_cons_of_mem _ hx)) (hb _ (List.mem_cons_self ..))
    rw [i1] at this
    exact this

/-- Reading what the backend holds gives a session store with those values. -/
theorem read_holds (hK : K.Faithful) {s : σ} {t d : Int} {sid : Str} {vs : Str → Option V} (hg : good sid)
    (h : L.Holds K s t d sid vs) (hd : t < d) :
    read C K .none t sid s = (s, .ok { sid := sid, values := vs, changed := false, closed := false }) := by
  obtain ⟨b, h1, h2⟩ := h
  unfold read
  simp only [call]
  rw [L.get_spec s t sid hg, h2 t (Int.le_refl t) hd]
  simp only [hK vs b h1]

/-- After a history that ends with a successful flush the backend holds the values of the store. -/
theorem flushed_holds (h : List (Int × HOp V)) (t0 t1 : Int) (st : Handle V × σ)
    (hg : good st.1.sid) (hc : st.1.closed = false)
    (hstart : st.1.changed = true ∨
      L.Holds K st.2 t0 (t0 + cfg.sessionExpire * second) st.1.sid st.1.values)
    (f : Fault)
    (hw : Spec.Within t0 (t0 + cfg.sessionExpire * second) (h ++ [(t1, .flush f)]))
    (hu : Spec.Undisturbed st.1.sid h) (hnd : Spec.NoDestroy h)
    (hok : FlushesOk C K cfg (h ++ [(t1, .flush f)]) st) :
    L.Holds K (hrun C K cfg (h ++ [(t1, .flush f)]) st).2 t1 (t0 + cfg.sessionExpire * second) st.1.sid
      (hrun C K cfg (h ++ [(t1, .flush f)]) st).1.values := by
  have hbound : ∀ (h : List (Int × HOp V)) (t0 d : Int), Spec.Within t0 d (h ++ [(t1, .flush f)]) →
      t0 ≤ t1 ∧ ∀ x ∈ h, x.1 ≤ t1 := by
    intro h
    induction h with
    | nil => intro t0 d hw; exact ⟨hw.1, fun x hx => by cases hx⟩
    | cons x h ih =>
      intro t0 d hw
      obtain ⟨u, e⟩ := x
      obtain ⟨i1, i2⟩ := ih u d hw.2
      refine ⟨by have := hw.1; omega, fun x hx => ?_⟩
      rcases List.mem_cons.1 hx with rfl | hx
      · exact i1
      · exact i2 x hx
  obtain ⟨hb1, hb2⟩ := hbound h t0 _ hw
  have hlast : (hrun C K cfg (h ++ [(t1, .flush f)]) st).1.changed = false ∨
      (hrun C K cfg (h ++ [(t1, .flush f)]) st).1.closed = true := by
    have : ∀ (h : List (Int × HOp V)) (st : Handle V × σ),
        hrun C K cfg (h ++ [(t1, .flush f)]) st = (hstep C K cfg t1 (.flush f) (hrun C K cfg h st)).1 := by
      intro h
      induction h with
      | nil => intro st; rfl
      | cons x h ih => intro st; obtain ⟨u, e⟩ := x; simp only [List.cons_append, hrun]; exact ih _
    rw [this]
    simp only [hstep, flush]
    split
    · right; assumption
    · split
      · left; assumption
      · left; rfl
  have hi : st.1.changed = false →
      L.Holds K st.2 t0 (t0 + cfg.sessionExpire * second) st.1.sid st.1.values := by
    intro hx
    rcases hstart with hy | hy
    · rw [hx] at hy; cases hy
    · exact hy
  obtain ⟨j1, j2⟩ := hrun_holds K L (h ++ [(t1, .flush f)]) t0 st hw (Int.le_refl _) hg hc
    (fun t o hm => by
      rcases List.mem_append.1 hm with hm | hm
      · exact hu t o hm
      · simp at hm)
    (fun t f' hm => by
      rcases List.mem_append.1 hm with hm | hm
      · exact hnd t f' hm
      · simp at hm) hok hi t1
    (fun x hx => by
      rcases List.mem_append.1 hx with hx | hx
      · exact hb2 x hx
      · simp only [List.mem_singleton] at hx; rw [hx]; exact Int.le_refl _) hb1
  have hch : (hrun C K cfg (h ++ [(t1, .flush f)]) st).1.changed = false := by
    rcases hlast with hx | hx
    · exact hx
    · rw [j1] at hx; cases hx
  exact j2 hch

/-- **C33** (round trip through the backend). A session store starts modified (as `Create` with values makes
it) or holding what is in the backend (as `Read` makes it). After any history of calls within its expiry time
in which the flushes return no error and nobody else uses its id, and a last flush that returns no error,
reading the session id back within the expiry time gives exactly the values the store had. -/
theorem C33_flush_read_back (hK : K.Faithful) (h : List (Int × HOp V)) (t0 t1 t2 : Int) (st : Handle V × σ)
    (hg : good st.1.sid) (hc : st.1.closed = false)
    (hstart : st.1.changed = true ∨
      L.Holds K st.2 t0 (t0 + cfg.sessionExpire * second) st.1.sid st.1.values)
    (f : Fault)
    (hw : Spec.Within t0 (t0 + cfg.sessionExpire * second) (h ++ [(t1, .flush f)]))
    (hu : Spec.Undisturbed st.1.sid h) (hnd : Spec.NoDestroy h)
    (hok : FlushesOk C K cfg (h ++ [(t1, .flush f)]) st)
    (h12 : t1 ≤ t2) (h2 : t2 < t0 + cfg.sessionExpire * second) :
    ∃ hd, read C K .none t2 st.1.sid (hrun C K cfg (h ++ [(t1, .flush f)]) st).2 =
        ((hrun C K cfg (h ++ [(t1, .flush f)]) st).2, .ok hd) ∧
      hd.sid = st.1.sid ∧ hd.changed = false ∧ hd.closed = false ∧
      ∀ k, hd.get k = Spec.lastSaid h st.1.values k := by
  have hh := flushed_holds K L h t0 t1 st hg hc hstart f hw hu hnd hok
  refine ⟨_, read_holds K L hK hg (hh.later K L h12) h2, rfl, rfl, rfl, fun k => ?_⟩
  show (hrun C K cfg (h ++ [(t1, .flush f)]) st).1.get k = _
  rw [C33_get_last_set]
  unfold Spec.lastSaid
  simp [Spec.says]

/-- **C33** (sliding expiry). Touching a held session keeps its values for a whole expiry period more. -/
theorem C33_touch_extends (h : Handle V) (s : σ) (t t0 d : Int) (hg : good h.sid) (h0 : t0 ≤ t) (hd : t < d)
    (hh : L.Holds K s t0 d h.sid h.values) :
    L.Holds K (touch C cfg .none t h s).1 t (t + cfg.sessionExpire * second) h.sid h.values := by
  obtain ⟨b, h1, h2⟩ := hh
  refine ⟨b, h1, fun t' a c => ?_⟩
  simp only [touch, call]
  rw [L.touch_view s t h.sid b t' hg (h2 t h0 hd) a, if_pos c]

/-! ## C34: a destroyed session stays destroyed -/

/-- an event on a closed store of a gone session keeps it closed and gone -/
theorem hstep_gone {t t1 : Int} (e : HOp V) (st : Handle V × σ) (ht : t ≤ t1) (hg : good st.1.sid)
    (hc : st.1.closed = true) (hu : ∀ o, e = .other o → o ≠ .clean ∧ Cache.Spec.keyOf o ≠ some st.1.sid)
    (hgone : L.gone st.2 t st.1.sid) :
    (hstep C K cfg t1 e st).1.1.sid = st.1.sid ∧ (hstep C K cfg t1 e st).1.1.closed = true ∧
      L.gone (hstep C K cfg t1 e st).1.2 t1 st.1.sid := by
  obtain ⟨h, s⟩ := st
  simp only at hg hc hu hgone
  have hgone1 := L.gone_later s t h.sid t1 hgone ht
  cases e with
  | set k v => exact ⟨rfl, hc, hgone1⟩
  | delete k => exact ⟨rfl, hc, hgone1⟩
  | clean => exact ⟨rfl, hc, hgone1⟩
  | flush f =>
    simp only [hstep, flush, hc, if_true]
    exact ⟨trivial, trivial, hgone1⟩
  | touch f =>
    refine ⟨rfl, hc, ?_⟩
    simp only [hstep, touch]
    cases f with
    | none => exact L.gone_touch s t1 h.sid hg hgone1
    | late => exact L.gone_touch s t1 h.sid hg hgone1
    | lost => exact hgone1
  | destroy f =>
    refine ⟨rfl, rfl, ?_⟩
    simp only [hstep, destroy, destroySid]
    cases f with
    | none => exact L.delete_gone s t1 h.sid hg
    | late => exact L.delete_gone s t1 h.sid hg
    | lost => exact hgone1
  | other o =>
    obtain ⟨h1, h2⟩ := hu o rfl
    exact ⟨rfl, hc, L.frame_gone s t1 o h.sid h1 h2 hgone1⟩

theorem hrun_gone : ∀ (h : List (Int × HOp V)) (t d : Int) (st : Handle V × σ),
    Spec.Within t d h → good st.1.sid → st.1.closed = true → Spec.Undisturbed st.1.sid h →
    L.gone st.2 t st.1.sid → ∀ t1, (∀ x ∈ h, x.1 ≤ t1) → t ≤ t1 →
    L.gone (hrun C K cfg h st).2 t1 st.1.sid
  | [], t, _, st, _, _, _, _, hgone, t1, _, ht1 => L.gone_later _ _ _ _ hgone ht1
  | (u, e) :: h, t, d, st, hw, hg, hc, hu, hgone, t1, hb, ht1 => by
    simp only [hrun]
    obtain ⟨i1, i2, i3⟩ := hstep_gone K L e st hw.1 hg hc
      (fun o hx => hu u o (hx ▸ List.mem_cons_self ..)) hgone
    have := hrun_gone h u d (hstep C K cfg u e st).1 hw.2 (by rw [i1]; exact hg) i2
      (by rw [i1]; exact fun t o hm => hu t o (List.mem_cons_of_mem _ hm))
      (by rw [i1]; exact i3) t1 (fun x hx => hb x (List.mem_cons_of_mem _ hx)) (hb _ (List.mem_cons_self ..))
    rw [i1] at this
    exact this

/-- **C34** (through the store itself). A `Destroy` that returns no error, or only says that there was nothing
to destroy, leaves nothing under the session id; and whatever is done with that session store afterwards
(modifying it, flushing, touching or destroying it again, with any network failures) while others use other
ids, reading the id finds no session, at any later time. -/
theorem C34_destroyed_stays_destroyed_partial (h0 : Handle V) (s : σ) (t0 d : Int) (f : Fault) (hg : good h0.sid)
    (hok : (destroy C f t0 h0 s).2.2 = none ∨ (destroy C f t0 h0 s).2.2 = some .missed)
    (h : List (Int × HOp V)) (hw : Spec.Within t0 d h) (hu : Spec.Undisturbed h0.sid h)
    (t1 : Int) (hb : ∀ x ∈ h, x.1 ≤ t1) (ht1 : t0 ≤ t1) :
    let st := hrun C K cfg h ((destroy C f t0 h0 s).1, (destroy C f t0 h0 s).2.1)
    read C K .none t1 h0.sid st.2 = (st.2, .error .notFound) := by
  have hgone : L.gone (destroy C f t0 h0 s).2.1 t0 h0.sid := by
    simp only [destroy, destroySid] at hok ⊢
    cases f with
    | none => exact L.delete_gone s t0 h0.sid hg
    | late => simp [call, outErr] at hok
    | lost => simp [call, outErr] at hok
  have hfin := hrun_gone K L h t0 d ((destroy C f t0 h0 s).1, (destroy C f t0 h0 s).2.1) hw hg rfl hu hgone t1
    hb ht1
  intro st
  have hv := L.gone_view _ _ _ t1 hfin (Int.le_refl t1)
  unfold read
  simp only [call]
  rw [L.get_spec _ _ _ hg]
  have : L.view st.2 t1 h0.sid = none := hv
  rw [this]

/-- **C34** without a fault, a destroy never reports a failure. -/
theorem C34_destroy_reports (h0 : Handle V) (s : σ) (t0 : Int) (hg : good h0.sid) :
    (destroy C .none t0 h0 s).2.2 = none ∨ (destroy C .none t0 h0 s).2.2 = some .missed := by
  simp only [destroy, destroySid, call]
  rcases L.delete_out s t0 h0.sid hg with e | e <;> rw [e] <;> simp [outErr]

omit L in
/-- The store itself is empty after a destroy. -/
theorem C34_destroyed_store_empty (h0 : Handle V) (s : σ) (t0 : Int) (f : Fault) (k : Str) :
    (destroy C f t0 h0 s).1.get k = none := rfl

/-- **C34 fails** for another store of the same session: when a session is open twice (two requests of one
browser) and one destroys it, a flush of the other brings the session back, with its old contents. The same
happens when it is the manager (by cookie) or the provider (by id) that destroys it. -/
theorem C34_other_handle_resurrects_violated (hK : K.Faithful) (ha hb : Handle V) (s : σ) (t0 t1 : Int)
    (hg : good ha.sid) (hsid : hb.sid = ha.sid) (hch : hb.changed = true) (hop : hb.closed = false)
    (hm : ∃ b, K.marshal hb.values = some b) (hE : 0 < cfg.sessionExpire) :
    let s1 := (destroy C .none t0 ha s).2.1
    (flush C K cfg .none t1 hb s1).2.2 = none ∧
      ∃ hd, read C K .none t1 ha.sid (flush C K cfg .none t1 hb s1).2.1 =
          ((flush C K cfg .none t1 hb s1).2.1, .ok hd) ∧ hd.values = hb.values := by
  intro s1
  obtain ⟨b, hb'⟩ := hm
  have hgb : good hb.sid := by rw [hsid]; exact hg
  have hfl : flush C K cfg .none t1 hb s1 =
      ({ hb with changed := false }, (save C K cfg .none t1 hb s1).1, (save C K cfg .none t1 hb s1).2) := by
    unfold flush
    rw [if_neg (by rw [hop]; simp), if_neg (by rw [hch]; simp)]
  have hsv : (save C K cfg .none t1 hb s1).2 = none := by
    unfold save; rw [hb']; simp only [call]; rw [L.set_out _ _ _ _ hgb]; rfl
  rw [hfl]
  refine ⟨hsv, { sid := ha.sid, values := hb.values, changed := false, closed := false }, ?_, rfl⟩
  have hh := save_holds K L hgb .none t1 s1 hsv
  rw [hsid] at hh
  exact read_holds K L hK hg hh (by unfold second; omega)

/-! ## C35: regenerate -/

/-- **C35** (without failures, provider). The contents move to the new id: the returned store has them, the
backend holds them under the new id for a whole expiry period, and the old id no longer resolves, now or
later. Other sessions are unaffected. -/
theorem C35_regenerate_moves (hK : K.Faithful) (s : σ) (t : Int) (old sid : Str) (vs : Str → Option V)
    (ho : good old) (hn : good sid) (hne : old ≠ sid) (hE : 0 < cfg.sessionExpire)
    (hh : L.Holds K s t (t + 1) old vs) :
    ∃ s', regenerate C K cfg .none .none .none .none t old sid s =
        (s', .ok { sid := sid, values := vs, changed := false, closed := false }) ∧
      L.Holds K s' t (t + cfg.sessionExpire * second) sid vs ∧
      (∀ t', t ≤ t' → read C K .none t' old s' = (s', .error .notFound)) ∧
      ∀ t' k, t ≤ t' → k ≠ old → k ≠ sid → L.view s' t' k = L.view s t' k := by
  obtain ⟨b, h1, h2⟩ := hh
  have hv := h2 t (Int.le_refl t) (by omega)
  let s2 := (C.step t (.set sid (.text b) [cfg.sessionExpire]) s).1
  let s3 := (C.step t (.delete old) s2).1
  have hview : ∀ t', t ≤ t' → L.view s3 t' sid = if t' < t + cfg.sessionExpire * second then some b else none := by
    intro t' ht
    show L.view (C.step t (.delete old) s2).1 t' sid = _
    rw [L.frame_view s2 t (.delete old) sid t' (by simp) (by simp [Cache.Spec.keyOf, hne]) ht]
    exact L.set_view s t sid (.text b) t' hn ht
  have hpos : t < t + cfg.sessionExpire * second := by unfold second; omega
  refine ⟨s3, ?_, ⟨b, h1, fun t' a c => ?_⟩, fun t' ht => ?_, fun t' k ht hk1 hk2 => ?_⟩
  · unfold regenerate
    simp only [call]
    rw [L.get_spec s t old ho, hv]
    simp only
    have hset : C.step t (.set sid (.text b) [cfg.sessionExpire]) s = (s2, .ok) :=
      Prod.ext rfl (L.set_out s t sid _ hn)
    rw [hset]
    simp only [destroySid, call, read]
    show (match C.step t (.get sid) s3 with
      | (s', .val b) =>
        (match K.unmarshal b with
        | none => (s', Except.error SErr.conv)
        | some vs => (s', Except.ok (⟨sid, vs, false, false⟩ : Handle V)))
      | (s', .missed) => (s', .error .notFound)
      | (s', _) => (s', .error .cache)) = _
    rw [L.get_spec s3 t sid hn, hview t (Int.le_refl t), if_pos hpos]
    simp only [hK vs b h1]
  · rw [hview t' a, if_pos c]
  · have hgone : L.gone s3 t old := L.delete_gone s2 t old ho
    unfold read
    simp only [call]
    rw [L.get_spec s3 t' old ho, L.gone_view s3 t old t' hgone ht]
  · show L.view (C.step t (.delete old) s2).1 t' k = _
    rw [L.frame_view s2 t (.delete old) k t' (by simp) (by simp [Cache.Spec.keyOf, Ne.symm hk1]) ht]
    exact L.frame_view s t _ k t' (by simp) (by simp [Cache.Spec.keyOf, Ne.symm hk2]) ht

/-- **C35**: an id without a session is reported as such, and nothing changes. -/
theorem C35_regenerate_missing (s : σ) (t : Int) (old sid : Str) (ho : good old) (hv : L.view s t old = none)
    (fs fd fr : Fault) :
    regenerate C K cfg .none fs fd fr t old sid s = (s, .error .notFound) := by
  unfold regenerate
  simp only [call]
  rw [L.get_spec s t old ho, hv]

/-- **C35** (every failure point): whatever calls fail, before or after the server acts, the contents are
never lost: they are still there under the old id or already under the new one; and when a store is returned
it is under the new id, with the contents. -/
theorem C35_regenerate_never_loses (hK : K.Faithful) (s : σ) (t : Int) (old sid : Str) (vs : Str → Option V)
    (ho : good old) (hn : good sid) (hne : old ≠ sid) (hE : 0 < cfg.sessionExpire)
    (hh : L.Holds K s t (t + 1) old vs) (fg fs fd fr : Fault) :
    let r := regenerate C K cfg fg fs fd fr t old sid s
    (L.Holds K r.1 t (t + 1) old vs ∨ L.Holds K r.1 t (t + 1) sid vs) ∧
    ∀ hd, r.2 = .ok hd → hd.sid = sid ∧ hd.values = vs ∧ L.Holds K r.1 t (t + 1) sid vs := by
  obtain ⟨b, h1, h2⟩ := hh
  have hv := h2 t (Int.le_refl t) (by omega)
  have hpos : t < t + cfg.sessionExpire * second := by unfold second; omega
  have mk : ∀ (s' : σ) k, L.view s' t k = some b → L.Holds K s' t (t + 1) k vs := by
    intro s' k h
    refine ⟨b, h1, fun t' a c => ?_⟩
    have : t' = t := by omega
    rw [this]; exact h
  let s2 := (C.step t (.set sid (.text b) [cfg.sessionExpire]) s).1
  have hs2 : L.view s2 t sid = some b := by
    have := L.set_view s t sid (.text b) t hn (Int.le_refl t)
    rw [if_pos hpos] at this
    exact this
  have hs2o : L.view s2 t old = some b := by
    have := L.frame_view s t (.set sid (.text b) [cfg.sessionExpire]) old t (by simp)
      (by simp [Cache.Spec.keyOf, Ne.symm hne]) (Int.le_refl t)
    rw [show L.view s2 t old = _ from this]; exact hv
  have hset : C.step t (.set sid (.text b) [cfg.sessionExpire]) s = (s2, .ok) :=
    Prod.ext rfl (L.set_out s t sid _ hn)
  have hget : C.step t (.get old) s = (s, .val b) := by rw [L.get_spec s t old ho, hv]
  have hdel : ∀ f, L.view (destroySid C f t old s2).1 t sid = some b := by
    intro f
    have k : L.view (C.step t (.delete old) s2).1 t sid = some b := by
      rw [L.frame_view s2 t (.delete old) sid t (by simp) (by simp [Cache.Spec.keyOf, hne]) (Int.le_refl t)]
      exact hs2
    cases f with
    | none => exact k
    | late => exact k
    | lost => exact hs2
  intro r
  have hr : r = regenerate C K cfg fg fs fd fr t old sid s := rfl
  cases fg with
  | lost => rw [hr]; exact ⟨Or.inl (mk s old hv), fun hd e => by simp [regenerate, call] at e⟩
  | late =>
    have : r = (s, .error .cache) := by rw [hr]; simp [regenerate, call, hget]
    rw [this]; exact ⟨Or.inl (mk s old hv), fun hd e => by cases e⟩
  | none =>
    cases fs with
    | lost =>
      have : r = (s, .error .cache) := by rw [hr]; simp [regenerate, call, hget]
      rw [this]; exact ⟨Or.inl (mk s old hv), fun hd e => by cases e⟩
    | late =>
      have : r = (s2, .error .cache) := by rw [hr]; simp [regenerate, call, hget, s2]
      rw [this]; exact ⟨Or.inl (mk s2 old hs2o), fun hd e => by cases e⟩
    | none =>
      have e : r = read C K fr t sid (destroySid C fd t old s2).1 := by
        rw [hr]; simp [regenerate, call, hget, hset]
      have hg3 : C.step t (.get sid) (destroySid C fd t old s2).1 = ((destroySid C fd t old s2).1, .val b) := by
        rw [L.get_spec _ t sid hn, hdel fd]
      have h1' : r.1 = (destroySid C fd t old s2).1 := by
        rw [e]; cases fr <;> simp [read, call, hg3, hK vs b h1]
      have hh' : L.Holds K r.1 t (t + 1) sid vs := by rw [h1']; exact mk _ _ (hdel fd)
      refine ⟨Or.inr hh', fun hd he => ?_⟩
      have : hd = { sid := sid, values := vs, changed := false, closed := false } := by
        rw [e] at he
        cases fr <;> simp [read, call, hg3, hK vs b h1] at he
        exact he.symm
      subst this
      exact ⟨rfl, rfl, hh'⟩

/-- **C35 fails** when the delete of the old id fails: its error is ignored, so `Regenerate` reports success
although the old id still resolves to the same contents. -/
theorem C35_old_id_survives_violated (hK : K.Faithful) (s : σ) (t : Int) (old sid : Str) (vs : Str → Option V)
    (ho : good old) (hn : good sid) (hne : old ≠ sid) (hE : 0 < cfg.sessionExpire)
    (hh : L.Holds K s t (t + 1) old vs) :
    ∃ s' hd hd', regenerate C K cfg .none .none .lost .none t old sid s = (s', .ok hd) ∧
      read C K .none t old s' = (s', .ok hd') ∧ hd'.values = vs := by
  obtain ⟨b, h1, h2⟩ := hh
  have hv := h2 t (Int.le_refl t) (by omega)
  have hpos : t < t + cfg.sessionExpire * second := by unfold second; omega
  let s2 := (C.step t (.set sid (.text b) [cfg.sessionExpire]) s).1
  have hset : C.step t (.set sid (.text b) [cfg.sessionExpire]) s = (s2, .ok) :=
    Prod.ext rfl (L.set_out s t sid _ hn)
  have hget : C.step t (.get old) s = (s, .val b) := by rw [L.get_spec s t old ho, hv]
  have hs2 : C.step t (.get sid) s2 = (s2, .val b) := by
    have := L.set_view s t sid (.text b) t hn (Int.le_refl t)
    rw [if_pos hpos] at this
    rw [L.get_spec s2 t sid hn, show L.view s2 t sid = some b from this]
  have hs2o : C.step t (.get old) s2 = (s2, .val b) := by
    have := L.frame_view s t (.set sid (.text b) [cfg.sessionExpire]) old t (by simp)
      (by simp [Cache.Spec.keyOf, Ne.symm hne]) (Int.le_refl t)
    rw [L.get_spec s2 t old ho, show L.view s2 t old = some b from this.trans hv]
  refine ⟨s2, { sid := sid, values := vs, changed := false, closed := false },
    { sid := old, values := vs, changed := false, closed := false }, ?_, ?_, rfl⟩
  · simp [regenerate, call, hget, hset, destroySid, read, hs2, hK vs b h1]
  · simp [read, call, hs2o, hK vs b h1]

/-! ## C36: retrying a flush -/

omit L in
/-- **C36 fails**: after a flush that failed, flushing again does nothing and reports success, although the
backend was never written. -/
theorem C36_retry_is_lost_violated (h : Handle V) (s : σ) (t t' : Int) (hc : h.closed = false)
    (hch : h.changed = true) (hm : ∃ b, K.marshal h.values = some b) :
    let r := flush C K cfg .lost t h s
    r.2.1 = s ∧ r.2.2 = some .cache ∧ flush C K cfg .none t' r.1 s = (r.1, s, none) := by
  obtain ⟨b, hb⟩ := hm
  simp [flush, hc, hch, save, hb, call, outErr]

/-- **C36** (what does hold): the pending changes stay in the store, and once any further modification is
made, a flush that succeeds saves everything, failed part included. -/
theorem C36_retry_after_change_partial (hK : K.Faithful) (h : Handle V) (s : σ) (t t1 : Int) (f : Fault)
    (k : Str) (v : V) (hg : good h.sid) (hc : h.closed = false) (hE : 0 < cfg.sessionExpire)
    (hok : (flush C K cfg .none t1 ((flush C K cfg f t h s).1.set k v) (flush C K cfg f t h s).2.1).2.2 = none) :
    ∃ s' hd, (flush C K cfg .none t1 ((flush C K cfg f t h s).1.set k v) (flush C K cfg f t h s).2.1).2.1 = s' ∧
      read C K .none t1 h.sid s' = (s', .ok hd) ∧
      ∀ k', hd.get k' = if k' = k then some v else h.get k' := by
  obtain ⟨e1, e2, e3⟩ := flush_values C K cfg f t h s
  generalize flush C K cfg f t h s = r at *
  obtain ⟨h1, s1, er⟩ := r
  simp only at e1 e2 e3 hok ⊢
  have hg1 : good (h1.set k v).sid := by show good h1.sid; rw [e2]; exact hg
  have hfl : flush C K cfg .none t1 (h1.set k v) s1 =
      ({ h1.set k v with changed := false }, (save C K cfg .none t1 (h1.set k v) s1).1,
        (save C K cfg .none t1 (h1.set k v) s1).2) := by
    unfold flush
    rw [if_neg (by show ¬ h1.closed = true; rw [e3, hc]; simp), if_neg (by simp [Handle.set])]
  rw [hfl] at hok ⊢
  have hh := save_holds K L hg1 .none t1 s1 hok
  have hsid : (h1.set k v).sid = h.sid := e2
  rw [hsid] at hh
  refine ⟨_, _, rfl, read_holds K L hK hg hh (by unfold second; omega), fun k' => ?_⟩
  show (h1.set k v).values k' = _
  simp only [Handle.set, Cache.upd, e1, Handle.get]

end

/-! ## The manager -/

section
variable {σ V : Type} {C : CacheApi σ} (K : Conv V) {cfg : Config}
variable {good : Str → Prop} (L : Lawful C cfg.sessionExpire good)
include L

/-- **C35** (whole request cycle): a request whose cookie names a session that the backend holds calls
`Regenerate`; a later request that presents the cookie it was sent (within the expiry time) starts with
exactly the old contents under the new id, while the old id resolves to nothing. -/
theorem C35_manager_cycle (H : Hmac) (cc : CookieConfig) (hK : K.Faithful) (s : σ) (t t2 t0 : Int)
    (cs before : Cookies) (old sid : Str) (vs : Str → Option V) (params : List (Str → Option V))
    (hold : readSid H cfg cs cc.cookieName t = some (old, t0))
    (ho : good old) (hn : good sid) (hne : old ≠ sid) (hs : sid ≠ []) (hk : cfg.secretKey ≠ [])
    (hE : 0 < cfg.sessionExpire) (hE2 : cfg.sessionExpire ≤ 9223372036) (h1 : 0 < t) (h2 : t < 2 ^ 63)
    (hh : L.Holds K s t (t + 1) old vs) (ht2 : t ≤ t2) (hlt : t2 < t + cfg.sessionExpire * second) :
    ∃ s' c cs', managerRegenerate C K cfg H cc .none .none .none .none t sid params cs s =
        (s', .done (.ok { sid := sid, values := vs, changed := false, closed := false }) [c] cs') ∧
      start C K cfg H cc .none t2 [] (before ++ [(c.name, c.value)]) s' =
        (s', .done (.ok { sid := sid, values := vs, changed := false, closed := false }) []
          (before ++ [(c.name, c.value)])) ∧
      read C K .none t2 old s' = (s', .error .notFound) := by
  obtain ⟨s', e, hh', hgone, _⟩ := C35_regenerate_moves K L hK s t old sid vs ho hn hne hE hh
  obtain ⟨c, c1, c2, c3, c4⟩ := C31_session_cookie_roundtrip H cfg cc cs before sid t t2 hs hk h1 h2
    (by omega) hE2
  refine ⟨s', c, (writeSessionCookie H cfg cc cs sid t).2, ?_, ?_, hgone t2 ht2⟩
  · unfold managerRegenerate
    rw [hold]
    simp only [e]
    rw [c1]
  · unfold start
    rw [c4, if_pos (by unfold second at hlt; omega)]
    simp only
    rw [read_holds K L hK hn (hh'.later K L ht2) hlt]

/-- **C33** (whole request cycle): a first request without a cookie starts a session, modifies it in any way
and flushes; a later request with the cookie that was sent starts with exactly those contents. -/
theorem C33_request_cycle (H : Hmac) (cc : CookieConfig) (hK : K.Faithful) (s : σ) (t t1 t2 : Int)
    (cs before : Cookies) (sid nsid : Str) (h : List (Int × HOp V)) (k : Str) (v : V)
    (hno : readSid H cfg cs cc.cookieName t = none)
    (hn : good sid) (hs : sid ≠ []) (hk : cfg.secretKey ≠ [])
    (hE : 0 < cfg.sessionExpire) (hE2 : cfg.sessionExpire ≤ 9223372036) (h1 : 0 < t) (h2 : t < 2 ^ 63)
    (hw : Spec.Within t (t + cfg.sessionExpire * second) (h ++ [(t1, .flush .none)]))
    (hu : Spec.Undisturbed sid h) (hnd : Spec.NoDestroy h)
    (hok : FlushesOk C K cfg (h ++ [(t1, .flush .none)]) ((create sid []).set k v, s))
    (ht2 : t1 ≤ t2) (hlt : t2 < t + cfg.sessionExpire * second) :
    ∃ c cs', start C K cfg H cc .none t sid cs s = (s, .done (.ok (create sid [])) [c] cs') ∧
      let s' := (hrun C K cfg (h ++ [(t1, .flush .none)]) ((create sid []).set k v, s)).2
      ∃ hd, start C K cfg H cc .none t2 nsid (before ++ [(c.name, c.value)]) s' =
          (s', .done (.ok hd) [] (before ++ [(c.name, c.value)])) ∧ hd.sid = sid ∧
        ∀ k', hd.get k' = Spec.lastSaid ((t, .set k v) :: h) (fun _ => none) k' := by
  obtain ⟨c, c1, c2, c3, c4⟩ := C31_session_cookie_roundtrip H cfg cc cs before sid t t2 hs hk h1 h2
    (by omega) hE2
  refine ⟨c, (writeSessionCookie H cfg cc cs sid t).2, ?_, ?_⟩
  · unfold start
    rw [hno]
    simp only
    rw [show (create (V := V) sid []).sid = sid from rfl, c1]
  · intro s'
    obtain ⟨hd, r1, r2, _, _, r5⟩ := C33_flush_read_back K L hK h t t1 t2 ((create sid []).set k v, s)
      hn rfl (Or.inl rfl) .none hw hu hnd hok ht2 hlt
    refine ⟨hd, ?_, r2, fun k' => ?_⟩
    · unfold start
      rw [c4, if_pos (by unfold second at hlt; omega)]
      simp only
      rw [show read C K Fault.none t2 sid s' = (s', .ok hd) from r1]
    · rw [r5]
      unfold Spec.lastSaid
      simp only [List.reverse_cons, List.findSome?_append]
      cases (h.reverse.findSome? (fun e => Spec.says k' e.2)) with
      | some v => rfl
      | none =>
        simp only [Handle.set, create, Cache.upd, Spec.says]
        by_cases hx : k' = k
        · simp [hx, Spec.says]
        · simp [hx, Spec.says, Ne.symm hx]

omit L in
/-- **C35 fails** at the manager when the provider fails for another reason than a missing session: the nil
session store is used, which panics. -/
theorem C35_manager_panics_violated (H : Hmac) (cc : CookieConfig) (s : σ) (t t0 : Int)
    (cs : Cookies) (old sid : Str) (params : List (Str → Option V))
    (hold : readSid H cfg cs cc.cookieName t = some (old, t0)) (fs fd fr : Fault) :
    managerRegenerate C K cfg H cc .lost fs fd fr t sid params cs s = (s, .panic) := by
  unfold managerRegenerate
  rw [hold]
  simp [regenerate, call]

/-- **C35**: values passed to `Regenerate` are used only when there is no session to take over. -/
theorem C35_manager_params_when_missing (H : Hmac) (cc : CookieConfig) (s : σ) (t t0 : Int)
    (cs : Cookies) (old sid : Str) (vs : Str → Option V)
    (hold : readSid H cfg cs cc.cookieName t = some (old, t0)) (ho : good old) (hv : L.view s t old = none) :
    ∃ set cs', managerRegenerate C K cfg H cc .none .none .none .none t sid [vs] cs s =
      (s, .done (.ok { sid := sid, values := vs, changed := true, closed := false }) set cs') := by
  unfold managerRegenerate
  rw [hold]
  simp only
  rw [C35_regenerate_missing K L s t old sid ho hv]
  exact ⟨_, _, rfl⟩

/-- **C34** (manager): whatever the fault, `Destroy` tells the browser to drop the cookie; and without a
fault the id no longer resolves. -/
theorem C34_manager_destroy (H : Hmac) (cc : CookieConfig) (s : σ) (t t0 : Int) (cs : Cookies) (sid : Str)
    (hold : readSid H cfg cs cc.cookieName t = some (sid, t0)) (hg : good sid) (f : Fault) :
    (managerDestroy C cfg H cc f t cs s).2 = [{ name := cc.cookieName, value := [], maxAge := -1 }] ∧
    (f ≠ .lost → ∀ t', t ≤ t' →
      read C K .none t' sid (managerDestroy C cfg H cc f t cs s).1 =
        ((managerDestroy C cfg H cc f t cs s).1, .error .notFound)) := by
  unfold managerDestroy
  rw [hold]
  refine ⟨rfl, fun hf t' ht => ?_⟩
  have hgone : L.gone (destroySid C f t sid s).1 t sid := by
    unfold destroySid
    cases f with
    | lost => exact absurd rfl hf
    | none => exact L.delete_gone s t sid hg
    | late => exact L.delete_gone s t sid hg
  show read C K .none t' sid (destroySid C f t sid s).1 = ((destroySid C f t sid s).1, _)
  unfold read
  simp only [call]
  rw [L.get_spec _ t' sid hg, L.gone_view _ _ _ t' hgone ht]

end

/-! ## The hypotheses are met -/

/-- A toy converter: the text `key=value;key=value;…`. -/
def toyUnmarshal (b : Str) : Option (Str → Option Str) :=
  some (fun k => (splitOn1 59 b).findSome? (fun p =>
    if (splitOn1 61 p).head? = some k then (splitOn1 61 p)[1]? else none))

open Classical in
/-- its inverse, where there is one -/
noncomputable def toyConv : Conv Str where
  marshal vs := if h : ∃ b, toyUnmarshal b = some vs then some (choose h) else none
  unmarshal := toyUnmarshal

theorem toyConv_faithful : toyConv.Faithful := by
  intro vs b h
  unfold toyConv at h ⊢
  simp only at h ⊢
  split at h
  · rename_i hx
    simp only [Option.some.injEq] at h
    rw [← h]
    exact Classical.choose_spec hx
  · cases h

/-- the contents `user = al` -/
def toyValues : Str → Option Str := Cache.upd (fun _ => none) b!"user" (some b!"al")

theorem toyValues_marshal : ∃ b, toyConv.marshal toyValues = some b := by
  have h : ∃ b, toyUnmarshal b = some toyValues := by
    refine ⟨b!"user=al", ?_⟩
    unfold toyUnmarshal
    congr 1
    funext k
    have e1 : splitOn1 59 b!"user=al" = [b!"user=al"] := by decide +kernel
    have e2 : splitOn1 61 b!"user=al" = [b!"user", b!"al"] := by decide +kernel
    rw [e1]
    simp only [List.findSome?_cons, List.findSome?_nil, e2, List.head?_cons]
    unfold toyValues Cache.upd
    by_cases hk : k = b!"user"
    · subst hk; rfl
    · rw [if_neg (fun e => hk (by simpa using e.symm)), if_neg hk]
  exact ⟨_, dif_pos h⟩

/-- expiry one hour -/
def toyCfg : Config := { secretKey := b!"secret", sessionExpire := 3600 }

/-- a session store that set `user` and has not been flushed -/
def toyHandle : Handle Str := (create b!"SID1" []).set b!"user" b!"al"

/-- redis, memcached and MongoDB are session caches for it -/
example : Lawful ⟨Cache.redis b!"s:"⟩ toyCfg.sessionExpire (fun _ => True) :=
  redisLawful b!"s:" (by decide) (by decide)
example : Lawful ⟨Cache.mgo true⟩ toyCfg.sessionExpire (fun _ => True) := mgoLawful true (by decide) (by decide)
example : Lawful ⟨Cache.memcache b!"s:"⟩ toyCfg.sessionExpire
    (fun k => Cache.legalKey (b!"s:" ++ k) = true) := memcacheLawful b!"s:" (by decide) (by decide)
example : Cache.legalKey (b!"s:" ++ b!"SID1") = true := by decide +kernel

/-- C33: set, touch (which fails), somebody else's write, then flush at 5 and read at 9. -/
example : ∃ hd s', read ⟨Cache.redis b!"s:"⟩ toyConv .none 9 b!"SID1"
      (hrun ⟨Cache.redis b!"s:"⟩ toyConv toyCfg
        ([(1, .touch .none), (2, .other (.set b!"SID2" (.text b!"x") [60]))] ++ [(5, .flush .none)])
        (toyHandle, fun _ => none)).2 = (s', .ok hd) ∧ hd.get b!"user" = some b!"al" := by
  obtain ⟨hd, h1, _, _, _, h5⟩ := C33_flush_read_back (C := ⟨Cache.redis b!"s:"⟩) (cfg := toyCfg) toyConv
    (redisLawful b!"s:" (by decide) (by decide)) toyConv_faithful
    [(1, .touch .none), (2, .other (.set b!"SID2" (.text b!"x") [60]))] 0 5 9 (toyHandle, fun _ => none)
    trivial rfl (Or.inl rfl) .none (by simp [Spec.Within, toyCfg, second])
    (by intro t o hm; simp at hm; obtain ⟨rfl, rfl⟩ := hm; exact ⟨by simp, by decide⟩)
    (by intro t f hm; simp at hm)
    (by
      obtain ⟨b, hb⟩ := toyValues_marshal
      have hv : ∀ s, (save (σ := Cache.Server) ⟨Cache.redis b!"s:"⟩ toyConv toyCfg .none 5 toyHandle s).2 = none := by
        intro s
        unfold save
        rw [show toyHandle.values = toyValues from rfl, hb]
        exact congrArg outErr
          ((redisLawful b!"s:" (E := 3600) (by decide) (by decide)).set_out s 5 toyHandle.sid (.bytes b) trivial)
      refine ⟨trivial, trivial, ?_, trivial⟩
      simp only [hstep, flush]
      exact hv _)
    (by decide) (by decide)
  exact ⟨hd, _, h1, by rw [h5]; decide +kernel⟩

/-- C34: destroying a stored session, flushing and touching afterwards, reading at 9. -/
example : (destroy ⟨Cache.redis b!"s:"⟩ .none 1 toyHandle
      (fun k => if k = b!"s:SID1" then some (b!"user=al", some (3600 * second)) else none)).2.2 = none ∧
    Spec.Within 1 100 [(2, HOp.set b!"a" b!"b"), (3, HOp.flush .none), (4, HOp.touch .none)] ∧
    Spec.Undisturbed b!"SID1" [(2, HOp.set b!"a" b!"b"), (3, HOp.flush .none), (4, HOp.touch .none)] := by
  refine ⟨by decide +kernel, ⟨by decide, by decide, by decide, (by decide : (4 : Int) < 100)⟩, ?_⟩
  intro t o hm; simp at hm

/-- C35, C36: a backend that holds the contents; and the store whose flush fails. -/
example (b : Str) (hb : toyConv.marshal toyValues = some b) :
    (redisLawful b!"s:" (E := toyCfg.sessionExpire) (by decide) (by decide)).Holds toyConv
      (fun k => if k = b!"s:SID1" then some (b, some (3600 * second)) else none) 5 6 b!"SID1" toyValues := by
  refine ⟨b, hb, fun t' h1 h2 => ?_⟩
  show srvView _ _ _ _ = _
  unfold srvView Cache.live Cache.alive second
  have : (fun k : Str => if k = b!"s:SID1" then some (b, some ((3600 : Int) * 1000000000)) else none)
      (b!"s:" ++ b!"SID1") = some (b, some (3600 * 1000000000)) := rfl
  rw [this]
  simp
  omega

example : toyHandle.closed = false ∧ toyHandle.changed = true ∧
    ∃ b, toyConv.marshal toyHandle.values = some b := ⟨rfl, rfl, toyValues_marshal⟩

section
variable {σ V : Type} (C : CacheApi σ) (K : Conv V) (cfg : Config)

/-- **C33**: a session made without values and not modified is never written to the backend, whatever the
backend does; a session made with values is pending from the start. -/
theorem C33_untouched_session_not_stored (sid : Str) (f : Fault) (now : Int) (s : σ) (vs : Str → Option V) :
    flush C K cfg f now (create sid [] : Handle V) s = (create sid [], s, none) ∧
    (create sid [vs]).changed = true ∧ (create sid [vs]).closed = false ∧ (create sid [vs]).values = vs :=
  ⟨rfl, rfl, rfl, rfl⟩

/-- **C33**: the session `Start` returns always has the id that the request's cookies now hold: the id of the
accepted cookie, or the new id, for which a cookie is set. -/
theorem C33_start_id_is_cookie_id (H : Hmac) (cc : CookieConfig) (f : Fault) (now : Int) (newSid : Str)
    (cs cs' : Cookies) (s s' : σ) (h : Handle V) (set : List SetCookie)
    (hn : newSid ≠ []) (hk : cfg.secretKey ≠ []) (h1 : 0 < now) (h2 : now < 2 ^ 63)
    (he : 0 ≤ cfg.sessionExpire) (he2 : cfg.sessionExpire ≤ 9223372036)
    (hs : start C K cfg H cc f now newSid cs s = (s', .done (.ok h) set cs')) :
    (∃ t, readSid H cfg cs' cc.cookieName now = some (h.sid, t)) ∧
    (∀ sid t, readSid H cfg cs cc.cookieName now = some (sid, t) → h.sid = sid ∧ set = [] ∧ cs' = cs) ∧
    (readSid H cfg cs cc.cookieName now = none → h.sid = newSid ∧ set.map (·.name) = [cc.cookieName]) := by
  obtain ⟨c, w1, w2, w3, w4⟩ := C31_session_cookie_roundtrip H cfg cc cs cs newSid now now hn hk h1 h2 he he2
  rw [if_pos (by omega)] at w4
  unfold start at hs
  cases hr : readSid H cfg cs cc.cookieName now with
  | none =>
    rw [hr] at hs
    cases hs
    refine ⟨⟨now, ?_⟩, by simp, fun _ => ⟨rfl, ?_⟩⟩
    · show readSid H cfg (writeSessionCookie H cfg cc cs newSid now).2 cc.cookieName now = some (newSid, now)
      rw [w3]; exact w4
    · show (writeSessionCookie H cfg cc cs newSid now).1.map (·.name) = _
      rw [w1]; simp [w2]
  | some x =>
    obtain ⟨sid, t⟩ := x
    rw [hr] at hs
    simp only [] at hs
    have key : h.sid = sid ∧ set = [] ∧ cs' = cs := by
      cases hd : read C K f now sid s with
      | mk s1 r =>
        rw [hd] at hs
        cases r with
        | ok hh =>
          cases hs
          refine ⟨?_, rfl, rfl⟩
          unfold read at hd
          split at hd
          · split at hd
            · cases hd
            · cases hd; rfl
          · cases hd
          · cases hd
        | error e =>
          cases e <;> cases hs
          exact ⟨rfl, rfl, rfl⟩
    obtain ⟨a, b, c⟩ := key
    refine ⟨⟨t, by rw [c, a, hr]⟩, ?_, by simp⟩
    intro sid' t' hx
    cases hx
    exact ⟨a, b, c⟩

end

/-- Non-vacuity of `C33_start_id_is_cookie_id`: a request without cookies. -/
example (H : Hmac) (cc : CookieConfig) : ∃ set cs',
    start ⟨Cache.redis b!"s:"⟩ toyConv toyCfg H cc .none 5 b!"SID1" [] (fun _ => none) =
      (fun _ => none, .done (.ok (create b!"SID1" [])) set cs') := ⟨_, _, rfl⟩

end Verif.Sess
