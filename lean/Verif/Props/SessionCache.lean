import Verif.Model.Session
import Verif.Props.Cache
/-!
# What sessions need from a cache, and that the three providers give it
-/
namespace Verif.Sess
open Verif.Go
open Verif.Cache

/-- A session cache: what it shows (`view`), when a key is gone for good (`gone`), and what the calls made
by the session code do to both. `E` is the session expiry in seconds, `good` the usable session ids. -/
structure Lawful {σ : Type} (C : CacheApi σ) (E : Int) (good : Str → Prop) where
  /-- the text stored under a key, as seen at a time -/
  view : σ → Int → Str → Option Str
  /-- nothing is stored under the key from this time on, and touching it does not help -/
  gone : σ → Int → Str → Prop
  get_spec : ∀ s t k, good k → C.step t (.get k) s =
    (s, match view s t k with | some v => .val v | none => .missed)
  set_out : ∀ s t k v, good k → (C.step t (.set k v [E]) s).2 = .ok
  set_view : ∀ s t k v t', good k → t ≤ t' → view (C.step t (.set k v [E]) s).1 t' k =
    if t' < t + E * second then some (toStr v) else none
  touch_view : ∀ s t k b t', good k → view s t k = some b → t ≤ t' →
    view (C.step t (.touch k [E]) s).1 t' k = if t' < t + E * second then some b else none
  delete_out : ∀ s t k, good k → (C.step t (.delete k) s).2 = .ok ∨ (C.step t (.delete k) s).2 = .missed
  delete_live : ∀ s t k b, good k → view s t k = some b → (C.step t (.delete k) s).2 = .ok
  delete_gone : ∀ s t k, good k → gone (C.step t (.delete k) s).1 t k
  gone_view : ∀ s t k t', gone s t k → t ≤ t' → view s t' k = none
  gone_later : ∀ s t k t', gone s t k → t ≤ t' → gone s t' k
  gone_touch : ∀ s t k, good k → gone s t k → gone (C.step t (.touch k [E]) s).1 t k
  frame_view : ∀ s t o k t', o ≠ .clean → Cache.Spec.keyOf o ≠ some k → t ≤ t' →
    view (C.step t o s).1 t' k = view s t' k
  frame_gone : ∀ s t o k, o ≠ .clean → Cache.Spec.keyOf o ≠ some k → gone s t k → gone (C.step t o s).1 t k

/-! ## redis and memcached -/

theorem redis_at (pre : Str) (now : Int) (o : Op) (s : Server) (hc : o ≠ .clean) (k' : Str)
    (hk : Cache.Spec.keyOf o ≠ some k') : (redis pre now o s).1 (pre ++ k') = s (pre ++ k') := by
  have ne : ∀ k, some k ≠ some k' → pre ++ k' ≠ pre ++ k := by
    intro k h e; exact h (by rw [List.append_cancel_left e])
  cases o with
  | get k => simp only [redis]; split <;> rfl
  | set k v ps =>
    simp only [redis]
    split
    · split
      · rfl
      · exact upd_ne _ _ (ne k hk)
    · exact upd_ne _ _ (ne k hk)
  | touch k ps =>
    simp only [redis]
    split
    · rfl
    split
    · rfl
    · split <;> exact upd_ne _ _ (ne k hk)
  | delete k =>
    simp only [redis]
    split
    · rfl
    · exact upd_ne _ _ (ne k hk)
  | incr k ps =>
    simp only [redis, redisIncrBy]
    split
    · exact upd_ne _ _ (ne k hk)
    · split
      · rfl
      · split
        · exact upd_ne _ _ (ne k hk)
        · rfl
  | decr k ps =>
    simp only [redis, redisIncrBy]
    split
    · split
      · exact upd_ne _ _ (ne k hk)
      · split
        · rfl
        · split
          · exact upd_ne _ _ (ne k hk)
          · rfl
    · rfl
  | has k => rfl
  | clean => exact absurd rfl hc
  | gc => rfl

theorem memcache_at (pre : Str) (now : Int) (o : Op) (s : Server) (hc : o ≠ .clean) (k' : Str)
    (hk : Cache.Spec.keyOf o ≠ some k') : (memcache pre now o s).1 (pre ++ k') = s (pre ++ k') := by
  have ne : ∀ k, some k ≠ some k' → pre ++ k' ≠ pre ++ k := by
    intro k h e; exact h (by rw [List.append_cancel_left e])
  cases o with
  | get k => simp only [memcache]; split <;> (try split) <;> rfl
  | set k v ps =>
    simp only [memcache]
    split
    · exact upd_ne _ _ (ne k hk)
    · rfl
  | touch k ps =>
    simp only [memcache]
    split
    · split
      · rfl
      · exact upd_ne _ _ (ne k hk)
    · rfl
  | delete k =>
    simp only [memcache]
    split
    · split
      · rfl
      · exact upd_ne _ _ (ne k hk)
    · rfl
  | incr k ps =>
    simp only [memcache, mcArith]
    split
    · split
      · rfl
      · split
        · rfl
        · exact upd_ne _ _ (ne k hk)
    · rfl
  | decr k ps =>
    simp only [memcache, mcArith]
    split
    · split
      · rfl
      · split
        · rfl
        · exact upd_ne _ _ (ne k hk)
    · rfl
  | has k => simp only [memcache]; split <;> rfl
  | clean => exact absurd rfl hc
  | gc => rfl

/-- the text a server shows -/
def srvView (pre : Str) (s : Server) (t : Int) (k : Str) : Option Str := (live s t (pre ++ k)).map (·.1)

/-- nothing live under the key from `t` on -/
def srvGone (pre : Str) (s : Server) (t : Int) (k : Str) : Prop := ∀ t', t ≤ t' → live s t' (pre ++ k) = none

theorem live_none_later {s : Server} {t t' : Int} {k : Str} (h : live s t k = none) (ht : t ≤ t') :
    live s t' k = none := by
  rw [live_later s ht, h]; rfl

theorem live_at {s s' : Server} {k : Str} (h : s' k = s k) (t : Int) : live s' t k = live s t k := by
  unfold live; rw [h]

theorem filter_alive (t d : Int) (b : Str) :
    ((some (b, some d) : Option Item).filter (fun it => alive t it.2)).map (·.1)
      = if t < d then some b else none := by
  by_cases h : t < d <;> simp [alive, h]

theorem expire_pos {E : Int} (h0 : 0 < E) (h : E ≤ 9223372036) :
    timeoutDur [E] = E * second ∧ E * second > 0 ∧ E * second / second = E := by
  refine ⟨timeoutDur_pos h0 h, ?_, div_second E⟩
  unfold second; omega

/-- redis as a session cache. -/
def redisLawful (pre : Str) {E : Int} (h0 : 0 < E) (h : E ≤ 9223372036) :
    Lawful ⟨redis pre⟩ E (fun _ => True) where
  view := srvView pre
  gone := srvGone pre
  get_spec := by
    intro s t k _
    simp only [redis, srvView]
    cases live s t (pre ++ k) <;> rfl
  set_out := by
    intro s t k v _
    obtain ⟨e1, e2, e3⟩ := expire_pos h0 h
    simp only [redis, e1, e2, e3, if_true]
    rw [if_neg (by rw [mod_second]; omega)]
  set_view := by
    intro s t k v t' _ ht
    obtain ⟨e1, e2, e3⟩ := expire_pos h0 h
    simp only [redis, e1, e2, e3, if_true]
    rw [if_neg (by rw [mod_second]; omega)]
    simp only [srvView]
    rw [live_upd_same, filter_alive]
  touch_view := by
    intro s t k b t' _ hv ht
    obtain ⟨e1, e2, e3⟩ := expire_pos h0 h
    simp only [redis, e1, e3]
    rw [if_neg (by rw [mod_second]; omega)]
    simp only [srvView] at hv ⊢
    cases hl : live s t (pre ++ k) with
    | none => rw [hl] at hv; cases hv
    | some it =>
      rw [hl] at hv
      simp only [Option.map_some, Option.some.injEq] at hv
      simp only
      rw [if_neg (by omega)]
      simp only
      rw [live_upd_same, filter_alive, hv]
  delete_out := by
    intro s t k _
    simp only [redis]
    split <;> simp
  delete_live := by
    intro s t k b _ hv
    simp only [redis]
    simp only [srvView] at hv
    cases hl : live s t (pre ++ k) with
    | none => rw [hl] at hv; cases hv
    | some it => rfl
  delete_gone := by
    intro s t k _ t' ht
    simp only [redis]
    cases hl : live s t (pre ++ k) with
    | none => exact live_none_later hl ht
    | some it => simp only; rw [live_upd_same]; rfl
  gone_view := by intro s t k t' hg ht; simp only [srvView]; rw [hg t' ht]; rfl
  gone_later := by intro s t k t' hg ht t'' ht'; exact hg t'' (by omega)
  gone_touch := by
    intro s t k _ hg t' ht
    simp only [redis, hg t (Int.le_refl t)]
    split <;> exact hg t' ht
  frame_view := by
    intro s t o k t' hc hk _
    simp only [srvView]
    rw [live_at (redis_at pre t o s hc k hk)]
  frame_gone := by
    intro s t o k hc hk hg t' ht
    show live (redis pre t o s).1 t' (pre ++ k) = none
    rw [live_at (redis_at pre t o s hc k hk)]
    exact hg t' ht

/-- memcached as a session cache: expiry at most 30 days, legal ids. -/
def memcacheLawful (pre : Str) {E : Int} (h0 : 0 < E) (h : E ≤ 2592000) :
    Lawful ⟨memcache pre⟩ E (fun k => legalKey (pre ++ k) = true) where
  view := srvView pre
  gone := srvGone pre
  get_spec := by
    intro s t k hk
    simp only [memcache, srvView, hk, if_true]
    cases live s t (pre ++ k) <;> rfl
  set_out := by
    intro s t k v hk
    simp only [memcache, hk, if_true]
  set_view := by
    intro s t k v t' hk ht
    obtain ⟨e1, e2, e3⟩ := expire_pos h0 (by omega)
    simp only [memcache, hk, if_true, e1, mcSeconds, e3, srvView]
    rw [wrapS_id (by omega) (by omega) (by omega)]
    unfold mcDeadline
    rw [if_neg (by omega), if_neg (by omega), if_pos h, live_upd_same, filter_alive]
  touch_view := by
    intro s t k b t' hk hv ht
    obtain ⟨e1, e2, e3⟩ := expire_pos h0 (by omega)
    simp only [memcache, hk, if_true, e1, mcSeconds, e3]
    simp only [srvView] at hv ⊢
    cases hl : live s t (pre ++ k) with
    | none => rw [hl] at hv; cases hv
    | some it =>
      rw [hl] at hv
      simp only [Option.map_some, Option.some.injEq] at hv
      simp only
      rw [wrapS_id (by omega) (by omega) (by omega)]
      unfold mcDeadline
      rw [if_neg (by omega), if_neg (by omega), if_pos h, live_upd_same, filter_alive, hv]
  delete_out := by
    intro s t k hk
    simp only [memcache, hk, if_true]
    split <;> simp
  delete_live := by
    intro s t k b hk hv
    simp only [memcache, hk, if_true]
    simp only [srvView] at hv
    cases hl : live s t (pre ++ k) with
    | none => rw [hl] at hv; cases hv
    | some it => rfl
  delete_gone := by
    intro s t k hk t' ht
    simp only [memcache, hk, if_true]
    cases hl : live s t (pre ++ k) with
    | none => exact live_none_later hl ht
    | some it => simp only; rw [live_upd_same]; rfl
  gone_view := by intro s t k t' hg ht; simp only [srvView]; rw [hg t' ht]; rfl
  gone_later := by intro s t k t' hg ht t'' ht'; exact hg t'' (by omega)
  gone_touch := by
    intro s t k hk hg t' ht
    simp only [memcache, hk, if_true, hg t (Int.le_refl t)]
    exact hg t' ht
  frame_view := by
    intro s t o k t' hc hk _
    simp only [srvView]
    rw [live_at (memcache_at pre t o s hc k hk)]
  frame_gone := by
    intro s t o k hc hk hg t' ht
    show live (memcache pre t o s).1 t' (pre ++ k) = none
    rw [live_at (memcache_at pre t o s hc k hk)]
    exact hg t' ht

/-! ## MongoDB -/

/-- the text of the unexpired document under a key -/
def collView (c : Coll) (t : Int) (k : Str) : Option Str := (mgoValue t (c k)).map toStr

theorem mgo_at (ae : Bool) (now : Int) (o : Op) (c : Coll) (hc : o ≠ .clean) (k' : Str)
    (hk : Cache.Spec.keyOf o ≠ some k') : (mgo ae now o c).1 k' = c k' ∨
      (∃ it, c k' = some it ∧ it.2 ≤ now ∧ (mgo ae now o c).1 k' = none) := by
  have ne : ∀ k, some k ≠ some k' → k' ≠ k := by
    intro k h e; exact h (by rw [e])
  cases o with
  | get k => left; simp only [mgo]; split <;> rfl
  | set k v ps => left; exact upd_ne _ _ (ne k hk)
  | touch k ps =>
    left
    simp only [mgo]
    split
    · rfl
    · exact upd_ne _ _ (ne k hk)
  | delete k =>
    left
    simp only [mgo]
    split
    · rfl
    · exact upd_ne _ _ (ne k hk)
  | incr k ps =>
    left
    simp only [mgo, mgoInc]
    split
    · rfl
    · split
      · exact upd_ne _ _ (ne k hk)
      · rfl
    · rfl
  | decr k ps =>
    left
    simp only [mgo, mgoInc]
    split
    · rfl
    · split
      · exact upd_ne _ _ (ne k hk)
      · rfl
    · rfl
  | has k => left; rfl
  | clean => exact absurd rfl hc
  | gc =>
    simp only [mgo]
    cases ae with
    | true => left; rfl
    | false =>
      cases e : c k' with
      | none => left; simp [e]
      | some it =>
        by_cases h : now < it.2
        · left; simp [e, h]
        · right; exact ⟨it, rfl, (by omega), (by simp [e]; omega)⟩

theorem timeoutDurEx_pos {E : Int} (h0 : 0 < E) (h : E ≤ 9223372036) : timeoutDurEx [E] = E * second := by
  obtain ⟨e1, e2, _⟩ := expire_pos h0 h
  unfold timeoutDurEx
  rw [e1, if_neg (by omega)]

/-- MongoDB as a session cache. -/
def mgoLawful (ae : Bool) {E : Int} (h0 : 0 < E) (h : E ≤ 9223372036) :
    Lawful ⟨mgo ae⟩ E (fun _ => True) where
  view := collView
  gone := fun c _ k => c k = none
  get_spec := by
    intro c t k _
    simp only [mgo, collView]
    cases mgoValue t (c k) <;> rfl
  set_out := by intro c t k v _; rfl
  set_view := by
    intro c t k v t' _ ht
    simp only [mgo, collView, timeoutDurEx_pos h0 h]
    rw [upd_same]
    simp only [mgoValue]
    split <;> rfl
  touch_view := by
    intro c t k b t' _ hv ht
    simp only [mgo, collView, timeoutDurEx_pos h0 h] at hv ⊢
    cases e : c k with
    | none => rw [e] at hv; cases hv
    | some it =>
      obtain ⟨v, d⟩ := it
      rw [e] at hv
      simp only [mgoValue] at hv
      split at hv
      · simp only [Option.map_some, Option.some.injEq] at hv
        simp only
        rw [upd_same]
        simp only [mgoValue]
        split
        · simp [hv]
        · rfl
      · cases hv
  delete_out := by
    intro c t k _
    simp only [mgo]
    split <;> simp
  delete_live := by
    intro c t k b _ hv
    simp only [mgo]
    simp only [collView] at hv
    cases e : c k with
    | none => rw [e] at hv; cases hv
    | some it => rfl
  delete_gone := by
    intro c t k _
    simp only [mgo]
    cases e : c k with
    | none => exact e
    | some it => exact upd_same _ _ _
  gone_view := by intro c t k t' hg ht; simp only [collView, hg, mgoValue]; rfl
  gone_later := by intro c t k t' hg ht; exact hg
  gone_touch := by
    intro c t k _ hg
    simp only [mgo, hg]
  frame_view := by
    intro c t o k t' hc hk ht
    simp only [collView]
    rcases mgo_at ae t o c hc k hk with e | ⟨it, e1, e2, e3⟩
    · rw [e]
    · obtain ⟨v, d⟩ := it
      rw [e1, e3]
      simp only [mgoValue]
      rw [if_neg (by simp only at e2; omega)]
  frame_gone := by
    intro c t o k hc hk hg
    rcases mgo_at ae t o c hc k hk with e | ⟨it, e1, _, e3⟩
    · rw [e]; exact hg
    · exact e3

end Verif.Sess
