import Verif.Props.Bson
/-! C182: times in a session. -/
namespace Verif.Bson
open Verif.Go

/-! ## Specification -/

/-- The value is the instant so many nanoseconds after the beginning of 1970. -/
def Spec.At (v : GV) (ns : Int) : Prop := ∃ sec nsec, v = .time sec nsec ∧ nsec < 1000000000 ∧ ns = sec * 1000000000 + nsec

/-- The whole milliseconds of an instant: the largest number of milliseconds that is not behind it. -/
def Spec.Cut (ns ns' : Int) : Prop := ns' ≤ ns ∧ ns < ns' + 1000000 ∧ ∃ ms, ns' = ms * 1000000

/-- The zero time, for which `IsZero` is true: the beginning of the year 1. -/
def Spec.zeroTime : Int := -62135596800 * 1000000000

theorem at_unique {v : GV} {a b : Int} (h : Spec.At v a) (h' : Spec.At v b) : b = a := by
  obtain ⟨s, n, rfl, -, rfl⟩ := h
  obtain ⟨s', n', h, -, rfl⟩ := h'
  cases h
  rfl

theorem cut_unique {ns a b : Int} (h : Spec.Cut ns a) (h' : Spec.Cut ns b) : b = a := by
  obtain ⟨h1, h2, m, rfl⟩ := h
  obtain ⟨h3, h4, m', rfl⟩ := h'
  omega

theorem reload_cut {v : GV} {ns : Int} (h : Spec.At v ns) : ∃ ns', Spec.At (Spec.reload v) ns' ∧ Spec.Cut ns ns' := by
  obtain ⟨s, n, rfl, hn, rfl⟩ := h
  refine ⟨s * 1000000000 + ((n / 1000000 * 1000000 : Nat) : Int), ⟨s, n / 1000000 * 1000000, rfl, by omega, rfl⟩, by omega, by omega,
    s * 1000 + ((n / 1000000 : Nat) : Int), by omega⟩

/-! ## Theorems -/

/-- **C182**: a time in a session that was flushed without an error is, for whoever reads the session within its time, the same instant
cut to whole milliseconds. -/
theorem C182_next_request {σ : Type} {C : Sess.CacheApi σ} {cfg : Sess.Config} {good : Str → Prop}
    (L : Sess.Lawful C cfg.sessionExpire good) (o : Order) (h : List (Int × Sess.HOp GV)) (t0 t1 t2 : Int)
    (st : Sess.Handle GV × σ) (hg : good st.1.sid) (hc : st.1.closed = false) (hch : st.1.changed = true)
    (f : Sess.Fault) (hw : Sess.Spec.Within t0 (t0 + cfg.sessionExpire * Cache.second) (h ++ [(t1, .flush f)]))
    (hu : Sess.Spec.Undisturbed st.1.sid h) (hnd : Sess.Spec.NoDestroy h)
    (hok : Sess.FlushesOk C (conv o) cfg (h ++ [(t1, .flush f)]) st)
    (h12 : t1 ≤ t2) (h2 : t2 < t0 + cfg.sessionExpire * Cache.second)
    (hs : Spec.Storable (Sess.Spec.lastSaid h st.1.values))
    (hsize : ∀ b, (conv o).marshal (Sess.Spec.lastSaid h st.1.values) = some b → b.length < 2147483648)
    (k : Str) (v : GV) (ns : Int) (hv : Sess.Spec.lastSaid h st.1.values k = some v) (hat : Spec.At v ns) :
    ∃ hd w ns', Sess.read C (conv o) .none t2 st.1.sid (Sess.hrun C (conv o) cfg (h ++ [(t1, .flush f)]) st).2 =
        ((Sess.hrun C (conv o) cfg (h ++ [(t1, .flush f)]) st).2, .ok hd) ∧
      hd.get k = some w ∧ Spec.At w ns' ∧ Spec.Cut ns ns' := by
  obtain ⟨hd, h1, -, -, -, h5⟩ := C140_next_request L o h t0 t1 t2 st hg hc hch f hw hu hnd hok h12 h2 hs hsize
  obtain ⟨ns', h6, h7⟩ := reload_cut hat
  exact ⟨hd, Spec.reload v, ns', h1, by rw [h5 k, hv]; rfl, h6, h7⟩

/-- On the level of the converter: any session, any order of its keys. -/
theorem C182_stored (o : Order) (vs : Str → Option GV) (b : Str) (hs : Spec.Storable vs) (hm : (conv o).marshal vs = some b)
    (hb : b.length < 2147483648) (k : Str) (v : GV) (ns : Int) (hv : vs k = some v) (hat : Spec.At v ns) :
    ∃ ws w ns', (conv o).unmarshal b = some ws ∧ ws k = some w ∧ Spec.At w ns' ∧ Spec.Cut ns ns' := by
  obtain ⟨ns', h6, h7⟩ := reload_cut hat
  exact ⟨_, Spec.reload v, ns', C140_round_trip o vs b hs hm hb, by simp only [hv]; rfl, h6, h7⟩

/-- What the cut does: an earlier time does not become a later one, a time of whole milliseconds stays as it is - so a time that was
loaded never changes again -, any other becomes earlier, and the zero time stays the zero time, as which also every time of the millisecond
after it comes back. -/
theorem C182_cut {a b a' b' : Int} (ha : Spec.Cut a a') (hb : Spec.Cut b b') :
    (a ≤ b → a' ≤ b') ∧ (a' = a ↔ ∃ ms, a = ms * 1000000) ∧ Spec.Cut a' a' ∧
    (a' = Spec.zeroTime ↔ Spec.zeroTime ≤ a ∧ a < Spec.zeroTime + 1000000) := by
  obtain ⟨h1, h2, m, rfl⟩ := ha
  obtain ⟨h3, h4, m', rfl⟩ := hb
  unfold Spec.zeroTime
  refine ⟨fun h => by omega, ⟨fun h => ⟨m, by omega⟩, fun ⟨m', h⟩ => by omega⟩, ⟨by omega, by omega, m, rfl⟩, by omega, by omega⟩

/-- **C182** violated as it is usually understood: a time does not come back equal. -/
theorem C182_equal_violated (o : Order) : ∃ (v w : GV) (b : Str) (ws : Str → Option GV),
    Spec.Storable (fun k => if k = b!"at" then some v else none) ∧
    (conv o).marshal (fun k => if k = b!"at" then some v else none) = some b ∧ (conv o).unmarshal b = some ws ∧
    ws b!"at" = some w ∧ Spec.At v (-1) ∧ Spec.At w (-1000000) := by
  have hs : Spec.Storable (fun k => if k = b!"at" then some (GV.time (-1) 999999999) else none) := by
    refine ⟨⟨[b!"at"], fun k h => ?_⟩, fun k h => ?_, fun k v h => ?_⟩
    · by_cases hk : k = b!"at" <;> simp_all
    · by_cases hk : k = b!"at"
      · rw [hk]; decide
      · simp [hk] at h
    · by_cases hk : k = b!"at"
      · simp [hk] at h; subst h; simp [Spec.Ok]
      · simp [hk] at h
  have hk : o.keys (fun k => if k = b!"at" then some (GV.time (-1) 999999999) else none) = [b!"at"] := by
    obtain ⟨h1, h2⟩ := o.listed _ hs.finite
    have h3 : ∀ k, k ∈ o.keys (fun k => if k = b!"at" then some (GV.time (-1) 999999999) else none) ↔ k = b!"at" := fun k =>
      (h2 k).trans (by by_cases h : k = b!"at" <;> simp [h])
    cases hk : o.keys (fun k => if k = b!"at" then some (GV.time (-1) 999999999) else none) with
    | nil => rw [hk] at h3; exact absurd ((h3 b!"at").2 rfl) (by simp)
    | cons a l =>
      rw [hk] at h1 h3
      have ha := (h3 a).1 (by simp)
      subst ha
      cases l with
      | nil => rfl
      | cons c l =>
        have hc := (h3 c).1 (by simp)
        subst hc
        exact absurd h1 (by simp)
  have hm : (conv o).marshal (fun k => if k = b!"at" then some (GV.time (-1) 999999999) else none) =
      some [17, 0, 0, 0, 9, 97, 116, 0, 0xFF, 0xFF, 0xFF, 0xFF, 0xFF, 0xFF, 0xFF, 0xFF, 0] := by
    rw [conv_marshal, hk]
    decide +kernel
  exact ⟨.time (-1) 999999999, .time (-1) 999000000, _, _, hs, hm, C140_round_trip o _ _ hs hm (by decide), rfl,
    ⟨-1, 999999999, rfl, by decide, by decide⟩, ⟨-1, 999000000, rfl, by decide, by decide⟩⟩

/-- Times before and after 1970, and the zero time, as they are written and read. -/
theorem ex_times : enc (.time 1 234567890) = some (9, [0xD2, 4, 0, 0, 0, 0, 0, 0]) ∧
    readTime 1234 = .time 1 234000000 ∧ readTime (-1) = .time (-1) 999000000 ∧ readTime (-1000) = .time (-1) 0 ∧
    readTime (-62135596800000) = .time (-62135596800) 0 := by
  refine ⟨by decide +kernel, rfl, rfl, rfl, rfl⟩

end Verif.Bson
