import Verif.Props.Counters
import Verif.Props.CacheKeys
/-!
# C136: counters add up, whoever counts and in whatever order
-/
namespace Verif.Cache
open Verif.Go

/-! ## Specification -/

/-- What a call adds to the counter `k`. -/
def Spec.gain (k : Str) : Op → Int
  | .incr k' ps => if k' = k then Spec.amount ps else 0
  | .decr k' ps => if k' = k then -Spec.amount ps else 0
  | _ => 0

/-- What the calls of a history add to the counter `k`. -/
def Spec.total (k : Str) (h : List (Int × Op)) : Int := (h.map fun e => Spec.gain k e.2).sum

/-- How far the calls of a history move the counter `k`, up and down together. -/
def Spec.moved (k : Str) (h : List (Int × Op)) : Nat := (h.map fun e => (Spec.gain k e.2).natAbs).sum

/-- In the history the key `k` is only counted with, read and looked for; other keys are used in any way; nobody empties the
cache. -/
def Spec.Counting (k : Str) (h : List (Int × Op)) : Prop :=
  ∀ e ∈ h, e.2 ≠ .clean ∧ (Spec.keyOf e.2 = some k →
    (∃ ps, e.2 = .incr k ps) ∨ (∃ ps, e.2 = .decr k ps) ∨ e.2 = .get k ∨ e.2 = .has k)

/-! ## Any store whose entry counts -/

/-- `R s v`: the counter stands at `v`. `ok t`: at time `t` it has not expired. -/
structure Counts {σ : Type} (op : Int → Op → σ → σ × Out) (k : Str) (R : σ → Int → Prop) (ok : Int → Prop) : Prop where
  other : ∀ t o s v, ok t → R s v → o ≠ .clean → Spec.keyOf o ≠ some k → R (op t o s).1 v
  add : ∀ t ps s v, ok t → R s v → Spec.Int64 v → Spec.Int64 (v + Spec.amount ps) →
    R (op t (.incr k ps) s).1 (v + Spec.amount ps) ∧ (op t (.incr k ps) s).2 = .ok
  sub : ∀ t ps s v, ok t → R s v → Spec.Int64 v → (Spec.amount ps).natAbs < 2 ^ 63 → Spec.Int64 (v - Spec.amount ps) →
    R (op t (.decr k ps) s).1 (v - Spec.amount ps) ∧ (op t (.decr k ps) s).2 = .ok
  get : ∀ t s v, ok t → R s v → op t (.get k) s = (s, .val (fmtInt v))
  has : ∀ t s v, ok t → R s v → op t (.has k) s = (s, .bool true)

theorem Counts.final {σ : Type} {op : Int → Op → σ → σ × Out} {k : Str} {R : σ → Int → Prop} {ok : Int → Prop} (hc : Counts op k R ok) :
    ∀ (h : List (Int × Op)) (s : σ) (i : Int), R s i → Spec.Counting k h → (∀ e ∈ h, ok e.1) → i.natAbs + Spec.moved k h < 2 ^ 63 →
      R (Cache.final op h s) (i + Spec.total k h) ∧
      (∀ x ∈ h.zip (run op h s), Spec.gain k x.1.2 ≠ 0 → x.2 = .ok)
  | [], s, i, hr, _, _, _ => ⟨by simpa [Cache.final, Spec.total] using hr, by simp [run]⟩
  | (t, o) :: h, s, i, hr, hcnt, hok, hb => by
    have hcnt' : Spec.Counting k h := fun e he => hcnt e (List.mem_cons_of_mem _ he)
    have hok' : ∀ e ∈ h, ok e.1 := fun e he => hok e (List.mem_cons_of_mem _ he)
    have ht : ok t := hok _ List.mem_cons_self
    obtain ⟨h1, h2⟩ := hcnt _ List.mem_cons_self
    simp only at h1 h2
    have hm : Spec.moved k ((t, o) :: h) = (Spec.gain k o).natAbs + Spec.moved k h := by simp [Spec.moved]
    have htot : Spec.total k ((t, o) :: h) = Spec.gain k o + Spec.total k h := by simp [Spec.total]
    rw [hm] at hb
    rw [htot]
    -- one step
    have step : R (op t o s).1 (i + Spec.gain k o) ∧ (Spec.gain k o ≠ 0 → (op t o s).2 = .ok) := by
      have hi : Spec.Int64 i := ⟨by omega, by omega⟩
      by_cases hk : Spec.keyOf o = some k
      · rcases h2 hk with ⟨ps, rfl⟩ | ⟨ps, rfl⟩ | rfl | rfl
        · simp only [Spec.gain, if_true] at hb ⊢
          have := hc.add t ps s i ht hr hi ⟨by omega, by omega⟩
          exact ⟨this.1, fun _ => this.2⟩
        · simp only [Spec.gain, if_true] at hb ⊢
          have hs : i + -Spec.amount ps = i - Spec.amount ps := by omega
          rw [hs]
          have := hc.sub t ps s i ht hr hi (by omega) ⟨by omega, by omega⟩
          exact ⟨this.1, fun _ => this.2⟩
        · rw [hc.get t s i ht hr]
          simp only [Spec.gain, Int.add_zero]
          exact ⟨hr, fun h => absurd rfl h⟩
        · rw [hc.has t s i ht hr]
          simp only [Spec.gain, Int.add_zero]
          exact ⟨hr, fun h => absurd rfl h⟩
      · have hg : Spec.gain k o = 0 := by
          cases o <;> simp only [Spec.gain] <;> simp only [Spec.keyOf, Option.some.injEq] at hk
          · rw [if_neg hk]
          · rw [if_neg hk]
        rw [hg, Int.add_zero]
        exact ⟨hc.other t o s i ht hr h1 hk, fun h => absurd rfl h⟩
    obtain ⟨r1, r2⟩ := Counts.final hc h (op t o s).1 (i + Spec.gain k o) step.1 hcnt' hok' (by omega)
    refine ⟨by simpa only [Cache.final, Int.add_assoc] using r1, ?_⟩
    intro x hx
    simp only [run, List.zip_cons_cons, List.mem_cons] at hx
    rcases hx with rfl | hx
    · exact step.2
    · exact r2 x hx

/-! ## redis -/

theorem redis_counts (pre k : Str) (d : Option Int) :
    Counts (redis pre) k (fun s v => s (pre ++ k) = some (fmtInt v, d)) (fun t => alive t d = true) := by
  have hlive : ∀ (s : Server) (t v : Int), alive t d = true → s (pre ++ k) = some (fmtInt v, d) →
      live s t (pre ++ k) = some (fmtInt v, d) := by
    intro s t v ha hs
    unfold live
    rw [hs]
    simp [Option.filter, ha]
  have hadd : ∀ (s : Server) (t v n : Int), alive t d = true → s (pre ++ k) = some (fmtInt v, d) → Spec.Int64 v → Spec.Int64 (v + n) →
      (redisIncrBy s t (pre ++ k) n).1 (pre ++ k) = some (fmtInt (v + n), d) ∧ (redisIncrBy s t (pre ++ k) n).2 = .ok := by
    intro s t v n ha hs hv hn
    unfold redisIncrBy
    rw [hlive s t v ha hs]
    simp only
    rw [(canonInt_iff _ v).2 ⟨hv, rfl⟩]
    simp only
    rw [if_pos ((fits64_iff _).2 hn)]
    exact ⟨upd_same _ _ _, rfl⟩
  constructor
  · intro t o s v ht hr hc hk
    cases ho : Spec.keyOf o with
    | some k' =>
      have := (redis_indep pre k).other t o s k' ho (fun e => hk (by rw [ho, e]))
      exact this.trans hr
    | none =>
      cases o <;> simp only [Spec.keyOf, reduceCtorEq] at ho
      · exact absurd rfl hc
      · exact hr
  · intro t ps s v ht hr hv hn
    have := hadd s t v (Spec.amount ps) ht hr hv hn
    simp only [redis, amount_eq]
    exact this
  · intro t ps s v ht hr hv ha hn
    have := hadd s t v (-Spec.amount ps) ht hr hv (by rw [← Int.sub_eq_add_neg]; exact hn)
    simp only [redis, amount_eq]
    rw [if_pos ((fits64_iff _).2 ⟨by omega, by omega⟩), Int.sub_eq_add_neg]
    exact this
  · intro t s v ht hr
    simp only [redis]
    rw [hlive s t v ht hr]
  · intro t s v ht hr
    simp only [redis]
    rw [hlive s t v ht hr]
    rfl

/-! ## MongoDB -/

theorem mgo_counts (ae : Bool) (k : Str) (d : Int) :
    Counts (mgo ae) k (fun c v => c k = some (.int v, d)) (fun t => t < d) := by
  have hadd : ∀ (c : Coll) (v n : Int), c k = some (.int v, d) → Spec.Int64 (v + n) →
      (mgoInc c k n).1 k = some (.int (v + n), d) ∧ (mgoInc c k n).2 = .ok := by
    intro c v n hs hn
    unfold mgoInc
    rw [hs]
    simp only
    rw [if_pos ((fits64_iff _).2 hn)]
    exact ⟨upd_same _ _ _, rfl⟩
  constructor
  · intro t o s v ht hr hc hk
    cases ho : Spec.keyOf o with
    | some k' =>
      have := (mgo_indep ae k).other t o s k' ho (fun e => hk (by rw [ho, e]))
      exact this.trans hr
    | none =>
      cases o <;> simp only [Spec.keyOf, reduceCtorEq] at ho
      · exact absurd rfl hc
      · simp only [mgo]
        split
        · exact hr
        · simp only [hr]
          simp [Option.filter, ht]
  · intro t ps s v ht hr hv hn
    have := hadd s v (Spec.amount ps) hr hn
    simp only [mgo, amount_eq]
    exact this
  · intro t ps s v ht hr hv ha hn
    have := hadd s v (-Spec.amount ps) hr (by rw [← Int.sub_eq_add_neg]; exact hn)
    simp only [mgo, amount_eq]
    rw [wrap64 ((fits64_iff _).2 ⟨by omega, by omega⟩), Int.sub_eq_add_neg]
    exact this
  · intro t s v ht hr
    simp only [mgo, hr, mgoValue]
    rw [if_pos ht]
    rfl
  · intro t s v ht hr
    simp only [mgo, hr, mgoValue]
    rw [if_pos ht]
    rfl

/-! ## C136 -/

/-- **C136**, redis: the counter `k` stands at `i`. Whatever the calls of all clients, in whatever order they reach the server, as
long as the counter does not expire and the numbers stay in range: every `Incr` and `Decr` reports success, and the counter
then stands at `i` and all that was added, and `Get` says so. -/
theorem C136_redis (pre k : Str) (d : Option Int) (h : List (Int × Op)) (s : Server) (i t : Int)
    (hs : s (pre ++ k) = some (fmtInt i, d)) (hc : Spec.Counting k h) (ha : ∀ e ∈ h, alive e.1 d = true) (ht : alive t d = true)
    (hb : i.natAbs + Spec.moved k h < 2 ^ 63) :
    (redis pre t (.get k) (final (redis pre) h s)).2 = .val (fmtInt (i + Spec.total k h)) ∧
    (∀ x ∈ h.zip (run (redis pre) h s), Spec.gain k x.1.2 ≠ 0 → x.2 = .ok) := by
  obtain ⟨h1, h2⟩ := (redis_counts pre k d).final h s i hs hc ha hb
  exact ⟨by rw [(redis_counts pre k d).get t _ _ ht h1], h2⟩

/-- **C136**, MongoDB. -/
theorem C136_mgo (ae : Bool) (k : Str) (d : Int) (h : List (Int × Op)) (c : Coll) (i t : Int)
    (hs : c k = some (.int i, d)) (hc : Spec.Counting k h) (ha : ∀ e ∈ h, e.1 < d) (ht : t < d)
    (hb : i.natAbs + Spec.moved k h < 2 ^ 63) :
    (mgo ae t (.get k) (final (mgo ae) h c)).2 = .val (fmtInt (i + Spec.total k h)) ∧
    (∀ x ∈ h.zip (run (mgo ae) h c), Spec.gain k x.1.2 ≠ 0 → x.2 = .ok) := by
  obtain ⟨h1, h2⟩ := (mgo_counts ae k d).final h c i hs hc ha hb
  exact ⟨by rw [(mgo_counts ae k d).get t _ _ ht h1], h2⟩

theorem total_perm {k : Str} {h h' : List (Int × Op)} (hp : h.Perm h') : Spec.total k h = Spec.total k h' ∧ Spec.moved k h = Spec.moved k h' := by
  induction hp with
  | nil => exact ⟨rfl, rfl⟩
  | cons x _ ih => simp only [Spec.total, Spec.moved, List.map_cons, List.sum_cons] at ih ⊢; omega
  | swap x y l => simp only [Spec.total, Spec.moved, List.map_cons, List.sum_cons]; omega
  | trans _ _ ih1 ih2 => exact ⟨ih1.1.trans ih2.1, ih1.2.trans ih2.2⟩

/-- **C136**: the order does not matter: the same calls of the clients, interleaved in another way, give the same counter. -/
theorem C136_any_order (pre : Str) (ae : Bool) (k : Str) (h h' : List (Int × Op)) (hp : h.Perm h') (i t : Int)
    (hc : Spec.Counting k h) (hb : i.natAbs + Spec.moved k h < 2 ^ 63) :
    (∀ (d : Option Int) (s : Server), s (pre ++ k) = some (fmtInt i, d) → (∀ e ∈ h, alive e.1 d = true) → alive t d = true →
      (redis pre t (.get k) (final (redis pre) h s)).2 = (redis pre t (.get k) (final (redis pre) h' s)).2) ∧
    (∀ (d : Int) (c : Coll), c k = some (.int i, d) → (∀ e ∈ h, e.1 < d) → t < d →
      (mgo ae t (.get k) (final (mgo ae) h c)).2 = (mgo ae t (.get k) (final (mgo ae) h' c)).2) := by
  obtain ⟨e1, e2⟩ := total_perm (k := k) hp
  have hc' : Spec.Counting k h' := fun e he => hc e (hp.mem_iff.2 he)
  constructor
  · intro d s hs ha ht
    rw [(C136_redis pre k d h s i t hs hc ha ht hb).1,
      (C136_redis pre k d h' s i t hs hc' (fun e he => ha e (hp.mem_iff.2 he)) ht (by rw [← e2]; exact hb)).1, e1]
  · intro d c hs ha ht
    rw [(C136_mgo ae k d h c i t hs hc ha ht hb).1,
      (C136_mgo ae k d h' c i t hs hc' (fun e he => ha e (hp.mem_iff.2 he)) ht (by rw [← e2]; exact hb)).1, e1]

/-- **C136** is false of memcached, where `Decr` stops at 0: two clients, one adds 1 and one takes 1 away, and the counter ends at 0 or
at 1 depending on who comes first. -/
theorem C136_memcache_order_matters :
    (memcache [] 0 (.get b!"c") (final (memcache []) [(0, .incr b!"c" []), (0, .decr b!"c" [])]
      (fun k => if k = b!"c" then some (b!"0", none) else none))).2 = .val b!"0" ∧
    (memcache [] 0 (.get b!"c") (final (memcache []) [(0, .decr b!"c" []), (0, .incr b!"c" [])]
      (fun k => if k = b!"c" then some (b!"0", none) else none))).2 = .val b!"1" := by
  constructor <;> decide +kernel

/-- three clients, with other keys in use -/
example : Spec.Counting b!"c" [(1, .incr b!"c" [5]), (2, .set b!"x" (.int 1) []), (2, .decr b!"c" []), (3, .gc), (3, .get b!"c")] ∧
    Spec.total b!"c" [(1, .incr b!"c" [5]), (2, .set b!"x" (.int 1) []), (2, .decr b!"c" []), (3, .gc), (3, .get b!"c")] = 4 ∧
    Spec.moved b!"c" [(1, .incr b!"c" [5]), (2, .set b!"x" (.int 1) []), (2, .decr b!"c" []), (3, .gc), (3, .get b!"c")] = 6 := by
  refine ⟨?_, by decide, by decide⟩
  intro e he
  simp only [List.mem_cons, List.not_mem_nil, or_false] at he
  rcases he with rfl | rfl | rfl | rfl | rfl <;> simp [Spec.keyOf]

end Verif.Cache
