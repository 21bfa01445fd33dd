import Verif.Props.Cache
import Verif.Proofs.Num
/-!
# C130: counters in the caches, exactly
-/
namespace Verif.Cache
open Verif.Go

/-! ## Specification -/

/-- A number that a signed 64-bit integer can hold. -/
def Spec.Int64 (i : Int) : Prop := -(2 ^ 63) ≤ i ∧ i < 2 ^ 63

/-- The amount of a call: the first parameter, 1 without. -/
def Spec.amount : List Int → Int
  | [] => 1
  | n :: _ => n

/-- redis, adding `n` to what a key holds (`none`: nothing): the new contents, and the answer. -/
inductive Spec.RedisAdd (n : Int) : Option Item → Option Item → Out → Prop where
  /-- nothing there: the amount is stored, for ever -/
  | fresh : Spec.RedisAdd n none (some (fmtInt n, none)) .ok
  | add (i : Int) (d : Option Int) : Spec.Int64 i → Spec.Int64 (i + n) →
      Spec.RedisAdd n (some (fmtInt i, d)) (some (fmtInt (i + n), d)) .ok
  | overflow (i : Int) (d : Option Int) : Spec.Int64 i → ¬ Spec.Int64 (i + n) →
      Spec.RedisAdd n (some (fmtInt i, d)) (some (fmtInt i, d)) .failed
  | noNumber (v : Str) (d : Option Int) : (∀ i, Spec.Int64 i → v ≠ fmtInt i) →
      Spec.RedisAdd n (some (v, d)) (some (v, d)) .failed

/-- memcached: a text of digits for a number below 2^64, and blanks, becomes the digits of `f` of the number, with
blanks up to the old length. -/
inductive Spec.McChange (f : Nat → Nat) : Option Item → Option Item → Out → Prop where
  | missing : Spec.McChange f none none .missed
  | number (ds : Str) (m : Nat) (d : Option Int) : NumSpec.Digits ds → NumSpec.decimal ds < 2 ^ 64 →
      Spec.McChange f (some (ds ++ List.replicate m 32, d))
        (some (natDec (f (NumSpec.decimal ds)) ++
          List.replicate (ds.length + m - (natDec (f (NumSpec.decimal ds))).length) 32, d)) .ok
  | noNumber (v : Str) (d : Option Int) :
      (∀ ds m, NumSpec.Digits ds → NumSpec.decimal ds < 2 ^ 64 → v ≠ ds ++ List.replicate m 32) →
      Spec.McChange f (some (v, d)) (some (v, d)) .failed

/-- MongoDB, on the document of a key, expired or not. -/
inductive Spec.MgoAdd (n : Int) : Option (Val × Int) → Option (Val × Int) → Out → Prop where
  | missing : Spec.MgoAdd n none none .missed
  | add (i d : Int) : Spec.Int64 (i + n) → Spec.MgoAdd n (some (.int i, d)) (some (.int (i + n), d)) .ok
  | overflow (i d : Int) : ¬ Spec.Int64 (i + n) → Spec.MgoAdd n (some (.int i, d)) (some (.int i, d)) .failed
  | noNumber (v : Val) (d : Int) : (∀ i, v ≠ .int i) → Spec.MgoAdd n (some (v, d)) (some (v, d)) .failed

/-! ## Lemmas -/

theorem amount_eq (ps : List Int) : delta ps = Spec.amount ps := by cases ps <;> rfl

theorem fits64_iff (i : Int) : fits64 i = true ↔ Spec.Int64 i := by
  unfold fits64 Spec.Int64; simp

theorem canonInt_iff (v : Str) (i : Int) : canonInt v = some i ↔ Spec.Int64 i ∧ v = fmtInt i := by
  constructor
  · intro h
    have hv := (canonInt_some h).symm
    refine ⟨?_, hv⟩
    unfold canonInt at h
    split at h
    · rename_i j hp
      split at h
      · simp at h; subst h
        have := ((parseInt_iff 64 (by decide) v j).1 hp).2
        unfold NumSpec.Fits at this
        simp only [if_true] at this
        unfold Spec.Int64
        omega
      · simp at h
    · simp at h
  · rintro ⟨h, rfl⟩
    exact canonInt_int ((fits64_iff i).2 h)

theorem live_self {s : Server} {now : Int} {k : Str} {it : Item} (h : live s now k = some it) : s k = some it := by
  unfold live at h
  cases hs : s k with
  | none => rw [hs] at h; cases h
  | some x =>
    rw [hs] at h
    simp only [Option.filter] at h
    split at h
    · exact h
    · cases h

theorem live_alive {s : Server} {now : Int} {k : Str} {v : Str} {d : Option Int} (h : live s now k = some (v, d)) :
    alive now d = true := by
  have h1 := live_self h
  unfold live at h
  rw [h1] at h
  simp only [Option.filter] at h
  split at h
  · assumption
  · cases h

theorem live_upd (s : Server) (now : Int) (k : Str) (v : Str) (d : Option Int) (ha : alive now d = true) :
    live (upd s k (some (v, d))) now k = some (v, d) := by
  unfold live
  rw [upd_same]
  simp [Option.filter, ha]

theorem redisIncrBy_exact (s : Server) (now : Int) (k : Str) (n : Int) :
    Spec.RedisAdd n (live s now k) (live (redisIncrBy s now k n).1 now k) (redisIncrBy s now k n).2 ∧
    ∀ k', k' ≠ k → (redisIncrBy s now k n).1 k' = s k' := by
  unfold redisIncrBy
  cases hl : live s now k with
  | none =>
    refine ⟨?_, fun k' hk => upd_ne _ _ hk⟩
    simp only
    rw [live_upd s now k (fmtInt n) none rfl]
    exact .fresh
  | some it =>
    obtain ⟨v, d⟩ := it
    simp only
    cases hc : canonInt v with
    | none =>
      refine ⟨?_, fun _ _ => rfl⟩
      simp only
      rw [hl]
      refine .noNumber v d (fun i hi e => ?_)
      rw [(canonInt_iff v i).2 ⟨hi, e⟩] at hc
      cases hc
    | some i =>
      obtain ⟨hi, rfl⟩ := (canonInt_iff v i).1 hc
      simp only
      by_cases hf : fits64 (i + n) = true
      · rw [if_pos hf]
        refine ⟨?_, fun k' hk => upd_ne _ _ hk⟩
        simp only
        rw [live_upd s now k _ d (live_alive hl)]
        exact .add i d hi ((fits64_iff _).1 hf)
      · rw [if_neg hf]
        refine ⟨?_, fun _ _ => rfl⟩
        simp only
        rw [hl]
        exact .overflow i d hi (fun e => hf ((fits64_iff _).2 e))

theorem stripBlanks (ds : Str) (m : Nat) (h : NumSpec.Digits ds) :
    ((ds ++ List.replicate m 32).reverse.dropWhile (· == 32)).reverse = ds := by
  have hd := dropWhile_blank_digits ds (fun c hc => by unfold isDig; exact h.2 c hc)
  have : (ds ++ List.replicate m (32 : UInt8)).reverse.dropWhile (· == 32) = ds.reverse.dropWhile (· == 32) := by
    rw [List.reverse_append, List.reverse_replicate]
    induction m with
    | zero => rfl
    | succ m ih => rw [List.replicate_succ, List.cons_append, List.dropWhile_cons, if_pos (by decide)]; exact ih
  rw [this]
  exact hd

theorem dropWhile_replicate (s : Str) : ∃ m, s = List.replicate m 32 ++ s.dropWhile (· == 32) := by
  induction s with
  | nil => exact ⟨0, rfl⟩
  | cons c s ih =>
    by_cases hc : c = 32
    · subst hc
      obtain ⟨m, hm⟩ := ih
      refine ⟨m + 1, ?_⟩
      rw [List.dropWhile_cons, if_pos (by decide), List.replicate_succ, List.cons_append, ← hm]
    · refine ⟨0, ?_⟩
      rw [List.dropWhile_cons, if_neg (by simpa using hc)]
      rfl

theorem unstrip (v : Str) : ∃ m, v = (v.reverse.dropWhile (· == 32)).reverse ++ List.replicate m 32 := by
  obtain ⟨m, hm⟩ := dropWhile_replicate v.reverse
  refine ⟨m, ?_⟩
  have := congrArg List.reverse hm
  rw [List.reverse_reverse, List.reverse_append, List.reverse_replicate] at this
  exact this

theorem mcNumber_iff (v : Str) (n : Nat) : mcNumber v = some n ↔
    ∃ ds m, NumSpec.Digits ds ∧ NumSpec.decimal ds = n ∧ n < 2 ^ 64 ∧ v = ds ++ List.replicate m 32 := by
  unfold mcNumber
  constructor
  · intro h
    split at h
    · rename_i k hp
      simp only [Option.some.injEq] at h
      subst h
      obtain ⟨h1, h2⟩ := (parseUint_iff 64 _ k).1 hp
      unfold NumSpec.Denotes at h1
      simp only [Bool.false_eq_true, false_and, or_false] at h1
      unfold NumSpec.Fits at h2
      simp only [Bool.false_eq_true, if_false] at h2
      obtain ⟨m, hm⟩ := unstrip v
      exact ⟨_, m, h1.1, by omega, by omega, hm⟩
    · cases h
  · rintro ⟨ds, m, h1, h2, h3, rfl⟩
    rw [stripBlanks ds m h1, parseUint_digits 64 ds h1, if_pos (by omega), h2]

theorem mcArith_exact (s : Server) (now : Int) (k : Str) (f : Nat → Nat) :
    Spec.McChange f (live s now k) (live (mcArith s now k f).1 now k) (mcArith s now k f).2 ∧
    ∀ k', k' ≠ k → (mcArith s now k f).1 k' = s k' := by
  unfold mcArith
  cases hl : live s now k with
  | none =>
    refine ⟨?_, fun _ _ => rfl⟩
    simp only
    rw [hl]
    exact .missing
  | some it =>
    obtain ⟨v, d⟩ := it
    simp only
    cases hn : mcNumber v with
    | none =>
      refine ⟨?_, fun _ _ => rfl⟩
      simp only
      rw [hl]
      refine .noNumber v d (fun ds m h1 h2 e => ?_)
      rw [(mcNumber_iff v _).2 ⟨ds, m, h1, rfl, h2, e⟩] at hn
      cases hn
    | some n =>
      obtain ⟨ds, m, h1, h2, h3, h4⟩ := (mcNumber_iff v n).1 hn
      refine ⟨?_, fun k' hk => upd_ne _ _ hk⟩
      simp only
      rw [live_upd s now k _ d (live_alive hl)]
      subst h2
      subst h4
      have := Spec.McChange.number (f := f) ds m d h1 h3
      unfold padTo
      rw [List.length_append, List.length_replicate]
      exact this

theorem mgoInc_exact (c : Coll) (k : Str) (n : Int) :
    Spec.MgoAdd n (c k) ((mgoInc c k n).1 k) (mgoInc c k n).2 ∧ ∀ k', k' ≠ k → (mgoInc c k n).1 k' = c k' := by
  unfold mgoInc
  cases hc : c k with
  | none => exact ⟨by simp only; rw [hc]; exact .missing, fun _ _ => rfl⟩
  | some it =>
    obtain ⟨v, d⟩ := it
    have other : (∀ i, v ≠ .int i) → Spec.MgoAdd n (some (v, d)) (c k) .failed := by
      intro h; rw [hc]; exact .noNumber v d h
    cases v with
    | int i =>
      simp only
      by_cases hf : fits64 (i + n) = true
      · rw [if_pos hf]
        exact ⟨by simp only; rw [upd_same]; exact .add i d ((fits64_iff _).1 hf), fun k' hk => upd_ne _ _ hk⟩
      · rw [if_neg hf]
        exact ⟨by simp only; rw [hc]; exact .overflow i d (fun e => hf ((fits64_iff _).2 e)), fun _ _ => rfl⟩
    | _ => exact ⟨other (by simp), fun _ _ => rfl⟩

/-! ## C130 -/

/-- **C130**, redis: `Incr` adds the amount to what is visible at the key, and nothing else changes; `Decr` subtracts
it, except for the smallest number, which redis refuses to negate. -/
theorem C130_redis (pre k : Str) (now : Int) (ps : List Int) (s : Server) :
    (Spec.RedisAdd (Spec.amount ps) (live s now (pre ++ k)) (live (redis pre now (.incr k ps) s).1 now (pre ++ k))
      (redis pre now (.incr k ps) s).2 ∧ ∀ k', k' ≠ pre ++ k → (redis pre now (.incr k ps) s).1 k' = s k') ∧
    (Spec.Int64 (-Spec.amount ps) →
      Spec.RedisAdd (-Spec.amount ps) (live s now (pre ++ k)) (live (redis pre now (.decr k ps) s).1 now (pre ++ k))
        (redis pre now (.decr k ps) s).2 ∧ ∀ k', k' ≠ pre ++ k → (redis pre now (.decr k ps) s).1 k' = s k') ∧
    (¬ Spec.Int64 (-Spec.amount ps) → redis pre now (.decr k ps) s = (s, .failed)) := by
  rw [← amount_eq]
  refine ⟨redisIncrBy_exact s now (pre ++ k) (delta ps), fun h => ?_, fun h => ?_⟩
  · have : redis pre now (.decr k ps) s = redisIncrBy s now (pre ++ k) (-(delta ps)) := by
      simp only [redis]; rw [if_pos ((fits64_iff _).2 h)]
    rw [this]
    exact redisIncrBy_exact s now (pre ++ k) _
  · simp only [redis]; rw [if_neg (fun e => h ((fits64_iff _).1 e))]

/-- **C130**, memcached: `Incr` adds modulo 2^64 (so a negative amount subtracts, modulo 2^64); `Decr` subtracts the amount
modulo 2^64, down to 0; a key that is too long or holds blanks or control bytes is an error. -/
theorem C130_memcache (pre k : Str) (now : Int) (ps : List Int) (s : Server) :
    (legalKey (pre ++ k) = false → memcache pre now (.incr k ps) s = (s, .failed) ∧ memcache pre now (.decr k ps) s = (s, .failed)) ∧
    (legalKey (pre ++ k) = true →
      (Spec.McChange (fun u => (((u : Int) + Spec.amount ps) % 2 ^ 64).toNat) (live s now (pre ++ k))
        (live (memcache pre now (.incr k ps) s).1 now (pre ++ k)) (memcache pre now (.incr k ps) s).2 ∧
        ∀ k', k' ≠ pre ++ k → (memcache pre now (.incr k ps) s).1 k' = s k') ∧
      (Spec.McChange (fun u => ((u : Int) - Spec.amount ps % 2 ^ 64).toNat) (live s now (pre ++ k))
        (live (memcache pre now (.decr k ps) s).1 now (pre ++ k)) (memcache pre now (.decr k ps) s).2 ∧
        ∀ k', k' ≠ pre ++ k → (memcache pre now (.decr k ps) s).1 k' = s k')) := by
  rw [← amount_eq]
  refine ⟨fun h => ?_, fun h => ?_⟩
  · simp only [memcache]
    rw [if_neg (by rw [h]; decide), if_neg (by rw [h]; decide)]
    exact ⟨rfl, rfl⟩
  · have f1 : (fun u : Nat => (((u : Int) + delta ps) % 2 ^ 64).toNat) = fun n => (n + (wrapU 64 (delta ps)).toNat) % 2 ^ 64 := by
      funext u
      unfold wrapU
      generalize delta ps = x
      omega
    have f2 : (fun u : Nat => ((u : Int) - delta ps % 2 ^ 64).toNat) = fun n => n - (wrapU 64 (delta ps)).toNat := by
      funext u
      unfold wrapU
      generalize delta ps = x
      omega
    rw [f1, f2]
    have e1 : memcache pre now (.incr k ps) s = mcArith s now (pre ++ k) (fun n => (n + (wrapU 64 (delta ps)).toNat) % 2 ^ 64) := by
      simp only [memcache]; rw [if_pos h]
    have e2 : memcache pre now (.decr k ps) s = mcArith s now (pre ++ k) (fun n => n - (wrapU 64 (delta ps)).toNat) := by
      simp only [memcache]; rw [if_pos h]
    rw [e1, e2]
    exact ⟨mcArith_exact s now (pre ++ k) _, mcArith_exact s now (pre ++ k) _⟩

/-- **C130**, MongoDB: the amount is added to the document's integer, expired or not; `Decr` negates the amount as a
64-bit integer, so that the smallest one is subtracted as itself. -/
theorem C130_mgo (ae : Bool) (k : Str) (now : Int) (ps : List Int) (hps : Spec.Int64 (Spec.amount ps)) (c : Coll) :
    (Spec.MgoAdd (Spec.amount ps) (c k) ((mgo ae now (.incr k ps) c).1 k) (mgo ae now (.incr k ps) c).2 ∧
      ∀ k', k' ≠ k → (mgo ae now (.incr k ps) c).1 k' = c k') ∧
    (Spec.MgoAdd (if Spec.amount ps = -(2 ^ 63) then -(2 ^ 63) else -Spec.amount ps) (c k) ((mgo ae now (.decr k ps) c).1 k)
      (mgo ae now (.decr k ps) c).2 ∧ ∀ k', k' ≠ k → (mgo ae now (.decr k ps) c).1 k' = c k') := by
  rw [← amount_eq] at hps ⊢
  refine ⟨mgoInc_exact c k (delta ps), ?_⟩
  have : (if delta ps = -(2 ^ 63) then -(2 ^ 63) else -delta ps) = wrapS 64 (-(delta ps)) := by
    unfold Spec.Int64 at hps
    by_cases h : delta ps = -(2 ^ 63)
    · rw [if_pos h, h]; decide
    · rw [if_neg h, wrap64 ((fits64_iff _).2 ⟨by omega, by omega⟩)]
  rw [this]
  exact mgoInc_exact c k _

/-- Wrapping at the top, a blank left behind, a text that is no number, and a key that redis makes for ever. -/
example :
    run (memcache []) [(0, .set b!"n" (.text b!"18446744073709551615") []), (0, .incr b!"n" [2]), (0, .get b!"n")] (fun _ => none) =
      [.ok, .ok, .val b!"1                   "] ∧
    run (redis []) [(0, .set b!"n" (.int 9223372036854775807) []), (0, .incr b!"n" []), (0, .get b!"n")] (fun _ => none) =
      [.ok, .failed, .val b!"9223372036854775807"] ∧
    run (redis []) [(0, .set b!"n" (.text b!"+5") []), (0, .incr b!"n" []), (0, .decr b!"m" [7]), (9000000000000000, .get b!"m")] (fun _ => none) =
      [.ok, .failed, .ok, .val b!"-7"] ∧
    run (mgo true) [(0, .set b!"n" (.int (-5)) [1]), (5000000000, .decr b!"n" [-9223372036854775808]), (5000000000, .incr b!"n" [])] (fun _ => none) =
      [.ok, .failed, .ok] := by decide +kernel

end Verif.Cache
