import Verif.Props.Cache
/-! C176: how long each cache keeps a value, for every timeout of up to 68 years. -/
namespace Verif.Cache
open Verif.Go

/-- What a timeout asks for: a number of seconds, or for ever (`none`). -/
def LifeSpec.asked : List Int → Option Int
  | [] => some 60
  | p :: _ => if p < 0 then none else if p = 0 then some 60 else some p

/-- A call that does not write the key: reading, the collector, or writing another key. -/
def LifeSpec.Leaves (k : Str) : Op → Prop
  | .get _ => True
  | .has _ => True
  | .gc => True
  | .clean => False
  | .set k' _ _ => k' ≠ k
  | .touch k' _ => k' ≠ k
  | .delete k' => k' ≠ k
  | .incr k' _ => k' ≠ k
  | .decr k' _ => k' ≠ k

/-- redis still has at time `t` a value stored at time `now`. -/
def LifeSpec.redisHas (now t : Int) : Option Int → Prop
  | none => True
  | some n => t < now + n * 1000000000

/-- memcached: more than thirty days (2592000 seconds) is read as a date, in seconds since 1970. -/
def LifeSpec.memcacheHas (now t : Int) : Option Int → Prop
  | none => True
  | some n => if n ≤ 2592000 then t < now + n * 1000000000 else t < n * 1000000000

/-- MongoDB: for ever is 9999 days. -/
def LifeSpec.mgoHas (now t : Int) : Option Int → Prop
  | none => t < now + 9999 * 86400 * 1000000000
  | some n => t < now + n * 1000000000

/-- the timeouts of up to 2147483647 seconds -/
def LifeSpec.Usual (ps : List Int) : Prop := ∀ p, ps.head? = some p → p < 2 ^ 31

theorem asked_cases (ps : List Int) (h : LifeSpec.Usual ps) :
    (LifeSpec.asked ps = none ∧ timeoutDur ps = 0) ∨
    (∃ n, LifeSpec.asked ps = some n ∧ 1 ≤ n ∧ n < 2 ^ 31 ∧ timeoutDur ps = n * second) := by
  cases ps with
  | nil => exact Or.inr ⟨60, rfl, by omega, by omega, rfl⟩
  | cons p ps =>
    have hp := h p rfl
    unfold LifeSpec.asked
    by_cases h0 : p < 0
    · left
      simp only [if_pos h0, true_and]
      unfold timeoutDur
      simp only
      rw [if_neg (by omega), if_neg (by omega)]
    · right
      by_cases h1 : p = 0
      · subst h1
        exact ⟨60, rfl, by omega, by omega, rfl⟩
      · exact ⟨p, by simp only [if_neg h0, if_neg h1], by omega, hp, timeoutDur_pos (by omega) (by omega)⟩

/-! ## keys left alone -/

theorem upd_other {α β : Type} [DecidableEq α] (f : α → β) {k k' : α} (v : β) (h : k' ≠ k) : upd f k' v k = f k := by
  unfold upd; rw [if_neg (fun e => h e.symm)]

theorem redisIncrBy_leaves (s : Server) (now : Int) (k k' : Str) (n : Int) (h : k' ≠ k) :
    (redisIncrBy s now k' n).1 k = s k := by
  unfold redisIncrBy
  split
  · exact upd_other s _ h
  · split
    · rfl
    · split
      · exact upd_other s _ h
      · rfl

theorem redis_leaves (pre k : Str) (now : Int) (o : Op) (s : Server) (h : LifeSpec.Leaves k o) :
    (redis pre now o s).1 (pre ++ k) = s (pre ++ k) := by
  have hp : ∀ {k' : Str}, k' ≠ k → pre ++ k' ≠ pre ++ k := fun h e => h (List.append_cancel_left e)
  cases o with
  | get k' => simp only [redis]; split <;> rfl
  | has k' => rfl
  | gc => rfl
  | clean => exact absurd h id
  | set k' v ps =>
    simp only [redis]
    split
    · split
      · rfl
      · exact upd_other s _ (hp h)
    · exact upd_other s _ (hp h)
  | touch k' ps =>
    simp only [redis]
    split
    · rfl
    · split
      · rfl
      · split
        · exact upd_other s _ (hp h)
        · exact upd_other s _ (hp h)
  | delete k' =>
    simp only [redis]
    split
    · rfl
    · exact upd_other s _ (hp h)
  | incr k' ps => exact redisIncrBy_leaves s now _ _ _ (hp h)
  | decr k' ps =>
    simp only [redis]
    split
    · exact redisIncrBy_leaves s now _ _ _ (hp h)
    · rfl

theorem mcArith_leaves (s : Server) (now : Int) (k k' : Str) (f : Nat → Nat) (h : k' ≠ k) :
    (mcArith s now k' f).1 k = s k := by
  unfold mcArith
  split
  · rfl
  · split
    · rfl
    · exact upd_other s _ h

theorem memcache_leaves (pre k : Str) (now : Int) (o : Op) (s : Server) (h : LifeSpec.Leaves k o) :
    (memcache pre now o s).1 (pre ++ k) = s (pre ++ k) := by
  have hp : ∀ {k' : Str}, k' ≠ k → pre ++ k' ≠ pre ++ k := fun h e => h (List.append_cancel_left e)
  cases o with
  | get k' =>
    simp only [memcache]
    split
    · split <;> rfl
    · rfl
  | has k' => simp only [memcache]; split <;> rfl
  | gc => rfl
  | clean => exact absurd h id
  | set k' v ps =>
    simp only [memcache]
    split
    · exact upd_other s _ (hp h)
    · rfl
  | touch k' ps =>
    simp only [memcache]
    split
    · split
      · rfl
      · exact upd_other s _ (hp h)
    · rfl
  | delete k' =>
    simp only [memcache]
    split
    · split
      · rfl
      · exact upd_other s _ (hp h)
    · rfl
  | incr k' ps =>
    simp only [memcache]
    split
    · exact mcArith_leaves s now _ _ _ (hp h)
    · rfl
  | decr k' ps =>
    simp only [memcache]
    split
    · exact mcArith_leaves s now _ _ _ (hp h)
    · rfl

theorem mgoInc_leaves (c : Coll) (k k' : Str) (n : Int) (h : k' ≠ k) : (mgoInc c k' n).1 k = c k := by
  unfold mgoInc
  split
  · rfl
  · split
    · exact upd_other c _ h
    · rfl
  · rfl

/-- MongoDB may have collected the document, but only when it was expired -/
theorem mgo_leaves (ae : Bool) (k : Str) (now : Int) (o : Op) (c : Coll) (h : LifeSpec.Leaves k o) :
    (mgo ae now o c).1 k = c k ∨ ((mgo ae now o c).1 k = none ∧ ∃ v d, c k = some (v, d) ∧ d ≤ now) := by
  cases o with
  | get k' => left; simp only [mgo]; split <;> rfl
  | has k' => left; rfl
  | gc =>
    simp only [mgo]
    cases ae with
    | true => left; rfl
    | false =>
      simp only [Bool.false_eq_true, if_false]
      cases hc : c k with
      | none => left; rfl
      | some it =>
        by_cases hd : now < it.2
        · left; simp [Option.filter, hd]
        · right
          refine ⟨by simp [Option.filter, hd], it.1, it.2, rfl, by omega⟩
  | clean => exact absurd h id
  | set k' v ps => left; exact upd_other c _ h
  | touch k' ps =>
    left
    simp only [mgo]
    split
    · rfl
    · exact upd_other c _ h
  | delete k' =>
    left
    simp only [mgo]
    split
    · rfl
    · exact upd_other c _ h
  | incr k' ps => left; exact mgoInc_leaves c _ _ _ h
  | decr k' ps => left; exact mgoInc_leaves c _ _ _ h

theorem final_leaves (op : Int → Op → Server → Server × Out) (pre k : Str)
    (hl : ∀ now o s, LifeSpec.Leaves k o → (op now o s).1 (pre ++ k) = s (pre ++ k)) (h : List (Int × Op))
    (ha : ∀ x ∈ h, LifeSpec.Leaves k x.2) : ∀ s, final op h s (pre ++ k) = s (pre ++ k) := by
  induction h with
  | nil => intro s; rfl
  | cons x h ih =>
    intro s
    obtain ⟨t, o⟩ := x
    rw [final, ih (fun y hy => ha y (List.mem_cons_of_mem _ hy)), hl t o s (ha (t, o) (List.mem_cons_self ..))]

theorem final_mgo (ae : Bool) (k : Str) (v : Val) (d t : Int) (h : List (Int × Op))
    (ha : ∀ x ∈ h, LifeSpec.Leaves k x.2 ∧ x.1 ≤ t) : ∀ c,
    (c k = some (v, d) ∨ (c k = none ∧ d ≤ t)) →
    (final (mgo ae) h c k = some (v, d) ∨ (final (mgo ae) h c k = none ∧ d ≤ t)) := by
  induction h with
  | nil => intro c hc; exact hc
  | cons x h ih =>
    intro c hc
    obtain ⟨u, o⟩ := x
    have hx := ha (u, o) (List.mem_cons_self ..)
    rw [final]
    apply ih (fun y hy => ha y (List.mem_cons_of_mem _ hy))
    rcases mgo_leaves ae k u o c hx.1 with e | ⟨e, v', d', e1, e2⟩
    · rw [e]; exact hc
    · right
      refine ⟨e, ?_⟩
      rcases hc with hc | hc
      · rw [hc] at e1
        injection e1 with e1
        injection e1 with _ e1
        have := hx.2
        omega
      · exact hc.2

/-! ## C176 -/

theorem alive_some {t d : Int} : alive t (some d) = true ↔ t < d := by simp [alive]

/-- **C176** (redis): whatever was stored before, and whatever calls leave the key alone in between, a value stored at
`now` is found at `t` exactly while its time lasts; then the key is missed. -/
theorem C176_redis (pre k : Str) (v : Val) (ps : List Int) (now t : Int) (s : Server) (h : List (Int × Op))
    (hu : LifeSpec.Usual ps) (ha : ∀ x ∈ h, LifeSpec.Leaves k x.2) :
    (redis pre now (.set k v ps) s).2 = .ok ∧
    (LifeSpec.redisHas now t (LifeSpec.asked ps) →
      (redis pre t (.get k) (final (redis pre) ((now, .set k v ps) :: h) s)).2 = .val (toStr v)) ∧
    (¬ LifeSpec.redisHas now t (LifeSpec.asked ps) →
      (redis pre t (.get k) (final (redis pre) ((now, .set k v ps) :: h) s)).2 = .missed) := by
  have hf := final_leaves (redis pre) pre k (fun n o s => redis_leaves pre k n o s) h ha
    (redis pre now (.set k v ps) s).1
  have hs : ∀ (o : Out) (e : Option Int), redis pre now (.set k v ps) s = (upd s (pre ++ k) (some (toStr v, e)), o) →
      (redis pre t (.get k) (final (redis pre) ((now, .set k v ps) :: h) s)).2 =
        if alive t e = true then .val (toStr v) else .missed := by
    intro o e he
    have hg : final (redis pre) ((now, .set k v ps) :: h) s (pre ++ k) = some (toStr v, e) := by
      rw [final, hf, he]
      simp [upd]
    simp only [redis, live, hg]
    by_cases hal : alive t e = true
    · simp [Option.filter, hal]
    · simp [Option.filter, hal]
  rcases asked_cases ps hu with ⟨e1, e2⟩ | ⟨n, e1, h1, h2, e2⟩
  · have he : redis pre now (.set k v ps) s = (upd s (pre ++ k) (some (toStr v, none)), .ok) := by
      simp only [redis]
      rw [e2, if_neg (by omega)]
    rw [e1]
    refine ⟨by rw [he], fun _ => ?_, fun hn => absurd trivial hn⟩
    rw [hs _ _ he]; rfl
  · have he : redis pre now (.set k v ps) s =
        (upd s (pre ++ k) (some (toStr v, some (now + n * second))), .ok) := by
      simp only [redis]
      rw [e2, if_pos (by unfold second; omega), mod_second, div_second, if_neg (by simp)]
    rw [e1]
    refine ⟨by rw [he], fun hh => ?_, fun hh => ?_⟩
    · rw [hs _ _ he]; exact if_pos (alive_some.2 hh)
    · rw [hs _ _ he]; exact if_neg (fun e => hh (alive_some.1 e))

/-- **C176** (memcached): the same, but a timeout above thirty days is a date, and keys must be legal. -/
theorem C176_memcache (pre k : Str) (v : Val) (ps : List Int) (now t : Int) (s : Server) (h : List (Int × Op))
    (hu : LifeSpec.Usual ps) (ha : ∀ x ∈ h, LifeSpec.Leaves k x.2) (hk : legalKey (pre ++ k) = true) :
    (memcache pre now (.set k v ps) s).2 = .ok ∧
    (LifeSpec.memcacheHas now t (LifeSpec.asked ps) →
      (memcache pre t (.get k) (final (memcache pre) ((now, .set k v ps) :: h) s)).2 = .val (toStr v)) ∧
    (¬ LifeSpec.memcacheHas now t (LifeSpec.asked ps) →
      (memcache pre t (.get k) (final (memcache pre) ((now, .set k v ps) :: h) s)).2 = .missed) := by
  have hf := final_leaves (memcache pre) pre k (fun n o s => memcache_leaves pre k n o s) h ha
    (memcache pre now (.set k v ps) s).1
  have hset : memcache pre now (.set k v ps) s =
      (upd s (pre ++ k) (some (toStr v, mcDeadline now (mcSeconds (timeoutDur ps)))), .ok) := by
    simp only [memcache]; rw [if_pos hk]
  have hs : (memcache pre t (.get k) (final (memcache pre) ((now, .set k v ps) :: h) s)).2 =
        if alive t (mcDeadline now (mcSeconds (timeoutDur ps))) = true then .val (toStr v) else .missed := by
    have hg : final (memcache pre) ((now, .set k v ps) :: h) s (pre ++ k) =
        some (toStr v, mcDeadline now (mcSeconds (timeoutDur ps))) := by
      rw [final, hf, hset]
      simp [upd]
    simp only [memcache, live, hg]
    rw [if_pos hk]
    by_cases hal : alive t (mcDeadline now (mcSeconds (timeoutDur ps))) = true
    · simp [Option.filter, hal]
    · simp [Option.filter, hal]
  refine ⟨by rw [hset], ?_⟩
  rw [hs]
  rcases asked_cases ps hu with ⟨e1, e2⟩ | ⟨n, e1, h1, h2, e2⟩
  · rw [e1, e2, show mcDeadline now (mcSeconds 0) = none from rfl]
    exact ⟨fun _ => rfl, fun hn => absurd trivial hn⟩
  · have hm : mcSeconds (n * second) = n := by
      unfold mcSeconds
      rw [div_second]
      apply wrapS_id (by omega) <;> simp <;> omega
    have hd : mcDeadline now n = some (if n ≤ 2592000 then now + n * second else n * second) := by
      unfold mcDeadline
      rw [if_neg (by omega), if_neg (by omega)]
      split <;> rfl
    rw [e1, e2, hm, hd]
    simp only [LifeSpec.memcacheHas]
    by_cases h3 : n ≤ 2592000
    · simp only [if_pos h3]
      exact ⟨fun hh => if_pos (alive_some.2 hh), fun hh => if_neg (fun e => hh (alive_some.1 e))⟩
    · simp only [if_neg h3]
      exact ⟨fun hh => if_pos (alive_some.2 hh), fun hh => if_neg (fun e => hh (alive_some.1 e))⟩

/-- **C176** (MongoDB, with or without the server's own expiry): the same, with 9999 days for ever. The calls in
between are made before `t`. -/
theorem C176_mgo (ae : Bool) (k : Str) (v : Val) (ps : List Int) (now t : Int) (c : Coll) (h : List (Int × Op))
    (hu : LifeSpec.Usual ps) (ha : ∀ x ∈ h, LifeSpec.Leaves k x.2 ∧ x.1 ≤ t) :
    (mgo ae now (.set k v ps) c).2 = .ok ∧
    (LifeSpec.mgoHas now t (LifeSpec.asked ps) →
      (mgo ae t (.get k) (final (mgo ae) ((now, .set k v ps) :: h) c)).2 = .val (toStr v)) ∧
    (¬ LifeSpec.mgoHas now t (LifeSpec.asked ps) →
      (mgo ae t (.get k) (final (mgo ae) ((now, .set k v ps) :: h) c)).2 = .missed) := by
  have hf := final_mgo ae k v (now + timeoutDurEx ps) t h ha (mgo ae now (.set k v ps) c).1
    (Or.inl (by simp [mgo, upd]))
  have hs : (mgo ae t (.get k) (final (mgo ae) ((now, .set k v ps) :: h) c)).2 =
      if t < now + timeoutDurEx ps then .val (toStr v) else .missed := by
    rw [final]
    simp only [mgo] at hf ⊢
    rcases hf with e | ⟨e, e2⟩
    · rw [e]
      simp only [mgoValue]
      by_cases hl : t < now + timeoutDurEx ps
      · rw [if_pos hl, if_pos hl]
      · rw [if_neg hl, if_neg hl]
    · rw [e, if_neg (by omega)]; rfl
  refine ⟨rfl, ?_⟩
  rw [hs]
  rcases asked_cases ps hu with ⟨e1, e2⟩ | ⟨n, e1, h1, h2, e2⟩
  · rw [e1]
    have : timeoutDurEx ps = 9999 * 24 * 3600 * 1000000000 := by
      unfold timeoutDurEx; rw [e2, if_pos rfl]; rfl
    rw [this]
    simp only [LifeSpec.mgoHas]
    exact ⟨fun hh => if_pos (by omega), fun hh => if_neg (by omega)⟩
  · rw [e1]
    have : timeoutDurEx ps = n * 1000000000 := by
      unfold timeoutDurEx; rw [e2, if_neg (by unfold second; omega)]; rfl
    rw [this]
    simp only [LifeSpec.mgoHas]
    exact ⟨fun hh => if_pos hh, fun hh => if_neg hh⟩

/-- a history that leaves `k` alone; a default timeout; a timeout of 31 days, which memcached (in 2020) takes for a
date in 1970 -/
example : (∀ x ∈ [((5 : Int), Op.set b!"other" (.int 1) []), (6, .get b!"k"), (7, .gc)], LifeSpec.Leaves b!"k" x.2 ∧ x.1 ≤ 8) ∧
    LifeSpec.Usual [2678400] ∧ LifeSpec.asked [] = some 60 ∧
    ¬ LifeSpec.memcacheHas 1577836800000000000 1577836800000000001 (LifeSpec.asked [2678400]) ∧
    LifeSpec.redisHas 1577836800000000000 1577836800000000001 (LifeSpec.asked [2678400]) := by
  refine ⟨?_, ?_, rfl, ?_, ?_⟩
  · intro x hx
    simp only [List.mem_cons, List.not_mem_nil, or_false] at hx
    rcases hx with rfl | rfl | rfl
    · exact ⟨by show (b!"other" : Str) ≠ b!"k"; decide, by decide⟩
    · exact ⟨trivial, by decide⟩
    · exact ⟨trivial, by decide⟩
  · intro p hp
    simp only [List.head?_cons, Option.some.injEq] at hp
    omega
  · simp [LifeSpec.memcacheHas, LifeSpec.asked]
  · simp [LifeSpec.redisHas, LifeSpec.asked]

end Verif.Cache
