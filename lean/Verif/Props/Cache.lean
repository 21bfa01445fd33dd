import Verif.Model.Cache
import Verif.Proofs.Strconv
/-!
# C40–C45: the cache providers
-/
namespace Verif.Cache
open Verif.Go

/-! ## Specification: one map with deadlines -/

/-- The specification's state: per key a value and, unless it lives for ever, a deadline. -/
abbrev SMap := Str → Option (Val × Option Int)

/-- The deadline a timeout argument asks for (C40): a minute when absent or 0, that many seconds when
positive, never when negative. -/
def Spec.deadline (now : Int) : List Int → Option Int
  | [] => some (now + 60 * second)
  | p :: _ => if p > 0 then some (now + p * second) else if p = 0 then some (now + 60 * second) else none

/-- What the map shows at `now`. -/
def Spec.live (m : SMap) (now : Int) (k : Str) : Option (Val × Option Int) :=
  (m k).filter (fun it => alive now it.2)

/-- Adding to a live integer; a missing key is a miss; anything else an error. -/
def Spec.add (m : SMap) (now : Int) (k : Str) (n : Int) : SMap × Out :=
  match Spec.live m now k with
  | none => (m, .missed)
  | some (v, d) =>
    match canonInt (toStr v) with
    | none => (m, .failed)
    | some i => if fits64 (i + n) then (upd m k (some (.int (i + n), d)), .ok) else (m, .failed)

/-- One call on the specification map. -/
def Spec.step (now : Int) (op : Op) (m : SMap) : SMap × Out :=
  match op with
  | .get k =>
    match Spec.live m now k with
    | some it => (m, .val (toStr it.1))
    | none => (m, .missed)
  | .set k v ps => (upd m k (some (v, Spec.deadline now ps)), .ok)
  | .touch k ps =>
    match Spec.live m now k with
    | some it => (upd m k (some (it.1, Spec.deadline now ps)), .ok)
    | none => (m, .missed)
  | .delete k =>
    match Spec.live m now k with
    | some _ => (upd m k none, .ok)
    | none => (m, .missed)
  | .incr k ps => Spec.add m now k (delta ps)
  | .decr k ps => Spec.add m now k (-(delta ps))
  | .has k => (m, .bool (Spec.live m now k).isSome)
  | .clean => (fun _ => none, .ok)
  | .gc => (m, .ok)

/-- Times do not go backwards, starting from `t0`. -/
def Spec.Ordered : Int → List (Int × Op) → Prop
  | _, [] => True
  | t0, (t, _) :: h => t0 ≤ t ∧ Spec.Ordered t h

/-- Every call of the history satisfies `P` in the state of the specification in which it is made. -/
def Spec.All (P : Int → SMap → Op → Prop) : List (Int × Op) → SMap → Prop
  | [], _ => True
  | (t, o) :: h, m => P t m o ∧ Spec.All P h (Spec.step t o m).1

/-- The timeout is at most `max` seconds. -/
def Spec.timeoutLe (max : Int) (ps : List Int) : Prop := ∀ p, ps.head? = some p → p ≤ max

/-- the empty map -/
def Spec.empty : SMap := fun _ => none

/-! ## Generic simulation -/

theorem run_eq {σ : Type} (op : Int → Op → σ → σ × Out) (R : Int → σ → SMap → Prop)
    (P : Int → SMap → Op → Prop)
    (hstep : ∀ t t' o s m, R t s m → t ≤ t' → P t' m o →
      (op t' o s).2 = (Spec.step t' o m).2 ∧ R t' (op t' o s).1 (Spec.step t' o m).1) :
    ∀ (h : List (Int × Op)) (t0 : Int) (s : σ) (m : SMap), R t0 s m → Spec.Ordered t0 h → Spec.All P h m →
      run op h s = run Spec.step h m
  | [], _, _, _, _, _, _ => rfl
  | (t, o) :: h, t0, s, m, hr, ho, ha => by
    obtain ⟨h1, h2⟩ := hstep t0 t o s m hr ho.1 ha.1
    simp only [run]
    rw [h1, run_eq op R P hstep h t _ _ h2 ho.2 ha.2]

/-! ### views -/

theorem upd_same {α β : Type} [DecidableEq α] (f : α → β) (k : α) (v : β) : upd f k v k = v := by
  simp [upd]

theorem upd_ne {α β : Type} [DecidableEq α] (f : α → β) {k k' : α} (v : β) (h : k' ≠ k) :
    upd f k v k' = f k' := by simp [upd, h]

theorem live_upd_same (s : Server) (now : Int) (k : Str) (v : Option Item) :
    live (upd s k v) now k = v.filter (fun it => alive now it.2) := by
  unfold live; rw [upd_same]

theorem live_upd_ne (s : Server) (now : Int) {k k' : Str} (v : Option Item) (h : k' ≠ k) :
    live (upd s k v) now k' = live s now k' := by
  unfold live; rw [upd_ne s v h]

theorem slive_upd_same (m : SMap) (now : Int) (k : Str) (v : Option (Val × Option Int)) :
    Spec.live (upd m k v) now k = v.filter (fun it => alive now it.2) := by
  unfold Spec.live; rw [upd_same]

theorem slive_upd_ne (m : SMap) (now : Int) {k k' : Str} (v : Option (Val × Option Int)) (h : k' ≠ k) :
    Spec.live (upd m k v) now k' = Spec.live m now k' := by
  unfold Spec.live; rw [upd_ne m v h]

theorem alive_mono {t t' : Int} (h : t ≤ t') {d : Option Int} (ha : alive t' d = true) : alive t d = true := by
  cases d with
  | none => rfl
  | some d => simp [alive] at ha ⊢; omega

theorem live_later (s : Server) {t t' : Int} (h : t ≤ t') (k : Str) :
    live s t' k = (live s t k).filter (fun it => alive t' it.2) := by
  unfold live
  cases s k with
  | none => rfl
  | some it =>
    by_cases ha : alive t' it.2 = true
    · simp [Option.filter, ha, alive_mono h ha]
    · by_cases hb : alive t it.2 = true <;> simp [Option.filter, ha, hb]

theorem slive_later (m : SMap) {t t' : Int} (h : t ≤ t') (k : Str) :
    Spec.live m t' k = (Spec.live m t k).filter (fun it => alive t' it.2) := by
  unfold Spec.live
  cases m k with
  | none => rfl
  | some it =>
    by_cases ha : alive t' it.2 = true
    · simp [Option.filter, ha, alive_mono h ha]
    · by_cases hb : alive t it.2 = true <;> simp [Option.filter, ha, hb]

/-- the text form of a specification item -/
def asItem (it : Val × Option Int) : Item := (toStr it.1, it.2)

/-- A prefixed server shows exactly what the specification shows. -/
def Shows (pre : Str) (now : Int) (s : Server) (m : SMap) : Prop :=
  ∀ k, live s now (pre ++ k) = (Spec.live m now k).map asItem

theorem Shows.later {pre : Str} {t t' : Int} {s : Server} {m : SMap} (hr : Shows pre t s m) (h : t ≤ t') :
    Shows pre t' s m := by
  intro k
  rw [live_later s h, slive_later m h, hr k]
  cases Spec.live m t k with
  | none => rfl
  | some it => simp [Option.filter, asItem]

theorem Shows.upd {pre : Str} {t : Int} {s : Server} {m : SMap} (hr : Shows pre t s m) (k : Str)
    (v : Option Item) (w : Option (Val × Option Int)) (hvw : v = w.map asItem) :
    Shows pre t (Cache.upd s (pre ++ k) v) (Cache.upd m k w) := by
  intro k'
  by_cases h : k' = k
  · subst h
    rw [live_upd_same, slive_upd_same, hvw]
    cases w with
    | none => rfl
    | some it => simp [Option.filter, asItem]
  · rw [live_upd_ne s t v (by simpa using h), slive_upd_ne m t w h]
    exact hr k'

theorem Shows.empty (pre : Str) (t : Int) : Shows pre t (fun _ => none) Spec.empty := by
  intro k; rfl

/-! ## C40 timeouts -/

theorem wrap_secs {p : Int} (h0 : 0 < p) (h : p ≤ 9223372036) : wrapS 64 (p * second) = p * second := by
  unfold second
  apply wrapS_id (by omega) <;> simp <;> omega

theorem timeoutDur_pos {p : Int} {ps : List Int} (h0 : 0 < p) (h : p ≤ 9223372036) :
    timeoutDur (p :: ps) = p * second := by
  unfold timeoutDur
  simp only
  rw [if_pos h0, wrap_secs h0 h]

theorem div_second (p : Int) : p * second / second = p := by
  unfold second; omega

/-- Absent and zero timeouts mean a minute, positive ones that many seconds, negative ones none. -/
theorem C40_timeout_meaning (now : Int) (ps : List Int) (h : Spec.timeoutLe 9223372036 ps) :
    Spec.deadline now ps = if timeoutDur ps = 0 then none else some (now + timeoutDur ps) := by
  cases ps with
  | nil => simp [Spec.deadline, timeoutDur, second]
  | cons p ps =>
    have hp := h p rfl
    unfold Spec.deadline
    simp only
    by_cases h0 : p > 0
    · rw [if_pos h0, timeoutDur_pos h0 hp, if_neg]
      unfold second; omega
    · unfold timeoutDur
      simp only
      rw [if_neg h0, if_neg h0]
      by_cases h1 : p = 0
      · rw [if_pos h1, if_pos h1, if_neg]; unfold second; omega
      · rw [if_neg h1, if_neg h1, if_pos rfl]

theorem mod_second (p : Int) : p * second % second = 0 := by
  rw [Int.mul_emod_left]

theorem timeout_cases (now : Int) (ps : List Int) (h : Spec.timeoutLe 9223372036 ps) :
    (timeoutDur ps = 0 ∧ Spec.deadline now ps = none) ∨
    (∃ n : Int, 1 ≤ n ∧ timeoutDur ps = n * second ∧ timeoutDur ps / second = n ∧
      Spec.deadline now ps = some (now + n * second) ∧ (n = 60 ∨ ps.head? = some n)) := by
  cases ps with
  | nil => right; exact ⟨60, by omega, by simp [timeoutDur], by simp [timeoutDur, second],
      by simp [Spec.deadline], Or.inl rfl⟩
  | cons p ps =>
    have hp := h p rfl
    by_cases h0 : p > 0
    · right
      refine ⟨p, by omega, timeoutDur_pos h0 hp, by rw [timeoutDur_pos h0 hp, div_second], ?_, Or.inr rfl⟩
      simp [Spec.deadline, h0]
    · by_cases h1 : p = 0
      · right
        subst h1
        exact ⟨60, by omega, by simp [timeoutDur], by simp [timeoutDur, second],
          by simp [Spec.deadline], Or.inl rfl⟩
      · left
        refine ⟨?_, ?_⟩
        · simp [timeoutDur, h0, h1]
        · simp [Spec.deadline, h0, h1]

/-- In MongoDB, where every value needs a date, absent and zero timeouts mean a minute, positive ones that
many seconds, negative ones 9999 days. -/
theorem C40_timeoutEx_meaning (p : Int) (ps : List Int) (h : p ≤ 9223372036) :
    timeoutDurEx [] = 60 * second ∧ timeoutDurEx (0 :: ps) = 60 * second ∧
    (0 < p → timeoutDurEx (p :: ps) = p * second) ∧
    (p < 0 → timeoutDurEx (p :: ps) = 9999 * 86400 * second) := by
  refine ⟨by decide, rfl, fun h0 => ?_, fun h0 => ?_⟩
  · have h1 : timeoutDur (p :: ps) = p * second := timeoutDur_pos h0 h
    unfold timeoutDurEx
    rw [h1, if_neg]
    unfold second; omega
  · have h1 : timeoutDur (p :: ps) = 0 := by
      unfold timeoutDur
      simp only
      rw [if_neg (by omega), if_neg (by omega)]
    unfold timeoutDurEx
    rw [h1, if_pos rfl]
    decide

/-- More than 292 years of timeout wrap around: redis then refuses the value, or keeps it for ever. -/
theorem C40_timeout_overflow_violated :
    timeoutDur [9223372037] < 0 ∧
    (redis [] 0 (.set b!"k" (.text b!"v") [9223372037]) (fun _ => none)).1 b!"k" = some (b!"v", none) ∧
    (redis [] 0 (.set b!"k" (.text b!"v") [18446744074]) (fun _ => none)).2 = .failed := by
  decide

/-! ## C41 redis -/

/-- The calls for which redis agrees with the specification: no negative `Touch` timeout, timeouts below
292 years, and `Incr`/`Decr` only on live keys (`Decr` by a number that can be negated). -/
def Spec.redisOk (t : Int) (m : SMap) : Op → Prop
  | .set _ _ ps => Spec.timeoutLe 9223372036 ps
  | .touch _ ps => Spec.timeoutLe 9223372036 ps ∧ ∀ p, ps.head? = some p → 0 ≤ p
  | .incr k _ => (Spec.live m t k).isSome
  | .decr k ps => (Spec.live m t k).isSome ∧ fits64 (-(delta ps)) = true
  | _ => True

theorem redisIncr_step {pre : Str} {t : Int} {s : Server} {m : SMap} (hr : Shows pre t s m) (k : Str) (n : Int)
    (hl : (Spec.live m t k).isSome) :
    (redisIncrBy s t (pre ++ k) n).2 = (Spec.add m t k n).2 ∧
      Shows pre t (redisIncrBy s t (pre ++ k) n).1 (Spec.add m t k n).1 := by
  obtain ⟨it, hit⟩ := Option.isSome_iff_exists.1 hl
  obtain ⟨v, d⟩ := it
  have hs := hr k
  rw [hit] at hs
  simp only [Option.map_some, asItem] at hs
  unfold redisIncrBy Spec.add
  rw [hs, hit]
  simp only
  cases hc : canonInt (toStr v) with
  | none => exact ⟨rfl, hr⟩
  | some i =>
    simp only
    split
    · exact ⟨rfl, hr.upd k _ _ rfl⟩
    · exact ⟨rfl, hr⟩

theorem redis_step (pre : Str) (t t' : Int) (o : Op) (s : Server) (m : SMap) (hr0 : Shows pre t s m)
    (htt : t ≤ t') (hp : Spec.redisOk t' m o) :
    (redis pre t' o s).2 = (Spec.step t' o m).2 ∧ Shows pre t' (redis pre t' o s).1 (Spec.step t' o m).1 := by
  have hr := hr0.later htt
  have gen : ∀ k, live s t' (pre ++ k) = (Spec.live m t' k).map asItem := hr
  cases o with
  | get k =>
    simp only [redis, Spec.step, gen k]
    cases Spec.live m t' k with
    | none => exact ⟨rfl, hr⟩
    | some it => exact ⟨rfl, hr⟩
  | set k v ps =>
    simp only [redis, Spec.step]
    rcases timeout_cases t' ps hp with ⟨h0, hd⟩ | ⟨n, hn, h1, h2, hd, _⟩
    · rw [h0, hd, if_neg (by omega)]
      exact ⟨rfl, hr.upd k _ _ rfl⟩
    · rw [hd, if_pos (by rw [h1]; unfold second; omega), h2, if_neg (by rw [h1, mod_second]; omega)]
      exact ⟨rfl, hr.upd k _ _ rfl⟩
  | touch k ps =>
    simp only [redis, Spec.step, gen k]
    rw [if_neg (by
      rcases timeout_cases t' ps hp.1 with ⟨h0, _⟩ | ⟨n, _, h1, _⟩
      · rw [h0]; decide
      · rw [h1, mod_second]; omega)]
    cases Spec.live m t' k with
    | none => exact ⟨rfl, hr⟩
    | some it =>
      simp only [Option.map_some]
      rcases timeout_cases t' ps hp.1 with ⟨h0, hd⟩ | ⟨n, hn, h1, h2, hd, _⟩
      · exfalso
        cases ps with
        | nil => simp [timeoutDur, second] at h0
        | cons p ps =>
          have := hp.2 p rfl
          by_cases hp0 : p > 0
          · rw [timeoutDur_pos hp0 (hp.1 p rfl)] at h0; unfold second at h0; omega
          · have : p = 0 := by omega
            subst this
            simp [timeoutDur, second] at h0
      · rw [hd, h2, if_neg (by omega)]
        exact ⟨rfl, hr.upd k _ _ rfl⟩
  | delete k =>
    simp only [redis, Spec.step, gen k]
    cases Spec.live m t' k with
    | none => exact ⟨rfl, hr⟩
    | some it => exact ⟨rfl, hr.upd k none none rfl⟩
  | incr k ps => exact redisIncr_step hr k _ hp
  | decr k ps =>
    simp only [redis, if_pos hp.2]
    exact redisIncr_step hr k _ hp.1
  | has k =>
    simp only [redis, Spec.step, gen k]
    refine ⟨?_, hr⟩
    cases Spec.live m t' k <;> rfl
  | clean => exact ⟨rfl, Shows.empty pre t'⟩
  | gc => exact ⟨rfl, hr⟩

/-- Every history of calls (within `redisOk`) on a fresh redis gives exactly the results of the TTL map. -/
theorem C41_redis_ttl_map_partial (pre : Str) (h : List (Int × Op)) (t0 : Int) (ho : Spec.Ordered t0 h)
    (ha : Spec.All Spec.redisOk h Spec.empty) :
    run (redis pre) h (fun _ => none) = run Spec.step h Spec.empty :=
  run_eq (redis pre) (Shows pre) Spec.redisOk (redis_step pre) h t0 _ _ (Shows.empty pre t0) ho ha

/-! ## C41 memcached -/

/-- The number has as many digits as the text it replaces, or more. -/
def Spec.noShrink (v : Str) (i : Int) : Prop := v.length ≤ (fmtInt i).length

/-- The calls for which memcached agrees with the specification: legal keys, timeouts up to 30 days,
`Incr`/`Decr` by a non-negative amount on a value that is absent or a non-negative integer whose result is
non-negative, below 2^63, and has at least as many digits. -/
def Spec.mcOk (pre : Str) (t : Int) (m : SMap) : Op → Prop
  | .get k => legalKey (pre ++ k) = true
  | .set k _ ps => legalKey (pre ++ k) = true ∧ Spec.timeoutLe 2592000 ps
  | .touch k ps => legalKey (pre ++ k) = true ∧ Spec.timeoutLe 2592000 ps
  | .delete k => legalKey (pre ++ k) = true
  | .has k => legalKey (pre ++ k) = true
  | .incr k ps => legalKey (pre ++ k) = true ∧ 0 ≤ delta ps ∧ ∀ v d, Spec.live m t k = some (v, d) →
      ∃ i, canonInt (toStr v) = some i ∧ 0 ≤ i ∧ i + delta ps < 2 ^ 63 ∧ Spec.noShrink (toStr v) (i + delta ps)
  | .decr k ps => legalKey (pre ++ k) = true ∧ 0 ≤ delta ps ∧ ∀ v d, Spec.live m t k = some (v, d) →
      ∃ i, canonInt (toStr v) = some i ∧ 0 ≤ i - delta ps ∧ i < 2 ^ 63 ∧ Spec.noShrink (toStr v) (i - delta ps)
  | _ => True

theorem mcDeadline_spec (now : Int) (ps : List Int) (h : Spec.timeoutLe 2592000 ps) :
    mcDeadline now (mcSeconds (timeoutDur ps)) = Spec.deadline now ps := by
  have h' : Spec.timeoutLe 9223372036 ps := fun p hp => by have := h p hp; omega
  rcases timeout_cases now ps h' with ⟨h0, hd⟩ | ⟨n, hn, h1, h2, hd, hor⟩
  · rw [h0, hd, show mcSeconds 0 = 0 by decide]; rfl
  · have hn2 : n ≤ 2592000 := by
      rcases hor with rfl | hh
      · omega
      · exact h n hh
    have hm : mcSeconds (timeoutDur ps) = n := by
      unfold mcSeconds
      rw [h2]
      apply wrapS_id (by omega) <;> simp <;> omega
    rw [hm, hd]
    unfold mcDeadline
    rw [if_neg (by omega), if_neg (by omega), if_pos hn2]

theorem dropWhile_blank_digits (s : Str) (h : ∀ c ∈ s, isDig c) :
    (s.reverse.dropWhile (· == 32)).reverse = s := by
  have : s.reverse.dropWhile (· == 32) = s.reverse := by
    cases hs : s.reverse with
    | nil => rfl
    | cons c cs =>
      have hc : isDig c := h c (by
        have : c ∈ s.reverse := by rw [hs]; simp
        simpa using this)
      have : (c == 32) = false := by
        unfold isDig at hc
        have : c ≠ 32 := by rintro rfl; simp at hc
        simpa using this
      simp [this]
  rw [this, List.reverse_reverse]

theorem canonInt_some {v : Str} {i : Int} (h : canonInt v = some i) : fmtInt i = v := by
  unfold canonInt at h
  split at h
  · split at h
    · rename_i hf
      simp at h; subst h; exact hf
    · simp at h
  · simp at h

theorem mcNumber_canon {v : Str} {i : Int} (h : canonInt v = some i) (h0 : 0 ≤ i) (h1 : i < 2 ^ 63) :
    mcNumber v = some i.toNat := by
  have hv := canonInt_some h
  have hn : fmtInt i = natDec i.toNat := by
    cases i with
    | ofNat n => rfl
    | negSucc n => omega
  rw [hn] at hv
  subst hv
  unfold mcNumber
  rw [dropWhile_blank_digits _ (natDec_digits _), parseUint_natDec, if_pos (by omega)]

theorem fmtInt_nonneg {i : Int} (h : 0 ≤ i) : fmtInt i = natDec i.toNat := by
  cases i with
  | ofNat n => rfl
  | negSucc n => omega

theorem padTo_le {n : Nat} {s : Str} (h : n ≤ s.length) : padTo n s = s := by
  unfold padTo
  have : n - s.length = 0 := by omega
  rw [this]; simp

theorem mcArith_step {pre : Str} {t : Int} {s : Server} {m : SMap} (hr : Shows pre t s m) (k : Str)
    (n : Int) (f : Nat → Nat)
    (hp : ∀ v d, Spec.live m t k = some (v, d) → ∃ i, canonInt (toStr v) = some i ∧ 0 ≤ i ∧ i < 2 ^ 63 ∧
      0 ≤ i + n ∧ i + n < 2 ^ 63 ∧ f i.toNat = (i + n).toNat ∧ Spec.noShrink (toStr v) (i + n)) :
    (mcArith s t (pre ++ k) f).2 = (Spec.add m t k n).2 ∧
      Shows pre t (mcArith s t (pre ++ k) f).1 (Spec.add m t k n).1 := by
  have hs := hr k
  unfold mcArith Spec.add
  rw [hs]
  cases hl : Spec.live m t k with
  | none => exact ⟨rfl, hr⟩
  | some it =>
    obtain ⟨v, d⟩ := it
    obtain ⟨i, hc, h0, h1, h2, h3, hf, hn⟩ := hp v d hl
    simp only [Option.map_some, asItem]
    rw [mcNumber_canon hc h0 h1, hc]
    simp only
    have hfit : fits64 (i + n) = true := by
      unfold fits64; simp; omega
    rw [if_pos hfit, hf]
    refine ⟨rfl, hr.upd k _ _ ?_⟩
    have hnn : natDec (i + n).toNat = fmtInt (i + n) := (fmtInt_nonneg h2).symm
    rw [hnn, padTo_le hn]
    rfl

theorem wrapU_id {n : Int} (h0 : 0 ≤ n) (h : n < 2 ^ 64) : wrapU 64 n = n := by
  unfold wrapU; exact Int.emod_eq_of_lt h0 h

theorem memcache_step (pre : Str) (t t' : Int) (o : Op) (s : Server) (m : SMap) (hr0 : Shows pre t s m)
    (htt : t ≤ t') (hp : Spec.mcOk pre t' m o) :
    (memcache pre t' o s).2 = (Spec.step t' o m).2 ∧
      Shows pre t' (memcache pre t' o s).1 (Spec.step t' o m).1 := by
  have hr := hr0.later htt
  have gen : ∀ k, live s t' (pre ++ k) = (Spec.live m t' k).map asItem := hr
  cases o with
  | get k =>
    have hk : legalKey (pre ++ k) = true := hp
    simp only [memcache, Spec.step, gen k, hk, if_true]
    cases Spec.live m t' k with
    | none => exact ⟨rfl, hr⟩
    | some it => exact ⟨rfl, hr⟩
  | set k v ps =>
    have hk : legalKey (pre ++ k) = true := hp.1
    simp only [memcache, Spec.step, hk, if_true, mcDeadline_spec t' ps hp.2]
    exact ⟨trivial, hr.upd k _ _ rfl⟩
  | touch k ps =>
    have hk : legalKey (pre ++ k) = true := hp.1
    simp only [memcache, Spec.step, gen k, hk, if_true, mcDeadline_spec t' ps hp.2]
    cases Spec.live m t' k with
    | none => exact ⟨rfl, hr⟩
    | some it => exact ⟨rfl, hr.upd k _ _ rfl⟩
  | delete k =>
    have hk : legalKey (pre ++ k) = true := hp
    simp only [memcache, Spec.step, gen k, hk, if_true]
    cases Spec.live m t' k with
    | none => exact ⟨rfl, hr⟩
    | some it => exact ⟨rfl, hr.upd k none none rfl⟩
  | incr k ps =>
    obtain ⟨hk, hd, hv⟩ := hp
    simp only [memcache, Spec.step, hk, if_true]
    apply mcArith_step hr
    intro v d hl
    obtain ⟨i, hc, h0, h1, hn⟩ := hv v d hl
    refine ⟨i, hc, h0, by omega, by omega, h1, ?_, hn⟩
    rw [wrapU_id hd (by omega)]
    rw [Nat.mod_eq_of_lt (by omega)]
    omega
  | decr k ps =>
    obtain ⟨hk, hd, hv⟩ := hp
    simp only [memcache, Spec.step, hk, if_true]
    apply mcArith_step hr
    intro v d hl
    obtain ⟨i, hc, h0, h1, hn⟩ := hv v d hl
    refine ⟨i, hc, by omega, h1, by omega, by omega, ?_, ?_⟩
    · rw [wrapU_id hd (by omega)]; omega
    · have : i + -delta ps = i - delta ps := by omega
      rw [this]; exact hn
  | has k =>
    have hk : legalKey (pre ++ k) = true := hp
    simp only [memcache, Spec.step, gen k, hk, if_true]
    refine ⟨?_, hr⟩
    cases Spec.live m t' k <;> rfl
  | clean => exact ⟨rfl, Shows.empty pre t'⟩
  | gc => exact ⟨rfl, hr⟩

/-- Every history of calls (within `mcOk`) on a fresh memcached gives exactly the results of the TTL map. -/
theorem C41_memcache_ttl_map_partial (pre : Str) (h : List (Int × Op)) (t0 : Int) (ho : Spec.Ordered t0 h)
    (ha : Spec.All (Spec.mcOk pre) h Spec.empty) :
    run (memcache pre) h (fun _ => none) = run Spec.step h Spec.empty :=
  run_eq (memcache pre) (Shows pre) (Spec.mcOk pre) (memcache_step pre) h t0 _ _ (Shows.empty pre t0) ho ha

/-- A timeout above 30 days is read by memcached as a date in 1970: the value is gone at once. -/
theorem C41_memcache_long_timeout_violated (now : Int) (p : Int) (h30 : 2592000 < p) (hp : p < 2 ^ 31)
    (hnow : p * second ≤ now) :
    run (memcache []) [(now, .set b!"k" (.text b!"v") [p]), (now, .get b!"k")] (fun _ => none) =
      [.ok, .missed] := by
  have hd : mcDeadline now (mcSeconds (timeoutDur [p])) = some (p * second) := by
    rw [timeoutDur_pos (by omega) (by omega)]
    unfold mcSeconds
    rw [div_second, wrapS_id (by omega) (by simp; omega) (by simp; omega)]
    unfold mcDeadline
    rw [if_neg (by omega), if_neg (by omega), if_neg (by omega)]
  have hk : legalKey b!"k" = true := by decide
  simp only [run, memcache, List.nil_append, hk, if_true, hd]
  rw [live_upd_same]
  have : alive now (some (p * second)) = false := by simp [alive]; omega
  simp [Option.filter, this]

/-! ## C41 MongoDB -/

/-- The collection shows what the specification shows; "never" is a date after the horizon `T`. -/
def MShows (T : Int) (now : Int) (c : Coll) (m : SMap) : Prop :=
  ∀ k, match Spec.live m now k with
    | none => mgoValue now (c k) = none
    | some (v, d) => ∃ e, c k = some (v, e) ∧ now < e ∧ (d = some e ∨ (d = none ∧ T ≤ e))

/-- 9999 days -/
def Spec.ages : Int := 9999 * 24 * 3600 * second

/-- The calls for which MongoDB agrees with the specification, within 9999 days of `t0`: timeouts below 292
years; `Touch` and `Delete` on live keys; `Incr`/`Decr` on live keys whose value was stored as an integer. -/
def Spec.mgoOk (t0 : Int) (t : Int) (m : SMap) (o : Op) : Prop :=
  t0 ≤ t ∧ t < t0 + Spec.ages ∧
  match o with
  | .set _ _ ps => Spec.timeoutLe 9223372036 ps
  | .touch k ps => Spec.timeoutLe 9223372036 ps ∧ (Spec.live m t k).isSome
  | .delete k => (Spec.live m t k).isSome
  | .incr k _ => ∃ i d, fits64 i ∧ Spec.live m t k = some (.int i, d)
  | .decr k ps => fits64 (-(delta ps)) ∧ ∃ i d, fits64 i ∧ Spec.live m t k = some (.int i, d)
  | _ => True

theorem wrap64 {n : Int} (h : fits64 n = true) : wrapS 64 n = n := by
  unfold fits64 at h
  simp only [Bool.and_eq_true, decide_eq_true_eq] at h
  exact wrapS_id (by decide) (by have := h.1; omega) (by have := h.2; omega)

theorem MShows.later {T t t' : Int} {c : Coll} {m : SMap} (hr : MShows T t c m) (h : t ≤ t') (hT : t' < T) :
    MShows T t' c m := by
  intro k
  have hk := hr k
  rw [slive_later m h]
  cases hl : Spec.live m t k with
  | none =>
    rw [hl] at hk
    simp only [Option.filter]
    simp only at hk
    cases hc : c k with
    | none => rfl
    | some p =>
      obtain ⟨v, e⟩ := p
      rw [hc] at hk
      simp only [mgoValue] at hk ⊢
      split at hk
      · simp at hk
      · rw [if_neg (by omega)]
  | some p =>
    obtain ⟨v, d⟩ := p
    rw [hl] at hk
    simp only at hk
    obtain ⟨e, hc, hlt, hd⟩ := hk
    rcases hd with rfl | ⟨rfl, hTe⟩
    · by_cases ha : t' < e
      · have : alive t' (some e) = true := by simp [alive, ha]
        simp only [Option.filter, this]
        exact ⟨e, hc, ha, Or.inl rfl⟩
      · have : alive t' (some e) = false := by simp [alive]; omega
        simp only [Option.filter, this, if_false]
        rw [hc]; simp [mgoValue]; omega
    · have : alive t' none = true := rfl
      simp only [Option.filter, this]
      exact ⟨e, hc, by omega, Or.inr ⟨rfl, hTe⟩⟩

theorem MShows.upd {T t : Int} {c : Coll} {m : SMap} (hr : MShows T t c m) (k : Str) (v : Val) (e : Int)
    (d : Option Int) (he : t < e) (hd : d = some e ∨ (d = none ∧ T ≤ e)) :
    MShows T t (Cache.upd c k (some (v, e))) (Cache.upd m k (some (v, d))) := by
  intro k'
  by_cases h : k' = k
  · subst h
    rw [slive_upd_same]
    have : alive t d = true := by
      rcases hd with rfl | ⟨rfl, _⟩
      · simp [alive, he]
      · rfl
    simp only [Option.filter, this]
    exact ⟨e, upd_same _ _ _, he, hd⟩
  · rw [slive_upd_ne m t _ h, upd_ne c _ h]
    exact hr k'

theorem MShows.del {T t : Int} {c : Coll} {m : SMap} (hr : MShows T t c m) (k : Str) :
    MShows T t (Cache.upd c k none) (Cache.upd m k none) := by
  intro k'
  by_cases h : k' = k
  · subst h
    rw [slive_upd_same]
    simp only [Option.filter]
    rw [upd_same]; rfl
  · rw [slive_upd_ne m t _ h, upd_ne c _ h]
    exact hr k'

/-- Dropping only documents that have expired changes nothing visible. -/
theorem MShows.filter {T t : Int} {c : Coll} {m : SMap} (hr : MShows T t c m) (keep : Str → Val × Int → Bool)
    (hk : ∀ k it, t < it.2 → keep k it = true) : MShows T t (fun k => (c k).filter (keep k)) m := by
  intro k
  have h := hr k
  cases hl : Spec.live m t k with
  | none =>
    rw [hl] at h
    simp only at h ⊢
    cases hc : c k with
    | none => rfl
    | some p =>
      rw [hc] at h
      simp only [Option.filter]
      split
      · exact h
      · rfl
  | some p =>
    obtain ⟨v, d⟩ := p
    rw [hl] at h
    simp only at h ⊢
    obtain ⟨e, hc, hlt, hd⟩ := h
    refine ⟨e, ?_, hlt, hd⟩
    rw [hc]
    simp [Option.filter, hk k (v, e) hlt]

theorem canonInt_int {i : Int} (h : fits64 i = true) : canonInt (toStr (.int i)) = some i := by
  unfold fits64 at h
  simp at h
  unfold canonInt toStr
  rw [parseInt_fmtInt (by omega) (by simp; omega) (by simp; omega)]
  simp

theorem mgoInc_step {T t : Int} {c : Coll} {m : SMap} (hr : MShows T t c m) (k : Str) (n : Int)
    (hp : ∃ i d, fits64 i = true ∧ Spec.live m t k = some (.int i, d)) :
    (mgoInc c k n).2 = (Spec.add m t k n).2 ∧ MShows T t (mgoInc c k n).1 (Spec.add m t k n).1 := by
  obtain ⟨i, d, hf, hl⟩ := hp
  have hk := hr k
  rw [hl] at hk
  simp only at hk
  obtain ⟨e, hc, hlt, hd⟩ := hk
  unfold mgoInc Spec.add
  rw [hc, hl]
  simp only
  rw [canonInt_int hf]
  simp only
  split
  · exact ⟨rfl, hr.upd k _ e d hlt hd⟩
  · exact ⟨rfl, hr⟩

theorem deadlineEx {t0 t : Int} (ps : List Int) (h : Spec.timeoutLe 9223372036 ps) (ht : t0 ≤ t) :
    t < t + timeoutDurEx ps ∧ (Spec.deadline t ps = some (t + timeoutDurEx ps) ∨
      (Spec.deadline t ps = none ∧ t0 + Spec.ages ≤ t + timeoutDurEx ps)) := by
  unfold timeoutDurEx
  rcases timeout_cases t ps h with ⟨h0, hd⟩ | ⟨n, hn, h1, h2, hd, _⟩
  · rw [if_pos h0]
    refine ⟨by unfold second; omega, Or.inr ⟨hd, ?_⟩⟩
    unfold Spec.ages; omega
  · have hne : timeoutDur ps ≠ 0 := by rw [h1]; unfold second; omega
    rw [if_neg hne, h1]
    exact ⟨by unfold second; omega, Or.inl hd⟩

/-- MongoDB with its TTL monitor running whenever it likes (`keep` says which overdue documents it has not
removed yet at each time). -/
def mgoMonitored (autoExpire : Bool) (keep : Int → Str → Bool) (now : Int) (o : Op) (c : Coll) : Coll × Out :=
  mgo autoExpire now o (mgoReap now (keep now) c)

theorem mgo_step (autoExpire : Bool) (keep : Int → Str → Bool) (t0 t t' : Int) (o : Op) (c : Coll) (m : SMap)
    (hr0 : MShows (t0 + Spec.ages) t c m) (htt : t ≤ t') (hp : Spec.mgoOk t0 t' m o) :
    (mgoMonitored autoExpire keep t' o c).2 = (Spec.step t' o m).2 ∧
      MShows (t0 + Spec.ages) t' (mgoMonitored autoExpire keep t' o c).1 (Spec.step t' o m).1 := by
  obtain ⟨hge, hlt, hp⟩ := hp
  have hr : MShows (t0 + Spec.ages) t' (mgoReap t' (keep t') c) m := by
    apply (hr0.later htt hlt).filter
    intro k it h
    have : t' < it.2 + 60 * second := by unfold second; omega
    simp [this]
  unfold mgoMonitored
  generalize mgoReap t' (keep t') c = c' at hr
  cases o with
  | get k =>
    have hk := hr k
    simp only [mgo, Spec.step]
    cases hl : Spec.live m t' k with
    | none => rw [hl] at hk; simp only at hk; rw [hk]; exact ⟨rfl, hr⟩
    | some p =>
      obtain ⟨v, d⟩ := p
      rw [hl] at hk
      simp only at hk
      obtain ⟨e, hc, hlt, hd⟩ := hk
      rw [hc]
      simp only [mgoValue]
      rw [if_pos hlt]
      exact ⟨rfl, hr⟩
  | set k v ps =>
    have := deadlineEx ps hp hge
    exact ⟨rfl, hr.upd k v _ _ this.1 this.2⟩
  | touch k ps =>
    have hk := hr k
    simp only [mgo, Spec.step]
    obtain ⟨⟨v, d⟩, hl⟩ := Option.isSome_iff_exists.1 hp.2
    rw [hl] at hk
    simp only at hk
    obtain ⟨e, hc, hlt, hd⟩ := hk
    rw [hc, hl]
    have := deadlineEx ps hp.1 hge
    exact ⟨rfl, hr.upd k v _ _ this.1 this.2⟩
  | delete k =>
    have hk := hr k
    simp only [mgo, Spec.step]
    obtain ⟨⟨v, d⟩, hl⟩ := Option.isSome_iff_exists.1 hp
    rw [hl] at hk
    simp only at hk
    obtain ⟨e, hc, hlt, hd⟩ := hk
    rw [hc, hl]
    exact ⟨rfl, hr.del k⟩
  | incr k ps => exact mgoInc_step hr k _ hp
  | decr k ps =>
    have := mgoInc_step hr k (-(delta ps)) hp.2
    rw [← wrap64 hp.1] at this
    simp only [mgo, Spec.step]
    rw [wrap64 hp.1] at this ⊢
    exact this
  | has k =>
    have hk := hr k
    simp only [mgo, Spec.step]
    refine ⟨?_, hr⟩
    cases hl : Spec.live m t' k with
    | none => rw [hl] at hk; simp only at hk; rw [hk]; rfl
    | some p =>
      obtain ⟨v, d⟩ := p
      rw [hl] at hk
      simp only at hk
      obtain ⟨e, hc, hlt, hd⟩ := hk
      rw [hc]
      simp [mgoValue, hlt]
  | clean => exact ⟨rfl, fun k => rfl⟩
  | gc =>
    simp only [mgo, Spec.step]
    cases autoExpire with
    | true => exact ⟨rfl, hr⟩
    | false => exact ⟨rfl, hr.filter _ (fun k it h => by simpa using h)⟩

/-- Every history of calls (within `mgoOk`) on an empty collection gives exactly the results of the TTL
map, whenever and however the server's TTL monitor runs in between. -/
theorem C41_mgo_ttl_map_partial (autoExpire : Bool) (keep : Int → Str → Bool) (h : List (Int × Op)) (t0 : Int)
    (ho : Spec.Ordered t0 h) (ha : Spec.All (Spec.mgoOk t0) h Spec.empty) :
    run (mgoMonitored autoExpire keep) h (fun _ => none) = run Spec.step h Spec.empty :=
  run_eq _ (MShows (t0 + Spec.ages)) (Spec.mgoOk t0) (mgo_step autoExpire keep t0) h t0 _ _
    (fun _ => rfl) ho ha

/-! ## C42 Touch -/

/-- redis and memcached: touching a key that is missing or expired changes nothing and reports a miss (redis
refuses a timeout of more than 292 years). -/
theorem C42_touch_missing (pre k : Str) (now : Int) (ps : List Int) (s : Server)
    (h : live s now (pre ++ k) = none) :
    (redis pre now (.touch k ps) s).1 = s ∧
    (Spec.timeoutLe 9223372036 ps → redis pre now (.touch k ps) s = (s, .missed)) ∧
      (legalKey (pre ++ k) = true → memcache pre now (.touch k ps) s = (s, .missed)) := by
  refine ⟨?_, fun hp => ?_, fun hk => ?_⟩
  · simp only [redis]
    split
    · rfl
    · rw [h]
  · simp only [redis]
    rw [if_neg (by
      rcases timeout_cases now ps hp with ⟨h0, _⟩ | ⟨n, _, h1, _⟩
      · rw [h0]; decide
      · rw [h1, mod_second]; omega), h]
  · simp only [memcache, hk, if_true]; rw [h]

/-- redis: touching a live key with a non-negative timeout changes its deadline and nothing else. -/
theorem C42_redis_touch_live (pre k : Str) (now : Int) (ps : List Int) (s : Server) (v : Str) (d : Option Int)
    (hl : live s now (pre ++ k) = some (v, d)) (h1 : Spec.timeoutLe 9223372036 ps)
    (h2 : ∀ p, ps.head? = some p → 0 ≤ p) :
    (redis pre now (.touch k ps) s).2 = .ok ∧
      (redis pre now (.touch k ps) s).1 (pre ++ k) = some (v, Spec.deadline now ps) ∧
      ∀ k', k' ≠ pre ++ k → (redis pre now (.touch k ps) s).1 k' = s k' := by
  simp only [redis]
  rw [if_neg (by
      rcases timeout_cases now ps h1 with ⟨h0, _⟩ | ⟨n, _, h1, _⟩
      · rw [h0]; decide
      · rw [h1, mod_second]; omega), hl]
  rcases timeout_cases now ps h1 with ⟨h0, hd⟩ | ⟨n, hn, hn1, hn2, hd, _⟩
  · exfalso
    cases ps with
    | nil => simp [timeoutDur, second] at h0
    | cons p ps =>
      have := h2 p rfl
      by_cases hp0 : p > 0
      · rw [timeoutDur_pos hp0 (h1 p rfl)] at h0; unfold second at h0; omega
      · have : p = 0 := by omega
        subst this
        simp [timeoutDur, second] at h0
  · simp only
    rw [hn2, if_neg (by omega), hd]
    exact ⟨rfl, upd_same _ _ _, fun k' h => upd_ne _ _ h⟩

/-- memcached: touching a live key changes its deadline and nothing else (timeouts up to 30 days). -/
theorem C42_memcache_touch_live (pre k : Str) (now : Int) (ps : List Int) (s : Server) (v : Str) (d : Option Int)
    (hk : legalKey (pre ++ k) = true) (hl : live s now (pre ++ k) = some (v, d))
    (h1 : Spec.timeoutLe 2592000 ps) :
    (memcache pre now (.touch k ps) s).2 = .ok ∧
      (memcache pre now (.touch k ps) s).1 (pre ++ k) = some (v, Spec.deadline now ps) ∧
      ∀ k', k' ≠ pre ++ k → (memcache pre now (.touch k ps) s).1 k' = s k' := by
  simp only [memcache, hk, if_true]
  rw [hl]
  simp only
  rw [mcDeadline_spec now ps h1]
  exact ⟨trivial, upd_same _ _ _, fun k' h => upd_ne _ _ h⟩

/-- MongoDB: touching a live key keeps its value; no other document changes; a key without a document is
missed and nothing is created. -/
theorem C42_mgo_touch_partial (ae : Bool) (k : Str) (now : Int) (ps : List Int) (c : Coll) :
    (c k = none → mgo ae now (.touch k ps) c = (c, .missed)) ∧
    (∀ v d, c k = some (v, d) → (mgo ae now (.touch k ps) c).2 = .ok ∧
      (mgo ae now (.touch k ps) c).1 k = some (v, now + timeoutDurEx ps) ∧
      ∀ k', k' ≠ k → (mgo ae now (.touch k ps) c).1 k' = c k') := by
  refine ⟨fun h => ?_, fun v d h => ?_⟩
  · simp only [mgo]; rw [h]
  · simp only [mgo]; rw [h]
    exact ⟨rfl, upd_same _ _ _, fun k' h => upd_ne _ _ h⟩

/-- MongoDB: an expired value comes back to life when it is touched before it is collected. -/
theorem C42_mgo_touch_resurrects_violated :
    run (mgo false) [(0, .set b!"k" (.text b!"v") [1]), (5 * second, .get b!"k"), (5 * second, .touch b!"k" [10]),
      (6 * second, .get b!"k")] (fun _ => none) = [.ok, .missed, .ok, .val b!"v"] := by decide +kernel

/-- redis: touching with a negative timeout ("never expires" for `Set`) deletes the key. -/
theorem C42_redis_touch_negative_violated :
    run (redis []) [(0, .set b!"k" (.text b!"v") [-1]), (0, .touch b!"k" [-1]), (0, .get b!"k")]
      (fun _ => none) = [.ok, .ok, .missed] := by decide +kernel

/-! ## C43 garbage collection -/

/-- A history without its collector calls. -/
def Spec.noGC (h : List (Int × Op)) : List (Int × Op) := h.filter (fun e => e.2 ≠ .gc)

/-- Calls and results of a history, without the collector calls. -/
def Spec.visible {σ : Type} (op : Int → Op → σ → σ × Out) (h : List (Int × Op)) (s : σ) :
    List ((Int × Op) × Out) := (h.zip (run op h s)).filter (fun e => e.1.2 ≠ .gc)

theorem visible_nop {σ : Type} (op : Int → Op → σ → σ × Out) (hgc : ∀ t s, (op t .gc s).1 = s) :
    ∀ (h : List (Int × Op)) (s : σ),
      Spec.visible op h s = (Spec.noGC h).zip (run op (Spec.noGC h) s)
  | [], s => rfl
  | (t, o) :: h, s => by
    have ih := visible_nop op hgc h (op t o s).1
    unfold Spec.visible at ih
    by_cases ho : o = .gc
    · subst ho
      have e : Spec.noGC ((t, .gc) :: h) = Spec.noGC h := by simp [Spec.noGC]
      rw [e]
      simp only [Spec.visible, run, List.zip_cons_cons]
      rw [List.filter_cons_of_neg (by simp), ih, hgc]
    · have e : Spec.noGC ((t, o) :: h) = (t, o) :: Spec.noGC h := by simp [Spec.noGC, ho]
      rw [e]
      simp only [Spec.visible, run, List.zip_cons_cons]
      rw [List.filter_cons_of_pos (by simp [ho]), ih]

/-- redis and memcached: collector calls change nothing at all, in any history from any state. -/
theorem C43_gc_transparent_servers (pre : Str) (h : List (Int × Op)) (s : Server) :
    Spec.visible (redis pre) h s = (Spec.noGC h).zip (run (redis pre) (Spec.noGC h) s) ∧
    Spec.visible (memcache pre) h s = (Spec.noGC h).zip (run (memcache pre) (Spec.noGC h) s) :=
  ⟨visible_nop _ (fun _ _ => rfl) h s, visible_nop _ (fun _ _ => rfl) h s⟩

theorem all_noGC (P : Int → SMap → Op → Prop) : ∀ (h : List (Int × Op)) (m : SMap), Spec.All P h m →
    Spec.All P (Spec.noGC h) m
  | [], _, h => h
  | (t, o) :: h, m, ha => by
    by_cases ho : o = .gc
    · subst ho
      have e : Spec.noGC ((t, .gc) :: h) = Spec.noGC h := by simp [Spec.noGC]
      rw [e]; exact all_noGC P h m ha.2
    · have e : Spec.noGC ((t, o) :: h) = (t, o) :: Spec.noGC h := by simp [Spec.noGC, ho]
      rw [e]; exact ⟨ha.1, all_noGC P h _ ha.2⟩

theorem ordered_noGC : ∀ (h : List (Int × Op)) (t0 t1 : Int), t1 ≤ t0 → Spec.Ordered t0 h →
    Spec.Ordered t1 (Spec.noGC h)
  | [], _, _, _, _ => trivial
  | (t, o) :: h, t0, t1, hle, ho => by
    by_cases hg : o = .gc
    · subst hg
      have e : Spec.noGC ((t, .gc) :: h) = Spec.noGC h := by simp [Spec.noGC]
      rw [e]; exact ordered_noGC h t t1 (by have := ho.1; omega) ho.2
    · have e : Spec.noGC ((t, o) :: h) = (t, o) :: Spec.noGC h := by simp [Spec.noGC, hg]
      rw [e]; exact ⟨by have := ho.1; omega, ordered_noGC h t t (by omega) ho.2⟩

/-- MongoDB: collector calls and the TTL monitor, at arbitrary points, never change a result, for histories
within `mgoOk` (which touch, delete and increment only live keys). -/
theorem C43_gc_transparent_mgo_partial (ae : Bool) (keep keep' : Int → Str → Bool) (h : List (Int × Op)) (t0 : Int)
    (ho : Spec.Ordered t0 h) (ha : Spec.All (Spec.mgoOk t0) h Spec.empty) :
    Spec.visible (mgoMonitored ae keep) h (fun _ => none) =
      (Spec.noGC h).zip (run (mgoMonitored ae keep') (Spec.noGC h) (fun _ => none)) := by
  have h1 := C41_mgo_ttl_map_partial ae keep h t0 ho ha
  have h2 := C41_mgo_ttl_map_partial ae keep' (Spec.noGC h) t0 (ordered_noGC h t0 t0 (Int.le_refl _) ho)
    (all_noGC _ h _ ha)
  rw [h2]
  have : Spec.visible (mgoMonitored ae keep) h (fun _ => none) = Spec.visible Spec.step h Spec.empty := by
    unfold Spec.visible; rw [h1]
  rw [this]
  exact visible_nop _ (fun _ _ => rfl) h _

/-- MongoDB: whether an expired value can be touched back to life depends on the collector. -/
theorem C43_gc_observable_mgo_violated :
    run (mgo false) [(0, .set b!"k" (.text b!"v") [1]), (5 * second, .touch b!"k" [10])] (fun _ => none) =
      [.ok, .ok] ∧
    run (mgo false) [(0, .set b!"k" (.text b!"v") [1]), (4 * second, .gc), (5 * second, .touch b!"k" [10])]
      (fun _ => none) = [.ok, .ok, .missed] := by decide +kernel

/-! ## C44 key prefixes -/

/-- The key a call is about (`none`: the whole cache). -/
def Spec.keyOf : Op → Option Str
  | .get k => some k
  | .set k _ _ => some k
  | .touch k _ => some k
  | .delete k => some k
  | .incr k _ => some k
  | .decr k _ => some k
  | .has k => some k
  | .clean => none
  | .gc => none

theorem prefix_ne {p q k k' : Str} (h1 : ¬ p <+: q) (h2 : ¬ q <+: p) : p ++ k ≠ q ++ k' := by
  intro e
  by_cases hl : p.length ≤ q.length
  · exact h1 (List.prefix_of_prefix_length_le (List.prefix_append p k) (e ▸ List.prefix_append q k') hl)
  · exact h2 (List.prefix_of_prefix_length_le (e ▸ List.prefix_append q k') (List.prefix_append p k) (by omega))

/-- A call other than `Clean` changes only the key it names, with the cache's prefix in front. -/
theorem redis_frame (pre : Str) (now : Int) (o : Op) (s : Server) (hc : o ≠ .clean) (k' : Str)
    (hk : ∀ k, k' ≠ pre ++ k) : (redis pre now o s).1 k' = s k' := by
  cases o with
  | get k => simp only [redis]; split <;> rfl
  | set k v ps =>
    simp only [redis]
    split
    · split
      · rfl
      · exact upd_ne _ _ (hk k)
    · exact upd_ne _ _ (hk k)
  | touch k ps =>
    simp only [redis]
    split
    · rfl
    split
    · rfl
    · split <;> exact upd_ne _ _ (hk k)
  | delete k =>
    simp only [redis]
    split
    · rfl
    · exact upd_ne _ _ (hk k)
  | incr k ps =>
    simp only [redis, redisIncrBy]
    split
    · exact upd_ne _ _ (hk k)
    · split
      · rfl
      · split
        · exact upd_ne _ _ (hk k)
        · rfl
  | decr k ps =>
    simp only [redis, redisIncrBy]
    split
    · split
      · exact upd_ne _ _ (hk k)
      · split
        · rfl
        · split
          · exact upd_ne _ _ (hk k)
          · rfl
    · rfl
  | has k => rfl
  | clean => exact absurd rfl hc
  | gc => rfl

theorem memcache_frame (pre : Str) (now : Int) (o : Op) (s : Server) (hc : o ≠ .clean) (k' : Str)
    (hk : ∀ k, k' ≠ pre ++ k) : (memcache pre now o s).1 k' = s k' := by
  cases o with
  | get k => simp only [memcache]; split <;> (try split) <;> rfl
  | set k v ps =>
    simp only [memcache]
    split
    · exact upd_ne _ _ (hk k)
    · rfl
  | touch k ps =>
    simp only [memcache]
    split
    · split
      · rfl
      · exact upd_ne _ _ (hk k)
    · rfl
  | delete k =>
    simp only [memcache]
    split
    · split
      · rfl
      · exact upd_ne _ _ (hk k)
    · rfl
  | incr k ps =>
    simp only [memcache, mcArith]
    split
    · split
      · rfl
      · split
        · rfl
        · exact upd_ne _ _ (hk k)
    · rfl
  | decr k ps =>
    simp only [memcache, mcArith]
    split
    · split
      · rfl
      · split
        · rfl
        · exact upd_ne _ _ (hk k)
    · rfl
  | has k => simp only [memcache]; split <;> rfl
  | clean => exact absurd rfl hc
  | gc => rfl

/-- The result of a call depends only on the keys under the cache's own prefix. -/
theorem redis_local (pre : Str) (now : Int) (o : Op) (s s' : Server)
    (h : ∀ k, s (pre ++ k) = s' (pre ++ k)) :
    (redis pre now o s).2 = (redis pre now o s').2 ∧
      ∀ k, (redis pre now o s).1 (pre ++ k) = (redis pre now o s').1 (pre ++ k) := by
  have hl : ∀ k, live s now (pre ++ k) = live s' now (pre ++ k) := by
    intro k; unfold live; rw [h k]
  have hu : ∀ (k : Str) (v : Option Item) (j : Str),
      upd s (pre ++ k) v (pre ++ j) = upd s' (pre ++ k) v (pre ++ j) := by
    intro k v j; unfold upd; rw [h j]
  cases o with
  | get k => simp only [redis, hl k]; split <;> exact ⟨rfl, h⟩
  | set k v ps =>
    simp only [redis]
    split
    · split
      · exact ⟨rfl, h⟩
      · exact ⟨rfl, hu k _⟩
    · exact ⟨rfl, hu k _⟩
  | touch k ps =>
    simp only [redis, hl k]
    split
    · exact ⟨rfl, h⟩
    split
    · exact ⟨rfl, h⟩
    · split <;> exact ⟨rfl, hu k _⟩
  | delete k =>
    simp only [redis, hl k]
    split
    · exact ⟨rfl, h⟩
    · exact ⟨rfl, hu k _⟩
  | incr k ps =>
    simp only [redis, redisIncrBy, hl k]
    split
    · exact ⟨rfl, hu k _⟩
    · split
      · exact ⟨rfl, h⟩
      · split
        · exact ⟨rfl, hu k _⟩
        · exact ⟨rfl, h⟩
  | decr k ps =>
    simp only [redis, redisIncrBy, hl k]
    split
    · split
      · exact ⟨rfl, hu k _⟩
      · split
        · exact ⟨rfl, h⟩
        · split
          · exact ⟨rfl, hu k _⟩
          · exact ⟨rfl, h⟩
    · exact ⟨rfl, h⟩
  | has k => simp only [redis, hl k]; exact ⟨trivial, h⟩
  | clean => exact ⟨rfl, fun _ => rfl⟩
  | gc => exact ⟨rfl, h⟩

/-- memcached, likewise. -/
theorem memcache_local (pre : Str) (now : Int) (o : Op) (s s' : Server)
    (h : ∀ k, s (pre ++ k) = s' (pre ++ k)) :
    (memcache pre now o s).2 = (memcache pre now o s').2 ∧
      ∀ k, (memcache pre now o s).1 (pre ++ k) = (memcache pre now o s').1 (pre ++ k) := by
  have hl : ∀ k, live s now (pre ++ k) = live s' now (pre ++ k) := by
    intro k; unfold live; rw [h k]
  have hu : ∀ (k : Str) (v : Option Item) (j : Str),
      upd s (pre ++ k) v (pre ++ j) = upd s' (pre ++ k) v (pre ++ j) := by
    intro k v j; unfold upd; rw [h j]
  cases o with
  | get k =>
    simp only [memcache, hl k]
    split
    · split <;> exact ⟨rfl, h⟩
    · exact ⟨rfl, h⟩
  | set k v ps =>
    simp only [memcache]
    split
    · exact ⟨rfl, hu k _⟩
    · exact ⟨rfl, h⟩
  | touch k ps =>
    simp only [memcache, hl k]
    split
    · split
      · exact ⟨rfl, h⟩
      · exact ⟨rfl, hu k _⟩
    · exact ⟨rfl, h⟩
  | delete k =>
    simp only [memcache, hl k]
    split
    · split
      · exact ⟨rfl, h⟩
      · exact ⟨rfl, hu k _⟩
    · exact ⟨rfl, h⟩
  | incr k ps =>
    simp only [memcache, mcArith, hl k]
    split
    · split
      · exact ⟨rfl, h⟩
      · split
        · exact ⟨rfl, h⟩
        · exact ⟨rfl, hu k _⟩
    · exact ⟨rfl, h⟩
  | decr k ps =>
    simp only [memcache, mcArith, hl k]
    split
    · split
      · exact ⟨rfl, h⟩
      · split
        · exact ⟨rfl, h⟩
        · exact ⟨rfl, hu k _⟩
    · exact ⟨rfl, h⟩
  | has k => simp only [memcache, hl k]; split <;> exact ⟨rfl, h⟩
  | clean => exact ⟨rfl, fun _ => rfl⟩
  | gc => exact ⟨rfl, h⟩

/-- Two caches on one server, interleaved: `(true, …)` is a call of the first, `(false, …)` of the second. -/
def Spec.shared (op : Str → Int → Op → Server → Server × Out) (p q : Str) :
    List (Bool × Int × Op) → Server → List (Bool × Out)
  | [], _ => []
  | (b, t, o) :: h, s =>
    (b, (op (if b then p else q) t o s).2) :: Spec.shared op p q h (op (if b then p else q) t o s).1

theorem shared_isolated (op : Str → Int → Op → Server → Server × Out)
    (hframe : ∀ pre now o s, o ≠ .clean → ∀ k', (∀ k, k' ≠ pre ++ k) → (op pre now o s).1 k' = s k')
    (hlocal : ∀ pre now o s s', (∀ k, s (pre ++ k) = s' (pre ++ k)) →
      (op pre now o s).2 = (op pre now o s').2 ∧
        ∀ k, (op pre now o s).1 (pre ++ k) = (op pre now o s').1 (pre ++ k))
    (p q : Str) (h1 : ¬ p <+: q) (h2 : ¬ q <+: p) :
    ∀ (h : List (Bool × Int × Op)) (s s' : Server), (∀ k, s (p ++ k) = s' (p ++ k)) →
      (∀ e ∈ h, e.1 = false → e.2.2 ≠ .clean) →
      (Spec.shared op p q h s).filterMap (fun e => if e.1 then some e.2 else none) =
        run (op p) ((h.filter (fun e => e.1)).map (·.2)) s'
  | [], _, _, _, _ => rfl
  | (b, t, o) :: h, s, s', hs, hnc => by
    have hnc' : ∀ e ∈ h, e.1 = false → e.2.2 ≠ .clean := fun e he => hnc e (by simp [he])
    cases b with
    | true =>
      have hL := hlocal p t o s s' hs
      have ih := shared_isolated op hframe hlocal p q h1 h2 h _ _ hL.2 hnc'
      simp only [Spec.shared, List.filterMap_cons, List.filter_cons, if_true, List.map_cons, run]
      rw [hL.1, ← ih]
    | false =>
      have hno : o ≠ .clean := hnc (false, t, o) (by simp) rfl
      have hF : ∀ k, (op q t o s).1 (p ++ k) = s' (p ++ k) := by
        intro k
        rw [hframe q t o s hno (p ++ k) (fun k' => prefix_ne h1 h2), hs k]
      have ih := shared_isolated op hframe hlocal p q h1 h2 h _ _ hF hnc'
      simp only [Spec.shared, List.filterMap_cons, List.filter_cons]
      simpa using ih

/-- When neither prefix is a prefix of the other, the results one cache sees in any interleaved history are
those it would see alone — as long as the other cache never calls `Clean`. -/
theorem C44_prefix_isolation_partial (p q : Str) (h1 : ¬ p <+: q) (h2 : ¬ q <+: p)
    (h : List (Bool × Int × Op)) (s : Server) (hnc : ∀ e ∈ h, e.1 = false → e.2.2 ≠ .clean) :
    (Spec.shared redis p q h s).filterMap (fun e => if e.1 then some e.2 else none) =
        run (redis p) ((h.filter (fun e => e.1)).map (·.2)) s ∧
    (Spec.shared memcache p q h s).filterMap (fun e => if e.1 then some e.2 else none) =
        run (memcache p) ((h.filter (fun e => e.1)).map (·.2)) s :=
  ⟨shared_isolated redis redis_frame redis_local p q h1 h2 h s s (fun _ => rfl) hnc,
   shared_isolated memcache memcache_frame memcache_local p q h1 h2 h s s (fun _ => rfl) hnc⟩

/-- `Clean` of one cache empties every other cache on the server. -/
theorem C44_clean_not_isolated_violated :
    Spec.shared redis b!"a:" b!"b:" [(true, 0, .set b!"k" (.text b!"v") []), (false, 0, .clean),
      (true, 0, .get b!"k")] (fun _ => none) = [(true, .ok), (false, .ok), (true, .missed)] ∧
    Spec.shared memcache b!"a:" b!"b:" [(true, 0, .set b!"k" (.text b!"v") []), (false, 0, .clean),
      (true, 0, .get b!"k")] (fun _ => none) = [(true, .ok), (false, .ok), (true, .missed)] := by
  decide +kernel

/-- When one prefix is a prefix of the other, keys can collide. -/
theorem C44_nested_prefix_violated :
    Spec.shared redis b!"a" b!"ab" [(true, 0, .set b!"bk" (.text b!"v") []), (false, 0, .get b!"k")]
      (fun _ => none) = [(true, .ok), (false, .val b!"v")] := by decide +kernel

/-! ## C45 Incr and Decr -/

/-- redis: on a live integer, `Incr` adds, the result is read back as text, and `Decr` by the same amount
restores the very same state. -/
theorem C45_redis_incr_partial (pre k : Str) (now n i : Int) (s : Server) (d : Option Int)
    (hl : s (pre ++ k) = some (fmtInt i, d)) (ha : alive now d = true) (hi : fits64 i = true)
    (hin : fits64 (i + n) = true) (hn : fits64 (-n) = true) :
    let s1 := redis pre now (.incr k [n]) s
    s1.2 = .ok ∧ (redis pre now (.get k) s1.1).2 = .val (fmtInt (i + n)) ∧
      (redis pre now (.decr k [n]) s1.1).2 = .ok ∧ (redis pre now (.decr k [n]) s1.1).1 = s := by
  have hlive : live s now (pre ++ k) = some (fmtInt i, d) := by
    unfold live; rw [hl]; simp [Option.filter, ha]
  have hci : canonInt (fmtInt i) = some i := canonInt_int hi
  have hcn : canonInt (fmtInt (i + n)) = some (i + n) := canonInt_int hin
  have h1 : redis pre now (.incr k [n]) s = (upd s (pre ++ k) (some (fmtInt (i + n), d)), .ok) := by
    simp only [redis, delta, List.head?_cons, Option.getD_some, redisIncrBy]
    rw [hlive]
    simp only
    rw [hci]
    simp only [hin, if_true]
  have hl1 : live (upd s (pre ++ k) (some (fmtInt (i + n), d))) now (pre ++ k) =
      some (fmtInt (i + n), d) := by rw [live_upd_same]; simp [Option.filter, ha]
  rw [h1]
  simp only
  refine ⟨trivial, ?_, ?_⟩
  · simp only [redis]; rw [hl1]
  · have h2 : redis pre now (.decr k [n]) (upd s (pre ++ k) (some (fmtInt (i + n), d))) =
        (upd (upd s (pre ++ k) (some (fmtInt (i + n), d))) (pre ++ k) (some (fmtInt i, d)), .ok) := by
      have e : i + n + -n = i := by omega
      show (if fits64 (-n) = true then redisIncrBy _ now (pre ++ k) (-n) else _) = _
      rw [if_pos hn]
      unfold redisIncrBy
      rw [hl1]
      simp only
      rw [hcn]
      simp only [e, hi, if_true]
    rw [h2]
    refine ⟨rfl, ?_⟩
    funext x
    simp only
    by_cases hx : x = pre ++ k
    · subst hx; rw [upd_same, hl]
    · rw [upd_ne _ _ hx, upd_ne _ _ hx]

/-- MongoDB, likewise, for a value stored as an integer; and a missing key is a miss. -/
theorem C45_mgo_incr_partial (ae : Bool) (k : Str) (now n i e : Int) (c : Coll)
    (hl : c k = some (.int i, e)) (ha : now < e) (hi : fits64 i = true) (hin : fits64 (i + n) = true)
    (hn : fits64 (-n) = true) :
    let c1 := mgo ae now (.incr k [n]) c
    c1.2 = .ok ∧ (mgo ae now (.get k) c1.1).2 = .val (fmtInt (i + n)) ∧
      (mgo ae now (.decr k [n]) c1.1).2 = .ok ∧ (mgo ae now (.decr k [n]) c1.1).1 = c := by
  have h1 : mgo ae now (.incr k [n]) c = (upd c k (some (.int (i + n), e)), .ok) := by
    simp only [mgo, delta, List.head?_cons, Option.getD_some, mgoInc]
    rw [hl]
    simp only [hin, if_true]
  rw [h1]
  simp only
  refine ⟨trivial, ?_, ?_⟩
  · simp only [mgo]; rw [upd_same]; simp [mgoValue, ha, toStr]
  · have h2 : mgo ae now (.decr k [n]) (upd c k (some (.int (i + n), e))) =
        (upd (upd c k (some (.int (i + n), e))) k (some (.int i, e)), .ok) := by
      have e : i + n + -n = i := by omega
      show mgoInc _ k (wrapS 64 (-n)) = _
      rw [wrap64 hn]
      unfold mgoInc
      rw [upd_same]
      simp only [e, hi, if_true]
    rw [h2]
    refine ⟨rfl, ?_⟩
    funext x
    simp only
    by_cases hx : x = k
    · subst hx; rw [upd_same, hl]
    · rw [upd_ne _ _ hx, upd_ne _ _ hx]

/-- MongoDB and memcached report a miss for a key that is not there. -/
theorem C45_incr_missing (ae : Bool) (pre k : Str) (now : Int) (ps : List Int) (s : Server) (c : Coll) :
    (c k = none → mgo ae now (.incr k ps) c = (c, .missed) ∧ mgo ae now (.decr k ps) c = (c, .missed)) ∧
    (legalKey (pre ++ k) = true → live s now (pre ++ k) = none →
      memcache pre now (.incr k ps) s = (s, .missed) ∧ memcache pre now (.decr k ps) s = (s, .missed)) := by
  refine ⟨fun h => ?_, fun hk h => ?_⟩
  · simp only [mgo, mgoInc]; rw [h]; exact ⟨rfl, rfl⟩
  · simp only [memcache, hk, if_true, mcArith]; rw [h]; exact ⟨rfl, rfl⟩

/-- The backends differ. On a missing key redis creates a value that never expires where the others report
a miss; on a number stored as text MongoDB fails where the others add; a memcached `Decr` from 10 leaves a
blank behind, and below zero it stops; a negative amount wraps around there. -/
theorem C45_backends_differ_violated :
    (run (redis []) [(0, .incr b!"n" []), (0, .get b!"n")] (fun _ => none) = [.ok, .val b!"1"] ∧
      run (mgo false) [(0, .incr b!"n" []), (0, .get b!"n")] (fun _ => none) = [.missed, .missed]) ∧
    (run (redis []) [(0, .set b!"n" (.text b!"5") []), (0, .incr b!"n" [])] (fun _ => none) = [.ok, .ok] ∧
      run (mgo false) [(0, .set b!"n" (.text b!"5") []), (0, .incr b!"n" [])] (fun _ => none) =
        [.ok, .failed]) ∧
    (run (memcache []) [(0, .set b!"n" (.int 9) []), (0, .incr b!"n" []), (0, .decr b!"n" []), (0, .get b!"n")]
        (fun _ => none) = [.ok, .ok, .ok, .val b!"9 "] ∧
      run (memcache []) [(0, .set b!"n" (.int 1) []), (0, .decr b!"n" [5]), (0, .get b!"n")]
        (fun _ => none) = [.ok, .ok, .val b!"0"] ∧
      run (memcache []) [(0, .set b!"n" (.int 1) []), (0, .incr b!"n" [-5]), (0, .get b!"n")]
        (fun _ => none) = [.ok, .ok, .val b!"18446744073709551612"]) := by
  decide +kernel

/-! ## Stored values -/

/-- Values other than text, bytes and integers are all stored as the same text. -/
theorem C41_other_values_lost_violated (t : Int) :
    run (redis []) [(t, .set b!"k" .other []), (t, .get b!"k")] (fun _ => none) =
      [.ok, .val b!"[]byte(nil)"] := by
  have h : t < t + 60000000000 := by omega
  simp [run, redis, timeoutDur, live, upd, alive, second, Option.filter, toStr, h]

/-! ## The hypotheses are satisfiable -/

/-- a history that is valid for redis and exercises every kind of call -/
example : Spec.Ordered 0 [(0, .set b!"n" (.int 41) [100]), (1, .incr b!"n" []), (1, .get b!"n"),
      (2, .touch b!"n" [5]), (3, .delete b!"x"), (9 * second, .has b!"n"), (10 * second, .gc)] ∧
    run (redis b!"p:") [(0, .set b!"n" (.int 41) [100]), (1, .incr b!"n" []), (1, .get b!"n"),
      (2, .touch b!"n" [5]), (3, .delete b!"x"), (9 * second, .has b!"n"), (10 * second, .gc)] (fun _ => none) =
      [.ok, .ok, .val b!"42", .ok, .missed, .bool false, .ok] := by
  refine ⟨⟨?_, ?_, ?_, ?_, ?_, ?_, ?_, trivial⟩, ?_⟩ <;> decide +kernel

example : Spec.All Spec.redisOk [(0, .set b!"n" (.int 41) [100]), (1, .incr b!"n" []), (2, .touch b!"n" [5])]
    Spec.empty := by
  refine ⟨?_, ?_, ⟨?_, ?_⟩, trivial⟩
  · intro p h; simp at h; omega
  · show (Spec.live _ _ _).isSome = true
    decide +kernel
  · intro p h; simp at h; omega
  · intro p h; simp at h; omega

example : Spec.All (Spec.mgoOk 0) [(0, .set b!"n" (.int 41) [-1]), (1, .incr b!"n" []), (2, .touch b!"n" [5]),
    (3, .gc), (4, .delete b!"n")] Spec.empty := by
  refine ⟨⟨by decide, by decide, ?_⟩, ⟨by decide, by decide, 41, none, by decide, by decide +kernel⟩,
    ⟨by decide, by decide, ?_, by decide +kernel⟩, ⟨by decide, by decide, trivial⟩,
    ⟨by decide, by decide, by decide +kernel⟩, trivial⟩
  · intro p h; simp at h; omega
  · intro p h; simp at h; omega

example : Spec.All (Spec.mcOk b!"p:") [(0, .set b!"n" (.int 41) [60]), (1, .incr b!"n" [2])] Spec.empty := by
  refine ⟨⟨by decide, ?_⟩, ⟨by decide, by decide, ?_⟩, trivial⟩
  · intro p h; simp at h; omega
  · intro v d h
    have h' : Spec.live (Spec.step 0 (.set b!"n" (.int 41) [60]) Spec.empty).1 1 b!"n" =
      some (.int 41, some (60 * second)) := by decide +kernel
    rw [h'] at h
    simp at h
    obtain ⟨rfl, rfl⟩ := h
    exact ⟨41, by decide +kernel, by decide, by decide, by unfold Spec.noShrink; decide +kernel⟩

/-- The default step of `Incr` and `Decr` is 1, in every backend, and further parameters are ignored. -/
theorem C45_default_step (pre k : Str) (now n : Int) (ps : List Int) (s : Server) (c : Coll) (ae : Bool) :
    redis pre now (.incr k []) s = redis pre now (.incr k [1]) s ∧
    redis pre now (.decr k []) s = redis pre now (.decr k [1]) s ∧
    mgo ae now (.incr k []) c = mgo ae now (.incr k [1]) c ∧
    mgo ae now (.decr k []) c = mgo ae now (.decr k [1]) c ∧
    memcache pre now (.incr k []) s = memcache pre now (.incr k [1]) s ∧
    memcache pre now (.decr k []) s = memcache pre now (.decr k [1]) s ∧
    redis pre now (.incr k (n :: ps)) s = redis pre now (.incr k [n]) s ∧
    mgo ae now (.incr k (n :: ps)) c = mgo ae now (.incr k [n]) c ∧
    memcache pre now (.incr k (n :: ps)) s = memcache pre now (.incr k [n]) s :=
  ⟨rfl, rfl, rfl, rfl, rfl, rfl, rfl, rfl, rfl⟩

/-- A key that memcached cannot hold: longer than 250 bytes with the prefix, or with a blank or control
byte. -/
def Spec.badKey (k : Str) : Prop := 250 < k.length ∨ ∃ c ∈ k, c.toNat ≤ 32 ∨ c.toNat = 127

theorem legalKey_iff (k : Str) : legalKey k = false ↔ Spec.badKey k := by
  unfold legalKey Spec.badKey
  have h33 : ∀ c : UInt8, ((33 ≤ c : Bool) && (c != 127)) = false ↔ c.toNat ≤ 32 ∨ c.toNat = 127 := by
    intro c
    have hle : (33 ≤ c) ↔ 33 ≤ c.toNat := by rw [UInt8.le_iff_toNat_le]; rfl
    have heq : (c = 127) ↔ c.toNat = 127 := by
      constructor
      · intro h; rw [h]; rfl
      · intro h; apply UInt8.toNat_inj.1; rw [h]; rfl
    rw [Bool.and_eq_false_iff]
    simp only [decide_eq_false_iff_not, hle, bne_eq_false_iff_eq, heq]
    omega
  rw [Bool.and_eq_false_iff, List.all_eq_false]
  simp only [decide_eq_false_iff_not, Nat.not_le, Bool.not_eq_true, h33]

/-- memcached: every call with a key it cannot hold fails and changes nothing; with any other key, `Set`
succeeds. -/
theorem C41_memcache_bad_key (pre k : Str) (now : Int) (v : Val) (ps : List Int) (s : Server) :
    (Spec.badKey (pre ++ k) →
      ∀ o ∈ [Op.get k, .set k v ps, .touch k ps, .delete k, .incr k ps, .decr k ps, .has k],
        memcache pre now o s = (s, .failed)) ∧
    (¬ Spec.badKey (pre ++ k) → (memcache pre now (.set k v ps) s).2 = .ok) := by
  constructor
  · intro h o ho
    have hl := (legalKey_iff _).2 h
    simp only [List.mem_cons, List.not_mem_nil, or_false] at ho
    rcases ho with rfl | rfl | rfl | rfl | rfl | rfl | rfl <;> simp [memcache, hl]
  · intro h
    have hl : legalKey (pre ++ k) = true := by
      cases hh : legalKey (pre ++ k) with
      | true => rfl
      | false => exact absurd ((legalKey_iff _).1 hh) h
    simp [memcache, hl]

example : Spec.badKey (b!"s:" ++ b!"two words") := Or.inr ⟨32, by decide +kernel, Or.inl (by decide)⟩

end Verif.Cache
