import Verif.Model.CacheDriver
/-!
# C167: a cache that cannot be reached is not an empty cache
-/
namespace Verif.Driver
open Verif.Go Verif.Cache

/-! ## Specification -/

/-- The fault of `Model/Session.lean` that a trouble is: without a connection the command does not reach the server. -/
def Spec.fault : Trouble → Sess.Fault
  | .none => .none
  | .noConn => .lost
  | .lost => .lost
  | .late => .late

/-- The key a call is about. -/
def Spec.key : Op → Option Str
  | .get k => some k
  | .set k _ _ => some k
  | .touch k _ => some k
  | .delete k => some k
  | .incr k _ => some k
  | .decr k _ => some k
  | .has k => some k
  | .clean => none
  | .gc => none

/-- What the pool has seen when no call is under way: every connection taken was put back before the next was asked for; nothing was put back for a
refusal. -/
inductive Spec.Balanced : List PoolEv → Prop where
  | nil : Spec.Balanced []
  | served {l} : Spec.Balanced l → Spec.Balanced (l ++ [.take, .put])
  | refused {l} : Spec.Balanced l → Spec.Balanced (l ++ [.refuse])

/-- A history of calls of the redis provider. -/
def Spec.redisRun (pre : Str) : List (Trouble × Int × Op) → RWorld → RWorld
  | [], w => w
  | (tr, now, op) :: l, w => Spec.redisRun pre l (redisCall pre tr now op w).1

/-! ## redis -/

theorem redisOut_io (op : Op) (h : op ≠ .gc) : redisOut op .io = .failed := by
  cases op <;> first | rfl | exact absurd rfl h

theorem execIncr_out (s : Server) (now : Int) (k : Str) (n : Int) :
    redisIncrBy s now k n = ((execIncr s now k n).1, handledResult (execIncr s now k n).2.toErr) := by
  unfold redisIncrBy execIncr
  cases live s now k with
  | none => rfl
  | some it =>
    obtain ⟨v, d⟩ := it
    simp only
    cases canonInt v with
    | none => rfl
    | some i =>
      simp only
      split <;> rfl

theorem redis_exec (pre : Str) (now : Int) (op : Op) (s : Server) (c : Cmd) (h : redisCmd pre op = some c) :
    redis pre now op s = ((exec now c s).1, redisOut op (exec now c s).2) := by
  cases op with
  | get k =>
    cases h
    simp only [redis, exec, redisOut]
    cases live s now (pre ++ k) <;> rfl
  | set k v ps =>
    cases h
    simp only [redis]
    by_cases ht : timeoutDur ps > 0
    · simp only [if_pos ht, exec]
      split <;> rfl
    · simp only [if_neg ht, exec]
      rfl
  | touch k ps =>
    cases h
    simp only [redis, exec]
    by_cases ht : timeoutDur ps % second ≠ 0
    · rw [if_pos ht, if_pos ht]; rfl
    · rw [if_neg ht, if_neg ht]
      cases live s now (pre ++ k) with
      | none => rfl
      | some it =>
        simp only
        split <;> rfl
  | delete k =>
    cases h
    simp only [redis, exec]
    cases live s now (pre ++ k) <;> rfl
  | incr k ps =>
    cases h
    exact execIncr_out s now (pre ++ k) (delta ps)
  | decr k ps =>
    cases h
    simp only [redis, exec]
    split
    · exact execIncr_out s now (pre ++ k) (-(delta ps))
    · rfl
  | has k =>
    cases h
    simp only [redis, exec, redisOut, Reply.toInt, hasResult]
    cases live s now (pre ++ k) <;> rfl
  | clean => cases h; rfl
  | gc => cases h

/-- **C167** (redis): a call is what it is in `Model/Session.lean`, with its faults; the garbage collection does nothing. -/
theorem C167_redis (pre : Str) (tr : Trouble) (now : Int) (op : Op) (w : RWorld) :
    (op ≠ .gc → ((redisCall pre tr now op w).1.server, (redisCall pre tr now op w).2) =
      Sess.call ⟨redis pre⟩ (Spec.fault tr) now op w.server) ∧
    (op = .gc → redisCall pre tr now op w = (w, .ok)) := by
  refine ⟨fun h => ?_, fun h => by subst h; rfl⟩
  have hc : ∃ c, redisCmd pre op = some c := by
    cases op <;> first | exact ⟨_, rfl⟩ | exact absurd rfl h
  obtain ⟨c, hc⟩ := hc
  unfold redisCall
  rw [hc]
  cases tr with
  | none => exact (redis_exec pre now op w.server c hc).symm
  | noConn => rfl
  | lost => simp only [redisOut_io op h]; rfl
  | late =>
    simp only [redisOut_io op h]
    show _ = ((redis pre now op w.server).1, Out.failed)
    rw [redis_exec pre now op w.server c hc]

/-- **C167** (connections): after any history of calls, with any troubles, every connection taken from the pool has been put back,
once. -/
theorem C167_pool (pre : Str) (l : List (Trouble × Int × Op)) (w : RWorld) (h : Spec.Balanced w.pool) :
    Spec.Balanced (Spec.redisRun pre l w).pool := by
  induction l generalizing w with
  | nil => exact h
  | cons e l ih =>
    obtain ⟨tr, now, op⟩ := e
    refine ih _ ?_
    unfold redisCall
    cases redisCmd pre op with
    | none => exact h
    | some c =>
      cases tr with
      | none => exact h.served
      | noConn => exact h.refused
      | lost => exact h.served
      | late => exact h.served

/-- What that means in numbers. -/
theorem C167_pool_count (l : List PoolEv) (h : Spec.Balanced l) : l.count .take = l.count .put := by
  induction h with
  | nil => rfl
  | served _ ih => simp [List.count_append, ih, List.count_cons]
  | refused _ ih => simp [List.count_append, ih, List.count_cons]

/-! ## memcached -/

theorem mc_exec (pre : Str) (now : Int) (op : Op) (s : Server) :
    memcache pre now op s = ((mcExec pre now op s).1, mcOut op (mcExec pre now op s).2) := by
  unfold mcExec
  cases op with
  | get k =>
    simp only [memcache]
    split
    · cases live s now (pre ++ k) <;> rfl
    · rfl
  | set k v ps =>
    simp only [memcache]
    split <;> rfl
  | touch k ps =>
    simp only [memcache]
    split
    · cases live s now (pre ++ k) <;> rfl
    · rfl
  | delete k =>
    simp only [memcache]
    split
    · cases live s now (pre ++ k) <;> rfl
    · rfl
  | incr k ps =>
    simp only [memcache]
    split
    · unfold mcArith
      cases live s now (pre ++ k) with
      | none => rfl
      | some it =>
        obtain ⟨v, d⟩ := it
        simp only
        cases mcNumber v <;> rfl
    · rfl
  | decr k ps =>
    simp only [memcache]
    split
    · unfold mcArith
      cases live s now (pre ++ k) with
      | none => rfl
      | some it =>
        obtain ⟨v, d⟩ := it
        simp only
        cases mcNumber v <;> rfl
    · rfl
  | has k =>
    simp only [memcache]
    split
    · cases (live s now (pre ++ k)).isSome <;> rfl
    · rfl
  | clean => rfl
  | gc => rfl

theorem mcOut_err (op : Op) (h : op ≠ .gc) : mcOut op .err = .failed := by
  cases op <;> first | rfl | exact absurd rfl h

/-- **C167** (memcached): likewise. -/
theorem C167_memcache (pre : Str) (tr : Trouble) (now : Int) (op : Op) (s : Server) :
    (op ≠ .gc → mcCall pre tr now op s = Sess.call ⟨memcache pre⟩ (Spec.fault tr) now op s) ∧
    (op = .gc → mcCall pre tr now op s = (s, .ok)) := by
  refine ⟨fun h => ?_, fun h => by subst h; rfl⟩
  have e : mcCall pre tr now op s = (match tr with
    | .none => ((mcExec pre now op s).1, mcOut op (mcExec pre now op s).2)
    | .late => ((mcExec pre now op s).1, mcOut op .err)
    | _ => (s, mcOut op .err)) := by
    cases op <;> first | rfl | exact absurd rfl h
  rw [e, mcOut_err op h]
  cases tr with
  | none => exact (mc_exec pre now op s).symm
  | noConn => rfl
  | lost => rfl
  | late =>
    show _ = ((memcache pre now op s).1, Out.failed)
    rw [mc_exec pre now op s]

/-! ## MongoDB -/

theorem incExec_out (c : Coll) (k : Str) (n : Int) : mgoInc c k n = ((incExec c k n).1, mgoHandled (incExec c k n).2) := by
  unfold mgoInc incExec
  cases c k with
  | none => rfl
  | some it =>
    obtain ⟨v, d⟩ := it
    cases v with
    | int i => simp only; split <;> rfl
    | _ => rfl

theorem mgo_exec (a : Bool) (now : Int) (op : Op) (c : Coll) (h : ¬ (op = .gc ∧ a = true)) :
    mgo a now op c = ((mgoExec now op c).1, mgoOut now op (mgoExec now op c).2) := by
  cases op with
  | get k =>
    simp only [mgo, mgoExec, mgoOut, mgoValue]
    cases c k with
    | none => rfl
    | some it =>
      obtain ⟨v, d⟩ := it
      simp only [mgoGet]
      by_cases hd : now < d
      · simp only [if_pos hd]
      · simp only [if_neg hd]
  | set k v ps => rfl
  | touch k ps =>
    simp only [mgo, mgoExec]
    cases c k <;> rfl
  | delete k =>
    simp only [mgo, mgoExec]
    cases c k <;> rfl
  | incr k ps => exact incExec_out c k _
  | decr k ps => exact incExec_out c k _
  | has k =>
    simp only [mgo, mgoExec, mgoOut, mgoValue]
    cases c k with
    | none => rfl
    | some it =>
      obtain ⟨v, d⟩ := it
      simp only [mgoHas]
      by_cases hd : now < d
      · simp [if_pos hd, hd]
      · simp [if_neg hd, hd]
  | clean => rfl
  | gc =>
    cases a with
    | true => exact absurd ⟨rfl, rfl⟩ h
    | false => rfl

theorem mgoOut_err (now : Int) (op : Op) : mgoOut now op .err = .failed := by
  cases op <;> rfl

/-- **C167** (MongoDB): likewise; collecting is a command of its own unless the server does it. -/
theorem C167_mgo (a : Bool) (tr : Trouble) (now : Int) (op : Op) (c : Coll) :
    (¬ (op = .gc ∧ a = true) → mgoCall a tr now op c = Sess.call ⟨mgo a⟩ (Spec.fault tr) now op c) ∧
    (op = .gc ∧ a = true → mgoCall a tr now op c = (c, .ok)) := by
  refine ⟨fun h => ?_, fun h => by unfold mgoCall; rw [if_pos h]⟩
  unfold mgoCall
  rw [if_neg h, mgoOut_err]
  cases tr with
  | none => exact (mgo_exec a now op c h).symm
  | noConn => rfl
  | lost => rfl
  | late =>
    show _ = ((mgo a now op c).1, Out.failed)
    rw [mgo_exec a now op c h]

/-! ## An outage is not a missing key -/

/-- **C167**: with any of the caches, if anything goes wrong with a call, it reports an error, and not `ErrMissedKey` - no value, no "there is no
such key", no success. -/
theorem C167_outage (pre : Str) (a : Bool) (tr : Trouble) (ht : tr ≠ .none) (now : Int) (op : Op) (ho : op ≠ .gc) (w : RWorld) (s : Server) (c : Coll) :
    (redisCall pre tr now op w).2 = .failed ∧ (mcCall pre tr now op s).2 = .failed ∧ (mgoCall a tr now op c).2 = .failed := by
  have hf : ∀ {σ : Type} (C : Sess.CacheApi σ) (s : σ), (Sess.call C (Spec.fault tr) now op s).2 = .failed := by
    intro σ C s
    cases tr <;> first | rfl | exact absurd rfl ht
  refine ⟨?_, ?_, ?_⟩
  · exact (congrArg Prod.snd ((C167_redis pre tr now op w).1 ho)).trans (hf _ _)
  · rw [(C167_memcache pre tr now op s).1 ho]; exact hf _ _
  · rw [(C167_mgo a tr now op c).1 (fun h => ho h.1)]; exact hf _ _

/-- **C167**: `ErrMissedKey` is reported only if the server was asked, answered, and has no such key - none that has not expired, or none at all
(MongoDB's `Touch`, `Delete`, `Incr`, `Decr` also find expired ones). -/
theorem C167_missed (pre : Str) (a : Bool) (tr : Trouble) (now : Int) (op : Op) (w : RWorld) (s : Server) (c : Coll) :
    ((redisCall pre tr now op w).2 = .missed → tr = .none ∧ ∃ k, Spec.key op = some k ∧ live w.server now (pre ++ k) = none) ∧
    ((mcCall pre tr now op s).2 = .missed → tr = .none ∧ ∃ k, Spec.key op = some k ∧ live s now (pre ++ k) = none) ∧
    ((mgoCall a tr now op c).2 = .missed → tr = .none ∧ ∃ k, Spec.key op = some k ∧ (c k = none ∨ ∃ v d, c k = some (v, d) ∧ d ≤ now)) := by
  by_cases ho : op = .gc
  · subst ho
    refine ⟨fun h => (nomatch h), fun h => (nomatch h), fun h => ?_⟩
    unfold mgoCall at h
    split at h
    · cases h
    · cases tr <;> cases h
  · by_cases ht : tr = .none
    · subst ht
      refine ⟨fun h => ⟨rfl, ?_⟩, fun h => ⟨rfl, ?_⟩, fun h => ⟨rfl, ?_⟩⟩
      · have h := (congrArg Prod.snd ((C167_redis pre .none now op w).1 ho)).symm.trans h
        change (redis pre now op w.server).2 = .missed at h
        have hincr : ∀ k n, (redisIncrBy w.server now k n).2 ≠ .missed := by
          intro k n
          unfold redisIncrBy
          cases live w.server now k with
          | none => simp
          | some it =>
            obtain ⟨v, d⟩ := it
            simp only
            cases canonInt v with
            | none => simp
            | some i => simp only; split <;> simp
        cases op with
        | get k =>
          refine ⟨k, rfl, ?_⟩
          simp only [redis] at h
          cases hl : live w.server now (pre ++ k) with
          | none => rfl
          | some it => rw [hl] at h; cases h
        | set k v ps => simp only [redis] at h; split at h <;> (try split at h) <;> cases h
        | touch k ps =>
          refine ⟨k, rfl, ?_⟩
          simp only [redis] at h
          split at h
          · cases h
          · cases hl : live w.server now (pre ++ k) with
            | none => rfl
            | some it => rw [hl] at h; simp only at h; split at h <;> cases h
        | delete k =>
          refine ⟨k, rfl, ?_⟩
          simp only [redis] at h
          cases hl : live w.server now (pre ++ k) with
          | none => rfl
          | some it => rw [hl] at h; cases h
        | incr k ps => exact absurd h (hincr _ _)
        | decr k ps =>
          simp only [redis] at h
          split at h
          · exact absurd h (hincr _ _)
          · cases h
        | has k => cases h
        | clean => cases h
        | gc => exact absurd rfl ho
      · rw [(C167_memcache pre .none now op s).1 ho] at h
        change (memcache pre now op s).2 = .missed at h
        have harith : ∀ k f, (mcArith s now k f).2 = .missed → live s now k = none := by
          intro k f h
          unfold mcArith at h
          cases hl : live s now k with
          | none => rfl
          | some it =>
            obtain ⟨v, d⟩ := it
            rw [hl] at h
            simp only at h
            cases hn : mcNumber v <;> rw [hn] at h <;> cases h
        cases op with
        | get k =>
          refine ⟨k, rfl, ?_⟩
          simp only [memcache] at h
          split at h
          · cases hl : live s now (pre ++ k) with
            | none => rfl
            | some it => rw [hl] at h; cases h
          · cases h
        | set k v ps => simp only [memcache] at h; split at h <;> cases h
        | touch k ps =>
          refine ⟨k, rfl, ?_⟩
          simp only [memcache] at h
          split at h
          · cases hl : live s now (pre ++ k) with
            | none => rfl
            | some it => rw [hl] at h; cases h
          · cases h
        | delete k =>
          refine ⟨k, rfl, ?_⟩
          simp only [memcache] at h
          split at h
          · cases hl : live s now (pre ++ k) with
            | none => rfl
            | some it => rw [hl] at h; cases h
          · cases h
        | incr k ps =>
          simp only [memcache] at h
          split at h
          · exact ⟨k, rfl, harith _ _ h⟩
          · cases h
        | decr k ps =>
          simp only [memcache] at h
          split at h
          · exact ⟨k, rfl, harith _ _ h⟩
          · cases h
        | has k => simp only [memcache] at h; split at h <;> cases h
        | clean => cases h
        | gc => exact absurd rfl ho
      · rw [(C167_mgo a .none now op c).1 (fun h => ho h.1)] at h
        change (mgo a now op c).2 = .missed at h
        have hinc : ∀ k n, (mgoInc c k n).2 = .missed → c k = none := by
          intro k n h
          unfold mgoInc at h
          cases hl : c k with
          | none => rfl
          | some it =>
            obtain ⟨v, d⟩ := it
            rw [hl] at h
            cases v with
            | int i => simp only at h; split at h <;> cases h
            | _ => cases h
        cases op with
        | get k =>
          refine ⟨k, rfl, ?_⟩
          simp only [mgo, mgoValue] at h
          cases hl : c k with
          | none => exact .inl rfl
          | some it =>
            obtain ⟨v, d⟩ := it
            right
            refine ⟨v, d, rfl, ?_⟩
            rw [hl] at h
            simp only at h
            by_cases hd : now < d
            · rw [if_pos hd] at h; cases h
            · omega
        | set k v ps => cases h
        | touch k ps =>
          refine ⟨k, rfl, ?_⟩
          simp only [mgo] at h
          cases hl : c k with
          | none => exact .inl rfl
          | some it => rw [hl] at h; cases h
        | delete k =>
          refine ⟨k, rfl, ?_⟩
          simp only [mgo] at h
          cases hl : c k with
          | none => exact .inl rfl
          | some it => rw [hl] at h; cases h
        | incr k ps => exact ⟨k, rfl, .inl (hinc _ _ h)⟩
        | decr k ps => exact ⟨k, rfl, .inl (hinc _ _ h)⟩
        | has k => cases h
        | clean => cases h
        | gc => exact absurd rfl ho
    · have := C167_outage pre a tr ht now op ho w s c
      refine ⟨fun h => ?_, fun h => ?_, fun h => ?_⟩
      · rw [this.1] at h; cases h
      · rw [this.2.1] at h; cases h
      · rw [this.2.2] at h; cases h

/-- A server with one key. -/
def exServer : Server := fun k => if k = b!"p:a" then some (b!"5", none) else none

/-- A key that is there, one that is not, and an outage; the connections. -/
theorem C167_example : (redisCall b!"p:" .none 0 (.get b!"a") ⟨exServer, []⟩).2 = .val b!"5" ∧
    (redisCall b!"p:" .none 0 (.get b!"b") ⟨exServer, []⟩).2 = .missed ∧ (redisCall b!"p:" .late 0 (.get b!"a") ⟨exServer, []⟩).2 = .failed ∧
    (redisCall b!"p:" .late 0 (.has b!"b") ⟨exServer, []⟩).2 = .failed ∧
    (Spec.redisRun b!"p:" [(.none, 0, .get b!"a"), (.noConn, 1, .delete b!"a"), (.lost, 2, .gc), (.late, 3, .incr b!"a" [])] ⟨exServer, []⟩).pool =
      [.take, .put, .refuse, .take, .put] := by
  decide +kernel

end Verif.Driver
