import Verif.Props.Cache
/-!
# C101, C102: keys of a cache are independent, and nothing is invented
-/
namespace Verif.Cache
open Verif.Go

/-! ## Specification -/

/-- Calls that can matter to key `k`: those naming it, `Clean` and `GC`. -/
def Spec.concerns (k : Str) (e : Int × Op) : Bool :=
  match Spec.keyOf e.2 with
  | some k' => k' = k
  | none => true

/-- Calls naming key `k`. -/
def Spec.names (k : Str) (e : Int × Op) : Bool := Spec.keyOf e.2 = some k

/-- The calls naming `k` with their results. -/
def Spec.seen {σ : Type} (op : Int → Op → σ → σ × Out) (k : Str) (h : List (Int × Op)) (s : σ) : List ((Int × Op) × Out) :=
  (h.zip (run op h s)).filter fun e => Spec.names k e.1

/-! ## Independence -/

/-- What a call does to the entry of key `k`, and its result if it names `k`, depend only on that entry. -/
structure Local {σ α : Type} (op : Int → Op → σ → σ × Out) (k : Str) (entry : σ → α) : Prop where
  same : ∀ t o s s', entry s = entry s' → entry (op t o s).1 = entry (op t o s').1
  out : ∀ t o s s', entry s = entry s' → Spec.keyOf o = some k → (op t o s).2 = (op t o s').2
  other : ∀ t o s k', Spec.keyOf o = some k' → k' ≠ k → entry (op t o s).1 = entry s

theorem Local.seen {σ α : Type} {op : Int → Op → σ → σ × Out} {k : Str} {entry : σ → α} (hl : Local op k entry) :
    ∀ (h : List (Int × Op)) (s s' : σ), entry s = entry s' →
      Spec.seen op k h s = Spec.seen op k (h.filter (Spec.concerns k)) s'
  | [], _, _, _ => rfl
  | (t, o) :: h, s, s', he => by
    cases hk : Spec.keyOf o with
    | none =>
      have hc : Spec.concerns k (t, o) = true := by simp [Spec.concerns, hk]
      have hn : Spec.names k (t, o) = false := by simp [Spec.names, hk]
      rw [List.filter_cons_of_pos hc]
      simp only [Spec.seen, run, List.zip_cons_cons]
      rw [List.filter_cons_of_neg (by simp [hn]), List.filter_cons_of_neg (by simp [hn])]
      exact Local.seen hl h _ _ (hl.same t o s s' he)
    | some k' =>
      by_cases hkk : k' = k
      · subst hkk
        have hc : Spec.concerns k' (t, o) = true := by simp [Spec.concerns, hk]
        have hn : Spec.names k' (t, o) = true := by simp [Spec.names, hk]
        rw [List.filter_cons_of_pos hc]
        simp only [Spec.seen, run, List.zip_cons_cons]
        rw [List.filter_cons_of_pos (by simp [hn]), List.filter_cons_of_pos (by simp [hn]), hl.out t o s s' he hk]
        congr 1
        exact Local.seen hl h _ _ (hl.same t o s s' he)
      · have hc : ¬ Spec.concerns k (t, o) = true := by simp [Spec.concerns, hk, hkk]
        have hn : Spec.names k (t, o) = false := by simp [Spec.names, hk, hkk]
        rw [List.filter_cons_of_neg hc]
        simp only [Spec.seen, run, List.zip_cons_cons]
        rw [List.filter_cons_of_neg (by simp [hn])]
        exact Local.seen hl h _ _ (by rw [hl.other t o s k' hk hkk, he])

theorem live_congr {s s' : Server} {k : Str} (h : s k = s' k) (now : Int) : live s now k = live s' now k := by
  unfold live; rw [h]

theorem upd_congr {α β : Type} [DecidableEq α] {s s' : α → β} {x k : α} (v : β) (h : s k = s' k) : upd s x v k = upd s' x v k := by
  unfold upd; split <;> simp_all

theorem redis_indep (pre k : Str) : Local (redis pre) k (fun s => s (pre ++ k)) := by
  have key : ∀ k', k' = k ∨ pre ++ k ≠ pre ++ k' := by
    intro k'
    by_cases h : k' = k
    · exact .inl h
    · exact .inr (fun e => h (List.append_cancel_left e).symm)
  have hincr : ∀ (t n : Int) (s s' : Server), s (pre ++ k) = s' (pre ++ k) →
      (redisIncrBy s t (pre ++ k) n).1 (pre ++ k) = (redisIncrBy s' t (pre ++ k) n).1 (pre ++ k) ∧
      (redisIncrBy s t (pre ++ k) n).2 = (redisIncrBy s' t (pre ++ k) n).2 := by
    intro t n s s' h
    unfold redisIncrBy
    rw [live_congr h]
    split
    · exact ⟨(upd_same _ _ _).trans (upd_same _ _ _).symm, rfl⟩
    · split
      · exact ⟨h, rfl⟩
      · split
        · exact ⟨(upd_same _ _ _).trans (upd_same _ _ _).symm, rfl⟩
        · exact ⟨h, rfl⟩
  have hincrO : ∀ (t n : Int) (s : Server) (k' : Str), pre ++ k ≠ pre ++ k' →
      (redisIncrBy s t (pre ++ k') n).1 (pre ++ k) = s (pre ++ k) := by
    intro t n s k' h
    unfold redisIncrBy
    split
    · exact upd_ne _ _ h
    · split
      · rfl
      · split
        · exact upd_ne _ _ h
        · rfl
  have hother : ∀ t o (s : Server) k', Spec.keyOf o = some k' → k' ≠ k → (redis pre t o s).1 (pre ++ k) = s (pre ++ k) := by
    intro t o s k' hk hne
    have hx : pre ++ k ≠ pre ++ k' := by rcases key k' with h | h; exact absurd h hne; exact h
    cases o <;> simp only [Spec.keyOf] at hk <;> cases hk
    · simp only [redis]; split <;> rfl
    · simp only [redis]
      split
      · split
        · rfl
        · exact upd_ne _ _ hx
      · exact upd_ne _ _ hx
    · simp only [redis]
      split
      · rfl
      split
      · rfl
      · split <;> exact upd_ne _ _ hx
    · simp only [redis]
      split
      · rfl
      · exact upd_ne _ _ hx
    · exact hincrO _ _ _ _ hx
    · simp only [redis]
      split
      · exact hincrO _ _ _ _ hx
      · rfl
    · rfl
  have hboth : ∀ t o (s s' : Server), s (pre ++ k) = s' (pre ++ k) → Spec.keyOf o = some k →
      (redis pre t o s).1 (pre ++ k) = (redis pre t o s').1 (pre ++ k) ∧ (redis pre t o s).2 = (redis pre t o s').2 := by
    intro t o s s' h hk
    cases o <;> simp only [Spec.keyOf] at hk <;> cases hk
    · simp only [redis]
      rw [live_congr h]
      split <;> exact ⟨h, rfl⟩
    · simp only [redis]
      split
      · split
        · exact ⟨h, rfl⟩
        · exact ⟨(upd_same _ _ _).trans (upd_same _ _ _).symm, rfl⟩
      · exact ⟨(upd_same _ _ _).trans (upd_same _ _ _).symm, rfl⟩
    · simp only [redis]
      rw [live_congr h]
      split
      · exact ⟨h, rfl⟩
      split
      · exact ⟨h, rfl⟩
      · split <;> exact ⟨(upd_same _ _ _).trans (upd_same _ _ _).symm, rfl⟩
    · simp only [redis]
      rw [live_congr h]
      split
      · exact ⟨h, rfl⟩
      · exact ⟨(upd_same _ _ _).trans (upd_same _ _ _).symm, rfl⟩
    · exact hincr _ _ _ _ h
    · simp only [redis]
      split
      · exact hincr _ _ _ _ h
      · exact ⟨h, rfl⟩
    · simp only [redis]
      rw [live_congr h]
      exact ⟨h, rfl⟩
  refine ⟨?_, fun t o s s' h hk => (hboth t o s s' h hk).2, hother⟩
  intro t o s s' h
  cases hk : Spec.keyOf o with
  | some k' =>
    by_cases hkk : k' = k
    · subst hkk; exact (hboth t o s s' h hk).1
    · rw [hother t o s k' hk hkk, hother t o s' k' hk hkk]; exact h
  | none =>
    cases o <;> simp only [Spec.keyOf] at hk <;> cases hk
    · rfl
    · exact h

theorem memcache_indep (pre k : Str) : Local (memcache pre) k (fun s => s (pre ++ k)) := by
  have harith : ∀ (t : Int) (f : Nat → Nat) (s s' : Server), s (pre ++ k) = s' (pre ++ k) →
      (mcArith s t (pre ++ k) f).1 (pre ++ k) = (mcArith s' t (pre ++ k) f).1 (pre ++ k) ∧
      (mcArith s t (pre ++ k) f).2 = (mcArith s' t (pre ++ k) f).2 := by
    intro t n s s' h
    unfold mcArith
    rw [live_congr h]
    split
    · exact ⟨h, rfl⟩
    · split
      · exact ⟨h, rfl⟩
      · exact ⟨(upd_same _ _ _).trans (upd_same _ _ _).symm, rfl⟩
  have harithO : ∀ (t : Int) (f : Nat → Nat) (s : Server) (k' : Str), pre ++ k ≠ pre ++ k' →
      (mcArith s t (pre ++ k') f).1 (pre ++ k) = s (pre ++ k) := by
    intro t n s k' h
    unfold mcArith
    split
    · rfl
    · split
      · rfl
      · exact upd_ne _ _ h
  have hother : ∀ t o (s : Server) k', Spec.keyOf o = some k' → k' ≠ k → (memcache pre t o s).1 (pre ++ k) = s (pre ++ k) := by
    intro t o s k' hk hne
    have hx : pre ++ k ≠ pre ++ k' := fun e => hne (List.append_cancel_left e).symm
    cases o <;> simp only [Spec.keyOf] at hk <;> cases hk
    · simp only [memcache]; split <;> (try split) <;> rfl
    · simp only [memcache]
      split
      · exact upd_ne _ _ hx
      · rfl
    · simp only [memcache]
      split
      · split
        · rfl
        · exact upd_ne _ _ hx
      · rfl
    · simp only [memcache]
      split
      · split
        · rfl
        · exact upd_ne _ _ hx
      · rfl
    · simp only [memcache]
      split
      · exact harithO _ _ _ _ hx
      · rfl
    · simp only [memcache]
      split
      · exact harithO _ _ _ _ hx
      · rfl
    · simp only [memcache]; split <;> rfl
  have hboth : ∀ t o (s s' : Server), s (pre ++ k) = s' (pre ++ k) → Spec.keyOf o = some k →
      (memcache pre t o s).1 (pre ++ k) = (memcache pre t o s').1 (pre ++ k) ∧ (memcache pre t o s).2 = (memcache pre t o s').2 := by
    intro t o s s' h hk
    cases o <;> simp only [Spec.keyOf] at hk <;> cases hk
    · simp only [memcache]
      rw [live_congr h]
      split
      · split <;> exact ⟨h, rfl⟩
      · exact ⟨h, rfl⟩
    · simp only [memcache]
      split
      · exact ⟨(upd_same _ _ _).trans (upd_same _ _ _).symm, rfl⟩
      · exact ⟨h, rfl⟩
    · simp only [memcache]
      rw [live_congr h]
      split
      · split
        · exact ⟨h, rfl⟩
        · exact ⟨(upd_same _ _ _).trans (upd_same _ _ _).symm, rfl⟩
      · exact ⟨h, rfl⟩
    · simp only [memcache]
      rw [live_congr h]
      split
      · split
        · exact ⟨h, rfl⟩
        · exact ⟨(upd_same _ _ _).trans (upd_same _ _ _).symm, rfl⟩
      · exact ⟨h, rfl⟩
    · simp only [memcache]
      split
      · exact harith _ _ _ _ h
      · exact ⟨h, rfl⟩
    · simp only [memcache]
      split
      · exact harith _ _ _ _ h
      · exact ⟨h, rfl⟩
    · simp only [memcache]
      rw [live_congr h]
      split <;> exact ⟨h, rfl⟩
  refine ⟨?_, fun t o s s' h hk => (hboth t o s s' h hk).2, hother⟩
  intro t o s s' h
  cases hk : Spec.keyOf o with
  | some k' =>
    by_cases hkk : k' = k
    · subst hkk; exact (hboth t o s s' h hk).1
    · rw [hother t o s k' hk hkk, hother t o s' k' hk hkk]; exact h
  | none =>
    cases o <;> simp only [Spec.keyOf] at hk <;> cases hk
    · rfl
    · exact h

theorem mgo_indep (ae : Bool) (k : Str) : Local (mgo ae) k (fun c => c k) := by
  have hincr : ∀ (n : Int) (s s' : Coll), s k = s' k → (mgoInc s k n).1 k = (mgoInc s' k n).1 k ∧ (mgoInc s k n).2 = (mgoInc s' k n).2 := by
    intro n s s' h
    unfold mgoInc
    rw [h]
    split
    · exact ⟨h, rfl⟩
    · split
      · exact ⟨(upd_same _ _ _).trans (upd_same _ _ _).symm, rfl⟩
      · exact ⟨h, rfl⟩
    · exact ⟨h, rfl⟩
  have hincrO : ∀ (n : Int) (s : Coll) (k' : Str), k ≠ k' → (mgoInc s k' n).1 k = s k := by
    intro n s k' h
    unfold mgoInc
    split
    · rfl
    · split
      · exact upd_ne _ _ h
      · rfl
    · rfl
  have hother : ∀ t o (s : Coll) k', Spec.keyOf o = some k' → k' ≠ k → (mgo ae t o s).1 k = s k := by
    intro t o s k' hk hne
    have hx : k ≠ k' := fun e => hne e.symm
    cases o <;> simp only [Spec.keyOf] at hk <;> cases hk
    · simp only [mgo]; split <;> rfl
    · exact upd_ne _ _ hx
    · simp only [mgo]
      split
      · rfl
      · exact upd_ne _ _ hx
    · simp only [mgo]
      split
      · rfl
      · exact upd_ne _ _ hx
    · exact hincrO _ _ _ hx
    · exact hincrO _ _ _ hx
    · rfl
  have hboth : ∀ t o (s s' : Coll), s k = s' k → Spec.keyOf o = some k →
      (mgo ae t o s).1 k = (mgo ae t o s').1 k ∧ (mgo ae t o s).2 = (mgo ae t o s').2 := by
    intro t o s s' h hk
    cases o <;> simp only [Spec.keyOf] at hk <;> cases hk
    · simp only [mgo]
      rw [h]
      split <;> exact ⟨h, rfl⟩
    · exact ⟨(upd_same _ _ _).trans (upd_same _ _ _).symm, rfl⟩
    · simp only [mgo]
      rw [h]
      split
      · exact ⟨h, rfl⟩
      · exact ⟨(upd_same _ _ _).trans (upd_same _ _ _).symm, rfl⟩
    · simp only [mgo]
      rw [h]
      split
      · exact ⟨h, rfl⟩
      · exact ⟨(upd_same _ _ _).trans (upd_same _ _ _).symm, rfl⟩
    · exact hincr _ _ _ h
    · exact hincr _ _ _ h
    · simp only [mgo]
      rw [h]
      exact ⟨rfl, rfl⟩
  refine ⟨?_, fun t o s s' h hk => (hboth t o s s' h hk).2, hother⟩
  intro t o s s' h
  cases hk : Spec.keyOf o with
  | some k' =>
    by_cases hkk : k' = k
    · subst hkk; exact (hboth t o s s' h hk).1
    · rw [hother t o s k' hk hkk, hother t o s' k' hk hkk]; exact h
  | none =>
    cases o <;> simp only [Spec.keyOf] at hk <;> cases hk
    · rfl
    · simp only [mgo]
      cases ae
      · show Option.filter _ (s k) = Option.filter _ (s' k)
        rw [h]
      · exact h

/-- **C101.** In every history of calls, on every backend and from every state, the results of the calls naming `k` are those
of the history from which all calls naming other keys are taken out. -/
theorem C101_keys_independent (pre k : Str) (ae : Bool) (h : List (Int × Op)) (s : Server) (c : Coll) :
    Spec.seen (redis pre) k h s = Spec.seen (redis pre) k (h.filter (Spec.concerns k)) s ∧
    Spec.seen (memcache pre) k h s = Spec.seen (memcache pre) k (h.filter (Spec.concerns k)) s ∧
    Spec.seen (mgo ae) k h c = Spec.seen (mgo ae) k (h.filter (Spec.concerns k)) c :=
  ⟨(redis_indep pre k).seen h s s rfl, (memcache_indep pre k).seen h s s rfl, (mgo_indep ae k).seen h c c rfl⟩

/-- Two keys used in turns. -/
example : Spec.seen (redis b!"p:") b!"a" [(0, .set b!"a" (.int 1) []), (0, .set b!"b" (.int 5) []), (1, .incr b!"a" [3]), (1, .delete b!"b"), (2, .get b!"a")] (fun _ => none) =
    [((0, .set b!"a" (.int 1) []), .ok), ((1, .incr b!"a" [3]), .ok), ((2, .get b!"a"), .val b!"4")] := by decide +kernel

/-! ## Nothing is invented -/

/-- Where the value of a key may come from: a `Set` of exactly this value that succeeded, or a successful `Incr`/`Decr`, with
no `Clean` since and no `Delete` or `Set` of the key since, except such as reported an error (other than a miss). -/
def Spec.Stored (k v : Str) (h : List ((Int × Op) × Out)) : Prop :=
  ∃ a t o b, h = a ++ ((t, o), .ok) :: b ∧
    ((∃ x ps, o = .set k x ps ∧ toStr x = v) ∨ (∃ ps, o = .incr k ps) ∨ ∃ ps, o = .decr k ps) ∧
    ∀ e ∈ b, e.1.2 ≠ .clean ∧ (e.1.2 = .delete k → e.2 = .failed) ∧ ∀ x ps, e.1.2 = .set k x ps → e.2 = .failed

/-- What may happen in one call to the value held for `k`. -/
structure Keeps {σ : Type} (op : Int → Op → σ → σ × Out) (k : Str) (held : σ → Int → Option Str) : Prop where
  later : ∀ s t t' v, t ≤ t' → held s t' = some v → held s t = some v
  step : ∀ t o s v, held (op t o s).1 t = some v →
    ((op t o s).2 = .ok ∧ ((∃ x ps, o = .set k x ps ∧ toStr x = v) ∨ (∃ ps, o = .incr k ps) ∨ ∃ ps, o = .decr k ps)) ∨
    (held s t = some v ∧ o ≠ .clean ∧ (o = .delete k → (op t o s).2 = .failed) ∧ ∀ x ps, o = .set k x ps → (op t o s).2 = .failed)
  get : ∀ t s v, (op t (.get k) s).2 = .val v → held s t = some v

theorem Keeps.stored {σ : Type} {op : Int → Op → σ → σ × Out} {k : Str} {held : σ → Int → Option Str} (hk : Keeps op k held) :
    ∀ (h : List (Int × Op)) (s : σ) (t0 : Int) (past : List ((Int × Op) × Out)), Spec.Ordered t0 h →
      (∀ v, held s t0 = some v → Spec.Stored k v past) →
      ∀ (a b : List (Int × Op)) (t : Int), h = a ++ (t, .get k) :: b → ∀ v, (run op h s)[a.length]? = some (.val v) →
        Spec.Stored k v (past ++ a.zip (run op h s))
  | [], _, _, _, _, _, a, b, t, he, _, _ => by cases a <;> cases he
  | (u, o) :: h, s, t0, past, ho, hp, a, b, t, he, v, hv => by
    cases a with
    | nil =>
      injection he with h1 h2
      injection h1 with h3 h4
      subst h3; subst h4
      simp only [run, List.length_nil, List.getElem?_cons_zero, Option.some.injEq] at hv
      have hg := hk.get _ _ _ hv
      simp only [List.zip_nil_left, List.append_nil]
      exact hp v (hk.later s t0 _ v ho.1 hg)
    | cons e a =>
      injection he with h1 h2
      subst h1
      simp only [run, List.length_cons, List.getElem?_cons_succ] at hv
      have := Keeps.stored hk h (op u o s).1 u (past ++ [((u, o), (op u o s).2)]) ho.2 (by
        intro v' hv'
        rcases hk.step u o s v' hv' with ⟨hok, hs⟩ | ⟨hold, hc, hd, hset⟩
        · exact ⟨past, u, o, [], by rw [hok], hs, by simp⟩
        · obtain ⟨x, tt, oo, y, hxy, hs, hy⟩ := hp v' (hk.later s t0 u v' ho.1 hold)
          refine ⟨x, tt, oo, y ++ [((u, o), (op u o s).2)], by rw [hxy]; simp, hs, ?_⟩
          intro e he
          rcases List.mem_append.1 he with he | he
          · exact hy e he
          · rw [List.mem_singleton.1 he]; exact ⟨hc, hd, hset⟩) a b t h2 v hv
      simpa [run] using this

theorem live_some_later (s : Server) {t t' : Int} (h : t ≤ t') (k v : Str) (hv : (live s t' k).map (·.1) = some v) :
    (live s t k).map (·.1) = some v := by
  rw [live_later s h] at hv
  cases hl : live s t k with
  | none => rw [hl] at hv; cases hv
  | some it =>
    rw [hl] at hv
    by_cases ha : alive t' it.2 = true <;> simp [Option.filter, ha] at hv ⊢
    exact hv

theorem redis_keeps (pre k : Str) : Keeps (redis pre) k (fun s t => (live s t (pre ++ k)).map (·.1)) := by
  refine ⟨fun s t t' v h hv => live_some_later s h _ v hv, ?_, ?_⟩
  · intro t o s v hv
    have hloc := redis_indep pre k
    by_cases hk : Spec.keyOf o = some k
    · cases o <;> simp only [Spec.keyOf] at hk <;> cases hk
      · right
        refine ⟨?_, by simp, by simp, by simp⟩
        simp only [redis] at hv
        split at hv <;> exact hv
      · rename_i x ps
        simp only [redis] at hv ⊢
        split at hv
        · split at hv
          · right
            rename_i h1 h2
            refine ⟨hv, by simp, by simp, ?_⟩
            intro _ _ _
            rw [if_pos h1, if_pos h2]
          · left
            rename_i h1 h2
            rw [if_pos h1, if_neg h2]
            refine ⟨rfl, .inl ⟨x, ps, rfl, ?_⟩⟩
            rw [live_upd_same] at hv
            by_cases ha : alive t (some (t + timeoutDur ps / second * second)) = true <;> simp [Option.filter, ha] at hv
            exact hv
        · left
          rename_i h1
          rw [if_neg h1]
          refine ⟨rfl, .inl ⟨x, ps, rfl, ?_⟩⟩
          rw [live_upd_same] at hv
          simpa [Option.filter, alive] using hv
      · right
        rename_i ps
        refine ⟨?_, by simp, by simp, by simp⟩
        simp only [redis] at hv
        split at hv
        · exact hv
        split at hv
        · exact hv
        · rename_i it hit
          split at hv
          · rw [live_upd_same] at hv; cases hv
          · rw [live_upd_same] at hv
            by_cases ha : alive t (some (t + timeoutDur ps / second * second)) = true <;> simp [Option.filter, ha] at hv
            rw [hit]; simpa using hv
      · simp only [redis] at hv
        exfalso
        cases hl : live s t (pre ++ k) with
        | none => rw [hl] at hv; simp only at hv; rw [hl] at hv; cases hv
        | some it => rw [hl] at hv; simp only at hv; rw [live_upd_same] at hv; cases hv
      · rename_i ps
        cases hr : (redis pre t (.incr k ps) s).2 with
        | ok => exact .inl ⟨rfl, .inr (.inl ⟨ps, rfl⟩)⟩
        | _ =>
          right
          refine ⟨?_, by simp, by simp, by simp⟩
          simp only [redis, redisIncrBy] at hv hr
          split at hv
          · rename_i h1; rw [h1] at hr; cases hr
          · rename_i h1
            split at hv
            · exact hv
            · rename_i h2
              split at hv
              · rename_i h3; rw [h1] at hr; simp only [h2] at hr; rw [if_pos h3] at hr; cases hr
              · exact hv
      · rename_i ps
        cases hr : (redis pre t (.decr k ps) s).2 with
        | ok => exact .inl ⟨rfl, .inr (.inr ⟨ps, rfl⟩)⟩
        | _ =>
          right
          refine ⟨?_, by simp, by simp, by simp⟩
          simp only [redis, redisIncrBy] at hv hr
          split at hv
          · rename_i h0
            rw [if_pos h0] at hr
            split at hv
            · rename_i h1; rw [h1] at hr; cases hr
            · rename_i h1
              split at hv
              · exact hv
              · rename_i h2
                split at hv
                · rename_i h3; rw [h1] at hr; simp only [h2] at hr; rw [if_pos h3] at hr; cases hr
                · exact hv
          · exact hv
      · exact .inr ⟨hv, by simp, by simp, by simp⟩
    · cases hk' : Spec.keyOf o with
      | some k' =>
        have hne : k' ≠ k := fun e => hk (by rw [hk', e])
        right
        refine ⟨?_, ?_, ?_, ?_⟩
        · have := hloc.other t o s k' hk' hne
          rw [show live (redis pre t o s).1 t (pre ++ k) = live s t (pre ++ k) from live_congr this t] at hv
          exact hv
        · rintro rfl; cases hk'
        · rintro rfl; exact absurd rfl hk
        · rintro x ps rfl; exact absurd rfl hk
      | none =>
        cases o <;> simp only [Spec.keyOf] at hk' <;> cases hk'
        · cases hv
        · exact .inr ⟨hv, by simp, by simp, by simp⟩
  · intro t s v hv
    simp only [redis] at hv
    split at hv
    · rename_i it hit
      simp only [Out.val.injEq] at hv
      rw [hit]; simp [hv]
    · cases hv

theorem memcache_keeps (pre k : Str) : Keeps (memcache pre) k (fun s t => (live s t (pre ++ k)).map (·.1)) := by
  refine ⟨fun s t t' v h hv => live_some_later s h _ v hv, ?_, ?_⟩
  · intro t o s v hv
    have hloc := memcache_indep pre k
    by_cases hk : Spec.keyOf o = some k
    · by_cases hlk : legalKey (pre ++ k) = true
      · cases o <;> simp only [Spec.keyOf] at hk <;> cases hk
        · right
          refine ⟨?_, by simp, by simp, by simp⟩
          simp only [memcache, hlk, if_true] at hv
          split at hv <;> exact hv
        · rename_i x ps
          left
          simp only [memcache, hlk, if_true] at hv ⊢
          refine ⟨trivial, .inl ⟨x, ps, rfl, ?_⟩⟩
          rw [live_upd_same] at hv
          by_cases ha : alive t (mcDeadline t (mcSeconds (timeoutDur ps))) = true <;> simp [Option.filter, ha] at hv
          exact hv
        · right
          rename_i ps
          refine ⟨?_, by simp, by simp, by simp⟩
          simp only [memcache, hlk, if_true] at hv
          split at hv
          · exact hv
          · rename_i it hit
            rw [live_upd_same] at hv
            by_cases ha : alive t (mcDeadline t (mcSeconds (timeoutDur ps))) = true <;> simp [Option.filter, ha] at hv
            rw [hit]; simpa using hv
        · simp only [memcache, hlk, if_true] at hv
          exfalso
          cases hl : live s t (pre ++ k) with
          | none => rw [hl] at hv; simp only at hv; rw [hl] at hv; cases hv
          | some it => rw [hl] at hv; simp only at hv; rw [live_upd_same] at hv; cases hv
        · rename_i ps
          cases hr : (memcache pre t (.incr k ps) s).2 with
          | ok => exact .inl ⟨rfl, .inr (.inl ⟨ps, rfl⟩)⟩
          | _ =>
            right
            refine ⟨?_, by simp, by simp, by simp⟩
            simp only [memcache, hlk, if_true, mcArith] at hv hr
            split at hv
            · exact hv
            · rename_i h1
              split at hv
              · exact hv
              · rename_i h2; rw [h1] at hr; simp only [h2] at hr; cases hr
        · rename_i ps
          cases hr : (memcache pre t (.decr k ps) s).2 with
          | ok => exact .inl ⟨rfl, .inr (.inr ⟨ps, rfl⟩)⟩
          | _ =>
            right
            refine ⟨?_, by simp, by simp, by simp⟩
            simp only [memcache, hlk, if_true, mcArith] at hv hr
            split at hv
            · exact hv
            · rename_i h1
              split at hv
              · exact hv
              · rename_i h2; rw [h1] at hr; simp only [h2] at hr; cases hr
        · right
          simp only [memcache, hlk, if_true] at hv
          exact ⟨hv, by simp, by simp, by simp⟩
      · have hst : (memcache pre t o s).1 = s ∧ (memcache pre t o s).2 = .failed := by
          cases o <;> simp only [Spec.keyOf] at hk <;> cases hk <;> simp only [memcache, if_neg hlk, and_self]
        right
        rw [hst.1] at hv
        refine ⟨hv, ?_, fun _ => hst.2, fun _ _ _ => hst.2⟩
        rintro rfl; cases hk
    · cases hk' : Spec.keyOf o with
      | some k' =>
        have hne : k' ≠ k := fun e => hk (by rw [hk', e])
        right
        refine ⟨?_, ?_, ?_, ?_⟩
        · have := hloc.other t o s k' hk' hne
          rw [show live (memcache pre t o s).1 t (pre ++ k) = live s t (pre ++ k) from live_congr this t] at hv
          exact hv
        · rintro rfl; cases hk'
        · rintro rfl; exact absurd rfl hk
        · rintro x ps rfl; exact absurd rfl hk
      | none =>
        cases o <;> simp only [Spec.keyOf] at hk' <;> cases hk'
        · cases hv
        · exact .inr ⟨hv, by simp, by simp, by simp⟩
  · intro t s v hv
    simp only [memcache] at hv
    split at hv
    · split at hv
      · rename_i it hit
        simp only [Out.val.injEq] at hv
        rw [hit]; simp [hv]
      · cases hv
    · cases hv

theorem mgo_keeps (ae : Bool) (k : Str) : Keeps (mgo ae) k (fun c _ => (c k).map (fun it => toStr it.1)) := by
  refine ⟨fun s t t' v h hv => hv, ?_, ?_⟩
  · intro t o s v hv
    have hloc := mgo_indep ae k
    by_cases hk : Spec.keyOf o = some k
    · cases o <;> simp only [Spec.keyOf] at hk <;> cases hk
      · right
        refine ⟨?_, by simp, by simp, by simp⟩
        simp only [mgo] at hv
        split at hv <;> exact hv
      · rename_i x ps
        left
        refine ⟨rfl, .inl ⟨x, ps, rfl, ?_⟩⟩
        simp only [mgo] at hv
        rw [upd_same] at hv
        simpa using hv
      · right
        refine ⟨?_, by simp, by simp, by simp⟩
        simp only [mgo] at hv
        split at hv
        · exact hv
        · rename_i hit
          simp only at hv
          rw [upd_same] at hv
          rw [hit]; simpa using hv
      · simp only [mgo] at hv
        exfalso
        cases hl : s k with
        | none => rw [hl] at hv; simp only at hv; rw [hl] at hv; cases hv
        | some it => rw [hl] at hv; simp only at hv; rw [upd_same] at hv; cases hv
      · rename_i ps
        cases hr : (mgo ae t (.incr k ps) s).2 with
        | ok => exact .inl ⟨rfl, .inr (.inl ⟨ps, rfl⟩)⟩
        | _ =>
          right
          refine ⟨?_, by simp, by simp, by simp⟩
          simp only [mgo, mgoInc] at hv hr
          split at hv
          · exact hv
          · rename_i h1
            split at hv
            · rename_i h3; rw [h1] at hr; simp only at hr; rw [if_pos h3] at hr; cases hr
            · exact hv
          · exact hv
      · rename_i ps
        cases hr : (mgo ae t (.decr k ps) s).2 with
        | ok => exact .inl ⟨rfl, .inr (.inr ⟨ps, rfl⟩)⟩
        | _ =>
          right
          refine ⟨?_, by simp, by simp, by simp⟩
          simp only [mgo, mgoInc] at hv hr
          split at hv
          · exact hv
          · rename_i h1
            split at hv
            · rename_i h3; rw [h1] at hr; simp only at hr; rw [if_pos h3] at hr; cases hr
            · exact hv
          · exact hv
      · exact .inr ⟨hv, by simp, by simp, by simp⟩
    · cases hk' : Spec.keyOf o with
      | some k' =>
        have hne : k' ≠ k := fun e => hk (by rw [hk', e])
        right
        refine ⟨?_, ?_, ?_, ?_⟩
        · have := hloc.other t o s k' hk' hne
          have e : (mgo ae t o s).1 k = s k := this
          have hv' : ((mgo ae t o s).1 k).map (fun it => toStr it.1) = some v := hv
          rw [e] at hv'
          exact hv'
        · rintro rfl; cases hk'
        · rintro rfl; exact absurd rfl hk
        · rintro x ps rfl; exact absurd rfl hk
      | none =>
        cases o <;> simp only [Spec.keyOf] at hk' <;> cases hk'
        · cases hv
        · refine .inr ⟨?_, by simp, by simp, by simp⟩
          simp only [mgo] at hv
          cases ae
          · simp only [Bool.false_eq_true, if_false] at hv
            cases hl : s k with
            | none => rw [hl] at hv; cases hv
            | some it =>
              rw [hl] at hv
              by_cases ha : t < it.2 <;> simp [Option.filter, ha] at hv ⊢
              exact hv
          · exact hv
  · intro t s v hv
    simp only [mgo] at hv
    cases hl : s k with
    | none => rw [hl] at hv; simp [mgoValue] at hv
    | some it =>
      rw [hl] at hv
      by_cases ha : t < it.2
      · simp [mgoValue, ha] at hv
        simp [hv]
      · simp [mgoValue, ha] at hv

/-- **C102.** On every backend, in every history from the empty store with times that do not go back: a value that `Get`
reports for a key was stored by a successful `Set` of that very value under that key, or is the result of a successful `Incr` or
`Decr` of that key, and since then the cache was not cleaned and the key neither deleted nor set again. -/
theorem C102_nothing_invented (pre k : Str) (ae : Bool) (t0 t : Int) (a b : List (Int × Op)) (v : Str)
    (ho : Spec.Ordered t0 (a ++ (t, .get k) :: b)) :
    ((run (redis pre) (a ++ (t, .get k) :: b) (fun _ => none))[a.length]? = some (.val v) →
      Spec.Stored k v (a.zip (run (redis pre) a (fun _ => none)))) ∧
    ((run (memcache pre) (a ++ (t, .get k) :: b) (fun _ => none))[a.length]? = some (.val v) →
      Spec.Stored k v (a.zip (run (memcache pre) a (fun _ => none)))) ∧
    ((run (mgo ae) (a ++ (t, .get k) :: b) (fun _ => none))[a.length]? = some (.val v) →
      Spec.Stored k v (a.zip (run (mgo ae) a (fun _ => none)))) := by
  have hz : ∀ {σ : Type} (op : Int → Op → σ → σ × Out) (h b : List (Int × Op)) (s : σ), h.zip (run op (h ++ b) s) = h.zip (run op h s) := by
    intro σ op h
    induction h with
    | nil => intro b s; rfl
    | cons e h ih => intro b s; obtain ⟨u, o⟩ := e; simp only [List.cons_append, run, List.zip_cons_cons, ih]
  refine ⟨?_, ?_, ?_⟩
  · intro hv
    have := (redis_keeps pre k).stored _ (fun _ => none) t0 [] ho (by intro v h; cases h) a b t rfl v hv
    rwa [hz, List.nil_append] at this
  · intro hv
    have := (memcache_keeps pre k).stored _ (fun _ => none) t0 [] ho (by intro v h; cases h) a b t rfl v hv
    rwa [hz, List.nil_append] at this
  · intro hv
    have := (mgo_keeps ae k).stored _ (fun _ => none) t0 [] ho (by intro v h; cases h) a b t rfl v hv
    rwa [hz, List.nil_append] at this

/-- A history in which a value is found. -/
example : (run (mgo false) [(0, .set b!"k" (.text b!"v") []), (1, .set b!"j" (.text b!"w") []), (2, .get b!"k")] (fun _ => none))[2]? = some (.val b!"v") ∧
    Spec.Ordered 0 [(0, .set b!"k" (.text b!"v") []), (1, .set b!"j" (.text b!"w") []), (2, .get b!"k")] := by
  refine ⟨by decide +kernel, ?_⟩
  simp [Spec.Ordered]

end Verif.Cache
