import Verif.Props.Cache
/-!
# C146: which server stands behind a cache does not show
-/
namespace Verif.Cache
open Verif.Go

/-! ## Specification -/

/-- Calls that mean the same on every backend: reading, storing, deleting and cleaning, with keys memcached accepts (under the prefixes in
use) and timeouts of up to 30 days, or negative (for ever). -/
def Spec.portable (pres : List Str) : Op → Prop
  | .get k => ∀ p ∈ pres, legalKey (p ++ k) = true
  | .has k => ∀ p ∈ pres, legalKey (p ++ k) = true
  | .delete k => ∀ p ∈ pres, legalKey (p ++ k) = true
  | .set k _ ps => (∀ p ∈ pres, legalKey (p ++ k) = true) ∧ Spec.timeoutLe 2592000 ps
  | .clean => True
  | .gc => True
  | .touch _ _ => False
  | .incr _ _ => False
  | .decr _ _ => False

/-- A history of such calls, in order of time, over less than 9999 days (27 years). -/
structure Spec.Portable (pres : List Str) (t0 : Int) (h : List (Int × Op)) : Prop where
  ordered : Spec.Ordered t0 h
  calls : ∀ e ∈ h, Spec.portable pres e.2
  recent : ∀ e ∈ h, e.1 < t0 + 9999 * 24 * 3600 * 1000000000

/-- The answers to all calls but `Delete`. -/
def Spec.answers {σ : Type} (op : Int → Op → σ → σ × Out) (h : List (Int × Op)) (s : σ) : List Out :=
  ((h.zip (run op h s)).filter (fun e => match e.1.2 with | .delete _ => false | _ => true)).map (·.2)

/-! ## Proof -/

theorem all_of' (P : Int → SMap → Op → Prop) (pres : List Str) (hP : ∀ t m o, Spec.portable pres o → P t m o) :
    ∀ (h : List (Int × Op)) (m : SMap), (∀ e ∈ h, Spec.portable pres e.2) → Spec.All P h m
  | [], _, _ => trivial
  | (t, o) :: h, m, hc => ⟨hP t m o (hc (t, o) (by simp)), all_of' P pres hP h _ (fun e he => hc e (by simp [he]))⟩

theorem timeout_more {ps : List Int} (h : Spec.timeoutLe 2592000 ps) : Spec.timeoutLe 9223372036 ps :=
  fun p hp => by have := h p hp; omega

theorem portable_redis (pres : List Str) (t : Int) (m : SMap) (o : Op) (h : Spec.portable pres o) : Spec.redisOk t m o := by
  cases o with
  | set k v ps => exact timeout_more h.2
  | touch k ps => exact h.elim
  | incr k ps => exact h.elim
  | decr k ps => exact h.elim
  | _ => trivial

theorem portable_mc (pres : List Str) (pre : Str) (hp : pre ∈ pres) (t : Int) (m : SMap) (o : Op) (h : Spec.portable pres o) :
    Spec.mcOk pre t m o := by
  cases o with
  | get k => exact h pre hp
  | has k => exact h pre hp
  | delete k => exact h pre hp
  | set k v ps => exact ⟨h.1 pre hp, h.2⟩
  | touch k ps => exact h.elim
  | incr k ps => exact h.elim
  | decr k ps => exact h.elim
  | clean => trivial
  | gc => trivial

theorem answers_cons {σ : Type} (op : Int → Op → σ → σ × Out) (t : Int) (o : Op) (h : List (Int × Op)) (s : σ) :
    Spec.answers op ((t, o) :: h) s = (match o with | .delete _ => [] | _ => [(op t o s).2]) ++ Spec.answers op h (op t o s).1 := by
  simp only [Spec.answers, run, List.zip_cons_cons, List.filter_cons]
  cases o <;> simp

theorem mgo_answers (ae : Bool) (keep : Int → Str → Bool) (pres : List Str) (t0 : Int) :
    ∀ (h : List (Int × Op)) (t : Int) (c : Coll) (m : SMap), t0 ≤ t → MShows (t0 + Spec.ages) t c m → Spec.Ordered t h →
      (∀ e ∈ h, Spec.portable pres e.2) → (∀ e ∈ h, e.1 < t0 + Spec.ages) →
      Spec.answers (mgoMonitored ae keep) h c = Spec.answers Spec.step h m
  | [], _, _, _, _, _, _, _, _ => rfl
  | (t', o) :: h, t, c, m, h0, hr, ho, hc, hn => by
    have hlt : t' < t0 + Spec.ages := hn _ (List.mem_cons_self ..)
    have ht : t ≤ t' := ho.1
    have hcl := hc _ (List.mem_cons_self ..)
    have step : (∀ k, o = .delete k → (Spec.live m t' k).isSome = true) →
        (mgoMonitored ae keep t' o c).2 = (Spec.step t' o m).2 ∧
        MShows (t0 + Spec.ages) t' (mgoMonitored ae keep t' o c).1 (Spec.step t' o m).1 := by
      intro hd
      apply mgo_step ae keep t0 t t' o c m hr ht
      refine ⟨by omega, hlt, ?_⟩
      cases o with
      | set k v ps => exact timeout_more hcl.2
      | delete k => exact hd k rfl
      | touch k ps => exact hcl.elim
      | incr k ps => exact hcl.elim
      | decr k ps => exact hcl.elim
      | _ => trivial
    have rest : MShows (t0 + Spec.ages) t' (mgoMonitored ae keep t' o c).1 (Spec.step t' o m).1 →
        Spec.answers (mgoMonitored ae keep) h (mgoMonitored ae keep t' o c).1 = Spec.answers Spec.step h (Spec.step t' o m).1 :=
      fun hs => mgo_answers ae keep pres t0 h t' _ _ (by omega) hs ho.2 (fun e he => hc e (by simp [he])) (fun e he => hn e (by simp [he]))
    rw [answers_cons, answers_cons]
    by_cases hd : ∀ k, o = .delete k → (Spec.live m t' k).isSome = true
    · obtain ⟨h1, h2⟩ := step hd
      rw [rest h2, h1]
    · -- deleting what is not there (any more)
      have hd' : ∃ k, o = .delete k ∧ Spec.live m t' k = none := by
        cases o with
        | delete k =>
          refine ⟨k, rfl, ?_⟩
          cases hl : Spec.live m t' k with
          | none => rfl
          | some p => exact absurd (fun k' e => by cases e; rw [hl]; rfl) hd
        | _ => exact absurd (fun k e => by cases e) hd
      obtain ⟨k, rfl, hl⟩ := hd'
      have hs : (Spec.step t' (.delete k) m).1 = m := by simp only [Spec.step, hl]
      refine congrArg _ (rest ?_)
      rw [hs]
      have hm : MShows (t0 + Spec.ages) t' (mgoReap t' (keep t') c) m := by
        apply (hr.later ht hlt).filter
        intro k it h
        have : t' < it.2 + 60 * second := by unfold second; omega
        simp [this]
      unfold mgoMonitored
      generalize mgoReap t' (keep t') c = c' at hm
      simp only [mgo]
      cases hck : c' k with
      | none => exact hm
      | some p =>
        intro k'
        have hk' := hm k'
        simp only [upd]
        by_cases e : k' = k
        · subst e
          rw [hl]
          simp only [if_true]
          rfl
        · rw [if_neg e]
          exact hk'

theorem answers_congr {σ τ : Type} {op : Int → Op → σ → σ × Out} {op' : Int → Op → τ → τ × Out} {h : List (Int × Op)} {s : σ} {s' : τ}
    (e : run op h s = run op' h s') : Spec.answers op h s = Spec.answers op' h s' := by
  unfold Spec.answers; rw [e]

/-- C146: a program that reads, stores, deletes and cleans, with keys and timeouts every backend can hold, gets the same answers from
redis, from memcached and from MongoDB, whatever prefixes are configured, however MongoDB is collected; only `Delete` may say different things. -/
theorem C146_backends_agree (pr pm : Str) (ae : Bool) (keep : Int → Str → Bool) (t0 : Int) (h : List (Int × Op)) (hp : Spec.Portable [pr, pm] t0 h) :
    run (redis pr) h (fun _ => none) = run (memcache pm) h (fun _ => none) ∧
    Spec.answers (redis pr) h (fun _ => none) = Spec.answers (mgoMonitored ae keep) h (fun _ => none) := by
  have h1 := C41_redis_ttl_map_partial pr h t0 hp.ordered (all_of' _ _ (portable_redis [pr, pm]) h _ hp.calls)
  have h2 := C41_memcache_ttl_map_partial pm h t0 hp.ordered (all_of' _ _ (fun t m o ho => portable_mc [pr, pm] pm (by simp) t m o ho) h _ hp.calls)
  refine ⟨h1.trans h2.symm, ?_⟩
  rw [answers_congr h1]
  exact (mgo_answers ae keep [pr, pm] t0 h t0 _ _ (Int.le_refl _) (fun _ => rfl) hp.ordered hp.calls hp.recent).symm

/-- C146: in the answer of `Delete` the backends do differ: MongoDB reports success for what expired and is not
collected yet. -/
theorem C146_delete_differs_violated : ∃ h, Spec.Portable [[], []] 0 h ∧
    run (redis []) h (fun _ => none) ≠ run (mgoMonitored false (fun _ _ => true)) h (fun _ => none) :=
  ⟨[(0, .set b!"k" (.text b!"v") [1]), (second, .delete b!"k")],
    ⟨by simp [Spec.Ordered, second], by
      intro e he
      simp only [List.mem_cons, List.not_mem_nil, or_false] at he
      rcases he with rfl | rfl
      · exact ⟨by decide, fun p hp => by cases hp; decide⟩
      · show ∀ p ∈ [[], []], legalKey (p ++ b!"k") = true
        decide, by simp [second]⟩, by decide +kernel⟩

/-- A history with expiry, overwriting, a value that lives for ever, deletion and cleaning. -/
example : Spec.Portable [b!"a:", []] 5 [(5, .set b!"k" (.int 7) [10]), (6, .set b!"f" (.text b!"x") [-1]), (7, .get b!"k"),
      (5 + 10 * second, .get b!"k"), (5 + 20 * second, .delete b!"k"), (5 + 20 * second, .gc), (5 + 86400 * second, .has b!"f"), (5 + 86401 * second, .clean),
      (5 + 86401 * second, .get b!"f")] ∧
    Spec.answers (redis b!"a:") [(5, .set b!"k" (.int 7) [10]), (6, .set b!"f" (.text b!"x") [-1]), (7, .get b!"k"),
      (5 + 10 * second, .get b!"k"), (5 + 20 * second, .delete b!"k"), (5 + 20 * second, .gc), (5 + 86400 * second, .has b!"f"), (5 + 86401 * second, .clean),
      (5 + 86401 * second, .get b!"f")] (fun _ => none) = [.ok, .ok, .val b!"7", .missed, .ok, .bool true, .ok, .missed] := by
  refine ⟨⟨?_, ?_, ?_⟩, by decide +kernel⟩
  · simp [Spec.Ordered, second]
  · intro e he
    simp only [List.mem_cons, List.not_mem_nil, or_false] at he
    have hk : ∀ p ∈ ([b!"a:", []] : List Str), legalKey (p ++ b!"k") = true := by decide
    have hf : ∀ p ∈ ([b!"a:", []] : List Str), legalKey (p ++ b!"f") = true := by decide
    rcases he with rfl | rfl | rfl | rfl | rfl | rfl | rfl | rfl | rfl
    · exact ⟨hk, fun p hp => by cases hp; decide⟩
    · exact ⟨hf, fun p hp => by cases hp; decide⟩
    · exact hk
    · exact hk
    · exact hk
    · trivial
    · exact hf
    · trivial
    · exact hf
  · simp [second]

end Verif.Cache
