import Verif.Props.RouterSpec
import Verif.Proofs.Bytes
/-! Helper lemmas about the router model: accessors, segments, path splitting. -/
namespace Verif.Router
open Verif.Go Spec

namespace Route
variable (r c : Route) (t : Table) (l : List (Str × Route)) (ps : List Route) (w : Option Route)
@[simp] theorem setTbl_pp : (r.setTbl t).pp = r.pp := by cases r; rfl
@[simp] theorem setTbl_chain : (r.setTbl t).chain = r.chain := by cases r; rfl
@[simp] theorem setTbl_isEnd : (r.setTbl t).isEnd = r.isEnd := by cases r; rfl
@[simp] theorem setTbl_tbl : (r.setTbl t).tbl = t := by cases r; rfl
@[simp] theorem setTbl_lits : (r.setTbl t).lits = r.lits := by cases r; rfl
@[simp] theorem setTbl_params : (r.setTbl t).params = r.params := by cases r; rfl
@[simp] theorem setTbl_wild : (r.setTbl t).wild = r.wild := by cases r; rfl
@[simp] theorem setEnd_pp : (r.setEnd).pp = r.pp := by cases r; rfl
@[simp] theorem setEnd_chain : (r.setEnd).chain = r.chain := by cases r; rfl
@[simp] theorem setEnd_isEnd : (r.setEnd).isEnd = true := by cases r; rfl
@[simp] theorem setEnd_tbl : (r.setEnd).tbl = r.tbl := by cases r; rfl
@[simp] theorem setEnd_lits : (r.setEnd).lits = r.lits := by cases r; rfl
@[simp] theorem setEnd_params : (r.setEnd).params = r.params := by cases r; rfl
@[simp] theorem setEnd_wild : (r.setEnd).wild = r.wild := by cases r; rfl
@[simp] theorem setLits_pp : (r.setLits l).pp = r.pp := by cases r; rfl
@[simp] theorem setLits_chain : (r.setLits l).chain = r.chain := by cases r; rfl
@[simp] theorem setLits_isEnd : (r.setLits l).isEnd = r.isEnd := by cases r; rfl
@[simp] theorem setLits_tbl : (r.setLits l).tbl = r.tbl := by cases r; rfl
@[simp] theorem setLits_lits : (r.setLits l).lits = l := by cases r; rfl
@[simp] theorem setLits_params : (r.setLits l).params = r.params := by cases r; rfl
@[simp] theorem setLits_wild : (r.setLits l).wild = r.wild := by cases r; rfl
@[simp] theorem setParams_pp : (r.setParams ps).pp = r.pp := by cases r; rfl
@[simp] theorem setParams_chain : (r.setParams ps).chain = r.chain := by cases r; rfl
@[simp] theorem setParams_isEnd : (r.setParams ps).isEnd = r.isEnd := by cases r; rfl
@[simp] theorem setParams_tbl : (r.setParams ps).tbl = r.tbl := by cases r; rfl
@[simp] theorem setParams_lits : (r.setParams ps).lits = r.lits := by cases r; rfl
@[simp] theorem setParams_params : (r.setParams ps).params = ps := by cases r; rfl
@[simp] theorem setParams_wild : (r.setParams ps).wild = r.wild := by cases r; rfl
@[simp] theorem setWild_pp : (r.setWild w).pp = r.pp := by cases r; rfl
@[simp] theorem setWild_chain : (r.setWild w).chain = r.chain := by cases r; rfl
@[simp] theorem setWild_isEnd : (r.setWild w).isEnd = r.isEnd := by cases r; rfl
@[simp] theorem setWild_tbl : (r.setWild w).tbl = r.tbl := by cases r; rfl
@[simp] theorem setWild_lits : (r.setWild w).lits = r.lits := by cases r; rfl
@[simp] theorem setWild_params : (r.setWild w).params = r.params := by cases r; rfl
@[simp] theorem setWild_wild : (r.setWild w).wild = w := by cases r; rfl
end Route

@[simp] theorem newChild_pp (r : Route) (p : Str) : (newChild r p).pp = PathParam.set p := rfl
@[simp] theorem newChild_chain (r : Route) (p : Str) : (newChild r p).chain = r.chain ++ [p] := rfl
@[simp] theorem newChild_isEnd (r : Route) (p : Str) : (newChild r p).isEnd = false := rfl
@[simp] theorem newChild_tbl (r : Route) (p : Str) : (newChild r p).tbl = {} := rfl
@[simp] theorem newChild_lits (r : Route) (p : Str) : (newChild r p).lits = [] := rfl
@[simp] theorem newChild_params (r : Route) (p : Str) : (newChild r p).params = [] := rfl
@[simp] theorem newChild_wild (r : Route) (p : Str) : (newChild r p).wild = none := rfl

theorem lookup_filter_ne {β} (l : List (Str × β)) (p q : Str) :
    (l.filter (fun e => e.1 != p)).lookup q = if q = p then none else l.lookup q := by
  induction l with
  | nil => simp
  | cons e l ih =>
    obtain ⟨k, v⟩ := e
    by_cases hk : k = p
    · subst hk
      by_cases hq : q = k
      · subst hq; simp [ih]
      · have : (q == k) = false := by simpa using hq
        simp [ih, hq, List.lookup, this]
    · simp [hk, List.lookup]
      by_cases hq : q = k
      · subst hq; simp [hk]
      · have h2 : (q == k) = false := by simpa using hq
        simp [h2, ih]

@[simp] theorem litLookup_litSet (r : Route) (p q : Str) (c : Route) :
    litLookup (litSet r p c) q = if q = p then some c else litLookup r q := by
  unfold litLookup litSet
  simp [List.lookup]
  by_cases h : q = p
  · simp [h]
  · have : (q == p) = false := by simpa using h
    simp [this, h, lookup_filter_ne]

@[simp] theorem litSet_params (r c p) : (litSet r p c).params = r.params := by simp [litSet]
@[simp] theorem litSet_wild (r c p) : (litSet r p c).wild = r.wild := by simp [litSet]
@[simp] theorem litSet_pp (r c p) : (litSet r p c).pp = r.pp := by simp [litSet]
@[simp] theorem litSet_chain (r c p) : (litSet r p c).chain = r.chain := by simp [litSet]
@[simp] theorem litSet_isEnd (r c p) : (litSet r p c).isEnd = r.isEnd := by simp [litSet]
@[simp] theorem litSet_tbl (r c p) : (litSet r p c).tbl = r.tbl := by simp [litSet]
@[simp] theorem litLookup_setParams (r ps p) : litLookup (r.setParams ps) p = litLookup r p := by
  simp [litLookup]
@[simp] theorem litLookup_setWild (r w p) : litLookup (r.setWild w) p = litLookup r p := by
  simp [litLookup]
@[simp] theorem litLookup_setEnd (r p) : litLookup (r.setEnd) p = litLookup r p := by
  simp [litLookup]
@[simp] theorem litLookup_setTbl (r t p) : litLookup (r.setTbl t) p = litLookup r p := by
  simp [litLookup]

/-! ### segments -/

theorem findIdx?_split (s : Str) :
    match indexByte s 58 with
    | none => s.takeWhile (· ≠ 58) = s ∧ s.dropWhile (· ≠ 58) = []
    | some i => s.takeWhile (· ≠ 58) = s.take i ∧ s.dropWhile (· ≠ 58) = s.drop i := by
  unfold indexByte
  induction s with
  | nil => simp
  | cons c cs ih =>
    by_cases hc : c = 58
    · subst hc; simp [List.findIdx?_cons]
    · have : (c == 58) = false := by simpa using hc
      simp only [List.findIdx?_cons, this]
      cases h : List.findIdx? (fun x => x == 58) cs with
      | none => rw [h] at ih; simp [hc] at ih ⊢; exact ih
      | some i => rw [h] at ih; simp [hc] at ih ⊢; exact ih

/-- The code's reading of a segment agrees with the specification's. -/
theorem set_spec (p : Str) :
    (PathParam.set p).path = p ∧
    match segOf p with
    | .lit s => s = p ∧ (PathParam.set p).isParam = false ∧ (PathParam.set p).isWild = false
    | .param n v => (PathParam.set p).isParam = true ∧ (PathParam.set p).isWild = false ∧
        (PathParam.set p).paramName = n ∧ (PathParam.set p).customVerb = v
    | .wild n => (PathParam.set p).isWild = true ∧ (PathParam.set p).isParam = false ∧
        (PathParam.set p).paramName = n := by
  constructor
  · unfold PathParam.set; dsimp only; split <;> rfl
  · fun_cases segOf p
    · rename_i n
      by_cases hn : n = []
      · subst hn; simp [PathParam.set, indexByte, List.findIdx?_cons]
      · have := findIdx?_split n
        simp only [PathParam.set, hn]
        split at this <;> simp_all
    · simp [PathParam.set, indexByte]
    · rename_i n hn
      have := findIdx?_split n
      simp only [PathParam.set]
      split at this <;> simp_all
    · rename_i h1 h2
      refine ⟨rfl, ?_⟩
      have hp : (p.head? == some 58) = false := by
        cases p with
        | nil => rfl
        | cons a b => simp; intro h; subst h; exact h2 b rfl
      have hw : (p.head? == some 42 && p.tail.head? == some 58) = false := by
        cases p with
        | nil => rfl
        | cons a b =>
          cases b with
          | nil => simp
          | cons b c => simp; intro ha hb; subst ha hb; exact h1 c rfl
      unfold PathParam.set
      dsimp only
      rw [hp, hw]
      split <;> simp

theorem set_path (p : Str) : (PathParam.set p).path = p := (set_spec p).1

/-! ### path splitting -/

theorem foldl_cleanStep_no_sep (cs : List Str) (st : List Str)
    (hcs : ∀ x ∈ cs, (47 : UInt8) ∉ x)
    (hst : ∀ x ∈ st, x ≠ [] ∧ x ≠ b!"." ∧ x ≠ b!".." ∧ (47 : UInt8) ∉ x) :
    ∀ x ∈ cs.foldl cleanStep st, x ≠ [] ∧ x ≠ b!"." ∧ x ≠ b!".." ∧ (47 : UInt8) ∉ x := by
  induction cs generalizing st with
  | nil => simpa using hst
  | cons c cs ih =>
    simp only [List.foldl_cons]
    apply ih
    · exact fun x hx => hcs x (by simp [hx])
    · intro x hx
      unfold cleanStep at hx
      split at hx
      · exact hst x hx
      · split at hx
        · exact hst x (List.mem_of_mem_tail hx)
        · rcases List.mem_cons.1 hx with rfl | hx
          · rename_i h1 h2
            exact ⟨fun e => h1 (Or.inl e), fun e => h1 (Or.inr e), h2, hcs _ (by simp)⟩
          · exact hst x hx

theorem cleanComps_ok (p : Str) :
    ∀ x ∈ cleanComps p, x ≠ [] ∧ x ≠ b!"." ∧ x ≠ b!".." ∧ (47 : UInt8) ∉ x := by
  intro x hx
  unfold cleanComps at hx
  exact foldl_cleanStep_no_sep _ [] (sep_not_mem_splitOn1 47 p) (by simp) x (by simpa using hx)

theorem cleanComps_slash (p : Str) : cleanComps (47 :: p) = cleanComps p := by
  simp [cleanComps, splitOn1, cleanStep]

theorem splitRoutePath_eq (p : Str) :
    splitRoutePath p = if pathSegs p = [] then [[]] else pathSegs p := by
  unfold splitRoutePath cleanRooted pathSegs
  rw [cleanComps_slash]
  have : splitOn1 47 (47 :: join1 47 (cleanComps (trimSpace p)))
      = [] :: splitOn1 47 (join1 47 (cleanComps (trimSpace p))) := by simp [splitOn1]
  rw [this, List.tail_cons]
  split
  · rename_i h; rw [h]; rfl
  · rename_i h
    exact splitOn1_join1 47 _ h (fun x hx => (cleanComps_ok _ x hx).2.2.2)

theorem pathSegs_ne_nil (p : Str) : ∀ x ∈ pathSegs p, x ≠ [] :=
  fun x hx => (cleanComps_ok _ x hx).1

theorem splitRoutePath_head (p : Str) :
    (splitRoutePath p).head? = some [] ↔ pathSegs p = [] := by
  rw [splitRoutePath_eq]
  split
  · simp [*]
  · rename_i h
    constructor
    · intro h2
      cases hp : pathSegs p with
      | nil => rfl
      | cons a b =>
        rw [hp] at h2
        simp at h2
        exact absurd h2 (pathSegs_ne_nil p a (by simp [hp]))
    · intro h2; exact absurd h2 h

end Verif.Router
