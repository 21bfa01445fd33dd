import Verif.Model.RouteCost
import Verif.Proofs.RouterAccept
import Verif.Props.Router
/-! C150: what it costs to find the handler of a request is bounded by the length of the declarations. -/
namespace Verif.Router
open Verif.Go Spec

namespace CostSpec
mutual
/-- How many path segments a declaration and the declarations nested in it spell out. -/
def writtenOne : Handler → Nat
  | .router path hs => (pathSegs path).length + written hs
  | .str _ => 0
  | .filter _ => 0
  | .exempt _ => 0
  | .method _ => 0
  | .name _ => 0
/-- How many path segments a list of declarations spells out. -/
def written : List Handler → Nat
  | [] => 0
  | h :: hs => writtenOne h + written hs
end

/-- How many path segments a series of `Routers` calls spells out. -/
def writtenAll : List (List Handler) → Nat
  | [] => 0
  | hs :: rest => written hs + writtenAll rest
end CostSpec
open CostSpec

mutual
/-- number of nodes of a tree -/
def nodes : Route → Nat
  | .mk _ _ _ _ l ps w => 1 + nodesL l + nodesP ps + nodesW w
def nodesL : List (Str × Route) → Nat
  | [] => 0
  | (_, c) :: l => nodes c + nodesL l
def nodesP : List Route → Nat
  | [] => 0
  | c :: l => nodes c + nodesP l
def nodesW : Option Route → Nat
  | none => 0
  | some w => nodes w
end

theorem nodes_eq (r : Route) : nodes r = 1 + nodesL r.lits + nodesP r.params + nodesW r.wild := by
  cases r; rfl

/-! ### the counter does not change the result -/

theorem matchParamsC_fst {rc : Route → Option (Route × Params) × Nat}
    {rec : Route → Option (Route × Params)} (h : ∀ r, (rc r).1 = rec r) (p : Str) (more : Bool) :
    ∀ l, (matchParamsC rc p more l).1 = matchParams rec p more l := by
  intro l
  induction l with
  | nil => rfl
  | cons pr prs ih =>
    unfold matchParamsC matchParams
    cases pr.pp.matchParamRoute p with
    | none => exact ih
    | some v =>
      simp only []
      cases more with
      | false =>
        cases pr.isEnd with
        | true => rfl
        | false => exact ih
      | true =>
        simp only [Bool.not_true, Bool.false_eq_true, if_false, h]
        cases rec pr with
        | none => exact ih
        | some x =>
          obtain ⟨nr, ps⟩ := x
          simp only []
          split
          · rfl
          · exact ih

/-- the literal part of a search, without the counter -/
def litPart (rec : Route → Option (Route × Params)) (more : Bool) :
    Option Route → Option (Route × Params)
  | none => none
  | some c =>
    if more then
      match rec c with
      | none => none
      | some (rt, ps) => if rt.isEnd then some (rt, ps) else some (rt, [])
    else some (c, [])

theorem matchRoute_stages (p : Str) (paths : List Str) (r : Route) :
    matchRoute (p :: paths) r = orWild r (p :: paths)
      (match litPart (matchRoute paths) (!paths.isEmpty) (litLookup r p) with
        | some x => some x
        | none => matchParams (matchRoute paths) p (!paths.isEmpty) r.params) := by
  rfl

theorem matchLitC_fst {rc : Route → Option (Route × Params) × Nat}
    {rec : Route → Option (Route × Params)} (h : ∀ r, (rc r).1 = rec r) (more : Bool) (o : Option Route) :
    (matchLitC rc more o).1 = litPart rec more o := by
  cases o with
  | none => rfl
  | some c =>
    unfold matchLitC litPart
    simp only []
    split
    · rw [h]
      cases rec c with
      | none => rfl
      | some x => rfl
    · rfl

theorem matchRouteC_fst : ∀ (path : List Str) (r : Route), (matchRouteC path r).1 = matchRoute path r := by
  intro path
  induction path with
  | nil => intro r; rfl
  | cons p paths ih =>
    intro r
    rw [matchRoute_stages]
    unfold matchRouteC
    rw [matchLitC_fst ih]
    cases litPart (matchRoute paths) (!paths.isEmpty) (litLookup r p) with
    | some x => rfl
    | none =>
      simp only []
      rw [matchParamsC_fst ih]

theorem selectRouteC_fst (root : Route) (u : Str) : (selectRouteC root u).1 = selectRoute root u := by
  unfold selectRouteC selectRoute
  simp only []
  split
  · rfl
  · rw [matchRouteC_fst]
    cases matchRoute (splitRoutePath u) root with
    | none => rfl
    | some x => rfl

/-! ### every node is entered at most once -/

theorem matchParamsC_snd {rc : Route → Option (Route × Params) × Nat}
    (h : ∀ r, (rc r).2 + 1 ≤ 2 * nodes r) (p : Str) (more : Bool) :
    ∀ l, (matchParamsC rc p more l).2 ≤ 2 * nodesP l := by
  intro l
  induction l with
  | nil => exact Nat.zero_le _
  | cons pr prs ih =>
    have hp := h pr
    unfold matchParamsC
    show _ ≤ 2 * (nodes pr + nodesP prs)
    cases pr.pp.matchParamRoute p with
    | none => simp only []; omega
    | some v =>
      simp only []
      split
      · split
        · simp only []; omega
        · simp only []; omega
      · cases (rc pr).1 with
        | none => simp only []; omega
        | some x =>
          obtain ⟨nr, ps⟩ := x
          simp only []
          split
          · simp only []; omega
          · simp only []; omega

theorem nodesL_lookup {l : List (Str × Route)} {p : Str} {c : Route} (h : l.lookup p = some c) :
    nodes c ≤ nodesL l := by
  induction l with
  | nil => cases h
  | cons e l ih =>
    obtain ⟨k, d⟩ := e
    show _ ≤ nodes d + nodesL l
    rw [List.lookup_cons] at h
    split at h
    · cases h; omega
    · have := ih h; omega

theorem matchLitC_snd {rc : Route → Option (Route × Params) × Nat}
    (h : ∀ r, (rc r).2 + 1 ≤ 2 * nodes r) (more : Bool) (r : Route) (p : Str) :
    (matchLitC rc more (litLookup r p)).2 ≤ 2 * nodesL r.lits := by
  unfold matchLitC
  cases hl : litLookup r p with
  | none => exact Nat.zero_le _
  | some c =>
    have h1 := nodesL_lookup hl
    have h2 := h c
    simp only []
    split
    · cases (rc c).1 with
      | none => simp only []; omega
      | some x => simp only []; omega
    · exact Nat.zero_le _

theorem nodes_pos (r : Route) : 1 ≤ nodes r := by rw [nodes_eq]; omega

theorem matchRouteC_snd : ∀ (path : List Str) (r : Route), (matchRouteC path r).2 + 1 ≤ 2 * nodes r := by
  intro path
  induction path with
  | nil => intro r; have := nodes_pos r; show 1 + 1 ≤ _; omega
  | cons p paths ih =>
    intro r
    have h1 := matchLitC_snd ih (!paths.isEmpty) r p
    have h2 := matchParamsC_snd ih p (!paths.isEmpty) r.params
    have h3 := nodes_eq r
    unfold matchRouteC
    split
    · simp only []; omega
    · simp only []; omega

/-! ### the tree is no larger than the declarations -/

theorem nodesL_filter (l : List (Str × Route)) (f : Str × Route → Bool) :
    nodesL (l.filter f) ≤ nodesL l := by
  induction l with
  | nil => exact Nat.le_refl _
  | cons e l ih =>
    obtain ⟨k, d⟩ := e
    rw [List.filter_cons]
    split
    · show nodes d + _ ≤ nodes d + _; omega
    · show _ ≤ nodes d + _; omega

theorem nodesL_filter_lookup {l : List (Str × Route)} {p : Str} {c : Route} (h : l.lookup p = some c) :
    nodesL (l.filter (fun e => e.1 != p)) + nodes c ≤ nodesL l := by
  induction l with
  | nil => cases h
  | cons e l ih =>
    obtain ⟨k, d⟩ := e
    show _ ≤ nodes d + nodesL l
    rw [List.lookup_cons] at h
    rw [List.filter_cons]
    split at h
    · rename_i hk
      cases h
      have hk' : k = p := by simpa using Eq.symm (by simpa using hk)
      have := nodesL_filter l (fun e => e.1 != p)
      simp only [hk', bne_self_eq_false, Bool.false_eq_true, if_false]
      omega
    · have := ih h
      split
      · show nodes d + _ + _ ≤ _; omega
      · omega

theorem nodesP_append (a b : List Route) : nodesP (a ++ b) = nodesP a + nodesP b := by
  induction a with
  | nil => simp [nodesP]
  | cons c a ih => simp only [List.cons_append, nodesP, ih]; omega

theorem nodesP_replace {p : Str} {c d : Route} {l : List Route}
    (h : l.find? (fun x => decide (x.pp.path = p)) = some c) :
    nodesP (replaceParam p d l) + nodes c = nodesP l + nodes d := by
  induction l with
  | nil => cases h
  | cons a l ih =>
    unfold replaceParam
    rw [List.find?_cons] at h
    split
    · rename_i e
      simp only [e, decide_true] at h
      cases h
      simp only [nodesP]; omega
    · rename_i e
      simp only [e, decide_false] at h
      have := ih h
      simp only [nodesP]; omega

theorem nodes_setEnd (r : Route) : nodes r.setEnd = nodes r := by cases r; rfl
theorem nodes_setTbl (r : Route) (t : Table) : nodes (r.setTbl t) = nodes r := by cases r; rfl
theorem nodes_setParams (r : Route) (ps : List Route) :
    nodes (r.setParams ps) + nodesP r.params = nodes r + nodesP ps := by
  cases r; simp only [Route.setParams, Route.params, nodes]; omega
theorem nodes_setWild (r : Route) (w : Option Route) :
    nodes (r.setWild w) + nodesW r.wild = nodes r + nodesW w := by
  cases r; simp only [Route.setWild, Route.wild, nodes]; omega
theorem nodes_setLits (r : Route) (l : List (Str × Route)) :
    nodes (r.setLits l) + nodesL r.lits = nodes r + nodesL l := by
  cases r; simp only [Route.setLits, Route.lits, nodes]; omega
theorem nodes_newChild (r : Route) (p : Str) : nodes (newChild r p) = 1 := rfl
theorem nodes_ite_setEnd (b : Bool) (r : Route) : nodes (if b then r.setEnd else r) = nodes r := by
  split
  · exact nodes_setEnd r
  · rfl

theorem insertAt_nodes {k : Route → Option Route} {n : Nat}
    (hW : ∀ x x', WF AnyP x → k x = some x' → WF AnyP x' ∧ Frame x x')
    (hk : ∀ x x', WF AnyP x → k x = some x' → nodes x' ≤ nodes x + n) :
    ∀ (segs : List Str) (r r' : Route), WF AnyP r → insertAt k segs r = some r' →
      nodes r' ≤ nodes r + segs.length + n := by
  intro segs
  induction segs with
  | nil => intro r r' hr h; exact hk r r' hr h
  | cons p rest ih =>
    intro r r' hr h
    have hW0 : WF AnyP ((findChild r p).getD (newChild r p)) ∧
        Kid AnyP r p ((findChild r p).getD (newChild r p)) := by
      cases hf : findChild r p with
      | some c => exact findChild_WF hr hf
      | none => exact ⟨newChild_WF, ⟨by simp, trivial, by simp⟩⟩
    generalize hex : findChild r p = existing at hW0
    obtain ⟨hW0, hK0⟩ := hW0
    generalize hg : existing.getD (newChild r p) = rt0 at hW0 hK0
    have hspec := set_spec p
    unfold insertAt at h
    simp only [hex, hg] at h
    have hWe : WF AnyP (if rest.isEmpty then rt0.setEnd else rt0) := by
      split
      · exact hW0.setEnd
      · exact hW0
    have hlen : (p :: rest).length = rest.length + 1 := rfl
    split at h
    · -- parameter
      rename_i hisP
      split at h
      · cases h
      · split at h
        · cases h
        · rename_i rt hrt
          have hrt' := ih _ _ hWe hrt
          rw [nodes_ite_setEnd] at hrt'
          have hseg : ∃ n v, segOf p = .param n v := by
            rw [hK0.pp] at hisP
            revert hspec
            split
            · intro h; rw [h.2.2.1] at hisP; cases hisP
            · rename_i n v _; intro _; exact ⟨n, v, by assumption⟩
            · intro h; rw [h.2.2.1] at hisP; cases hisP
          obtain ⟨n0, v0, hseg⟩ := hseg
          split at h
          · rename_i c
            have hg' : c = rt0 := hg
            subst hg'
            cases h
            rw [findChild_param hr hseg] at hex
            have h1 := nodesP_replace (d := rt) hex
            have h2 := nodes_setParams r (replaceParam p rt r.params)
            omega
          · have hg' : newChild r p = rt0 := hg
            subst hg'
            rw [nodes_newChild] at hrt'
            split at h
            · cases h
              have h2 := nodes_setParams r (rt :: r.params)
              have h3 : nodesP (rt :: r.params) = nodes rt + nodesP r.params := rfl
              omega
            · cases h
              have h2 := nodes_setParams r (r.params ++ [rt])
              have h3 : nodesP (r.params ++ [rt]) = nodesP r.params + (nodes rt + 0) := nodesP_append _ _
              omega
    · rename_i hisP
      split at h
      · -- wild
        rename_i hisW
        split at h
        · cases h
        · split at h
          · cases h
          · split at h
            · cases h
            · rename_i rt hrt
              have hrt' := ih _ _ hW0.setEnd hrt
              rw [nodes_setEnd] at hrt'
              have hseg : ∃ n, segOf p = .wild n := by
                rw [hK0.pp] at hisW
                revert hspec
                split
                · intro h; rw [h.2.2.2] at hisW; cases hisW
                · intro h; rw [h.2.2.1] at hisW; cases hisW
                · rename_i n _; intro _; exact ⟨n, by assumption⟩
              obtain ⟨n0, hseg⟩ := hseg
              rw [findChild_wild hr hseg] at hex
              cases h
              have h2 := nodes_setWild r (some rt)
              have h3 : nodesW (some rt) = nodes rt := rfl
              cases hw : r.wild with
              | none =>
                rw [hw] at hex
                subst hex
                have hg' : newChild r p = rt0 := hg
                subst hg'
                rw [nodes_newChild] at hrt'
                omega
              | some w =>
                rw [hw] at hex h2
                have h4 : nodesW (some w) = nodes w := rfl
                have h5 := nodes_pos w
                simp only [] at hex
                split at hex
                · subst hex
                  have hg' : w = rt0 := hg
                  subst hg'
                  omega
                · subst hex
                  have hg' : newChild r p = rt0 := hg
                  subst hg'
                  rw [nodes_newChild] at hrt'
                  omega
      · -- literal
        rename_i hisW
        split at h
        · cases h
        · rename_i rt hrt
          have hrt' := ih _ _ hWe hrt
          rw [nodes_ite_setEnd] at hrt'
          have hseg : ∃ s, segOf p = .lit s := by
            rw [hK0.pp] at hisP hisW
            revert hspec
            split
            · rename_i s _; intro _; exact ⟨s, by assumption⟩
            · intro h; exact absurd h.2.1 hisP
            · intro h; exact absurd h.2.1 hisW
          obtain ⟨s0, hseg⟩ := hseg
          rw [findChild_lit hr hseg] at hex
          cases h
          have h2 := nodes_setLits r ((p, rt) :: r.lits.filter (fun e => e.1 != p))
          have h3 : nodesL ((p, rt) :: r.lits.filter (fun e => e.1 != p)) =
            nodes rt + nodesL (r.lits.filter (fun e => e.1 != p)) := rfl
          have h6 : nodes (litSet r p rt) = nodes (r.setLits ((p, rt) :: r.lits.filter (fun e => e.1 != p))) := rfl
          cases existing with
          | none =>
            have hg' : newChild r p = rt0 := hg
            subst hg'
            rw [nodes_newChild] at hrt'
            have h4 := nodesL_filter r.lits (fun e => e.1 != p)
            omega
          | some c =>
            have hg' : c = rt0 := hg
            subst hg'
            have h4 := nodesL_filter_lookup hex
            omega

theorem written_router (path : Str) (hs rest : List Handler) :
    written (.router path hs :: rest) = (pathSegs path).length + written hs + written rest := rfl

theorem written_other {h : Handler} {rest : List Handler} (hn : ∀ path hs, h ≠ .router path hs) :
    written (h :: rest) = written rest := by
  cases h <;> first | exact absurd rfl (hn _ _) | (show 0 + _ = _; omega)

theorem configNested_nodes (hs : List Handler) : ∀ (fs : List Filter) (r r' : Route), WF AnyP r →
    configNested fs hs r = some r' → nodes r' ≤ nodes r + written hs := by
  induction hs using handlers_ind with
  | nil => intro fs r r' _ h; simp [configNested] at h; subst h; exact Nat.le_refl _
  | other h rest hn ih =>
    intro fs r r' hr h'
    rw [configNested_other hn] at h'
    rw [written_other hn]
    exact ih fs r r' hr h'
  | router path hs rest ih1 ih2 =>
    intro fs r r' hr h
    rw [configNested_router] at h
    rw [written_router]
    split at h
    · have := ih2 fs r r' hr h; omega
    · cases hi : insertAt (nestK fs hs) (pathSegs path) r with
      | none => rw [hi] at h; cases h
      | some r1 =>
        rw [hi] at h
        have hW1 := (insertAt_WF (fun n n' => nestK_WF) (pathSegs path) r r1 (fun _ _ => trivial) hr hi).1
        have h1 := insertAt_nodes (n := written hs) (fun n n' => nestK_WF) (by
          intro x x' hx hk
          unfold nestK at hk
          cases hm : configMethods (innerFilters fs hs) x.tbl (argMethods hs) with
          | none => rw [hm] at hk; cases hk
          | some t =>
            rw [hm] at hk
            have := ih1 _ _ _ (hx.setTbl t) hk
            rwa [nodes_setTbl] at this) (pathSegs path) r r1 hr hi
        have h2 := ih2 fs r1 r' hW1 h
        omega

theorem registerAll_nodes (hss : List (List Handler)) : ∀ (r r' : Route), WF AnyP r →
    registerAll hss r = some r' → nodes r' ≤ nodes r + writtenAll hss := by
  induction hss with
  | nil => intro r r' _ h; simp [registerAll] at h; subst h; exact Nat.le_refl _
  | cons hs hss ih =>
    intro r r' hr h
    unfold registerAll at h
    cases h1 : routers hs r with
    | none => rw [h1] at h; cases h
    | some r1 =>
      rw [h1] at h
      have hWr : WF AnyP r1 := (routers_obs hs r r1 (fun _ _ _ _ => trivial) hr h1).1
      have h2 := ih r1 r' hWr h
      unfold routers configRoutes at h1
      simp only [] at h1
      show _ ≤ _ + (written hs + writtenAll hss)
      cases hm : configMethods (fremove (fappend [] (argFilters hs)) (argExempts hs)) r.tbl
          (argMethods hs) with
      | none => rw [hm] at h1; cases h1
      | some t =>
        rw [hm] at h1
        have := configNested_nodes hs _ _ _ (hr.setTbl t) h1
        rw [nodes_setTbl] at this
        omega

/-! ### C150 -/

/-- **C150.** The counted search finds what the search finds. -/
theorem C150_counts (root : Route) (urlPath : Str) :
    (selectRouteC root urlPath).1 = selectRoute root urlPath := selectRouteC_fst root urlPath

/-- **C150.** Whatever was declared and whatever path is requested, finding the route takes at most one
call and one comparison for every segment the declarations spell out, and one more call: the number of
steps does not depend on the request, and no choice of declarations makes it grow faster than their own
length. -/
theorem C150_bound (hss : List (List Handler)) (root : Route)
    (h : registerAll hss newRoot = some root) (urlPath : Str) :
    (selectRouteC root urlPath).2 ≤ 2 * writtenAll hss + 1 := by
  have h1 := registerAll_nodes hss newRoot root newRoot_WF h
  have h2 := matchRouteC_snd (splitRoutePath urlPath) root
  have h3 : nodes newRoot = 1 := rfl
  unfold selectRouteC
  split
  · exact Nat.zero_le _
  · split
    · simp only []; omega
    · simp only []; omega

namespace CostEx
/-- Two patterns of which the first leads a request astray. -/
def app : List (List Handler) :=
  [[ .router b!"/:a:v/x/y" [Ex.get (Ex.fn 1)], .router b!"/:a/x/z" [Ex.get (Ex.fn 2)] ]]

def root : Route := (registerAll app newRoot).getD newRoot

theorem accepted : registerAll app newRoot = some root := by
  have : (registerAll app newRoot).isSome = true := by decide +kernel
  unfold root
  cases h : registerAll app newRoot with
  | none => rw [h] at this; cases this
  | some r => rfl

/-- The search backs out of the first pattern and still takes seven steps, of the thirteen allowed. -/
example : (selectRouteC root b!"/q:v/x/z").2 = 7 := by decide +kernel
example : 2 * writtenAll app + 1 = 13 := by decide +kernel
example : ((selectRoute root b!"/q:v/x/z").map (·.2)) = some [(b!"a", b!"q:v")] := by decide +kernel
/-- A path that nothing serves, however long, is given up at once. -/
example : (selectRouteC root b!"/q/w/e/r/t/y/u/i/o/p").2 ≤ 13 := C150_bound app root accepted _
example : (selectRouteC root b!"/q/w/e/r/t/y/u/i/o/p").2 = 4 := by decide +kernel
end CostEx

end Verif.Router
