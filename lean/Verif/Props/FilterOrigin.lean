import Verif.Props.RouterExact
/-!
# C10 for every application: where the filters of an answer come from
-/
namespace Verif.Router
open Verif.Go Spec

/-- `e` is the registration `e0`, seen from some place above its pattern -/
def SameDecls (e e0 : Reg) : Prop := e0.filters = e.filters ∧ e0.methods = e.methods

theorem beneath_origin {s : Str} {es : List Reg} {e : Reg} (h : e ∈ beneath s es) :
    ∃ e0 ∈ es, e0.pattern = s :: e.pattern ∧ SameDecls e e0 := by
  unfold beneath at h
  obtain ⟨e0, h0, h1⟩ := List.mem_filterMap.1 h
  cases hp : e0.pattern with
  | nil => rw [hp] at h1; cases h1
  | cons x q =>
    rw [hp] at h1
    simp only [] at h1
    split at h1
    · rename_i hx
      cases h1
      exact ⟨e0, h0, by rw [hp, hx], rfl, rfl⟩
    · cases h1

theorem wildIn_origin {es : List Reg} {w : Str} {l : List Reg} (h : wildIn es = some (w, l)) :
    ∀ e ∈ l, ∃ e0 ∈ es, e0.pattern = w :: e.pattern ∧ SameDecls e e0 := by
  revert w l
  unfold wildIn
  have key : ∀ (es' es : List Reg), (∀ e ∈ es', e ∈ es) → ∀ (cur : Option (Str × List Reg)),
      (∀ w l, cur = some (w, l) → ∀ e ∈ l, ∃ e0 ∈ es, e0.pattern = w :: e.pattern ∧ SameDecls e e0) →
      ∀ w l, es'.foldl (fun cur e => match e.pattern with
        | [] => cur
        | s :: q =>
          if isWildSeg s then
            match cur with
            | some (w, l) => if w = s then some (w, l ++ [{ e with pattern := q }]) else some (s, [{ e with pattern := q }])
            | none => some (s, [{ e with pattern := q }])
          else cur) cur = some (w, l) → ∀ e ∈ l, ∃ e0 ∈ es, e0.pattern = w :: e.pattern ∧ SameDecls e e0 := by
    intro es' es
    induction es' with
    | nil => intro _ cur hc w l h; exact hc w l h
    | cons e es' ih =>
      intro hsub cur hc w l h
      rw [List.foldl_cons] at h
      refine ih (fun e he => hsub e (List.mem_cons_of_mem _ he)) _ ?_ w l h
      intro w' l' h' e' he'
      cases hp : e.pattern with
      | nil => rw [hp] at h'; exact hc w' l' h' e' he'
      | cons s q =>
        rw [hp] at h'
        simp only [] at h'
        have hone : ∃ e0 ∈ es, e0.pattern = s :: ({ e with pattern := q } : Reg).pattern ∧ SameDecls { e with pattern := q } e0 :=
          ⟨e, hsub e List.mem_cons_self, hp, rfl, rfl⟩
        split at h'
        · cases cur with
          | none =>
            simp only [Option.some.injEq, Prod.mk.injEq] at h'
            obtain ⟨rfl, rfl⟩ := h'
            rw [List.mem_singleton] at he'
            rw [he']; exact hone
          | some wl =>
            obtain ⟨w0, l0⟩ := wl
            simp only [] at h'
            split at h'
            · rename_i hw
              simp only [Option.some.injEq, Prod.mk.injEq] at h'
              obtain ⟨rfl, rfl⟩ := h'
              rcases List.mem_append.1 he' with he' | he'
              · exact hc w0 l0 rfl e' he'
              · rw [List.mem_singleton] at he'
                rw [he', hw]; exact hone
            · simp only [Option.some.injEq, Prod.mk.injEq] at h'
              obtain ⟨rfl, rfl⟩ := h'
              rw [List.mem_singleton] at he'
              rw [he']; exact hone
        · exact hc w' l' h' e' he'
  intro w l h
  exact key es es (fun e he => he) none (fun w l h => by cases h) w l h

theorem search_origin : ∀ (path : List Str) (es : List Reg) (q : List Str) (l : List Reg) (ps : Params),
    search path es = .hit q l ps → ∀ e ∈ l, ∃ e0 ∈ es, e0.pattern = q ∧ SameDecls e e0 := by
  have hhere : ∀ es, ∀ e ∈ here es, e.pattern = [] ∧ e ∈ es := by
    intro es e he; exact ⟨by simpa using (List.mem_filter.1 he).2, (List.mem_filter.1 he).1⟩
  have hunder : ∀ (f : Found) (s : Str) (b : Params) (q : List Str) (l : List Reg) (ps : Params), f.under s b = .hit q l ps →
      ∃ q' ps', f = .hit q' l ps' ∧ q = s :: q' := by
    intro f s b q l ps h
    cases f with
    | miss => cases h
    | dead => cases h
    | hit q' l' ps' => cases h; exact ⟨_, _, rfl, rfl⟩
  have hfirst : ∀ (f : Str → Found) (ss : List Str) (q : List Str) (l : List Reg) (ps : Params), firstHit f ss = .hit q l ps → ∃ s, f s = .hit q l ps := by
    intro f ss q l ps
    induction ss with
    | nil => intro h; cases h
    | cons s ss ih =>
      intro h
      unfold firstHit at h
      cases hf : f s with
      | miss => rw [hf] at h; exact ih h
      | dead => rw [hf] at h; exact ih h
      | hit q' l' ps' => rw [hf] at h; exact ⟨s, hf.trans h⟩
  intro path
  induction path with
  | nil =>
    intro es q l ps h
    unfold search at h
    split at h
    · cases h
    · cases h
      intro e he
      exact ⟨e, (hhere es e he).2, (hhere es e he).1, rfl, rfl⟩
  | cons p paths ih =>
    intro es q l ps h
    have hstep : ∀ (s : Str) (b : Params) (q : List Str) (l : List Reg) (ps : Params), (search paths (beneath s es)).under s b = .hit q l ps →
        ∀ e ∈ l, ∃ e0 ∈ es, e0.pattern = q ∧ SameDecls e e0 := by
      intro s b q l ps h e he
      obtain ⟨q', ps', h1, h2⟩ := hunder _ _ _ _ _ _ h
      obtain ⟨e1, h3, h4, h5⟩ := ih _ _ _ _ h1 e he
      obtain ⟨e0, h6, h7, h8⟩ := beneath_origin h3
      exact ⟨e0, h6, by rw [h7, h4, h2], h8.1.trans h5.1, h8.2.trans h5.2⟩
    unfold search at h
    simp only [] at h
    generalize hlit : (if isLitSeg p && !(beneath p es).isEmpty then (search paths (beneath p es)).under p [] else .miss) = lit at h
    generalize hpar : firstHit _ (paramHeads es) = par at h
    have hl : ∀ q l ps, lit = .hit q l ps → ∀ e ∈ l, ∃ e0 ∈ es, e0.pattern = q ∧ SameDecls e e0 := by
      intro q l ps e
      rw [e] at hlit
      split at hlit
      · exact hstep _ _ _ _ _ hlit
      · cases hlit
    have hp : ∀ q l ps, par = .hit q l ps → ∀ e ∈ l, ∃ e0 ∈ es, e0.pattern = q ∧ SameDecls e e0 := by
      intro q l ps e
      rw [e] at hpar
      obtain ⟨s, hs⟩ := hfirst _ _ _ _ _ hpar
      split at hs
      · split at hs
        · exact hstep _ _ _ _ _ hs
        · cases hs
      · cases hs
    have hw : ∀ (x : Found) (q : List Str) (l : List Reg) (ps : Params), (∀ q l ps, x ≠ .hit q l ps) → (match wildIn es with
        | some (w, l) => Found.hit [w] (here l) [(nameOfSeg w, join1 47 (p :: paths))]
        | none => x) = .hit q l ps → ∀ e ∈ l, ∃ e0 ∈ es, e0.pattern = q ∧ SameDecls e e0 := by
      intro x q l ps hx h
      split at h
      · rename_i w l' hwild
        cases h
        intro e he
        obtain ⟨h1, h2⟩ := hhere _ e he
        obtain ⟨e0, h3, h4, h5⟩ := wildIn_origin hwild e h2
        exact ⟨e0, h3, by rw [h4, h1], h5⟩
      · exact absurd h (hx _ _ _)
    cases lit with
    | hit q' l' ps' => cases h; exact hl _ _ _ rfl
    | dead => exact hw .dead q l ps (by simp) h
    | miss =>
      cases par with
      | hit q' l' ps' => cases h; exact hp _ _ _ rfl
      | dead => exact hw .dead q l ps (by simp) h
      | miss => exact hw .miss q l ps (by simp) h

theorem lastOf_origin {es : List Reg} {M : Str} {d : List Filter × MethodDecl} (h : lastOf es M = some d) :
    ∃ e ∈ es, d.1 = e.filters ∧ d.2 ∈ e.methods := by
  unfold lastOf at h
  have := List.mem_of_getLast? h
  obtain ⟨h1, -⟩ := List.mem_filter.1 this
  unfold declsOf at h1
  obtain ⟨e, he, h2⟩ := List.mem_flatMap.1 h1
  obtain ⟨m, hm, rfl⟩ := List.mem_map.1 h2
  exact ⟨e, he, rfl, hm⟩

/-- the action chosen is made from one of the declarations -/
theorem choose_origin {es : List Reg} {M : Str} {a : RouteAction} {f : Str} (h : choose es M = some (a, f)) :
    ∃ e ∈ es, ∃ d ∈ e.methods, ∃ n, a = declAction n (e.filters, d) := by
  have hd : ∀ {M : Str} {d : List Filter × MethodDecl} {n : Str}, lastOf es M = some d →
      ∃ e ∈ es, ∃ d' ∈ e.methods, ∃ n', declAction n d = declAction n' (e.filters, d') := by
    intro M d n h
    obtain ⟨e, he, h1, h2⟩ := lastOf_origin h
    exact ⟨e, he, d.2, h2, n, by rw [← h1]⟩
  have hx : ∀ {a}, exactFor es M = some a → ∃ e ∈ es, ∃ d ∈ e.methods, ∃ n, a = declAction n (e.filters, d) := by
    intro a h
    unfold exactFor at h
    split at h
    · cases h
    · split at h
      · rename_i d hl; cases h; exact hd hl
      · split at h
        · cases hf : es.findSome? fun e => lastOf [e] GET with
          | none => rw [hf] at h; cases h
          | some d =>
            rw [hf] at h; cases h
            obtain ⟨e, he, h1⟩ := List.exists_of_findSome?_eq_some hf
            obtain ⟨e', he', h2, h3⟩ := lastOf_origin h1
            rw [List.mem_singleton] at he'
            subst he'
            exact ⟨e', he, d.2, h3, _, by rw [← h2]⟩
        · cases h
  have hall : ∀ {a}, allFor es = some a → ∃ e ∈ es, ∃ d ∈ e.methods, ∃ n, a = declAction n (e.filters, d) := by
    intro a h
    unfold allFor at h
    cases hl : lastOf es b!"*" with
    | none => rw [hl] at h; cases h
    | some d => rw [hl] at h; cases h; exact hd hl
  have hany : ∀ {a f}, ((anyFor es).bind fun a => if runs a.ctl a.action then some (a, a.action) else none) = some (a, f) →
      ∃ e ∈ es, ∃ d ∈ e.methods, ∃ n, a = declAction n (e.filters, d) := by
    intro a f h
    have hany : ∀ {a}, anyFor es = some a → ∃ e ∈ es, ∃ d ∈ e.methods, ∃ n, a = declAction n (e.filters, d) := by
      intro a h
      unfold anyFor at h
      cases hl : lastOf es b!"**" with
      | none => rw [hl] at h; cases h
      | some d => rw [hl] at h; cases h; exact hd hl
    cases ha : anyFor es with
    | none => rw [ha] at h; cases h
    | some a' =>
      rw [ha] at h
      simp only [Option.bind_some] at h
      split at h
      · cases h; exact hany ha
      · cases h
  unfold choose at h
  simp only [] at h
  cases he : exactFor es M with
  | some a' => rw [he] at h; cases h; exact hx he
  | none =>
    rw [he] at h
    simp only [] at h
    cases ha : allFor es with
    | none => rw [ha] at h; exact hany h
    | some a' =>
      rw [ha] at h
      simp only [] at h
      split at h
      · cases h; exact hall ha
      · split at h
        · cases h; exact hall ha
        · exact hany h

/-- **C10, for every accepted application.** The action that answers a request was declared at the pattern it reports; its
filters are those in force at the declaration: of the enclosing routers outermost first, then its own, each once, without
those exempted at their level or below. -/
theorem C10_filter_inheritance_always {hss : List (List Handler)} {root rt : Route} {m path f info : Str}
    {a : RouteAction} {ps : Params} (h : registerAll hss newRoot = some root)
    (hd : handle root m path = .dispatch rt a f ps info) :
    ∃ q ls d, (q, ls, d) ∈ allDeclsL hss ∧ info = renderPattern q ∧ a.ctl = d.ctl ∧
      (∀ x, x ∈ a.filters ↔ InForce (ls ++ [Spec.MethodDecl.level d]) x) ∧
      a.filters.Nodup ∧
      a.filters.Sublist ((ls ++ [Spec.MethodDecl.level d]).flatMap (·.own)) := by
  have hans := C89_exact_answer h m path
  rw [hd] at hans
  unfold answer at hans
  obtain ⟨q, l, hl, hc, hi⟩ : ∃ q l, (∀ e ∈ l, ∃ e0 ∈ allRegs hss, e0.pattern = q ∧ SameDecls e e0) ∧
      choose l (toUpper m) = some (a, f) ∧ info = renderPattern q := by
    cases hr : route (allRegs hss) (pathSegs path) with
    | none => rw [hr] at hans; cases hans
    | some qlp =>
      obtain ⟨q, l, ps'⟩ := qlp
      rw [hr] at hans
      simp only [] at hans
      cases hc : choose l (toUpper m) with
      | none => rw [hc] at hans; cases hans
      | some c =>
        rw [hc] at hans
        simp only [Option.map_some] at hans
        cases hans
        refine ⟨q, l, ?_, hc, rfl⟩
        unfold route at hr
        split at hr
        · cases hr
          intro e he
          exact ⟨e, (List.mem_filter.1 he).1, by simpa using (List.mem_filter.1 he).2, rfl, rfl⟩
        · split at hr
          · rename_i hs
            cases hr
            exact search_origin _ _ _ _ _ hs
          · cases hr
  obtain ⟨e, he, d, hdm, n, ha⟩ := choose_origin hc
  obtain ⟨e0, h0, hq, hf, hm⟩ := hl e he
  obtain ⟨ls, g1, g2⟩ := allRegs_levels hss e0 h0 d (by rw [hm]; exact hdm)
  have g3 : a.filters = filtersOf (ls ++ [Spec.MethodDecl.level d]) := by
    rw [ha]
    show fremove (fappend e.filters d.filters) d.exempts = _
    rw [method_step, filtersOf_snoc, ← g2, hf]
  refine ⟨q, ls, d, hq ▸ g1, hi, by rw [ha]; rfl, ?_, ?_, ?_⟩
  · intro x
    rw [g3]
    unfold filtersOf
    rw [mem_foldl_levels]
    simp
  · rw [g3]; exact nodup_foldl_levels _ [] (by simp)
  · rw [g3]
    simpa [filtersOf] using sublist_foldl_levels (ls ++ [Spec.MethodDecl.level d]) []

/-- the table of the route selected is made of declarations -/
theorem select_foldTable {hss : List (List Handler)} {root rt : Route} {path : Str} {ps : Params}
    (h : registerAll hss newRoot = some root) (hs : selectRoute root path = some (rt, ps)) : ∃ l, foldTable l = some rt.tbl := by
  have hrep := registerAll_rep hss [] newRoot newRoot_WF Rep.newRoot
  rw [h] at hrep
  obtain ⟨-, hR, hW, hF⟩ := hrep
  rw [List.nil_append] at hR
  unfold selectRoute at hs
  simp only [splitRoutePath_head] at hs
  by_cases hp : pathSegs path = []
  · rw [if_pos hp] at hs
    cases hs
    exact ⟨_, hR.table⟩
  · rw [if_neg hp, splitRoutePath_eq, if_neg hp] at hs
    have hm := match_search (pathSegs path) (allRegs hss) root hp hW hR
    cases hsr : search (pathSegs path) (allRegs hss) with
    | miss =>
      rw [hsr] at hm
      have hm' : matchRoute (pathSegs path) root = none := hm
      rw [hm'] at hs
      cases hs
    | dead =>
      rw [hsr] at hm
      obtain ⟨rt', h1, h2⟩ := hm
      rw [h1] at hs
      simp only [h2, Bool.false_eq_true, if_false] at hs
      cases hs
    | hit q l ps' =>
      rw [hsr] at hm
      obtain ⟨rt', h1, h2, h3, h4⟩ := hm
      rw [h1] at hs
      simp only [h2, if_true] at hs
      cases hs
      exact ⟨l, h4⟩

/-- An application with a wildcard that has a verb, a filter at the outer level, exempted for one action. -/
def Ex.verbWild : List (List Handler) :=
  [[.filter [1, 2], .router b!"/f/*:x:v" [.filter [3], .method ⟨Ex.fn 5, GET, [.exempt [1], .filter [4]]⟩], .router b!"/g" [Ex.get (Ex.fn 6)]]]

-- the hypotheses hold where those of `C10_filter_inheritance` do not
example : (registerAll Ex.verbWild newRoot).bind (fun r => Ex.show_ (handle r b!"GET" b!"/f/a/b")) =
    some ⟨5, [(b!"x", b!"a/b")], b!"/f/*:x:v", [2, 3, 4]⟩ := by decide +kernel
example : ¬ PlainWilds Ex.verbWild := by
  intro h
  obtain ⟨e, he, hp⟩ : ∃ e ∈ allRegs Ex.verbWild, b!"*:x:v" ∈ e.pattern := by decide +kernel
  have := h e he _ hp b!"x" (by decide +kernel)
  revert this
  decide +kernel

end Verif.Router
