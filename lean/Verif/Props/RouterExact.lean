import Verif.Proofs.RouterAccept
import Verif.Props.RouterTable
/-!
# Exactly which handler answers a request, and which declarations are accepted (C89, C90)

The specification is `Spec.route` (RouterFindSpec: the search over the flat list of registrations), and below it the choice of
the declaration; nothing in it mentions the route tree. There is no hypothesis about the shape of the declarations.
-/
namespace Verif.Router
open Verif.Go Spec

namespace Spec

/-- The declarations made by registrations, each with the filters of its router. -/
def declsOf (es : List Reg) : List (List Filter × MethodDecl) := es.flatMap fun e => e.methods.map fun m => (e.filters, m)

/-- The last declaration of the method `M`. -/
def lastOf (es : List Reg) (M : Str) : Option (List Filter × MethodDecl) := ((declsOf es).filter fun d => d.2.method = M).getLast?

/-- The handler declared for exactly the method `M`. HEAD without a declaration of its own is answered by the GET handler of
the first registration that declares GET. -/
def exactFor (es : List Reg) (M : Str) : Option RouteAction :=
  if M = b!"*" ∨ M = b!"**" then none
  else match lastOf es M with
    | some d => some (declAction (methodAction M) d)
    | none =>
      if M = HEAD then (es.findSome? fun e => lastOf [e] GET).map (declAction (methodAction GET))
      else none

/-- The last `All` declaration. -/
def allFor (es : List Reg) : Option RouteAction :=
  (lastOf es b!"*").map fun d => declAction (if d.2.ctl.kind = .struct ∧ b!"All" ∈ d.2.ctl.methods then b!"All" else []) d

/-- The last `Any` declaration. -/
def anyFor (es : List Reg) : Option RouteAction :=
  (lastOf es b!"**").map fun d => declAction (if d.2.ctl.kind = .func then [] else b!"Any") d

/-- The handler can run the action. -/
def runs (c : Controller) (a : Str) : Bool := c.kind = .func || (c.kind = .struct && c.methods.contains a)

/-- The handler that answers the (upper case) method `M` among the registrations of a pattern, and the name of its action. -/
def choose (es : List Reg) (M : Str) : Option (RouteAction × Str) :=
  let viaAny := (anyFor es).bind fun a => if runs a.ctl a.action then some (a, a.action) else none
  match exactFor es M with
  | some a => some (a, a.action)
  | none => match allFor es with
    | some a =>
      if runs a.ctl (methodAction M) then some (a, methodAction M)
      else if a.action ≠ [] then some (a, a.action)
      else viaAny
    | none => viaAny

/-- What a request is answered with. -/
structure Answer where
  action : RouteAction
  func : Str
  params : Params
  path : Str
deriving DecidableEq

/-- The answer to a request: `none` is "not found". -/
def answer (es : List Reg) (method path : Str) : Option Answer :=
  match route es (pathSegs path) with
  | none => none
  | some (q, here, ps) => (choose here (toUpper method)).map fun c => ⟨c.1, c.2, ps, renderPattern q⟩

end Spec

/-- the observable part of an outcome -/
def Outcome.answer : Outcome → Option Answer
  | .notFound => none
  | .dispatch _ a f ps info => some ⟨a, f, ps, info⟩

theorem headDefault_eq (t : Table) : (headDefault t).get HEAD = (t.get HEAD).or (t.get GET) ∧ (headDefault t).get GET = t.get GET := by
  unfold headDefault
  have hb : (GET == HEAD) = false := by decide
  have hn : GET ≠ HEAD := by decide
  cases h1 : t.get HEAD with
  | some a => simp [h1]
  | none =>
    cases h2 : t.get GET with
    | none => simp [h1, h2]
    | some a =>
      constructor
      · simp [Table.get, Table.set]
      · have : t.action.lookup GET = some a := h2
        simp [Table.get, Table.set, List.lookup_cons, hb, lookup_filter_ne, hn, this]

theorem fold_get_head : ∀ (es : List Reg) (t t' : Table), (t.get HEAD = none → t.get GET = none) →
    es.foldlM (fun t e => configMethods e.filters t e.methods) t = some t' →
    t'.get HEAD = match lastOf es HEAD with
      | some d => some (declAction (methodAction HEAD) d)
      | none => match t.get HEAD with
        | some a => some a
        | none => (es.findSome? fun e => lastOf [e] GET).map (declAction (methodAction GET)) := by
  intro es
  induction es with
  | nil =>
    intro t t' _ h
    simp at h; subst h
    show _ = match t.get HEAD with | some a => some a | none => none
    cases t.get HEAD <;> rfl
  | cons e es ih =>
    intro t t' hinv h
    rw [List.foldlM_cons] at h
    cases h1 : configMethods e.filters t e.methods with
    | none => rw [h1] at h; cases h
    | some t1 =>
      rw [h1] at h
      obtain ⟨t0, h0, hg⟩ := configMethods_get h1
      have hH := configExact_last e.filters HEAD (by decide) (by decide) e.methods t t0 h0
      have hG := configExact_last e.filters GET (by decide) (by decide) e.methods t t0 h0
      have hone : ∀ M, lastOf [e] M = ((e.methods.filter fun m => m.method = M).getLast?).map fun m => (e.filters, m) := by
        intro M
        unfold lastOf declsOf
        rw [List.flatMap_cons, List.flatMap_nil, List.append_nil, List.filter_map, List.getLast?_map]
        rfl
      have hcons : ∀ M, lastOf (e :: es) M = (lastOf es M).or (lastOf [e] M) := by
        intro M
        unfold lastOf declsOf
        rw [List.flatMap_cons, List.flatMap_cons, List.flatMap_nil, List.append_nil, List.filter_append, List.getLast?_append]
      have hhead : t1.get HEAD = match lastOf [e] HEAD with
          | some d => some (declAction (methodAction HEAD) d)
          | none => match t.get HEAD with
            | some a => some a
            | none => (lastOf [e] GET).map (declAction (methodAction GET)) := by
        rw [hg HEAD, hone, hone]
        rw [(headDefault_eq t0).1, hH, hG]
        cases (e.methods.filter fun m => m.method = HEAD).getLast? with
        | some d => rfl
        | none =>
          simp only [Option.map_none]
          cases hT : t.get HEAD with
          | some a => rfl
          | none =>
            simp only [Option.none_or, hinv hT]
            cases (e.methods.filter fun m => m.method = GET).getLast? <;> rfl
      have hinv1 : t1.get HEAD = none → t1.get GET = none := by
        rw [hg HEAD, hg GET, (headDefault_eq t0).1, (headDefault_eq t0).2]
        intro h
        cases hx : t0.get GET with
        | none => rfl
        | some a => rw [hx] at h; cases hy : t0.get HEAD <;> rw [hy] at h <;> cases h
      rw [ih t1 t' hinv1 h, hcons, List.findSome?_cons]
      cases lastOf es HEAD with
      | some d => rfl
      | none =>
        simp only [Option.none_or]
        rw [hhead]
        cases lastOf [e] HEAD with
        | some d => rfl
        | none =>
          simp only []
          cases t.get HEAD with
          | some a => rfl
          | none =>
            simp only []
            cases lastOf [e] GET with
            | some d => rfl
            | none => rfl

theorem allAny_star (es : List Reg) (t t' : Table) (M : Str) (hM : M = b!"*" ∨ M = b!"**") (h0 : t.get M = none)
    (h : es.foldlM (fun t e => configMethods e.filters t e.methods) t = some t') : t'.get M = none := by
  induction es generalizing t with
  | nil => simp at h; subst h; exact h0
  | cons e es ih =>
    rw [List.foldlM_cons] at h
    cases h1 : configMethods e.filters t e.methods with
    | none => rw [h1] at h; cases h
    | some t1 =>
      rw [h1] at h
      refine ih t1 ?_ h
      obtain ⟨t0, h2, hg⟩ := configMethods_get h1
      rw [hg]
      have hne : M ≠ HEAD := by rcases hM with h | h <;> rw [h] <;> decide
      have hx : (headDefault t0).get M = t0.get M := by
        have hb : (M == HEAD) = false := by simpa using hne
        unfold headDefault
        split
        · simp [Table.get, Table.set, List.lookup_cons, hb, lookup_filter_ne, hne]
        · rfl
      rw [hx]
      clear hx hg h1 h
      generalize e.methods = ms at h2
      clear ih
      induction ms generalizing t with
      | nil => simp [configExact] at h2; subst h2; exact h0
      | cons m ms ih =>
        unfold configExact at h2
        split at h2
        · cases h2
        · split at h2
          · exact ih t h0 h2
          · rename_i hs
            have hmm : M ≠ m.method := by
              rintro rfl
              rcases hM with h | h <;> simp [h, isAll, isAny] at hs
            have hb : (M == m.method) = false := by simpa using hmm
            refine ih _ ?_ h2
            have h0' : t.action.lookup M = none := h0
            show ((m.method, _) :: t.action.filter _).lookup M = none
            rw [List.lookup_cons, hb, lookup_filter_ne, if_neg hmm]; exact h0'

theorem lastDecl_of {es : List Reg} (h : ∀ e ∈ es, e.pattern = []) (M : Str) : lastDecl es [] M = lastOf es M := by
  have : es.filter (fun e => e.pattern = []) = es := List.filter_eq_self.2 (by simpa using h)
  unfold lastDecl lastOf declsAt declsOf
  rw [this]

theorem tableAt_of {es : List Reg} (h : ∀ e ∈ es, e.pattern = []) (t : Table) : tableAt es [] t = es.foldlM (fun t e => configMethods e.filters t e.methods) t := by
  unfold tableAt
  rw [List.filter_eq_self.2 (by simpa using h)]

/-- The table of a route is what the declarations say. -/
theorem table_exact {es : List Reg} {t : Table} (hes : ∀ e ∈ es, e.pattern = []) (h : foldTable es = some t) (M : Str) :
    t.get M = exactFor es M ∧ t.allRoute = allFor es ∧ t.anyRoute = anyFor es := by
  have ht : tableAt es [] {} = some t := by rw [tableAt_of hes]; exact h
  refine ⟨?_, ?_, ?_⟩
  · unfold exactFor
    by_cases hs : M = b!"*" ∨ M = b!"**"
    · rw [if_pos hs]; exact allAny_star es {} t M hs rfl h
    · rw [if_neg hs]
      by_cases hH : M = HEAD
      · subst hH
        rw [fold_get_head es {} t (fun _ => rfl) h]
        cases lastOf es HEAD <;> rfl
      · have h1 : isAll M = false := by simpa [isAll] using fun h => hs (Or.inl h)
        have h2 : isAny M = false := by simpa [isAny] using fun h => hs (Or.inr h)
        rw [C05_exact_is_last_declaration ht h1 h2 hH, lastDecl_of hes, if_neg hH]
        cases lastOf es M <;> rfl
  · rw [(C05_all_any_are_last_declarations ht).1, lastDecl_of hes]
    unfold allFor
    cases lastOf es b!"*" with
    | none => rfl
    | some d =>
      simp only [Option.map_some, Option.some.injEq]
      congr 1
      unfold Controller.isFunc Controller.actionFuncExists
      cases d.2.ctl.kind <;> simp
  · rw [(C05_all_any_are_last_declarations ht).2, lastDecl_of hes]
    unfold anyFor
    cases lastOf es b!"**" with
    | none => rfl
    | some d =>
      simp only [Option.map_some, Option.some.injEq]
      congr 1
      unfold Controller.isFunc
      cases d.2.ctl.kind <;> simp

theorem choose_exact {es : List Reg} {t : Table} (hes : ∀ e ∈ es, e.pattern = []) (h : foldTable es = some t) (M : Str) :
    chooseAction t M = choose es M := by
  obtain ⟨h1, h2, h3⟩ := table_exact hes h M
  unfold chooseAction choose
  rw [h1, h2, h3]
  have hr : ∀ (c : Controller) (a : Str), (c.isFunc || c.actionFuncExists a) = runs c a := by
    intro c a
    unfold Controller.isFunc Controller.actionFuncExists runs
    cases c.kind <;> simp <;> rfl
  simp only [hr]
  cases exactFor es M with
  | some a => rfl
  | none =>
    cases anyFor es <;> cases allFor es <;> rfl

/-- the registrations of a search result are relative to the place found -/
theorem search_here : ∀ (path : List Str) (es : List Reg) (q : List Str) (l : List Reg) (ps : Params), search path es = .hit q l ps → ∀ e ∈ l, e.pattern = [] := by
  have hhere : ∀ es, ∀ e ∈ here es, e.pattern = [] := by intro es e he; simpa using (List.mem_filter.1 he).2
  have hunder : ∀ (f : Found) (s : Str) (b : Params) (q : List Str) (l : List Reg) (ps : Params), f.under s b = .hit q l ps → ∃ q' ps', f = .hit q' l ps' := by
    intro f s b q l ps h
    cases f with
    | miss => cases h
    | dead => cases h
    | hit q' l' ps' => cases h; exact ⟨_, _, rfl⟩
  have hfirst : ∀ (f : Str → Found) (ss : List Str) (q : List Str) (l : List Reg) (ps : Params), firstHit f ss = .hit q l ps → ∃ s, f s = .hit q l ps := by
    intro f ss q l ps
    induction ss with
    | nil => intro h; cases h
    | cons s ss ih =>
      intro h
      unfold firstHit at h
      cases hf : f s with
      | miss => rw [hf] at h; exact ih h
      | dead => rw [hf] at h; exact ih h
      | hit q' l' ps' => rw [hf] at h; exact ⟨s, hf.trans h⟩
  intro path
  induction path with
  | nil =>
    intro es q l ps h
    unfold search at h
    split at h
    · cases h
    · cases h; exact hhere es
  | cons p paths ih =>
    intro es q l ps h
    unfold search at h
    simp only [] at h
    generalize hlit : (if isLitSeg p && !(beneath p es).isEmpty then (search paths (beneath p es)).under p [] else .miss) = lit at h
    generalize hpar : firstHit _ (paramHeads es) = par at h
    have hl : ∀ q l ps, lit = .hit q l ps → ∀ e ∈ l, e.pattern = [] := by
      intro q l ps e
      rw [e] at hlit
      split at hlit
      · obtain ⟨q', ps', h⟩ := hunder _ _ _ _ _ _ hlit
        exact ih _ _ _ _ h
      · cases hlit
    have hp : ∀ q l ps, par = .hit q l ps → ∀ e ∈ l, e.pattern = [] := by
      intro q l ps e
      rw [e] at hpar
      obtain ⟨s, hs⟩ := hfirst _ _ _ _ _ hpar
      split at hs
      · split at hs
        · obtain ⟨q', ps', h⟩ := hunder _ _ _ _ _ _ hs
          exact ih _ _ _ _ h
        · cases hs
      · cases hs
    have hw : ∀ (x : Found) (q : List Str) (l : List Reg) (ps : Params), (∀ q l ps, x ≠ .hit q l ps) → (match wildIn es with
        | some (w, l) => Found.hit [w] (here l) [(nameOfSeg w, join1 47 (p :: paths))]
        | none => x) = .hit q l ps → ∀ e ∈ l, e.pattern = [] := by
      intro x q l ps hx h
      split at h
      · cases h; exact hhere _
      · exact absurd h (hx _ _ _)
    cases lit with
    | hit q' l' ps' => cases h; exact hl _ _ _ rfl
    | dead => exact hw .dead q l ps (by simp) h
    | miss =>
      cases par with
      | hit q' l' ps' => cases h; exact hp _ _ _ rfl
      | dead => exact hw .dead q l ps (by simp) h
      | miss => exact hw .miss q l ps (by simp) h

/-- **C89.** For every accepted application, every method and every path, the answer (handler, action, filters, parameters,
route path, or "not found") is exactly the specified one. -/
theorem C89_exact_answer {hss : List (List Handler)} {root : Route} (h : registerAll hss newRoot = some root) (m path : Str) :
    (handle root m path).answer = answer (allRegs hss) m path := by
  have hrep := registerAll_rep hss [] newRoot newRoot_WF Rep.newRoot
  rw [h] at hrep
  obtain ⟨-, hR, hW, hF⟩ := hrep
  rw [List.nil_append] at hR
  have hsel : ∀ rt ps, selectRoute root path = some (rt, ps) → calcPath rt = renderPattern rt.chain := by
    intro rt ps hs
    obtain ⟨q, h1, -, h3, -⟩ := select_sound h hs
    obtain ⟨hW', hF', -, -⟩ := registerAll_obs (P := (· ≠ [])) hss newRoot root (allRegs_seg_ne hss) newRoot_WF h
    have hc : rt.chain = q := by
      have := (nodeAt_chain hW' h3).1
      rw [this, hF'.chain]; rfl
    rw [hc]
    exact calcPath_render hc (served_seg_ne h1)
  have key : ∀ rt ps q l, selectRoute root path = some (rt, ps) → rt.chain = q → foldTable l = some rt.tbl → (∀ e ∈ l, e.pattern = []) →
      route (allRegs hss) (pathSegs path) = some (q, l, ps) → (handle root m path).answer = answer (allRegs hss) m path := by
    intro rt ps q l hs hq ht hl hr
    unfold handle answer
    rw [hs, hr]
    simp only []
    rw [choose_exact hl ht, hsel rt ps hs, hq]
    cases choose l (toUpper m) with
    | none => rfl
    | some c => rfl
  by_cases hp : pathSegs path = []
  · refine key root [] [] (here (allRegs hss)) ?_ ?_ hR.table ?_ ?_
    · unfold selectRoute; simp [splitRoutePath_head, hp]
    · rw [hF.chain]; rfl
    · intro e he; simpa using (List.mem_filter.1 he).2
    · unfold route; rw [if_pos hp]
  · have hm := match_search (pathSegs path) (allRegs hss) root hp hW hR
    have hsel2 : selectRoute root path = match matchRoute (pathSegs path) root with
        | some (rt, ps) => if rt.isEnd then some (rt, ps) else none
        | none => none := by
      unfold selectRoute
      simp only [splitRoutePath_head, if_neg hp]
      rw [splitRoutePath_eq, if_neg hp]
      cases matchRoute (pathSegs path) root <;> rfl
    cases hs : search (pathSegs path) (allRegs hss) with
    | miss =>
      rw [hs] at hm
      have hm' : matchRoute (pathSegs path) root = none := hm
      unfold handle answer route
      rw [hsel2, hm', if_neg hp, hs]
      rfl
    | dead =>
      rw [hs] at hm
      obtain ⟨rt, h1, h2⟩ := hm
      unfold handle answer route
      rw [hsel2, h1, if_neg hp, hs]
      simp only [h2, Bool.false_eq_true, if_false]
      rfl
    | hit q l ps =>
      have hl := search_here _ _ _ _ _ hs
      rw [hs] at hm
      obtain ⟨rt, h1, h2, h3, h4⟩ := hm
      refine key rt ps q l ?_ ?_ h4 hl ?_
      · rw [hsel2, h1]; simp [h2]
      · rw [h3, hF.chain]; rfl
      · unfold route; rw [if_neg hp, hs]

/-- **C90.** A sequence of `Routers` calls is accepted (does not panic) exactly if the specification accepts it. -/
theorem C90_accepted_iff (hss : List (List Handler)) : (registerAll hss newRoot).isSome = acceptAll hss [] := by
  have hrep := registerAll_rep hss [] newRoot newRoot_WF Rep.newRoot
  cases h : registerAll hss newRoot with
  | none => rw [h] at hrep; rw [hrep]; rfl
  | some r => rw [h] at hrep; rw [hrep.1]; rfl

/-! ### Concrete cases -/

/-- the controller, action, parameters and path of an answer -/
structure Spec.Brief where
  ctl : Nat
  func : Str
  params : Params
  path : Str
deriving DecidableEq

/-- the brief form of an answer -/
def Spec.Answer.brief (a : Answer) : Brief := ⟨a.action.ctl.id, a.func, a.params, a.path⟩

-- the hypothesis of C89 holds for the example applications; the literal dead end is part of the specification
example : (answer (allRegs Ex.app) b!"get" b!"//users/./7:edit/").map Answer.brief =
      some ⟨4, b!"Get", [(b!"id", b!"7")], b!"/users/:id:edit"⟩ ∧
    (answer (allRegs Ex.app) b!"HEAD" b!"/static/js/x.js").map Answer.brief =
      some ⟨5, b!"Get", [(b!"path", b!"js/x.js")], b!"/static/*:path"⟩ ∧
    (answer (allRegs Ex.app) b!"GET" b!"/static").isNone = true ∧
    (answer (allRegs Ex.app) b!"POST" b!"/users").isNone = true ∧
    (answer (allRegs Ex.deadEnd) b!"GET" b!"/a/b").isNone = true ∧
    (answer (allRegs Ex.deadEnd) b!"GET" b!"/c/b").isSome = true := by decide +kernel

/-- A struct controller for every method, a verb declared after the plain parameter, and a second call. -/
def Ex.big : List (List Handler) :=
  [[ .router b!"/u" [ .method ⟨⟨1, .struct, [b!"Get", b!"Any", b!"Put"]⟩, b!"*", []⟩,
       .method ⟨⟨2, .struct, [b!"Get", b!"Any", b!"Put"]⟩, b!"**", []⟩,
       .router b!"/:id" [Ex.get (Ex.fn 3)], .router b!"/:id:edit" [Ex.get (Ex.fn 4)], .router b!"/:id:it" [Ex.get (Ex.fn 5)],
       .router b!"/*:rest" [Ex.get (Ex.fn 6)] ] ],
   [ .router b!"/u" [ Ex.get (Ex.fn 7) ] ]]

example : (registerAll Ex.big newRoot).isSome = true ∧ acceptAll Ex.big [] = true ∧
    (answer (allRegs Ex.big) b!"GET" b!"/u").map Answer.brief = some ⟨7, b!"Get", [], b!"/u"⟩ ∧
    (answer (allRegs Ex.big) b!"HEAD" b!"/u").map Answer.brief = some ⟨7, b!"Get", [], b!"/u"⟩ ∧
    (answer (allRegs Ex.big) b!"PUT" b!"/u").map Answer.brief = some ⟨1, b!"Put", [], b!"/u"⟩ ∧
    (answer (allRegs Ex.big) b!"POST" b!"/u").map Answer.brief = some ⟨2, b!"Any", [], b!"/u"⟩ ∧
    (answer (allRegs Ex.big) b!"GET" b!"/u/5:edit").map Answer.brief = some ⟨4, b!"Get", [(b!"id", b!"5")], b!"/u/:id:edit"⟩ ∧
    (answer (allRegs Ex.big) b!"GET" b!"/u/5:it").map Answer.brief = some ⟨5, b!"Get", [(b!"id", b!"5")], b!"/u/:id:it"⟩ ∧
    (answer (allRegs Ex.big) b!"GET" b!"/u/5:edi").map Answer.brief = some ⟨3, b!"Get", [(b!"id", b!"5:edi")], b!"/u/:id"⟩ ∧
    (answer (allRegs Ex.big) b!"GET" b!"/u/5/6").map Answer.brief = some ⟨6, b!"Get", [(b!"rest", b!"5/6")], b!"/u/*:rest"⟩ := by
  decide +kernel

-- accepted and refused declarations
example : acceptAll Ex.app [] = true ∧
    acceptAll [[.router b!"/:a" [], .router b!"/:b" []]] [] = false ∧
    acceptAll [[.router b!"/*:a" []], [.router b!"/*:b" []]] [] = false ∧
    acceptAll [[.router b!"/*:a/x" []]] [] = false ∧
    acceptAll [[.method ⟨⟨1, .struct, [b!"Put"]⟩, GET, []⟩]] [] = false ∧
    acceptAll [[.method ⟨⟨1, .struct, [b!"Put"]⟩, b!"**", []⟩]] [] = false ∧
    acceptAll [[.router b!"/x/:a" [], .router b!"/y/:b" []]] [] = true := by decide +kernel

end Verif.Router
