import Verif.Props.Router
/-!
# What the handler table of a pattern contains, in terms of the declarations (C05, C06)
-/
namespace Verif.Router
open Verif.Go Spec

/-- All method declarations made for pattern `q`, in order, each with the filters of its router. -/
def Spec.declsAt (es : List Reg) (q : List Str) : List (List Filter × MethodDecl) :=
  (es.filter (fun e => e.pattern = q)).flatMap (fun e => e.methods.map (fun m => (e.filters, m)))

/-- The last declaration of method `M` for pattern `q`. -/
def Spec.lastDecl (es : List Reg) (q : List Str) (M : Str) : Option (List Filter × MethodDecl) :=
  ((declsAt es q).filter (fun d => d.2.method = M)).getLast?

/-- The action a declaration stands for: its named action, by default the one named after the method. -/
def Spec.declAction (dflt : Str) (d : List Filter × MethodDecl) : RouteAction :=
  ⟨d.2.ctl, if d.2.action = [] then dflt else d.2.action,
    fremove (fappend d.1 d.2.filters) d.2.exempts⟩

theorem configExact_last (fs : List Filter) (M : Str) (hM : isAll M = false) (hM' : isAny M = false) :
    ∀ (l : List MethodDecl) (t t' : Table), configExact fs t l = some t' →
      t'.get M = match (l.filter (fun m => m.method = M)).getLast? with
        | some d => some (declAction (methodAction M) (fs, d))
        | none => t.get M := by
  intro l
  induction l with
  | nil => intro t t' h; simp [configExact] at h; subst h; rfl
  | cons x l ih =>
    intro t t' h
    unfold configExact at h
    split at h
    · cases h
    · split at h
      · rename_i hx
        have hne : x.method ≠ M := by
          rintro rfl; simp [hM, hM'] at hx
        have := ih _ _ h
        simpa [List.filter_cons, hne] using this
      · rw [ih _ _ h]
        by_cases hxM : x.method = M
        · subst hxM
          rw [List.filter_cons_of_pos (by simp)]
          cases hl : l.filter (fun m => m.method = x.method) with
          | nil => simp [Table.get, Table.set, declAction]
          | cons y ys =>
            rw [List.getLast?_cons_cons]
            cases hg : (y :: ys).getLast? with
            | none => simp at hg
            | some d => rfl
        · have hb : (M == x.method) = false := by simpa using fun h => hxM h.symm
          have hne : M ≠ x.method := fun h => hxM h.symm
          rw [List.filter_cons_of_neg (by simpa using hxM)]
          simp [Table.get, Table.set, List.lookup_cons, hb, lookup_filter_ne, hne]

theorem configMethods_stars {fs : List Filter} {ms : List MethodDecl} {t t' : Table}
    (h : configMethods fs t ms = some t') :
    (t'.allRoute = match (ms.filter (fun m => isAll m.method)).getLast? with
      | some d => some ⟨d.ctl, if d.action = [] ∧ !d.ctl.isFunc then
          (if d.ctl.actionFuncExists b!"All" then b!"All" else []) else d.action,
          fremove (fappend fs d.filters) d.exempts⟩
      | none => t.allRoute) ∧
    (t'.anyRoute = match (ms.filter (fun m => isAny m.method)).getLast? with
      | some d => some ⟨d.ctl, if d.action = [] ∧ !d.ctl.isFunc then b!"Any" else d.action,
          fremove (fappend fs d.filters) d.exempts⟩
      | none => t.anyRoute) := by
  have hex : ∀ (l : List MethodDecl) (t t' : Table), configExact fs t l = some t' →
      t'.allRoute = t.allRoute ∧ t'.anyRoute = t.anyRoute := by
    intro l
    induction l with
    | nil => intro t t' h; simp [configExact] at h; subst h; exact ⟨rfl, rfl⟩
    | cons x l ih =>
      intro t t' h
      unfold configExact at h
      split at h
      · cases h
      · split at h
        · exact ih _ _ h
        · have := ih _ _ h; exact this
  have hhd : ∀ t : Table, (headDefault t).allRoute = t.allRoute ∧
      (headDefault t).anyRoute = t.anyRoute := by
    intro t; unfold headDefault; split <;> exact ⟨rfl, rfl⟩
  unfold configMethods at h
  cases h1 : configExact fs t ms with
  | none => rw [h1] at h; cases h
  | some t1 =>
    rw [h1] at h
    simp only [Option.bind_some] at h
    cases h2 : configAllRoute fs (headDefault t1) ms with
    | none => rw [h2] at h; cases h
    | some t2 =>
      rw [h2] at h
      simp only [Option.bind_some] at h
      have ⟨e1, e2⟩ := hex _ _ _ h1
      have ⟨e3, e4⟩ := hhd t1
      have hall : t'.allRoute = t2.allRoute := by
        unfold configAnyRoute at h
        split at h
        · cases h; rfl
        · have := of_guard h; subst this; rfl
      have hany2 : t2.anyRoute = t.anyRoute := by
        unfold configAllRoute at h2
        split at h2
        · cases h2; rw [e4, e2]
        · have := of_guard h2; subst this; simp only []; rw [e4, e2]
      constructor
      · rw [hall]
        unfold configAllRoute at h2
        split at h2
        · rename_i hn; cases h2; rw [hn]; simp only []; rw [e3, e1]
        · rename_i d hn; have := of_guard h2; subst this; rw [hn]
      · unfold configAnyRoute at h
        split at h
        · rename_i hn; cases h; rw [hn]; simp only []; exact hany2
        · rename_i d hn; have := of_guard h; subst this; rw [hn]

theorem getLast?_append_map {α β} (p : α → Bool) (a b : List α) (f : Option α → β) :
    f ((a ++ b).filter p).getLast? =
      match (b.filter p).getLast? with
      | some d => f (some d)
      | none => f (a.filter p).getLast? := by
  rw [List.filter_append, List.getLast?_append]
  cases (b.filter p).getLast? <;> simp

/-- generic fold: a table projection that is set by the last relevant declaration of each step -/
theorem fold_last {β} (proj : Table → Option β) (sel : MethodDecl → Bool)
    (mk : List Filter × MethodDecl → β)
    (hstep : ∀ fs ms t t', configMethods fs t ms = some t' →
      proj t' = match (ms.filter sel).getLast? with | some d => some (mk (fs, d)) | none => proj t) :
    ∀ (es : List Reg) (t t' : Table),
      es.foldlM (fun t e => configMethods e.filters t e.methods) t = some t' →
      proj t' = match ((es.flatMap (fun e => e.methods.map (fun m => (e.filters, m)))).filter
          (fun d => sel d.2)).getLast? with
        | some d => some (mk d)
        | none => proj t := by
  intro es
  induction es with
  | nil => intro t t' h; simp at h; subst h; rfl
  | cons e es ih =>
    intro t t' h
    rw [List.foldlM_cons] at h
    cases h1 : configMethods e.filters t e.methods with
    | none => rw [h1] at h; cases h
    | some t1 =>
      rw [h1] at h
      replace h : es.foldlM (fun t e => configMethods e.filters t e.methods) t1 = some t' := h
      rw [ih t1 t' h, List.flatMap_cons, List.filter_append, List.getLast?_append]
      cases hr : ((es.flatMap (fun e => e.methods.map (fun m => (e.filters, m)))).filter
          (fun d => sel d.2)).getLast? with
      | some d => simp
      | none =>
        simp only [Option.none_or]
        rw [hstep _ _ _ _ h1]
        rw [List.filter_map]
        have : ((fun (d : List Filter × MethodDecl) => sel d.2) ∘ fun m => (e.filters, m)) = sel := rfl
        rw [this, List.getLast?_map]
        cases (e.methods.filter sel).getLast? <;> rfl

/-- **C05 (table).** In terms of the declarations: the exact handler of a method other than HEAD at a
pattern is the last declaration of that method for that pattern, over all `Routers` calls. -/
theorem C05_exact_is_last_declaration {es : List Reg} {q : List Str} {t : Table} {M : Str}
    (h : tableAt es q {} = some t) (hM : isAll M = false) (hM' : isAny M = false) (hH : M ≠ HEAD) :
    t.get M = (lastDecl es q M).map (declAction (methodAction M)) := by
  have := fold_last (proj := fun t => t.get M) (sel := fun m => m.method = M)
    (mk := declAction (methodAction M)) (by
      intro fs ms t t' hc
      obtain ⟨t1, h1, h2⟩ := configMethods_get hc
      have h3 : (headDefault t1).get M = t1.get M := by
        unfold headDefault
        split
        · rename_i a h4 h5
          have hb : (M == HEAD) = false := by simpa using hH
          simp [Table.get, Table.set, List.lookup_cons, hb, lookup_filter_ne, hH]
        · rfl
      rw [h2, h3]
      exact configExact_last fs M hM hM' ms t t1 h1) _ _ _ h
  rw [this]
  unfold lastDecl declsAt
  cases (List.filter (fun d : List Filter × MethodDecl => decide (d.2.method = M)) _).getLast? <;> rfl

/-- **C05 (All / Any).** The All and Any handlers of a pattern are its last `All` and `Any`
declarations. A non-function controller without a named action defaults to `All` (if it has such a
method) and to `Any`. -/
theorem C05_all_any_are_last_declarations {es : List Reg} {q : List Str} {t : Table}
    (h : tableAt es q {} = some t) :
    t.allRoute = (lastDecl es q b!"*").map (fun d =>
      declAction (if !d.2.ctl.isFunc ∧ d.2.ctl.actionFuncExists b!"All" then b!"All" else []) d) ∧
    t.anyRoute = (lastDecl es q b!"**").map (fun d =>
      declAction (if !d.2.ctl.isFunc then b!"Any" else []) d) := by
  have hA : (fun m : MethodDecl => isAll m.method) = fun m => decide (m.method = b!"*") := by
    funext m; unfold isAll
    by_cases h : m.method = b!"*" <;> simp [h]
  have hB : (fun m : MethodDecl => isAny m.method) = fun m => decide (m.method = b!"**") := by
    funext m; unfold isAny
    by_cases h : m.method = b!"**" <;> simp [h]
  constructor
  · have := fold_last (proj := fun t => t.allRoute) (sel := fun m => m.method = b!"*")
      (mk := fun d => declAction
        (if !d.2.ctl.isFunc ∧ d.2.ctl.actionFuncExists b!"All" then b!"All" else []) d) (by
        intro fs ms t t' hc
        have := (configMethods_stars hc).1
        rw [hA] at this
        simp only []
        rw [this]
        cases (ms.filter fun m => decide (m.method = b!"*")).getLast? with
        | none => rfl
        | some d =>
          simp only [declAction, Option.some.injEq, RouteAction.mk.injEq, true_and, and_true]
          by_cases h1 : d.action = [] <;> cases h2 : d.ctl.isFunc <;> simp [h1]) _ _ _ h
    rw [this]
    unfold lastDecl declsAt
    cases (List.filter (fun d : List Filter × MethodDecl => decide (d.2.method = b!"*")) _).getLast? <;>
      rfl
  · have := fold_last (proj := fun t => t.anyRoute) (sel := fun m => m.method = b!"**")
      (mk := fun d => declAction (if !d.2.ctl.isFunc then b!"Any" else []) d) (by
        intro fs ms t t' hc
        have := (configMethods_stars hc).2
        rw [hB] at this
        simp only []
        rw [this]
        cases (ms.filter fun m => decide (m.method = b!"**")).getLast? with
        | none => rfl
        | some d =>
          simp only [declAction, Option.some.injEq, RouteAction.mk.injEq, true_and, and_true]
          by_cases h1 : d.action = [] <;> cases h2 : d.ctl.isFunc <;> simp [h1]) _ _ _ h
    rw [this]
    unfold lastDecl declsAt
    cases (List.filter (fun d : List Filter × MethodDecl => decide (d.2.method = b!"**")) _).getLast? <;>
      rfl

/-- **C06 (requests, partial).** For an accepted application that never declares HEAD and declares GET
in at most one registration of each pattern: whenever a GET request is served by a GET declaration, the
HEAD request for the same path is dispatched identically. -/
theorem C06_head_request_partial {hss : List (List Handler)} {root rt : Route} {path f info : Str}
    {a : RouteAction} {ps : Params}
    (h : registerAll hss newRoot = some root) (hp : PlainWilds hss)
    (hhead : ∀ e ∈ allRegs hss, ∀ m ∈ e.methods, m.method ≠ HEAD)
    (hget : ∀ q, (((allRegs hss).filter (fun e => e.pattern = q)).filter
      (fun e => e.methods.any (fun m => m.method == GET))).length ≤ 1)
    (hd : handle root GET path = .dispatch rt a f ps info)
    (hex : ∃ q, info = renderPattern q ∧ Served hss q ∧ (lastDecl (allRegs hss) q GET).isSome) :
    handle root HEAD path = .dispatch rt a f ps info := by
  obtain ⟨q, e1, hs, hl⟩ := hex
  obtain ⟨q', hs', -, e1', huniq⟩ := C07_route_info_path h hd
  have := huniq q hs e1
  subst this
  unfold handle at hd
  cases hsel : selectRoute root path with
  | none => rw [hsel] at hd; cases hd
  | some x =>
    obtain ⟨rt', ps'⟩ := x
    rw [hsel] at hd
    simp only [] at hd
    obtain ⟨q2, h1, -, h3, -⟩ := select_sound h hsel
    have hU : toUpper GET = GET ∧ toUpper HEAD = HEAD := by decide +kernel
    rw [hU.1] at hd
    cases hc : chooseAction rt'.tbl GET with
    | none => rw [hc] at hd; cases hd
    | some y =>
      obtain ⟨a', f'⟩ := y
      rw [hc] at hd
      cases hd
      obtain ⟨hW, hF, -, -⟩ := registerAll_obs (P := (· ≠ [])) hss newRoot root
        (allRegs_seg_ne hss) newRoot_WF h
      have hchain : rt.chain = q2 := by
        have := (nodeAt_chain hW h3).1
        rw [this, hF.chain]; rfl
      have hq : q2 = q := huniq q2 h1 (calcPath_render hchain (served_seg_ne h1))
      subst hq
      have ht := table_of_node h hp h3
      have hgg := C05_exact_is_last_declaration ht (M := GET) (by decide) (by decide) (by decide)
      have hhg := C06_head_follows_get_partial (fun e he _ => hhead e he) (hget q2) ht
      obtain ⟨d, hd⟩ := Option.isSome_iff_exists.1 hl
      rw [hd] at hgg
      unfold handle
      rw [hsel]
      simp only []
      rw [hU.2]
      have : chooseAction rt.tbl HEAD = chooseAction rt.tbl GET := by
        unfold chooseAction
        rw [hhg, hgg]
        rfl
      rw [this, hc]

-- the hypotheses are met by the example application, where GET /users/7 is served by a declaration
example : (∀ e ∈ allRegs Ex.app, ∀ m ∈ e.methods, m.method ≠ HEAD) ∧
    (lastDecl (allRegs Ex.app) [b!"users", b!":id"] GET).isSome = true ∧
    Ex.show_ (handle Ex.root HEAD b!"/users/7") = Ex.show_ (handle Ex.root GET b!"/users/7") ∧
    (Ex.show_ (handle Ex.root HEAD b!"/users/7")).isSome = true := by decide +kernel

end Verif.Router
