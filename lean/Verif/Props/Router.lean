import Verif.Proofs.RouterFilters
/-!
# Router properties C01–C10

The specification (patterns, matching, declared registrations, precedence, filters in force) is in
`Verif/Props/RouterSpec.lean`.
-/
namespace Verif.Router
open Verif.Go Spec

/-! ## A concrete application used by the non-vacuity examples -/
namespace Ex

def fn (n : Nat) : Controller := ⟨n, .func, []⟩
def get (c : Controller) : Handler := .method ⟨c, GET, []⟩

/-- Users with nested posts, a custom verb and a wildcard. -/
def app : List (List Handler) :=
  [[ .filter [1],
     get (fn 0),
     .router b!"/users" [ .filter [2], get (fn 1),
        .router b!"/:id" [ .exempt [1], get (fn 2), .router b!"posts" [get (fn 3)] ],
        .router b!"/:id:edit" [ get (fn 4) ] ],
     .router b!"/static/*:path" [ get (fn 5) ] ]]

def root : Route := (registerAll app newRoot).getD newRoot

theorem accepted : registerAll app newRoot = some root := by
  have : (registerAll app newRoot).isSome = true := by decide +kernel
  unfold root
  cases h : registerAll app newRoot with
  | none => rw [h] at this; cases this
  | some r => rfl

/-- controller id, parameters, route path, filters of the dispatched action -/
structure Shown where
  ctl : Nat
  params : Params
  path : Str
  filters : List Filter
deriving DecidableEq

def show_ : Outcome → Option Shown
  | .notFound => none
  | .dispatch _ a _ ps info => some ⟨a.ctl.id, ps, info, a.filters⟩

/-- The literal dead end: `/a/b/c` and `/:x/b` are registered. -/
def deadEnd : List (List Handler) :=
  [[ .router b!"/a/b/c" [get (fn 1)], .router b!"/:x/b" [get (fn 2)] ]]

def deadRoot : Route := (registerAll deadEnd newRoot).getD newRoot

theorem deadAccepted : registerAll deadEnd newRoot = some deadRoot := by
  have : (registerAll deadEnd newRoot).isSome = true := by decide +kernel
  unfold deadRoot
  cases h : registerAll deadEnd newRoot with
  | none => rw [h] at this; cases this
  | some r => rfl

end Ex

/-! ## C01 -/

theorem select_sound {hss : List (List Handler)} {root rt : Route} {path : Str} {ps : Params}
    (h : registerAll hss newRoot = some root) (hs : selectRoute root path = some (rt, ps)) :
    ∃ q, Served hss q ∧ Matches (q.map segOf) (pathSegs path) ps ∧ nodeAt q root = some rt ∧
      rt.isEnd = true := by
  obtain ⟨hW, hF, hobs, -⟩ := registerAll_obs (P := (· ≠ [])) hss newRoot root (allRegs_seg_ne hss)
    newRoot_WF h
  unfold selectRoute at hs
  simp only [splitRoutePath_head] at hs
  split at hs
  · rename_i hnil
    cases hs
    rw [hnil]
    exact ⟨[], Or.inl rfl, Matches.nil, rfl, by rw [hF.isEnd]; rfl⟩
  · rename_i hne
    rw [splitRoutePath_eq, if_neg hne] at hs
    cases hm : matchRoute (pathSegs path) root with
    | none => rw [hm] at hs; cases hs
    | some x =>
      obtain ⟨rt', ps'⟩ := x
      rw [hm] at hs
      simp only [] at hs
      split at hs
      · rename_i hE
        cases hs
        obtain ⟨q, ps', hq, h1, h2, h3⟩ := matchRoute_sound _ _ _ _ hW hm
        refine ⟨q, ?_, h3 hE ▸ h2, h1, hE⟩
        have : (obs root q).1 = true := by unfold obs; rw [h1]; exact hE
        rcases hobs q this with h | h
        · rw [obs_newRoot] at h
          split at h
          · rename_i h0; exact Or.inl h0
          · simp at h
        · exact Or.inr h
      · cases hs

theorem calcPath_render {n : Route} {q : List Str} (hc : n.chain = q) (hq : ∀ s ∈ q, s ≠ []) :
    calcPath n = renderPattern q := by
  unfold calcPath renderPattern
  rw [hc]
  have : q.foldr (fun s acc => (if s = [] then [] else 47 :: s) ++ acc) [] =
      q.flatMap (fun s => 47 :: s) := by
    clear hc
    induction q with
    | nil => rfl
    | cons s q ih =>
      rw [List.foldr_cons, ih (fun x hx => hq x (by simp [hx])), if_neg (hq s (by simp))]
      simp
  simp only [this]
  cases q with
  | nil => rfl
  | cons s q => simp

theorem served_seg_ne {hss : List (List Handler)} {q : List Str} (h : Served hss q) :
    ∀ s ∈ q, s ≠ [] := by
  rcases h with rfl | ⟨e, he, rfl⟩
  · simp
  · exact allRegs_seg_ne hss e he

theorem plain_all {hss : List (List Handler)} (h : PlainWilds hss) :
    ∀ e ∈ allRegs hss, ∀ s ∈ e.pattern, s ≠ [] ∧ PlainWild s :=
  fun e he s hs => ⟨allRegs_seg_ne hss e he s hs, h e he s hs⟩

theorem table_of_node {hss : List (List Handler)} {root n : Route} {q : List Str}
    (h : registerAll hss newRoot = some root) (hp : PlainWilds hss) (hn : nodeAt q root = some n) :
    tableAt (allRegs hss) q {} = some n.tbl := by
  obtain ⟨-, -, -, h4⟩ := registerAll_obs (P := fun s => s ≠ [] ∧ PlainWild s) hss newRoot root
    (plain_all hp) newRoot_WF h
  have := (h4 (fun s hs => hs.2) rfl q).2
  have hobs : obs root q = (n.isEnd, n.tbl) := by unfold obs; rw [hn]
  rw [hobs, obs_newRoot] at this
  split at this <;> exact this

/-- **C01.** A dispatched request matches the pattern it is dispatched to, segment by segment, and
`ps` are exactly the bindings of that pattern, in pattern order; the handler is the one the
declarations put at that pattern. -/
theorem C01_route_match_sound {hss : List (List Handler)} {root rt : Route} {m path f info : Str}
    {a : RouteAction} {ps : Params}
    (h : registerAll hss newRoot = some root)
    (hd : handle root m path = .dispatch rt a f ps info) :
    ∃ q, Served hss q ∧ Matches (q.map segOf) (pathSegs path) ps ∧ info = renderPattern q ∧
      (PlainWilds hss → ∃ t, tableAt (allRegs hss) q {} = some t ∧
        chooseAction t (toUpper m) = some (a, f)) := by
  unfold handle at hd
  cases hs : selectRoute root path with
  | none => rw [hs] at hd; cases hd
  | some x =>
    obtain ⟨rt', ps'⟩ := x
    rw [hs] at hd
    simp only [] at hd
    cases hc : chooseAction rt'.tbl (toUpper m) with
    | none => rw [hc] at hd; cases hd
    | some y =>
      obtain ⟨a', f'⟩ := y
      rw [hc] at hd
      cases hd
      obtain ⟨q, h1, h2, h3, -⟩ := select_sound h hs
      obtain ⟨hW, hF, -, -⟩ := registerAll_obs (P := (· ≠ [])) hss newRoot root
        (allRegs_seg_ne hss) newRoot_WF h
      have hchain : rt.chain = q := by
        have := (nodeAt_chain hW h3).1
        rw [this, hF.chain]; rfl
      exact ⟨q, h1, h2, calcPath_render hchain (served_seg_ne h1),
        fun hp => ⟨rt.tbl, table_of_node h hp h3, hc⟩⟩

/-- Names of the bindings are the parameter names of the pattern, in order (the `Keys` of
`RouteInfo`). -/
theorem C01_keys {q : List Str} {path : List Str} {ps : Params}
    (h : Matches (q.map segOf) path ps) : (paramValues ps).1 = paramNames q := by
  show ps.map (·.1) = paramNames q
  generalize hq : q.map segOf = ss at h
  induction h generalizing q with
  | nil => cases q <;> simp_all [paramNames]
  | lit h ih =>
    cases q with
    | nil => cases hq
    | cons x q =>
      simp at hq
      simp [paramNames, hq.1]
      exact ih hq.2
  | param h ih =>
    cases q with
    | nil => cases hq
    | cons x q =>
      simp at hq
      have := ih hq.2
      simp [paramNames, hq.1] at this ⊢
      exact this
  | wild =>
    cases q with
    | nil => cases hq
    | cons x q => simp at hq; simp [paramNames, hq.1, hq.2]

/-- The `Values` of `RouteInfo`: the value of a name is the one bound by the **last** parameter of the
pattern with that name (the only one, when names are not repeated), and only the names of the
pattern have a value. -/
theorem C01_values (ps : Params) (k v : Str) :
    (paramValues ps).2 k = some v ↔
      ∃ pre post, ps = pre ++ (k, v) :: post ∧ ∀ w, (k, w) ∉ post := by
  show ps.reverse.lookup k = some v ↔ _
  have key : ∀ l : Params, l.lookup k = some v ↔
      ∃ pre post, l = pre ++ (k, v) :: post ∧ ∀ w, (k, w) ∉ pre := by
    intro l
    induction l with
    | nil => simp
    | cons x l ih =>
      obtain ⟨a, b⟩ := x
      by_cases ha : k = a
      · subst ha
        rw [List.lookup_cons_self]
        constructor
        · intro h; cases h; exact ⟨[], l, rfl, by simp⟩
        · rintro ⟨pre, post, h, hn⟩
          cases pre with
          | nil => simp at h; rw [h.1]
          | cons y pre =>
            simp at h
            exact absurd (List.mem_cons.2 (Or.inl (by rw [← h.1]))) (hn b)
      · have hk : (k == a) = false := by simpa using ha
        rw [List.lookup_cons, hk, ih]
        constructor
        · rintro ⟨pre, post, h, hn⟩
          refine ⟨(a, b) :: pre, post, by rw [h]; rfl, ?_⟩
          intro w hw
          rcases List.mem_cons.1 hw with h | h
          · cases h; exact ha rfl
          · exact hn w h
        · rintro ⟨pre, post, h, hn⟩
          cases pre with
          | nil => simp at h; exact absurd h.1.1.symm ha
          | cons y pre =>
            simp at h
            exact ⟨pre, post, h.2, fun w hw => hn w (List.mem_cons_of_mem _ hw)⟩
  rw [key]
  constructor
  · rintro ⟨pre, post, h, hn⟩
    refine ⟨post.reverse, pre.reverse, ?_, fun w hw => hn w (by simpa using hw)⟩
    have := congrArg List.reverse h
    simpa using this
  · rintro ⟨pre, post, h, hn⟩
    refine ⟨post.reverse, pre.reverse, by rw [h]; simp, fun w hw => hn w (by simpa using hw)⟩

example : (paramValues [(b!"id", b!"1"), (b!"x", b!"2"), (b!"id", b!"3")]).2 b!"id" = some b!"3" := by
  decide +kernel

/-- Matching is deterministic: a pattern binds the parameters of a path in only one way. -/
theorem C01_params_unique {ss : List Seg} {path : List Str} {ps ps' : Params}
    (h : Matches ss path ps) (h' : Matches ss path ps') : ps = ps' := by
  induction h generalizing ps' with
  | nil => cases h'; rfl
  | lit h ih => cases h' with | lit h2 => exact ih h2
  | @param n v x ss xs ps hm ih =>
    generalize hx : x ++ v = y at h'
    cases h' with
    | param h2 =>
      have := List.append_cancel_right hx
      rw [ih h2, this]
  | wild => cases h'; rfl

-- non-vacuity: a real dispatch through a custom verb and through the wildcard
example : Ex.show_ (handle Ex.root b!"get" b!"//users/./7:edit/") =
    some ⟨4, [(b!"id", b!"7")], b!"/users/:id:edit", [1, 2]⟩ := by decide +kernel
example : Ex.show_ (handle Ex.root b!"HEAD" b!"/static/js/x.js") =
    some ⟨5, [(b!"path", b!"js/x.js")], b!"/static/*:path", [1]⟩ := by decide +kernel
example : Ex.show_ (handle Ex.root b!"GET" b!"/users/7/posts") =
    some ⟨3, [(b!"id", b!"7")], b!"/users/:id/posts", [2]⟩ := by decide +kernel

/-! ## C02 -/

/-- The full statement of C02 for one application. -/
def RouteComplete (hss : List (List Handler)) (root : Route) : Prop :=
  ∀ path q ps, Served hss q → Matches (q.map segOf) (pathSegs path) ps →
    ∃ x, selectRoute root path = some x

/-- **C02 is false of the code**: with `/a/b/c` and `/:x/b` registered, `/a/b` is matched by `/:x/b`
but is answered by the not-found handlers, because the literal nodes `a`, `b` (a proper prefix of a
registered pattern, not itself registered) stop the search (router.go:234-245). -/
theorem C02_route_completeness_violated :
    ∃ hss root, registerAll hss newRoot = some root ∧ PlainWilds hss ∧ ¬ RouteComplete hss root := by
  refine ⟨Ex.deadEnd, Ex.deadRoot, Ex.deadAccepted, ?_, ?_⟩
  · have : ∀ e ∈ allRegs Ex.deadEnd, ∀ s ∈ e.pattern, (match segOf s with
        | .wild n => decide (s = 42 :: 58 :: n) | _ => true) = true := by decide +kernel
    intro e he s hs n hn
    have := this e he s hs
    rw [hn] at this
    simpa using this
  · intro hc
    have hserved : ∃ e ∈ allRegs Ex.deadEnd, e.pattern = [b!":x", b!"b"] := by decide +kernel
    have hpath : pathSegs b!"/a/b" = [b!"a", b!"b"] := by decide +kernel
    have hseg : [b!":x", b!"b"].map segOf = [.param b!"x" [], .lit b!"b"] := by decide +kernel
    obtain ⟨x, hx⟩ := hc b!"/a/b" [b!":x", b!"b"] [(b!"x", b!"a")] (Or.inr hserved)
      (by rw [hpath, hseg]; exact List.append_nil b!"a" ▸ Matches.param (v := []) (Matches.lit Matches.nil))
    have : (selectRoute Ex.deadRoot b!"/a/b").isSome = false := by decide +kernel
    rw [hx] at this
    cases this

/-- No unregistered proper prefix of a declared pattern matches the whole path. -/
def NoDeadEnd (hss : List (List Handler)) (path : List Str) : Prop :=
  ∀ q, q ≠ [] → (∃ e ∈ allRegs hss, q <+: e.pattern) → (∃ ps, Matches (q.map segOf) path ps) →
    Served hss q

theorem deadFree_of {hss : List (List Handler)} {root : Route} {path : List Str}
    (h : registerAll hss newRoot = some root) (hp : PlainWilds hss) (hn : NoDeadEnd hss path) :
    DeadFree root path := by
  intro q n ps hq hnode hm
  obtain ⟨-, -, -, h4⟩ := registerAll_obs (P := fun s => s ≠ [] ∧ PlainWild s) hss newRoot root
    (plain_all hp) newRoot_WF h
  have hs := hn q hq (node_declared h hnode hq) ⟨ps, hm⟩
  have := ((h4 (fun s hs => hs.2) rfl q).1).2
    (by rcases hs with h | h
        · exact absurd h hq
        · exact Or.inr h)
  unfold obs at this
  rw [hnode] at this
  exact this

theorem served_node {hss : List (List Handler)} {root : Route} {q : List Str}
    (h : registerAll hss newRoot = some root) (hp : PlainWilds hss) (hs : Served hss q) :
    ∃ n, nodeAt q root = some n ∧ n.isEnd = true := by
  obtain ⟨-, hF, -, h4⟩ := registerAll_obs (P := fun s => s ≠ [] ∧ PlainWild s) hss newRoot root
    (plain_all hp) newRoot_WF h
  by_cases hq : q = []
  · subst hq; exact ⟨root, rfl, by rw [hF.isEnd]; rfl⟩
  have := ((h4 (fun s hs => hs.2) rfl q).1).2
    (by rcases hs with h | h
        · exact absurd h hq
        · exact Or.inr h)
  unfold obs at this
  cases hn : nodeAt q root with
  | none => rw [hn] at this; simp at this
  | some n => rw [hn] at this; exact ⟨n, rfl, this⟩

/-- **C02 (partial).** If some registered pattern matches the path and the path is not a dead end,
the request is dispatched to a registered route. Missing with respect to the full property: paths that
an unregistered proper prefix of a registered pattern matches completely. -/
theorem C02_route_completeness_partial {hss : List (List Handler)} {root : Route} {path : Str}
    {q : List Str} {ps : Params}
    (h : registerAll hss newRoot = some root) (hp : PlainWilds hss)
    (hn : NoDeadEnd hss (pathSegs path))
    (hs : Served hss q) (hm : Matches (q.map segOf) (pathSegs path) ps) :
    ∃ x, selectRoute root path = some x := by
  unfold selectRoute
  simp only [splitRoutePath_head]
  split
  · exact ⟨_, rfl⟩
  · rename_i hne
    obtain ⟨n, h1, h2⟩ := served_node h hp hs
    have hq : q ≠ [] := by rintro rfl; exact hne (matches_nil_pat hm)
    obtain ⟨hW, -⟩ := registerAll_obs (P := (· ≠ [])) hss newRoot root (allRegs_seg_ne hss)
      newRoot_WF h
    obtain ⟨rt, ps', q', g1, g2, -⟩ := matchRoute_complete _ root hW (deadFree_of h hp hn) q n ps hq
      h1 h2 hm
    rw [splitRoutePath_eq, if_neg hne, g1]
    simp [g2]

/-! ## C03 -/

/-- **C03 (partial).** The dispatched pattern is at least as preferred as every registered pattern
that matches (literal before verb parameter before plain parameter before wildcard, at the first
segment where they differ). Missing: dead-end paths, as in C02. -/
theorem C03_route_precedence_partial {hss : List (List Handler)} {root rt : Route} {path : Str}
    {ps ps' : Params} {q' : List Str}
    (h : registerAll hss newRoot = some root) (hp : PlainWilds hss)
    (hn : NoDeadEnd hss (pathSegs path))
    (hs' : Served hss q') (hm' : Matches (q'.map segOf) (pathSegs path) ps')
    (hsel : selectRoute root path = some (rt, ps)) :
    ∃ q, Served hss q ∧ Matches (q.map segOf) (pathSegs path) ps ∧ calcPath rt = renderPattern q ∧
      PrecLE q q' := by
  obtain ⟨hW, hF, hobs, -⟩ := registerAll_obs (P := (· ≠ [])) hss newRoot root (allRegs_seg_ne hss)
    newRoot_WF h
  have hsel0 := hsel
  unfold selectRoute at hsel
  simp only [splitRoutePath_head] at hsel
  split at hsel
  · rename_i hnil
    cases hsel
    have : q' = [] := by
      rw [hnil] at hm'
      have := (matches_nil_path hm').1
      simpa using this
    subst this
    rw [hnil]
    exact ⟨[], Or.inl rfl, Matches.nil, calcPath_render (by rw [hF.chain]; rfl) (by simp), trivial⟩
  · rename_i hne
    obtain ⟨n, h1, h2⟩ := served_node h hp hs'
    have hq : q' ≠ [] := by rintro rfl; exact hne (matches_nil_pat hm')
    obtain ⟨rt', ps2, q, g1, g2, g3, g4, g5, g6⟩ :=
      matchRoute_complete _ root hW (deadFree_of h hp hn) q' n ps' hq h1 h2 hm'
    rw [splitRoutePath_eq, if_neg hne, g1] at hsel
    simp [g2] at hsel
    obtain ⟨rfl, rfl⟩ := hsel
    have hserved : Served hss q := by
      have : (obs root q).1 = true := by unfold obs; rw [g3]; exact g2
      rcases hobs q this with h | h
      · rw [obs_newRoot] at h
        split at h
        · rename_i h0; exact Or.inl h0
        · simp at h
      · exact Or.inr h
    refine ⟨q, hserved, g5, calcPath_render ?_ (served_seg_ne hserved), g6⟩
    rw [(nodeAt_chain hW g3).1, hF.chain]; rfl

/-- **C03 is false of the code on dead-end paths**: `/a/b/c`, `/a/:x` and `/*:w` are registered, and
`/a/b` goes to the wildcard although `/a/:x` matches. -/
theorem C03_route_precedence_violated :
    ∃ hss root, registerAll hss newRoot = some root ∧
      (∃ e ∈ allRegs hss, e.pattern = [b!"a", b!":x"]) ∧
      (selectRoute root b!"/a/b").map (fun x => calcPath x.1) = some b!"/*:w" := by
  let hss : List (List Handler) := [[ .router b!"/a/b/c" [Ex.get (Ex.fn 1)],
    .router b!"/a/:x" [Ex.get (Ex.fn 2)], .router b!"/*:w" [Ex.get (Ex.fn 3)] ]]
  refine ⟨hss, (registerAll hss newRoot).getD newRoot, ?_, by decide +kernel, by decide +kernel⟩
  have : (registerAll hss newRoot).isSome = true := by decide +kernel
  cases h : registerAll hss newRoot with
  | none => rw [h] at this; cases this
  | some r => rfl

-- non-vacuity of the hypotheses of C02/C03 on the example application, and a real preference
theorem Ex.plain : PlainWilds Ex.app := by
  have : ∀ e ∈ allRegs Ex.app, ∀ s ∈ e.pattern, (match segOf s with
      | .wild n => decide (s = 42 :: 58 :: n) | _ => true) = true := by decide +kernel
  intro e he s hs n hn
  have := this e he s hs
  rw [hn] at this
  simpa using this

example : ¬ NoDeadEnd Ex.deadEnd [b!"a", b!"b"] := by
  intro h
  have := h [b!"a", b!"b"] (by simp) (by decide +kernel)
    ⟨[], by
      have : [b!"a", b!"b"].map segOf = [.lit b!"a", .lit b!"b"] := by decide +kernel
      rw [this]; exact Matches.lit (Matches.lit Matches.nil)⟩
  rcases this with h | h
  · cases h
  · revert h; decide +kernel

example : NoDeadEnd Ex.app [b!"users", b!"7:edit"] := by
  intro q hq he _
  have hlen : ∀ e ∈ allRegs Ex.app, e.pattern.length < 4 := by decide +kernel
  have : ∀ e ∈ allRegs Ex.app, ∀ k ∈ List.range 5, let q := e.pattern.take k; q ≠ [] → q ≠ [b!"static"] →
      ∃ e' ∈ allRegs Ex.app, e'.pattern = q := by decide +kernel
  obtain ⟨e, he, hpre⟩ := he
  by_cases h : q = [b!"static"]
  · subst h
    rename_i hm
    obtain ⟨ps, hm⟩ := hm
    have hseg : [b!"static"].map segOf = [.lit b!"static"] := by decide +kernel
    rw [hseg] at hm
    cases hm
  · have htake := List.prefix_iff_eq_take.1 hpre
    have := this e he q.length (by
      have := hlen e he
      have := hpre.length_le
      simp; omega)
    simp only [← htake] at this
    exact Or.inr (this hq h)

/-! ## C04 -/

/-- **C04a.** Every segment a path is matched by is non-empty, is neither `.` nor `..`, and contains
no `/`. -/
theorem C04_segments_clean (path : Str) :
    ∀ s ∈ pathSegs path, s ≠ [] ∧ s ≠ b!"." ∧ s ≠ b!".." ∧ (47 : UInt8) ∉ s :=
  cleanComps_ok _

/-- **C04b.** Routing and registration look at a path only through its normal form. -/
theorem C04_depends_on_segments (root : Route) (m p p' : Str) (h : pathSegs p = pathSegs p') :
    handle root m p = handle root m p' ∧
    ∀ fs hs rest r, configNested fs (.router p hs :: rest) r = configNested fs (.router p' hs :: rest) r := by
  have h2 : splitRoutePath p = splitRoutePath p' := by rw [splitRoutePath_eq, splitRoutePath_eq, h]
  constructor
  · unfold handle selectRoute; rw [h2]
  · intro fs hs rest r; rw [configNested_router, configNested_router, h]

/-- **C04c.** A path that normalises to `/` is served by the root route. -/
theorem C04_root {root : Route} {path : Str} (h : pathSegs path = []) :
    selectRoute root path = some (root, []) := by
  unfold selectRoute
  simp only [(splitRoutePath_head path).2 h, if_true]

theorem cleanComps_append (a b : Str) :
    cleanComps (a ++ 47 :: b) = ((splitOn1 47 b).foldl cleanStep (cleanComps a).reverse).reverse := by
  unfold cleanComps
  have : splitOn1 47 (a ++ 47 :: b) = splitOn1 47 a ++ splitOn1 47 b := by
    induction a with
    | nil => simp [splitOn1]
    | cons c cs ih =>
      rw [List.cons_append]
      conv => lhs; unfold splitOn1
      conv => rhs; lhs; unfold splitOn1
      rw [ih]
      split
      · rfl
      · have := splitOn1_ne_nil 47 cs
        cases hs : splitOn1 47 cs with
        | nil => exact absurd hs this
        | cons x xs => rfl
  rw [this, List.foldl_append]
  simp

/-- **C04d.** The normal form obeys the laws of `/`-separated paths: a leading slash, a trailing
slash, a doubled slash and a `.` segment do not matter, `x/..` cancels, and `..` at the root does not
climb. -/
theorem C04_normal_form_laws (a b x : Str) (hx : (47 : UInt8) ∉ x) (hx0 : x ≠ []) (hx1 : x ≠ b!".")
    (hx2 : x ≠ b!"..") :
    cleanComps (47 :: a) = cleanComps a ∧
    cleanComps (a ++ [47]) = cleanComps a ∧
    cleanComps (a ++ 47 :: 47 :: b) = cleanComps (a ++ 47 :: b) ∧
    cleanComps (a ++ 47 :: (b!"./" ++ b)) = cleanComps (a ++ 47 :: b) ∧
    cleanComps (a ++ 47 :: (x ++ b!"/../" ++ b)) = cleanComps (a ++ 47 :: b) ∧
    cleanComps (b!"../" ++ a) = cleanComps a ∧
    cleanComps (a ++ 47 :: x) = cleanComps a ++ [x] := by
  have hdot : ∀ c : Str, splitOn1 47 (46 :: 47 :: c) = b!"." :: splitOn1 47 c := by
    intro c; simp [splitOn1]
  have hdd : ∀ c : Str, splitOn1 47 (46 :: 46 :: 47 :: c) = b!".." :: splitOn1 47 c := by
    intro c; simp [splitOn1]
  refine ⟨cleanComps_slash a, ?_, ?_, ?_, ?_, ?_, ?_⟩
  · rw [cleanComps_append]; simp [splitOn1, cleanStep]
  · rw [cleanComps_append, cleanComps_append]
    simp [splitOn1, cleanStep]
  · rw [cleanComps_append, cleanComps_append]
    simp [hdot, cleanStep]
  · rw [cleanComps_append, cleanComps_append]
    have : splitOn1 47 (x ++ b!"/../" ++ b) = x :: b!".." :: splitOn1 47 b := by
      rw [show x ++ b!"/../" ++ b = x ++ 47 :: (46 :: 46 :: 47 :: b) by simp]
      rw [splitOn1_append_sep _ _ _ hx, hdd]
    rw [this]
    simp [cleanStep, hx0, hx1, hx2]
  · unfold cleanComps
    rw [show b!"../" ++ a = 46 :: 46 :: 47 :: a by rfl, hdd]
    simp [cleanStep]
  · rw [cleanComps_append, splitOn1_of_not_mem _ _ hx]
    simp [cleanStep, hx0, hx1, hx2]

example : pathSegs b!" //users/./7/../8/ " = [b!"users", b!"8"] ∧ pathSegs b!"/../.." = [] := by
  decide +kernel

/-! ## C05 -/

/-- **C05.** Method dispatch on the matched route, stated outright. `t` is the table of the matched
route, `M` the upper-cased method. -/
theorem C05_method_dispatch {root rt : Route} {m path : Str} {ps : Params}
    (hs : selectRoute root path = some (rt, ps)) :
    let M := toUpper m
    -- an exact registration wins
    (∀ a, rt.tbl.get M = some a → handle root m path = .dispatch rt a a.action ps (calcPath rt)) ∧
    (rt.tbl.get M = none →
      -- then All: a function, or a controller with an action named after the method
      (∀ a, rt.tbl.allRoute = some a → (a.ctl.isFunc = true ∨ a.ctl.actionFuncExists (methodAction M) = true) →
        handle root m path = .dispatch rt a (methodAction M) ps (calcPath rt)) ∧
      -- or All with a default action
      (∀ a, rt.tbl.allRoute = some a → a.ctl.isFunc = false →
        a.ctl.actionFuncExists (methodAction M) = false → a.action ≠ [] →
        handle root m path = .dispatch rt a a.action ps (calcPath rt)) ∧
      -- then Any
      ((∀ a, rt.tbl.allRoute = some a → a.ctl.isFunc = false ∧
          a.ctl.actionFuncExists (methodAction M) = false ∧ a.action = []) →
        (∀ b, rt.tbl.anyRoute = some b → (b.ctl.isFunc = true ∨ b.ctl.actionFuncExists b.action = true) →
          handle root m path = .dispatch rt b b.action ps (calcPath rt)) ∧
        -- otherwise not found
        ((∀ b, rt.tbl.anyRoute = some b → b.ctl.isFunc = false ∧ b.ctl.actionFuncExists b.action = false) →
          handle root m path = .notFound))) := by
  intro M
  refine ⟨?_, ?_⟩
  · intro a ha
    simp [handle, hs, chooseAction, M] at *
    simp [ha]
  · intro hg
    refine ⟨?_, ?_, ?_⟩
    · intro a ha hc
      have : (a.ctl.isFunc || a.ctl.actionFuncExists (methodAction M)) = true := by
        rcases hc with h | h <;> simp [h]
      simp only [handle, hs, chooseAction]
      simp only [M] at *
      simp [hg, ha, this]
    · intro a ha h1 h2 h3
      simp only [handle, hs, chooseAction]
      simp only [M] at *
      simp [hg, ha, h1, h2, h3]
    · intro hall
      cases ha : rt.tbl.allRoute with
      | none =>
        constructor
        · intro b hb hc
          have : (b.ctl.isFunc || b.ctl.actionFuncExists b.action) = true := by
            rcases hc with h | h <;> simp [h]
          simp only [M] at *
          simp [handle, hs, chooseAction, hg, ha, hb, this]
        · intro hany
          simp only [M] at *
          cases hb : rt.tbl.anyRoute with
          | none => simp [handle, hs, chooseAction, hg, ha, hb]
          | some b =>
            obtain ⟨h1, h2⟩ := hany b hb
            simp [handle, hs, chooseAction, hg, ha, hb, h1, h2]
      | some a =>
        obtain ⟨g1, g2, g3⟩ := hall a ha
        constructor
        · intro b hb hc
          have : (b.ctl.isFunc || b.ctl.actionFuncExists b.action) = true := by
            rcases hc with h | h <;> simp [h]
          simp only [M] at *
          simp [handle, hs, chooseAction, hg, ha, hb, this, g1, g2, g3]
        · intro hany
          simp only [M] at *
          cases hb : rt.tbl.anyRoute with
          | none => simp [handle, hs, chooseAction, hg, ha, hb, g1, g2, g3]
          | some b =>
            obtain ⟨h1, h2⟩ := hany b hb
            simp [handle, hs, chooseAction, hg, ha, hb, h1, h2, g1, g2, g3]

/-- **C05 (case).** The case of the method never matters. -/
theorem C05_method_case (root : Route) (m m' path : Str) (h : toUpper m = toUpper m') :
    handle root m path = handle root m' path := by
  unfold handle; rw [h]

/-- **C05 (unmatched).** A request that selects no route gets the not-found handlers. -/
theorem C05_unmatched (root : Route) (m path : Str) (h : selectRoute root path = none) :
    handle root m path = .notFound := by
  unfold handle; rw [h]

/-- The exact table entry is the last declaration of the method within one registration. -/
theorem C05_last_declaration_wins {fs : List Filter} {t t' : Table} {pre post : List MethodDecl}
    {d : MethodDecl} (hm : isAll d.method = false) (hm' : isAny d.method = false)
    (hpost : ∀ x ∈ post, x.method ≠ d.method)
    (h : configExact fs t (pre ++ d :: post) = some t') :
    t'.get d.method = some ⟨d.ctl, if d.action = [] then methodAction d.method else d.action,
      fremove (fappend fs d.filters) d.exempts⟩ := by
  have keep : ∀ (l : List MethodDecl) (t t' : Table) (M : Str), (∀ x ∈ l, x.method ≠ M) →
      configExact fs t l = some t' → t'.get M = t.get M := by
    intro l
    induction l with
    | nil => intro t t' M _ h; simp [configExact] at h; subst h; rfl
    | cons x l ih =>
      intro t t' M hx h
      unfold configExact at h
      split at h
      · cases h
      · split at h
        · exact ih _ _ _ (fun y hy => hx y (by simp [hy])) h
        · rw [ih _ _ _ (fun y hy => hx y (by simp [hy])) h]
          have hne : M ≠ x.method := fun e => hx x (by simp) e.symm
          have : (M == x.method) = false := by simpa using hne
          simp [Table.get, Table.set, List.lookup_cons, this, lookup_filter_ne, hne]
  induction pre generalizing t with
  | nil =>
    rw [List.nil_append] at h
    unfold configExact at h
    split at h
    · cases h
    · simp only [hm, hm', Bool.or_self, Bool.false_eq_true, if_false] at h
      rw [keep post _ _ _ hpost h]
      simp [Table.get, Table.set]
  | cons x pre ih =>
    rw [List.cons_append] at h
    unfold configExact at h
    split at h
    · cases h
    · split at h
      · exact ih h
      · exact ih h

example : Ex.show_ (handle Ex.root b!"post" b!"/users") = none ∧
    Ex.show_ (handle Ex.root b!"gEt" b!"/users") = some ⟨1, [], b!"/users", [1, 2]⟩ := by
  decide +kernel

/-! ## C06 -/

/-- Two `Routers` calls registering GET twice. -/
def Ex.reGet : List (List Handler) :=
  [[.router b!"/x" [Ex.get (Ex.fn 1)]], [.router b!"/x" [Ex.get (Ex.fn 2)]]]

/-- **C06 is false of the code**: after GET is registered again, HEAD still runs the old handler. -/
theorem C06_head_follows_get_violated :
    ∃ hss root, registerAll hss newRoot = some root ∧
      Ex.show_ (handle root GET b!"/x") = some ⟨2, [], b!"/x", []⟩ ∧
      Ex.show_ (handle root HEAD b!"/x") = some ⟨1, [], b!"/x", []⟩ := by
  refine ⟨Ex.reGet, (registerAll Ex.reGet newRoot).getD newRoot, ?_, by decide +kernel,
    by decide +kernel⟩
  have : (registerAll Ex.reGet newRoot).isSome = true := by decide +kernel
  cases h : registerAll Ex.reGet newRoot with
  | none => rw [h] at this; cases this
  | some r => rfl

theorem configExact_keep (fs : List Filter) (M : Str) : ∀ (l : List MethodDecl) (t t' : Table),
    (∀ x ∈ l, x.method ≠ M) → configExact fs t l = some t' → t'.get M = t.get M := by
  intro l
  induction l with
  | nil => intro t t' _ h; simp [configExact] at h; subst h; rfl
  | cons x l ih =>
    intro t t' hx h
    unfold configExact at h
    split at h
    · cases h
    · split at h
      · exact ih _ _ (fun y hy => hx y (by simp [hy])) h
      · rw [ih _ _ (fun y hy => hx y (by simp [hy])) h]
        have hne : M ≠ x.method := fun e => hx x (by simp) e.symm
        have : (M == x.method) = false := by simpa using hne
        simp [Table.get, Table.set, List.lookup_cons, this, lookup_filter_ne, hne]

theorem configMethods_get {fs : List Filter} {ms : List MethodDecl} {t t' : Table}
    (h : configMethods fs t ms = some t') :
    ∃ t1, configExact fs t ms = some t1 ∧ ∀ M, t'.get M = (headDefault t1).get M := by
  unfold configMethods at h
  cases h1 : configExact fs t ms with
  | none => rw [h1] at h; cases h
  | some t1 =>
    rw [h1] at h
    simp only [Option.bind_some] at h
    refine ⟨t1, rfl, ?_⟩
    cases h2 : configAllRoute fs (headDefault t1) ms with
    | none => rw [h2] at h; cases h
    | some t2 =>
      rw [h2] at h
      simp only [Option.bind_some] at h
      have e2 : ∀ M, t2.get M = (headDefault t1).get M := by
        intro M
        unfold configAllRoute at h2
        split at h2
        · cases h2; rfl
        · have := of_guard h2; subst this; rfl
      intro M
      rw [← e2]
      unfold configAnyRoute at h
      split at h
      · cases h; rfl
      · have := of_guard h; subst this; rfl

theorem headDefault_get (t : Table) (h : t.get HEAD = none) :
    (headDefault t).get HEAD = t.get GET ∧ (headDefault t).get GET = t.get GET := by
  unfold headDefault
  rw [h]
  cases hg : t.get GET with
  | none => exact ⟨h, hg⟩
  | some a =>
    constructor
    · simp [Table.get, Table.set]
    · have : (GET == HEAD) = false := by decide
      have h2 : GET ≠ HEAD := by decide
      simp only [Table.get, Table.set, List.lookup_cons, this, lookup_filter_ne, h2, if_false]
      exact hg

theorem headDefault_get' (t : Table) {a : RouteAction} (h : t.get HEAD = some a) :
    headDefault t = t := by
  unfold headDefault; rw [h]

/-- **C06 (partial).** If HEAD is never declared for a pattern and GET is declared in at most one
registration of it, HEAD is answered by the GET handler (or by none if there is none). Missing: GET
declared again by a later registration of the same pattern. -/
theorem C06_head_follows_get_partial {es : List Reg} {q : List Str} {t : Table}
    (hhead : ∀ e ∈ es, e.pattern = q → ∀ m ∈ e.methods, m.method ≠ HEAD)
    (hget : ((es.filter (fun e => e.pattern = q)).filter
      (fun e => e.methods.any (fun m => m.method == GET))).length ≤ 1)
    (h : tableAt es q {} = some t) : t.get HEAD = t.get GET := by
  -- strengthen: from any table whose HEAD equals GET, if no GET is to come or HEAD is unset
  have key : ∀ (es : List Reg) (t0 t : Table),
      (∀ e ∈ es, ∀ m ∈ e.methods, m.method ≠ HEAD) → t0.get HEAD = t0.get GET →
      (t0.get HEAD = none ∧ (es.filter
        (fun e => e.methods.any (fun m => m.method == GET))).length ≤ 1 ∨
       es.filter (fun e => e.methods.any (fun m => m.method == GET)) = []) →
      es.foldlM (fun t e => configMethods e.filters t e.methods) t0 = some t →
      t.get HEAD = t.get GET := by
    intro es
    induction es with
    | nil => intro t0 t _ h0 _ h; simp at h; subst h; exact h0
    | cons e es ih =>
      intro t0 t hh h0 hd h
      rw [List.foldlM_cons] at h
      cases h1 : configMethods e.filters t0 e.methods with
      | none => rw [h1] at h; cases h
      | some t1 =>
        rw [h1] at h
        replace h : es.foldlM (fun t e => configMethods e.filters t e.methods) t1 = some t := h
        obtain ⟨tx, hx, hxg⟩ := configMethods_get h1
        have hH : tx.get HEAD = t0.get HEAD :=
          configExact_keep _ _ _ _ _ (hh e (by simp)) hx
        by_cases hG : e.methods.any (fun m => m.method == GET) = true
        · -- this registration declares GET
          rw [List.filter_cons_of_pos (by exact hG)] at hd
          rcases hd with ⟨hnone, hlen⟩ | hd
          · have hes : es.filter (fun e => e.methods.any (fun m => m.method == GET)) = [] := by
              simp at hlen
              exact List.filter_eq_nil_iff.2 (by simpa using hlen)
            have := headDefault_get tx (by rw [hH, hnone])
            refine ih t1 t (fun e he => hh e (by simp [he])) ?_ (Or.inr hes) h
            rw [hxg, hxg, this.1, this.2]
          · cases hd
        · have hGn : ∀ m ∈ e.methods, m.method ≠ GET := by
            intro m hm he
            apply hG
            rw [List.any_eq_true]
            exact ⟨m, hm, by simp [he]⟩
          have hGe : tx.get GET = t0.get GET := configExact_keep _ _ _ _ _ hGn hx
          rw [List.filter_cons_of_neg (by exact hG)] at hd
          have h1' : t1.get HEAD = t1.get GET ∧ t1.get HEAD = t0.get HEAD := by
            rw [hxg, hxg]
            cases hc : tx.get HEAD with
            | none =>
              have := headDefault_get tx hc
              rw [this.1, this.2]
              exact ⟨rfl, by rw [hGe, h0]⟩
            | some a =>
              rw [headDefault_get' tx hc]
              exact ⟨by rw [hH, hGe, h0], hH⟩
          refine ih t1 t (fun e he => hh e (by simp [he])) h1'.1 ?_ h
          rcases hd with ⟨hnone, hlen⟩ | hd
          · exact Or.inl ⟨by rw [h1'.2, hnone], hlen⟩
          · exact Or.inr hd
  unfold tableAt at h
  refine key _ {} t ?_ rfl (Or.inl ⟨rfl, hget⟩) h
  intro e he m hm
  have := List.mem_filter.1 he
  exact hhead e this.1 (by simpa using this.2) m hm

example : ∃ t, tableAt (allRegs Ex.app) [b!"users"] {} = some t ∧ t.get HEAD = t.get GET ∧
    t.get GET ≠ none := by
  have hn : (tableAt (allRegs Ex.app) [b!"users"] {}).any (fun t => (t.get GET).isSome) = true := by
    decide +kernel
  cases h : tableAt (allRegs Ex.app) [b!"users"] {} with
  | none => rw [h] at hn; cases hn
  | some t =>
    rw [h] at hn
    refine ⟨t, rfl, C06_head_follows_get_partial (by decide +kernel) (by decide +kernel) h, ?_⟩
    intro h0; simp [h0] at hn

/-! ## C07 -/

theorem renderPattern_inj {q q' : List Str}
    (h1 : ∀ s ∈ q, s ≠ [] ∧ (47 : UInt8) ∉ s) (h2 : ∀ s ∈ q', s ≠ [] ∧ (47 : UInt8) ∉ s)
    (h : renderPattern q = renderPattern q') : q = q' := by
  have split : ∀ q : List Str, q ≠ [] → (∀ s ∈ q, s ≠ [] ∧ (47 : UInt8) ∉ s) →
      (splitOn1 47 (q.flatMap (fun s => 47 :: s))).tail = q := by
    intro q
    induction q with
    | nil => intro h; exact absurd rfl h
    | cons s q ih =>
      intro _ hq
      simp only [List.flatMap_cons, List.cons_append]
      have : splitOn1 47 (47 :: (s ++ q.flatMap (fun s => 47 :: s))) =
          [] :: splitOn1 47 (s ++ q.flatMap (fun s => 47 :: s)) := by simp [splitOn1]
      rw [this, List.tail_cons]
      cases q with
      | nil => simp; exact splitOn1_of_not_mem _ _ (hq s (by simp)).2
      | cons s2 q =>
        have h3 := ih (by simp) (fun x hx => hq x (by simp [hx]))
        simp only [List.flatMap_cons, List.cons_append] at h3 ⊢
        have h4 : splitOn1 47 (47 :: (s2 ++ q.flatMap (fun s => 47 :: s))) =
          [] :: splitOn1 47 (s2 ++ q.flatMap (fun s => 47 :: s)) := by simp [splitOn1]
        rw [h4, List.tail_cons] at h3
        rw [splitOn1_append_sep _ _ _ (hq s (by simp)).2, h3]
  unfold renderPattern at h
  by_cases hq : q = [] <;> by_cases hq' : q' = []
  · rw [hq, hq']
  · exfalso
    cases q' with
    | nil => exact hq' rfl
    | cons s q' =>
      rw [if_pos hq, if_neg (by simp)] at h
      have := (h2 s (by simp)).1
      cases s with
      | nil => exact this rfl
      | cons c s => simp at h
  · exfalso
    cases q with
    | nil => exact hq rfl
    | cons s q =>
      rw [if_pos hq', if_neg (by simp)] at h
      have := (h1 s (by simp)).1
      cases s with
      | nil => exact this rfl
      | cons c s => simp at h
  · rw [if_neg hq, if_neg hq'] at h
    rw [← split q hq h1, ← split q' hq' h2, h]

theorem regs_seg_ok (hs : List Handler) : ∀ (pre : List Str) (fs : List Filter),
    (∀ s ∈ pre, s ≠ [] ∧ (47 : UInt8) ∉ s) →
    ∀ e ∈ regs pre fs hs, ∀ s ∈ e.pattern, s ≠ [] ∧ (47 : UInt8) ∉ s := by
  induction hs using handlers_ind with
  | nil => intro pre fs _ e he; simp [regs] at he
  | other h rest hn ih => intro pre fs hp e he; rw [regs_other hn] at he; exact ih pre fs hp e he
  | router path hs rest ih1 ih2 =>
    intro pre fs hp e he
    rw [regs_router] at he
    have hp2 : ∀ s ∈ pre ++ pathSegs path, s ≠ [] ∧ (47 : UInt8) ∉ s := by
      intro s hs
      rcases List.mem_append.1 hs with h | h
      · exact hp s h
      · have := cleanComps_ok _ s h; exact ⟨this.1, this.2.2.2⟩
    rcases List.mem_append.1 he with he | he
    · split at he
      · simp at he
      · rcases List.mem_cons.1 he with rfl | he
        · exact hp2
        · exact ih1 _ _ hp2 e he
    · exact ih2 pre fs hp e he

theorem served_seg_ok {hss : List (List Handler)} {q : List Str} (h : Served hss q) :
    ∀ s ∈ q, s ≠ [] ∧ (47 : UInt8) ∉ s := by
  rcases h with rfl | ⟨e, he, rfl⟩
  · simp
  · obtain ⟨hs, _, he⟩ := List.mem_flatMap.1 he
    unfold callRegs at he
    rcases List.mem_cons.1 he with rfl | he
    · simp
    · exact regs_seg_ok hs [] _ (by simp) e he

/-- **C07.** The `Path` reported for a dispatched request is the rendering of exactly one served
pattern, that pattern matches the request, and the report does not depend on the concrete path: any
two requests reported with the same `Path` were dispatched to the same route table. -/
theorem C07_route_info_path {hss : List (List Handler)} {root rt : Route} {m path f info : Str}
    {a : RouteAction} {ps : Params}
    (h : registerAll hss newRoot = some root)
    (hd : handle root m path = .dispatch rt a f ps info) :
    ∃ q, Served hss q ∧ info = renderPattern q ∧ (∃ ps, Matches (q.map segOf) (pathSegs path) ps) ∧
      (∀ q', Served hss q' → info = renderPattern q' → q' = q) := by
  obtain ⟨q, h1, h2, h3, -⟩ := C01_route_match_sound h hd
  refine ⟨q, h1, h3, ⟨ps, h2⟩, ?_⟩
  intro q' hs' he
  exact renderPattern_inj (served_seg_ok hs') (served_seg_ok h1) (he ▸ h3)

example : renderPattern [b!"users", b!":id"] = b!"/users/:id" ∧ renderPattern [] = b!"/" := by decide

/-! ## C08 -/

/-- **C08a.** In an accepted application, parameters at the same position below the same prefix have
the same name. -/
theorem C08_param_names_agree {hss : List (List Handler)} {root : Route}
    (h : registerAll hss newRoot = some root) (hp : PlainWilds hss)
    {pre q1 q2 : List Str} {x y n1 v1 n2 v2 : Str}
    (h1 : Served hss (pre ++ x :: q1)) (h2 : Served hss (pre ++ y :: q2))
    (hx : segOf x = .param n1 v1) (hy : segOf y = .param n2 v2) : n1 = n2 := by
  obtain ⟨hW, -⟩ := registerAll_obs (P := (· ≠ [])) hss newRoot root (allRegs_seg_ne hss)
    newRoot_WF h
  have split : ∀ {z q : List Str} {r n : Route}, nodeAt (z ++ q) r = some n →
      ∃ n', nodeAt z r = some n' ∧ nodeAt q n' = some n := by
    intro z
    induction z with
    | nil => intro q r n hn; exact ⟨r, rfl, hn⟩
    | cons p z ih =>
      intro q r n hn
      simp only [List.cons_append, nodeAt] at hn ⊢
      cases hf : findChild r p with
      | none => rw [hf] at hn; cases hn
      | some c => rw [hf] at hn; exact ih hn
  obtain ⟨a, ha, -⟩ := served_node h hp h1
  obtain ⟨b, hb, -⟩ := served_node h hp h2
  obtain ⟨n, hn, ha⟩ := split ha
  obtain ⟨n', hn', hb⟩ := split hb
  rw [hn] at hn'; cases hn'
  have hWn := (nodeAt_chain hW hn).2
  simp only [nodeAt] at ha hb
  cases hfx : findChild n x with
  | none => rw [hfx] at ha; cases ha
  | some cx =>
  cases hfy : findChild n y with
  | none => rw [hfy] at hb; cases hb
  | some cy =>
  have kx := (findChild_WF hWn hfx).2
  have ky := (findChild_WF hWn hfy).2
  rw [findChild_param hWn hx] at hfx
  rw [findChild_param hWn hy] at hfy
  have mx := List.mem_of_find?_eq_some hfx
  have my := List.mem_of_find?_eq_some hfy
  have sx := set_spec x
  have sy := set_spec y
  rw [hx] at sx
  rw [hy] at sy
  cases hWn with
  | mk _ _ _ _ _ _ names _ _ =>
    have := names cx mx cy my
    rw [kx.pp, ky.pp, sx.2.2.2.1, sy.2.2.2.1] at this
    exact this

/-- **C08b.** Two wildcards at the same position of an accepted application are the same. -/
theorem C08_wild_names_agree {hss : List (List Handler)} {root : Route}
    (h : registerAll hss newRoot = some root) (hp : PlainWilds hss)
    {pre q1 q2 : List Str} {x y n1 n2 : Str}
    (h1 : Served hss (pre ++ x :: q1)) (h2 : Served hss (pre ++ y :: q2))
    (hx : segOf x = .wild n1) (hy : segOf y = .wild n2) : x = y := by
  obtain ⟨hW, -⟩ := registerAll_obs (P := (· ≠ [])) hss newRoot root (allRegs_seg_ne hss)
    newRoot_WF h
  have split : ∀ {z q : List Str} {r n : Route}, nodeAt (z ++ q) r = some n →
      ∃ n', nodeAt z r = some n' ∧ nodeAt q n' = some n := by
    intro z
    induction z with
    | nil => intro q r n hn; exact ⟨r, rfl, hn⟩
    | cons p z ih =>
      intro q r n hn
      simp only [List.cons_append, nodeAt] at hn ⊢
      cases hf : findChild r p with
      | none => rw [hf] at hn; cases hn
      | some c => rw [hf] at hn; exact ih hn
  obtain ⟨a, ha, -⟩ := served_node h hp h1
  obtain ⟨b, hb, -⟩ := served_node h hp h2
  obtain ⟨n, hn, ha⟩ := split ha
  obtain ⟨n', hn', hb⟩ := split hb
  rw [hn] at hn'; cases hn'
  have hWn := (nodeAt_chain hW hn).2
  simp only [nodeAt] at ha hb
  rw [findChild_wild hWn hx] at ha
  rw [findChild_wild hWn hy] at hb
  cases hw : n.wild with
  | none => rw [hw] at ha; cases ha
  | some w =>
    rw [hw] at ha hb
    simp only [] at ha hb
    by_cases e1 : w.pp.path = x <;> by_cases e2 : w.pp.path = y
    · rw [← e1, e2]
    · rw [if_neg e2] at hb; cases hb
    · rw [if_neg e1] at ha; cases ha
    · rw [if_neg e1] at ha; cases ha

theorem configNested_wildLast (hs : List Handler) :
    ∀ (fs : List Filter) (r r' : Route), WF (· ≠ []) r → configNested fs hs r = some r' →
      ∀ path ∈ declPaths hs, ∀ a w b n, pathSegs path = a ++ w :: b → segOf w = .wild n → b = [] := by
  -- insertion fails on an inner wildcard
  have hins : ∀ (k : Route → Option Route)
      (_ : ∀ n n', WF (· ≠ []) n → k n = some n' → WF (· ≠ []) n' ∧ Frame n n')
      (a : List Str) (w : Str) (b : List Str) (n : Str) (r r' : Route),
      segOf w = .wild n → (∀ s ∈ a ++ w :: b, s ≠ []) → WF (· ≠ []) r →
      insertAt k (a ++ w :: b) r = some r' → b = [] := by
    intro k hk a w b n
    induction a with
    | nil =>
      intro r r' hw hP hr h
      obtain ⟨_, _, _, _, _, _, _, _, _, _, _, _, h1, _⟩ := insertAt_step hr (hP w (by simp))
        (fun n n' hn hi => insertAt_WF hk b n n' (fun s hs => hP s (by simp [hs])) hn hi) h
      exact h1 ⟨n, hw⟩
    | cons p a ih =>
      intro r r' hw hP hr h
      rw [List.cons_append] at h
      obtain ⟨rt0, rt, hrt0, hi, _⟩ := insertAt_step hr (hP p (by simp))
        (fun n n' hn hi => insertAt_WF hk (a ++ w :: b) n n' (fun s hs => hP s (by simp at hs ⊢; grind)) hn hi) h
      refine ih rt0 rt hw (fun s hs => hP s (by simp at hs ⊢; grind)) ?_ hi
      rw [hrt0]
      have : WF (· ≠ []) ((findChild r p).getD (newChild r p)) := by
        cases hf : findChild r p with
        | some c => exact (findChild_WF hr hf).1
        | none => exact newChild_WF
      split
      · exact this.setEnd
      · exact this
  induction hs using handlers_ind with
  | nil => intro fs r r' _ _ path hp; simp [declPaths, declPathsOne] at hp
  | other h rest hn ih =>
    intro fs r r' hr h0 path hp
    rw [configNested_other hn] at h0
    have : declPaths (h :: rest) = declPaths rest := by
      cases h with
      | router p hs => exact absurd rfl (hn p hs)
      | _ => simp [declPaths, declPathsOne]
    rw [this] at hp
    exact ih fs r r' hr h0 path hp
  | router path hs rest ih1 ih2 =>
    intro fs r r' hr h0 path' hp'
    have hreg : ∀ (pre : List Str), (∀ s ∈ pre, s ≠ []) → ∀ e ∈ regs pre fs rest, ∀ s ∈ e.pattern, s ≠ [] :=
      fun pre hpre => regs_seg_ne rest pre fs hpre
    rw [configNested_router] at h0
    simp only [declPaths, declPathsOne] at hp'
    split at h0
    · rename_i hnil
      simp only [hnil, if_true, List.nil_append] at hp'
      exact ih2 fs r r' hr h0 path' hp'
    · rename_i hne
      simp only [hne, if_false] at hp'
      cases hi : insertAt (nestK fs hs) (pathSegs path) r with
      | none => rw [hi] at h0; cases h0
      | some r1 =>
        rw [hi] at h0
        have hk : ∀ n n', WF (· ≠ []) n → nestK fs hs n = some n' → WF (· ≠ []) n' ∧ Frame n n' := by
          intro n n' hn hk
          unfold nestK at hk
          cases hm : configMethods (innerFilters fs hs) n.tbl (argMethods hs) with
          | none => rw [hm] at hk; cases hk
          | some t =>
            rw [hm] at hk
            obtain ⟨ha, hb⟩ := configNested_WF hs _ [] (n.setTbl t) n'
              (regs_seg_ne hs [] _ (by simp)) (hn.setTbl t) hk
            exact ⟨ha, by simpa using hb.pp, by simpa using hb.chain, by simpa using hb.isEnd⟩
        have hr1 := (insertAt_WF hk (pathSegs path) r r1 (pathSegs_ne_nil path) hr hi).1
        rcases List.mem_append.1 hp' with hp' | hp'
        · rcases List.mem_cons.1 hp' with rfl | hp'
          · intro a w b n hsp hw
            rw [hsp] at hi
            exact hins _ hk a w b n r r1 hw (hsp ▸ pathSegs_ne_nil path') hr hi
          · obtain ⟨n, n', hkn, hnW, -⟩ := insertAt_obs hk (pathSegs path) r r1 hne
              (pathSegs_ne_nil path) hr hi
            unfold nestK at hkn
            cases hm : configMethods (innerFilters fs hs) n.tbl (argMethods hs) with
            | none => rw [hm] at hkn; cases hkn
            | some t =>
              rw [hm] at hkn
              exact ih1 _ _ _ (hnW.setTbl t) hkn path' hp'
        · exact ih2 fs r1 r' hr1 h0 path' hp'

/-- **C08c.** An accepted application has no `Router` path with a wildcard before its last segment. -/
theorem C08_wild_must_be_last (hss : List (List Handler)) : ∀ {r root : Route},
    WF (· ≠ []) r → registerAll hss r = some root →
    ∀ hs ∈ hss, ∀ path ∈ declPaths hs, ∀ a w b n,
      pathSegs path = a ++ w :: b → segOf w = .wild n → b = [] := by
  induction hss with
  | nil => intro r root _ _ hs hhs; cases hhs
  | cons hs0 hss ih =>
    intro r root hr h hs hhs
    unfold registerAll at h
    cases h1 : routers hs0 r with
    | none => rw [h1] at h; cases h
    | some r1 =>
      rw [h1] at h
      rcases List.mem_cons.1 hhs with rfl | hhs
      · unfold routers configRoutes at h1
        simp only [] at h1
        cases hm : configMethods (fremove (fappend [] (argFilters hs)) (argExempts hs)) r.tbl
            (argMethods hs) with
        | none => rw [hm] at h1; cases h1
        | some t => rw [hm] at h1; exact configNested_wildLast hs _ _ _ (hr.setTbl t) h1
      · have hr1 := (routers_obs hs0 r r1 (fun e he => allRegs_seg_ne [hs0] e (by
          simp [allRegs]; exact he)) hr h1).1
        exact ih hr1 h hs hhs

/-- **C08d (recorded deviation).** A nested `Router` below a wildcard is accepted, but its pattern can
never match anything. -/
theorem C08_below_wild_unreachable (pre : List Seg) (n : Str) (s : Seg) (ss : List Seg)
    (path : List Str) (ps : Params) : ¬ Matches (pre ++ .wild n :: s :: ss) path ps := by
  induction pre generalizing path ps with
  | nil => intro h; cases h
  | cons x pre ih =>
    intro h
    rw [List.cons_append] at h
    generalize hq : pre ++ Seg.wild n :: s :: ss = tl at h
    cases h with
    | lit h => subst hq; exact ih _ _ h
    | param h => subst hq; exact ih _ _ h
    | wild => simp at hq

-- a conflict is really rejected, and the invariant is about applications that exist
example : (registerAll [[.router b!"/:a" [], .router b!"/:b" []]] newRoot).isSome = false ∧
    (registerAll [[.router b!"/*:a/x" []]] newRoot).isSome = false ∧
    (registerAll [[.router b!"/*:a" [.router b!"x" []]]] newRoot).isSome = true ∧
    (registerAll Ex.app newRoot).isSome = true := by decide +kernel

/-! ## C09 -/

/-- **C09 (partial).** The route tree built by any sequence of `Routers` calls holds exactly the
declared patterns (and the root), each with the table obtained by applying its own registrations in
order; in particular nothing declared is lost and nothing else is served. Missing: wildcards with a
verb (`*:name:verb`), which replace an existing wildcard (see `C09_cumulative_violated`). -/
theorem C09_registration_cumulative_partial {hss : List (List Handler)} {root : Route}
    (h : registerAll hss newRoot = some root) (hp : PlainWilds hss) (q : List Str) :
    (Served hss q ↔ ∃ n, nodeAt q root = some n ∧ n.isEnd = true) ∧
    (∀ n, nodeAt q root = some n → tableAt (allRegs hss) q {} = some n.tbl) := by
  refine ⟨⟨served_node h hp, ?_⟩, fun n hn => table_of_node h hp hn⟩
  rintro ⟨n, hn, hE⟩
  obtain ⟨-, -, h3, -⟩ := registerAll_obs (P := (· ≠ [])) hss newRoot root (allRegs_seg_ne hss)
    newRoot_WF h
  have : (obs root q).1 = true := by unfold obs; rw [hn]; exact hE
  rcases h3 q this with h | h
  · rw [obs_newRoot] at h
    split at h
    · rename_i h0; exact Or.inl h0
    · simp at h
  · exact Or.inr h

/-- The registrations of a pattern do not interfere: its table is determined by its own
registrations alone. -/
theorem C09_table_local (es es' : List Reg) (q : List Str) (t : Table)
    (h : es.filter (fun e => e.pattern = q) = es'.filter (fun e => e.pattern = q)) :
    tableAt es q t = tableAt es' q t := by
  unfold tableAt; rw [h]

/-- **C09 is false of the code** for wildcards with a verb: registering `/*:x:v` after `/*:x` drops
the earlier route (router.go:411-420 compares names only and overwrites `wildRoute`). -/
theorem C09_cumulative_violated :
    ∃ hss root, registerAll hss newRoot = some root ∧ Served hss [b!"*:x"] ∧
      (nodeAt [b!"*:x"] root).isSome = false := by
  let hss : List (List Handler) :=
    [[.router b!"/*:x" [Ex.get (Ex.fn 1)]], [.router b!"/*:x:v" [Ex.get (Ex.fn 2)]]]
  refine ⟨hss, (registerAll hss newRoot).getD newRoot, ?_, Or.inr (by decide +kernel),
    by decide +kernel⟩
  have : (registerAll hss newRoot).isSome = true := by decide +kernel
  cases h : registerAll hss newRoot with
  | none => rw [h] at this; cases this
  | some r => rfl

/-- `Router` accepts every path except the blank and the single slash (after trimming white space):
those two panic. -/
theorem C08_router_path_checked (path : Str) (hs : List Handler) :
    (mkRouter path hs = none ↔ trimSpace path = [] ∨ trimSpace path = [47]) ∧
    (∀ h, mkRouter path hs = some h → h = .router (trimSpace path) hs) := by
  constructor
  · show (if trimSpace path = [] ∨ trimSpace path = [47] then none else _) = none ↔ _
    by_cases h : trimSpace path = [] ∨ trimSpace path = [47]
    · rw [if_pos h]; simp [h]
    · rw [if_neg h]; simp [h]
  · intro h
    show (if trimSpace path = [] ∨ trimSpace path = [47] then none else _) = some h → _
    by_cases h0 : trimSpace path = [] ∨ trimSpace path = [47]
    · rw [if_pos h0]; simp
    · rw [if_neg h0]; simp; exact fun h => h.symm

/-- **C09 is false of the code** for nested routers whose path normalises to the root without being
`""` or `"/"`: `Router("//", Get(...), Router("/a", ...))` is accepted, but it and everything nested
below it are silently dropped (router.go:360-366 `continue`). -/
theorem C09_rootlike_router_dropped_violated :
    ∃ (h : Handler) (root : Route),
      mkRouter b!"//" [Ex.get (Ex.fn 1), .router b!"/a" [Ex.get (Ex.fn 2)]] = some h ∧
      registerAll [[h]] newRoot = some root ∧
      (∀ m path, handle root m path = .notFound) := by
  refine ⟨.router b!"//" [Ex.get (Ex.fn 1), .router b!"/a" [Ex.get (Ex.fn 2)]],
    (registerAll [[.router b!"//" [Ex.get (Ex.fn 1), .router b!"/a" [Ex.get (Ex.fn 2)]]]]
      newRoot).getD newRoot, ?_, ?_, ?_⟩
  · have h1 : trimSpace b!"//" = b!"//" := by decide +kernel
    show (if trimSpace b!"//" = [] ∨ trimSpace b!"//" = [47] then none
      else some (Handler.router (trimSpace b!"//") _)) = _
    rw [h1, if_neg (by decide +kernel)]
  · rfl
  · intro m path
    have hr : (registerAll [[.router b!"//" [Ex.get (Ex.fn 1), .router b!"/a" [Ex.get (Ex.fn 2)]]]]
      newRoot).getD newRoot = newRoot := by rfl
    rw [hr]
    unfold handle
    cases hs : selectRoute newRoot path with
    | none => rfl
    | some x =>
      obtain ⟨rt, ps⟩ := x
      have hsel : rt = newRoot := by
        obtain ⟨q, h1, h2, h3, -⟩ := select_sound (hss := []) (root := newRoot) rfl hs
        rcases h1 with h | ⟨e, he, -⟩
        · subst h; simpa [nodeAt] using h3.symm
        · cases he
      rw [hsel]
      rfl

example : Served Ex.app [b!"users", b!":id", b!"posts"] :=
  Or.inr (by decide +kernel)

/-! ## C10 -/

/-- **C10.** The filters a dispatched action runs: there is a method declaration `d` of the
application, declared at a pattern matching the request below levels `ls` (the enclosing routers,
outermost first, followed by the declaration itself), such that a filter runs iff it is in force after
those levels; none runs twice, and they run outermost first in declaration order. -/
theorem C10_filter_inheritance {hss : List (List Handler)} {root rt : Route} {m path f info : Str}
    {a : RouteAction} {ps : Params}
    (h : registerAll hss newRoot = some root) (hp : PlainWilds hss)
    (hd : handle root m path = .dispatch rt a f ps info) :
    ∃ q ls d, (q, ls, d) ∈ allDeclsL hss ∧ info = renderPattern q ∧ a.ctl = d.ctl ∧
      (∀ x, x ∈ a.filters ↔ InForce (ls ++ [Spec.MethodDecl.level d]) x) ∧
      a.filters.Nodup ∧
      a.filters.Sublist ((ls ++ [Spec.MethodDecl.level d]).flatMap (·.own)) := by
  obtain ⟨q, h1, h2, h3, h4⟩ := C01_route_match_sound h hd
  obtain ⟨t, ht, hc⟩ := h4 hp
  have hQ := tableAt_all (Q := fun a => ∃ ls d, (q, ls, d) ∈ allDeclsL hss ∧
      a.ctl = d.ctl ∧ a.filters = filtersOf (ls ++ [Spec.MethodDecl.level d])) (allRegs hss) q {} t
    ⟨by simp, by simp, by simp⟩ (by
      intro e he heq m hm a ha
      obtain ⟨ls, g1, g2⟩ := allRegs_levels hss e he m hm
      refine ⟨ls, m, heq ▸ g1, ha.1, ?_⟩
      rw [ha.2, method_step, filtersOf_snoc, g2]) ht
  obtain ⟨ls, d, g1, g2, g3⟩ := chooseAction_all hQ hc
  refine ⟨q, ls, d, g1, h3, g2, ?_, ?_, ?_⟩
  · intro x
    rw [g3]
    unfold filtersOf
    rw [mem_foldl_levels]
    simp
  · rw [g3]; exact nodup_foldl_levels _ [] (by simp)
  · rw [g3]
    simpa [filtersOf] using sublist_foldl_levels (ls ++ [Spec.MethodDecl.level d]) []

-- a filter exempted by an inner router is not in force there, but is elsewhere
example : Ex.show_ (handle Ex.root b!"GET" b!"/users/7") =
    some ⟨2, [(b!"id", b!"7")], b!"/users/:id", [2]⟩ := by decide +kernel
example : InForce [⟨[1], []⟩, ⟨[2], []⟩] 1 ∧ ¬ InForce [⟨[1], []⟩, ⟨[2], [1]⟩] 1 := by
  simp [InForce]

end Verif.Router
