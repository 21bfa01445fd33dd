import Verif.Props.RouterFindSpec
import Verif.Proofs.RouterMatch
/-! Helper lemmas: the route tree represents the flat list of registrations. -/
namespace Verif.Router
open Verif.Go Spec

/-- the registrations with one more segment in front -/
def pre1 (p : Str) (ks : List Reg) : List Reg := ks.map fun e => { e with pattern := p :: e.pattern }

theorem beneath_append (s : Str) (a b : List Reg) : beneath s (a ++ b) = beneath s a ++ beneath s b := by
  simp [beneath]

theorem beneath_pre1_same (p : Str) (ks : List Reg) : beneath p (pre1 p ks) = ks := by
  induction ks with
  | nil => rfl
  | cons e ks ih =>
    have : beneath p (pre1 p (e :: ks)) = e :: beneath p (pre1 p ks) := by simp [beneath, pre1]
    rw [this, ih]

theorem beneath_pre1_ne {s p : Str} (h : s ≠ p) (ks : List Reg) : beneath s (pre1 p ks) = [] := by
  induction ks with
  | nil => rfl
  | cons e ks ih =>
    have h' : ¬ p = s := fun e => h e.symm
    have : beneath s (pre1 p (e :: ks)) = beneath s (pre1 p ks) := by simp [beneath, pre1, h']
    rw [this, ih]

theorem here_append (a b : List Reg) : here (a ++ b) = here a ++ here b := by simp [here]

theorem here_pre1 (p : Str) (ks : List Reg) : here (pre1 p ks) = [] := by
  simp [here, pre1]

theorem tableAt_pre1 (es : List Reg) (p : Str) (ks : List Reg) (t : Table) :
    tableAt (es ++ pre1 p ks) [] t = tableAt es [] t := by
  have : ∀ t, tableAt (pre1 p ks) [] t = some t := fun t => tableAt_nomatch _ _ _ (by simp [pre1])
  rw [tableAt_append]
  cases tableAt es [] t with
  | none => rfl
  | some t => exact this t

/-- one step of `wildIn` -/
def wildStep (cur : Option (Str × List Reg)) (e : Reg) : Option (Str × List Reg) :=
  match e.pattern with
    | [] => cur
    | s :: q =>
      if isWildSeg s then
        match cur with
        | some (w, l) => if w = s then some (w, l ++ [{ e with pattern := q }]) else some (s, [{ e with pattern := q }])
        | none => some (s, [{ e with pattern := q }])
      else cur

theorem wildIn_append (a b : List Reg) : wildIn (a ++ b) = b.foldl wildStep (wildIn a) := by
  show (a ++ b).foldl wildStep none = b.foldl wildStep (a.foldl wildStep none)
  rw [List.foldl_append]

theorem wildFold_not {p : Str} (h : isWildSeg p = false) (ks : List Reg) (cur : Option (Str × List Reg)) :
    (pre1 p ks).foldl wildStep cur = cur := by
  induction ks with
  | nil => rfl
  | cons e ks ih =>
    show (pre1 p ks).foldl wildStep (wildStep cur { e with pattern := p :: e.pattern }) = _
    have : wildStep cur { e with pattern := p :: e.pattern } = cur := by
      show (if isWildSeg p then _ else cur) = cur
      rw [if_neg (by simp [h])]
    rw [this]; exact ih

theorem wildFold_same {p : Str} (h : isWildSeg p = true) (ks : List Reg) : ∀ (l : List Reg),
    (pre1 p ks).foldl wildStep (some (p, l)) = some (p, l ++ ks) := by
  induction ks with
  | nil => intro l; simp [pre1]
  | cons e ks ih =>
    intro l
    show (pre1 p ks).foldl wildStep (wildStep (some (p, l)) { e with pattern := p :: e.pattern }) = _
    have : wildStep (some (p, l)) { e with pattern := p :: e.pattern } = some (p, l ++ [e]) := by
      show (if isWildSeg p then (if p = p then _ else _) else _) = _
      rw [if_pos h, if_pos rfl]
    rw [this, ih]; simp

theorem wildFold_new {p : Str} (h : isWildSeg p = true) (e : Reg) (ks : List Reg) (cur : Option (Str × List Reg))
    (hc : ∀ l, cur ≠ some (p, l)) :
    (pre1 p (e :: ks)).foldl wildStep cur = some (p, e :: ks) := by
  show (pre1 p ks).foldl wildStep (wildStep cur { e with pattern := p :: e.pattern }) = _
  have : wildStep cur { e with pattern := p :: e.pattern } = some (p, [e]) := by
    cases cur with
    | none => show (if isWildSeg p then _ else _) = _; rw [if_pos h]
    | some x =>
      obtain ⟨w, l⟩ := x
      have : ¬ w = p := by rintro rfl; exact hc l rfl
      show (if isWildSeg p then (if w = p then _ else _) else _) = _
      rw [if_pos h, if_neg this]
  rw [this, wildFold_same h]; rfl

theorem distinct_snoc (l : List Str) (s : Str) : distinct (l ++ [s]) = if s ∈ distinct l then distinct l else distinct l ++ [s] := by
  show (l ++ [s]).foldl _ _ = _
  rw [List.foldl_append]; rfl

theorem distinct_append_same (l : List Str) (s : Str) (n : Nat) (h : s ∈ distinct l) :
    distinct (l ++ List.replicate n s) = distinct l := by
  induction n with
  | zero => simp
  | succ n ih =>
    rw [List.replicate_succ', ← List.append_assoc, distinct_snoc, ih, if_pos h]

theorem distinct_append_new (l : List Str) (s : Str) (n : Nat) (h : s ∉ distinct l) :
    distinct (l ++ List.replicate (n + 1) s) = distinct l ++ [s] := by
  induction n with
  | zero => simp [distinct_snoc, h]
  | succ n ih => rw [List.replicate_succ', ← List.append_assoc, distinct_snoc, ih]; simp

theorem heads_pre1 (p : Str) (ks : List Reg) : (pre1 p ks).filterMap (fun e => e.pattern.head?) = List.replicate ks.length p := by
  induction ks with
  | nil => rfl
  | cons e ks ih =>
    show p :: (pre1 p ks).filterMap (fun e => e.pattern.head?) = _
    rw [ih]; rfl

theorem declared_not {p : Str} (h : isParamSeg p = false) (es ks : List Reg) :
    paramsDeclared (es ++ pre1 p ks) = paramsDeclared es := by
  unfold paramsDeclared
  rw [List.filterMap_append, heads_pre1, List.filter_append]
  have : (List.replicate ks.length p).filter isParamSeg = [] := by
    rw [List.filter_eq_nil_iff]
    intro x hx; rw [List.eq_of_mem_replicate hx]; simp [h]
  rw [this, List.append_nil]

theorem filter_replicate_pos {p : Str} (h : isParamSeg p = true) (n : Nat) : (List.replicate n p).filter isParamSeg = List.replicate n p := by
  rw [List.filter_eq_self]
  intro x hx; rw [List.eq_of_mem_replicate hx]; exact h

theorem declared_old {p : Str} (h : isParamSeg p = true) (es ks : List Reg) (hm : p ∈ paramsDeclared es) :
    paramsDeclared (es ++ pre1 p ks) = paramsDeclared es := by
  unfold paramsDeclared at *
  rw [List.filterMap_append, heads_pre1, List.filter_append, filter_replicate_pos h, distinct_append_same _ _ _ hm]

theorem declared_new {p : Str} (h : isParamSeg p = true) (es : List Reg) (k : Reg) (ks : List Reg) (hm : p ∉ paramsDeclared es) :
    paramsDeclared (es ++ pre1 p (k :: ks)) = paramsDeclared es ++ [p] := by
  unfold paramsDeclared at *
  rw [List.filterMap_append, heads_pre1, List.filter_append, filter_replicate_pos h, List.length_cons, distinct_append_new _ _ _ hm]

theorem mem_paramHeads (es : List Reg) (s : Str) : s ∈ paramHeads es ↔ s ∈ paramsDeclared es := by
  unfold paramHeads
  simp only [List.mem_append, List.mem_reverse, List.mem_filter]
  cases hasVerb s <;> simp

theorem declared_nil : paramsDeclared [] = [] := rfl

theorem heads_new_verb {p : Str} (h : isParamSeg p = true) (hv : hasVerb p = true) (es : List Reg) (k : Reg) (ks : List Reg)
    (hm : p ∉ paramsDeclared es) : paramHeads (es ++ pre1 p (k :: ks)) = p :: paramHeads es := by
  unfold paramHeads
  rw [declared_new h es k ks hm, List.filter_append, List.filter_append]
  simp [hv]

theorem heads_new_plain {p : Str} (h : isParamSeg p = true) (hv : hasVerb p = false) (es : List Reg) (k : Reg) (ks : List Reg)
    (hm : p ∉ paramsDeclared es) : paramHeads (es ++ pre1 p (k :: ks)) = paramHeads es ++ [p] := by
  unfold paramHeads
  rw [declared_new h es k ks hm, List.filter_append, List.filter_append]
  simp [hv]

/-- `r` is the tree of the registrations `es` (relative to `r`). -/
inductive Rep : List Reg → Route → Prop
  | mk {es : List Reg} {r : Route}
    (tbl : tableAt es [] {} = some r.tbl)
    (litNone : ∀ p, isLitSeg p = true → (litLookup r p = none ↔ beneath p es = []))
    (litEnd : ∀ p c, litLookup r p = some c → (c.isEnd = true ↔ here (beneath p es) ≠ []))
    (litRep : ∀ p c, litLookup r p = some c → Rep (beneath p es) c)
    (par : r.params.map (·.pp.path) = paramHeads es)
    (parEnd : ∀ c ∈ r.params, (c.isEnd = true ↔ here (beneath c.pp.path es) ≠ []))
    (parRep : ∀ c ∈ r.params, Rep (beneath c.pp.path es) c)
    (wil : r.wild.map (·.pp.path) = (wildIn es).map (·.1))
    (wilRep : ∀ w l, r.wild = some w → wildIn es = some (w.pp.path, l) → Rep l w) :
    Rep es r

theorem Rep.setEnd {es : List Reg} {r : Route} (h : Rep es r) : Rep es r.setEnd := by
  cases h with
  | mk tbl litNone litEnd litRep par parEnd parRep wil wilRep =>
    constructor <;> simpa

theorem Rep.setTbl {es es' : List Reg} {r : Route} {t : Table} (h : Rep es r) (ht : tableAt (es ++ es') [] {} = some t)
    (he : ∀ e ∈ es', e.pattern = []) : Rep (es ++ es') (r.setTbl t) := by
  have hb : ∀ s, beneath s es' = [] := by
    intro s
    unfold beneath
    rw [List.filterMap_eq_nil_iff]
    intro e hm; rw [he e hm]
  have hw : ∀ cur, es'.foldl wildStep cur = cur := by
    clear ht hb h
    induction es' with
    | nil => intro cur; rfl
    | cons e es' ih =>
      intro cur
      show es'.foldl wildStep (wildStep cur e) = cur
      rw [ih (fun e h => he e (List.mem_cons_of_mem _ h))]
      unfold wildStep; rw [he e (by simp)]
  have hd : paramHeads (es ++ es') = paramHeads es := by
    have : es'.filterMap (fun e => e.pattern.head?) = [] := by
      rw [List.filterMap_eq_nil_iff]; intro e hm; rw [he e hm]; rfl
    unfold paramHeads paramsDeclared
    rw [List.filterMap_append, this, List.append_nil]
  cases h with
  | mk tbl litNone litEnd litRep par parEnd parRep wil wilRep =>
    constructor <;> simp only [litLookup_setTbl, Route.setTbl_params, Route.setTbl_wild, Route.setTbl_tbl, beneath_append, hb, List.append_nil, hd, wildIn_append, hw]
    · exact ht
    all_goals assumption

theorem Rep.newChild {r : Route} {p : Str} : Rep [] (newChild r p) := by
  constructor
  · rfl
  · intro q _; simp [litLookup, beneath]
  · intro q c h; simp [litLookup] at h
  · intro q c h; simp [litLookup] at h
  · simp [paramHeads, declared_nil]
  · simp
  · simp
  · simp [wildIn]
  · simp

theorem Rep.newRoot : Rep [] newRoot := by
  constructor <;> simp [litLookup, Verif.Router.newRoot, Route.lits, Route.params, Route.wild, Route.tbl, beneath, paramHeads, declared_nil, wildIn, tableAt]

theorem seg_cases (p : Str) : (isLitSeg p = true ∧ isParamSeg p = false ∧ isWildSeg p = false) ∨
    (isLitSeg p = false ∧ isParamSeg p = true ∧ isWildSeg p = false) ∨ (isLitSeg p = false ∧ isParamSeg p = false ∧ isWildSeg p = true) := by
  unfold isLitSeg isParamSeg isWildSeg
  cases segOf p <;> simp

theorem isLit_iff (p : Str) : isLitSeg p = true ↔ ∃ s, segOf p = .lit s := by
  unfold isLitSeg; cases segOf p <;> simp
theorem isParam_iff (p : Str) : isParamSeg p = true ↔ ∃ n v, segOf p = .param n v := by
  unfold isParamSeg; cases segOf p <;> simp
theorem isWild_iff (p : Str) : isWildSeg p = true ↔ ∃ n, segOf p = .wild n := by
  unfold isWildSeg; cases segOf p <;> simp

theorem set_flags (p : Str) : (PathParam.set p).isParam = isParamSeg p ∧ (isParamSeg p = false → (PathParam.set p).isWild = isWildSeg p) ∧
    (isLitSeg p = false → (PathParam.set p).paramName = nameOfSeg p) ∧ (isParamSeg p = true → (decide ((PathParam.set p).customVerb ≠ []) = hasVerb p)) := by
  have h := set_spec p
  unfold isParamSeg isWildSeg isLitSeg nameOfSeg hasVerb
  cases hs : segOf p with
  | lit s => rw [hs] at h; simp [h]
  | param n v => rw [hs] at h; simp [h]
  | wild n => rw [hs] at h; simp [h]

/-! ### insertion -/

variable {P : Str → Prop}

theorem WF.parPP {r c : Route} (h : WF P r) (hc : c ∈ r.params) : c.pp = PathParam.set c.pp.path ∧ isParamSeg c.pp.path = true := by
  cases h with
  | mk lit litWF par parWF wil wilWF names nodup sorted =>
    obtain ⟨⟨n, v, h1⟩, h2⟩ := par c hc
    exact ⟨h2.pp, (isParam_iff _).2 ⟨n, v, h1⟩⟩

theorem WF.wilPP {r w : Route} (h : WF P r) (hw : r.wild = some w) : w.pp = PathParam.set w.pp.path ∧ isWildSeg w.pp.path = true ∧ w.isEnd = true := by
  cases h with
  | mk lit litWF par parWF wil wilWF names nodup sorted =>
    obtain ⟨⟨n, h1⟩, h2, h3⟩ := wil w hw
    exact ⟨h2.pp, (isWild_iff _).2 ⟨n, h1⟩, h3⟩

theorem notLit {p : Str} (h : isParamSeg p = true ∨ isWildSeg p = true) : isLitSeg p = false := by
  rcases seg_cases p with g | g | g
  · rcases h with h | h
    · rw [g.2.1] at h; cases h
    · rw [g.2.2] at h; cases h
  · exact g.1
  · exact g.1

theorem name_of_param {c : Route} (h : c.pp = PathParam.set c.pp.path) (hp : isParamSeg c.pp.path = true) : c.pp.paramName = nameOfSeg c.pp.path := by
  have := (set_flags c.pp.path).2.2.1 (notLit (Or.inl hp))
  exact (congrArg PathParam.paramName h).trans this

theorem name_of_wild {c : Route} (h : c.pp = PathParam.set c.pp.path) (hp : isWildSeg c.pp.path = true) : c.pp.paramName = nameOfSeg c.pp.path := by
  have := (set_flags c.pp.path).2.2.1 (notLit (Or.inr hp))
  exact (congrArg PathParam.paramName h).trans this

theorem mem_params_iff {es : List Reg} {r : Route} (hR : Rep es r) (s : Str) : s ∈ paramsDeclared es ↔ ∃ c ∈ r.params, c.pp.path = s := by
  cases hR with
  | mk tbl litNone litEnd litRep par parEnd parRep wil wilRep =>
    rw [← mem_paramHeads, ← par, List.mem_map]

theorem param_clash {es : List Reg} {r : Route} {p n v : Str} (hW : WF P r) (hR : Rep es r) (hp : segOf p = .param n v) :
    (r.params.any fun er => er.pp.paramName != (PathParam.set p).paramName) = clashes p es := by
  have hn : (PathParam.set p).paramName = n := by
    have := set_spec p; rw [hp] at this; exact this.2.2.2.1
  unfold clashes
  rw [hp, hn]
  simp only []
  rw [Bool.eq_iff_iff, List.any_eq_true, List.any_eq_true]
  constructor
  · rintro ⟨c, hc, h⟩
    obtain ⟨h1, h2⟩ := hW.parPP hc
    refine ⟨c.pp.path, (mem_params_iff hR _).2 ⟨c, hc, rfl⟩, ?_⟩
    rw [name_of_param h1 h2] at h
    simpa using h
  · rintro ⟨s, hs, h⟩
    obtain ⟨c, hc, rfl⟩ := (mem_params_iff hR _).1 hs
    obtain ⟨h1, h2⟩ := hW.parPP hc
    refine ⟨c, hc, ?_⟩
    rw [name_of_param h1 h2]
    simpa using h

theorem wild_clash {es : List Reg} {r : Route} {p n : Str} (hW : WF P r) (hR : Rep es r) (hp : segOf p = .wild n) :
    (r.wild.any fun w => w.pp.paramName != (PathParam.set p).paramName) = clashes p es := by
  have hn : (PathParam.set p).paramName = n := by
    have := set_spec p; rw [hp] at this; exact this.2.2.2
  unfold clashes
  rw [hp, hn]
  simp only []
  cases hR with
  | mk tbl litNone litEnd litRep par parEnd parRep wil wilRep =>
    cases hw : r.wild with
    | none =>
      rw [hw] at wil
      cases hi : wildIn es with
      | none => rfl
      | some x => rw [hi] at wil; cases wil
    | some w =>
      rw [hw] at wil
      cases hi : wildIn es with
      | none => rw [hi] at wil; cases wil
      | some x =>
        obtain ⟨w', l⟩ := x
        rw [hi] at wil
        simp at wil
        obtain ⟨h1, h2, _⟩ := hW.wilPP hw
        simp only [Option.any_some, name_of_wild h1 h2, wil]
        rw [Bool.eq_iff_iff]; simp

/-- the child descended into -/
theorem child_rep {es : List Reg} {r : Route} {p : Str} (hW : WF P r) (hR : Rep es r) :
    Rep (child p es) ((findChild r p).getD (newChild r p)) ∧
    (isWildSeg p = false → (((findChild r p).getD (newChild r p)).isEnd = true ↔ here (child p es) ≠ [])) := by
  have hR0 := hR
  cases hR with
  | mk tbl litNone litEnd litRep par parEnd parRep wil wilRep =>
    cases hs : segOf p with
    | lit s =>
      have hl : isLitSeg p = true := (isLit_iff p).2 ⟨s, hs⟩
      have hnw : isWildSeg p = false := by unfold isWildSeg; rw [hs]
      rw [findChild_lit hW hs]
      unfold child; rw [if_neg (by simp [hnw])]
      cases hc : litLookup r p with
      | none => rw [(litNone p hl).1 hc]; exact ⟨Rep.newChild, fun _ => by simp [here]⟩
      | some c => exact ⟨litRep p c hc, fun _ => litEnd p c hc⟩
    | param n v =>
      have hl : isParamSeg p = true := (isParam_iff p).2 ⟨n, v, hs⟩
      have hnw : isWildSeg p = false := by unfold isWildSeg; rw [hs]
      rw [findChild_param hW hs]
      unfold child; rw [if_neg (by simp [hnw])]
      cases hc : r.params.find? (fun c => decide (c.pp.path = p)) with
      | none =>
        have : beneath p es = [] := by
          unfold beneath
          rw [List.filterMap_eq_nil_iff]
          intro e he
          cases hq : e.pattern with
          | nil => rfl
          | cons x q =>
            by_cases hx : x = p
            · subst hx
              exfalso
              have hm : x ∈ paramsDeclared es := by
                have hdist : ∀ (l : List Str) (x : Str), x ∈ l → x ∈ distinct l := by
                  have : ∀ (l acc : List Str) (x : Str), x ∈ acc ∨ x ∈ l → x ∈ l.foldl (fun acc s => if s ∈ acc then acc else acc ++ [s]) acc := by
                    intro l
                    induction l with
                    | nil => intro acc x h; simpa using h
                    | cons a l ih =>
                      intro acc x h
                      refine ih _ _ ?_
                      rcases h with h | h
                      · left; show x ∈ (if a ∈ acc then acc else acc ++ [a]); split <;> simp [h]
                      · rcases List.mem_cons.1 h with rfl | h
                        · left; show x ∈ (if x ∈ acc then acc else acc ++ [x]); split
                          · assumption
                          · simp
                        · exact Or.inr h
                  intro l x h; exact this l [] x (Or.inr h)
                apply hdist
                rw [List.mem_filter]
                refine ⟨?_, hl⟩
                rw [List.mem_filterMap]
                exact ⟨e, he, by rw [hq]; rfl⟩
              obtain ⟨c, hcm, hcp⟩ := (mem_params_iff hR0 x).1 hm
              have := (List.find?_eq_none.1 hc) c hcm
              simp [hcp] at this
            · simp [hx]
        rw [this]; exact ⟨Rep.newChild, fun _ => by simp [here]⟩
      | some c =>
        have hm := List.mem_of_find?_eq_some hc
        have hp := List.find?_some hc
        simp at hp
        subst hp
        exact ⟨parRep c hm, fun _ => parEnd c hm⟩
    | wild n =>
      have hw : isWildSeg p = true := (isWild_iff p).2 ⟨n, hs⟩
      rw [findChild_wild hW hs]
      unfold child; rw [if_pos hw]
      refine ⟨?_, fun h => by rw [hw] at h; cases h⟩
      cases hr : r.wild with
      | none =>
        rw [hr] at wil
        cases hi : wildIn es with
        | none => exact Rep.newChild
        | some x => rw [hi] at wil; cases wil
      | some w =>
        rw [hr] at wil
        cases hi : wildIn es with
        | none => rw [hi] at wil; cases wil
        | some x =>
          obtain ⟨w', l⟩ := x
          rw [hi] at wil
          simp at wil
          subst wil
          simp only []
          by_cases h : w.pp.path = p
          · rw [if_pos h, if_pos h]; exact wilRep w l hr hi
          · rw [if_neg h, if_neg h]; exact Rep.newChild

/-- the registrations with a path in front -/
def preL (segs : List Str) (ks : List Reg) : List Reg := ks.map fun e => { e with pattern := segs ++ e.pattern }

theorem preL_nil (ks : List Reg) : preL [] ks = ks := by
  unfold preL; simp

theorem preL_cons (p : Str) (segs : List Str) (ks : List Reg) : preL (p :: segs) ks = pre1 p (preL segs ks) := by
  unfold preL pre1; simp

theorem wildLast_cons (p : Str) (rest : List Str) : wildLast (p :: rest) = (rest.isEmpty || (!isWildSeg p && wildLast rest)) := by
  unfold wildLast
  cases rest with
  | nil => rfl
  | cons a rest => simp

theorem here_preL {segs : List Str} (h : segs ≠ []) (ks : List Reg) : here (preL segs ks) = [] := by
  cases segs with
  | nil => exact absurd rfl h
  | cons p segs => rw [preL_cons, here_pre1]

theorem insertAt_rep {k : Route → Option Route} {ok : List Reg → Bool} {k0 : Reg} {ks : List Reg} (h0 : k0.pattern = [])
    (hWF : ∀ n n', WF P n → k n = some n' → WF P n' ∧ Frame n n')
    (hk : ∀ es n, WF P n → Rep es n → match k n with
      | some n' => ok es = true ∧ Rep (es ++ k0 :: ks) n'
      | none => ok es = false) :
    ∀ (segs : List Str) (es : List Reg) (r : Route), (∀ s ∈ segs, P s) → WF P r → Rep es r →
      match insertAt k segs r with
      | some r' => (!pathClashes segs es && wildLast segs && ok (childAt segs es)) = true ∧ Rep (es ++ preL segs (k0 :: ks)) r'
      | none => (!pathClashes segs es && wildLast segs && ok (childAt segs es)) = false := by
  intro segs
  induction segs with
  | nil =>
    intro es r _ hW hR
    have := hk es r hW hR
    show match k r with | some r' => (ok es = true) ∧ _ | none => ok es = false
    rw [preL_nil]
    exact this
  | cons p rest ih =>
    intro es r hP hW hR
    have hP' : ∀ s ∈ rest, P s := fun s hs => hP s (by simp [hs])
    obtain ⟨hRc, hEc⟩ := child_rep (p := p) hW hR
    have hWc : WF P ((findChild r p).getD (newChild r p)) ∧ Kid P r p ((findChild r p).getD (newChild r p)) := by
      cases hf : findChild r p with
      | some c => exact findChild_WF hW hf
      | none => exact ⟨newChild_WF, by constructor <;> simp [hP p (by simp)]⟩
    have hstep : insertAt k (p :: rest) r = insertAt k (p :: rest) r := rfl
    conv at hstep => rhs; unfold insertAt
    generalize hg : (findChild r p).getD (newChild r p) = rt0 at hRc hEc hWc
    have hpp : rt0.pp = PathParam.set p := hWc.2.pp
    have hpath : rt0.pp.path = p := by rw [hpp, set_path]
    simp only [hg, hpp] at hstep
    -- the recursive call
    have hW1 : WF P (if rest.isEmpty then rt0.setEnd else rt0) := by
      split
      · exact hWc.1.setEnd
      · exact hWc.1
    have hR1 : Rep (child p es) (if rest.isEmpty then rt0.setEnd else rt0) := by
      split
      · exact hRc.setEnd
      · exact hRc
    have hrec := ih (child p es) (if rest.isEmpty then rt0.setEnd else rt0) hP'
      hW1 hR1
    have hrt : ∀ rt, insertAt k rest (if rest.isEmpty then rt0.setEnd else rt0) = some rt →
        WF P rt ∧ rt.pp = PathParam.set p ∧ (isWildSeg p = false → (rt.isEnd = true ↔ here (child p es ++ preL rest (k0 :: ks)) ≠ [])) := by
      intro rt h
      obtain ⟨h1, h2⟩ := insertAt_WF hWF rest _ rt hP' hW1 h
      refine ⟨h1, ?_, ?_⟩
      · rw [h2.pp, ← hpp]; split <;> simp
      · intro hw
        rw [h2.isEnd, here_append]
        cases rest with
        | nil =>
          simp only [List.isEmpty_nil, if_true, Route.setEnd_isEnd, preL_nil, true_iff]
          simp [here, h0]
        | cons a rest =>
          rw [here_preL (by simp), List.append_nil]
          simpa using hEc hw
    have hAcc : (!pathClashes (p :: rest) es && wildLast (p :: rest) && ok (childAt (p :: rest) es)) =
        (!clashes p es && (rest.isEmpty || !isWildSeg p) && (!pathClashes rest (child p es) && wildLast rest && ok (childAt rest (child p es)))) := by
      show (!(clashes p es || pathClashes rest (child p es)) && wildLast (p :: rest) && ok (childAt rest (child p es))) = _
      rw [wildLast_cons]
      cases rest with
      | nil => cases clashes p es <;> simp [pathClashes, wildLast]
      | cons a rest => cases clashes p es <;> cases isWildSeg p <;> simp
    rw [hAcc]
    rw [preL_cons]
    obtain ⟨e0, er, hks⟩ : ∃ e0 er, preL rest (k0 :: ks) = e0 :: er := ⟨_, _, rfl⟩
    cases hs : segOf p with
    | lit s =>
      have hl : isLitSeg p = true := (isLit_iff p).2 ⟨s, hs⟩
      have hnw : isWildSeg p = false := by unfold isWildSeg; rw [hs]
      have hnp : isParamSeg p = false := by unfold isParamSeg; rw [hs]
      have hcl : clashes p es = false := by unfold clashes; rw [hs]
      have hcc : child p es = beneath p es := by unfold child; rw [if_neg (by simp [hnw])]
      have hf := set_flags p
      rw [hf.1, hnp] at hstep
      simp only [hf.2.1 hnp, hnw, Bool.false_eq_true, if_false] at hstep
      rw [hstep, hcl, hnw]
      simp only [Bool.not_false, Bool.true_and, Bool.or_true]
      cases hi : insertAt k rest (if rest.isEmpty then rt0.setEnd else rt0) with
      | none => rw [hi] at hrec; exact hrec
      | some rt =>
        rw [hi] at hrec
        obtain ⟨a1, a2⟩ := hrec
        obtain ⟨b1, b2, b3⟩ := hrt rt hi
        refine ⟨a1, ?_⟩
        rw [hcc] at a2 b3
        cases hR with
        | mk tbl litNone litEnd litRep par parEnd parRep wil wilRep =>
          constructor <;> simp only [litSet_tbl, litSet_params, litSet_wild, litLookup_litSet]
          · rw [tableAt_pre1]; exact tbl
          · intro q hq
            rw [beneath_append]
            by_cases h : q = p
            · subst h; rw [if_pos rfl, beneath_pre1_same, hks]; simp
            · rw [if_neg h, beneath_pre1_ne h, List.append_nil]; exact litNone q hq
          · intro q c hc
            rw [beneath_append]
            by_cases h : q = p
            · subst h; rw [if_pos rfl] at hc; cases hc; rw [beneath_pre1_same]; exact b3 hnw
            · rw [if_neg h] at hc; rw [beneath_pre1_ne h, List.append_nil]; exact litEnd q c hc
          · intro q c hc
            rw [beneath_append]
            by_cases h : q = p
            · subst h; rw [if_pos rfl] at hc; cases hc; rw [beneath_pre1_same]; exact a2
            · rw [if_neg h] at hc; rw [beneath_pre1_ne h, List.append_nil]; exact litRep q c hc
          · rw [par]; unfold paramHeads; rw [declared_not hnp]
          · intro c hc
            have : c.pp.path ≠ p := by
              intro e; have := (hW.parPP hc).2; rw [e, hnp] at this; cases this
            rw [beneath_append, beneath_pre1_ne this, List.append_nil]; exact parEnd c hc
          · intro c hc
            have : c.pp.path ≠ p := by
              intro e; have := (hW.parPP hc).2; rw [e, hnp] at this; cases this
            rw [beneath_append, beneath_pre1_ne this, List.append_nil]; exact parRep c hc
          · rw [wildIn_append, wildFold_not hnw]; exact wil
          · rw [wildIn_append, wildFold_not hnw]; exact wilRep
    | param n v =>
      have hl : isParamSeg p = true := (isParam_iff p).2 ⟨n, v, hs⟩
      have hnw : isWildSeg p = false := by unfold isWildSeg; rw [hs]
      have hnl : isLitSeg p = false := by unfold isLitSeg; rw [hs]
      have hcc : child p es = beneath p es := by unfold child; rw [if_neg (by simp [hnw])]
      have hf := set_flags p
      rw [hf.1, hl] at hstep
      simp only [if_true, param_clash hW hR hs] at hstep
      rw [hstep, hnw]
      simp only [Bool.not_false, Bool.or_true, Bool.and_true]
      cases hcl : clashes p es with
      | true => simp
      | false =>
        simp only [Bool.not_false, Bool.true_and, Bool.false_eq_true, if_false]
        cases hi : insertAt k rest (if rest.isEmpty then rt0.setEnd else rt0) with
        | none => rw [hi] at hrec; exact hrec
        | some rt =>
          rw [hi] at hrec
          obtain ⟨a1, a2⟩ := hrec
          obtain ⟨b1, b2, b3⟩ := hrt rt hi
          have b3 := b3 hnw
          have hrtp : rt.pp.path = p := by rw [b2, set_path]
          rw [hcc] at a2 b3
          have hR0 := hR
          cases hR with
          | mk tbl litNone litEnd litRep par parEnd parRep wil wilRep =>
          -- any list of parameters with the right paths
          have key : ∀ ps : List Route, ps.map (·.pp.path) = paramHeads (es ++ pre1 p (preL rest (k0 :: ks))) →
              (∀ c ∈ ps, c = rt ∨ (c ∈ r.params ∧ c.pp.path ≠ p)) →
              Rep (es ++ pre1 p (preL rest (k0 :: ks))) (r.setParams ps) := by
            intro ps hps hmem
            constructor <;> simp only [Route.setParams_tbl, Route.setParams_params, Route.setParams_wild, litLookup_setParams]
            · rw [tableAt_pre1]; exact tbl
            · intro q hq
              have : q ≠ p := by rintro rfl; rw [hnl] at hq; cases hq
              rw [beneath_append, beneath_pre1_ne this, List.append_nil]; exact litNone q hq
            · intro q c hc
              have : q ≠ p := by
                rintro rfl
                cases hW with | mk lit _ _ _ _ _ _ _ _ =>
                obtain ⟨⟨s, e⟩, _⟩ := lit q c hc; rw [hs] at e; cases e
              rw [beneath_append, beneath_pre1_ne this, List.append_nil]; exact litEnd q c hc
            · intro q c hc
              have : q ≠ p := by
                rintro rfl
                cases hW with | mk lit _ _ _ _ _ _ _ _ =>
                obtain ⟨⟨s, e⟩, _⟩ := lit q c hc; rw [hs] at e; cases e
              rw [beneath_append, beneath_pre1_ne this, List.append_nil]; exact litRep q c hc
            · exact hps
            · intro c hc
              rcases hmem c hc with rfl | ⟨h1, h2⟩
              · rw [hrtp, beneath_append, beneath_pre1_same]; exact b3
              · rw [beneath_append, beneath_pre1_ne h2, List.append_nil]; exact parEnd c h1
            · intro c hc
              rcases hmem c hc with rfl | ⟨h1, h2⟩
              · rw [hrtp, beneath_append, beneath_pre1_same]; exact a2
              · rw [beneath_append, beneath_pre1_ne h2, List.append_nil]; exact parRep c h1
            · rw [wildIn_append, wildFold_not hnw]; exact wil
            · rw [wildIn_append, wildFold_not hnw]; exact wilRep
          have hfc := findChild_param hW hs
          cases hex : findChild r p with
          | some c0 =>
            refine ⟨a1, key _ ?_ ?_⟩
            · rw [hfc] at hex
              have hm := List.mem_of_find?_eq_some hex
              have hp0 := List.find?_some hex
              simp at hp0
              have hd : p ∈ paramsDeclared es := (mem_params_iff hR0 p).2 ⟨c0, hm, hp0⟩
              have : (replaceParam p rt r.params).map (·.pp) = r.params.map (·.pp) := by
                apply replaceParam_map_pp
                intro x hx hxp
                rw [b2, (hW.parPP hx).1, hxp]
              have h2 : (replaceParam p rt r.params).map (·.pp.path) = r.params.map (·.pp.path) := by
                have := congrArg (List.map (·.path)) this
                simpa [List.map_map, Function.comp_def] using this
              rw [h2, par]; unfold paramHeads; rw [declared_old hl es _ hd]
            · have hnd : (r.params.map (·.pp.path)).Nodup := by
                cases hW with | mk _ _ _ _ _ _ _ nodup _ => exact nodup
              have : ∀ (l : List Route), (l.map (·.pp.path)).Nodup → ∀ c ∈ replaceParam p rt l, c = rt ∨ (c ∈ l ∧ c.pp.path ≠ p) := by
                intro l
                induction l with
                | nil => intro _ c h; simp [replaceParam] at h
                | cons a l ih =>
                  intro hn c h
                  simp at hn
                  unfold replaceParam at h
                  by_cases ha : a.pp.path = p
                  · rw [if_pos ha] at h
                    rcases List.mem_cons.1 h with h | h
                    · exact Or.inl h
                    · right; exact ⟨by simp [h], fun e => hn.1 c h (by rw [e, ha])⟩
                  · rw [if_neg ha] at h
                    rcases List.mem_cons.1 h with h | h
                    · right; subst h; exact ⟨by simp, ha⟩
                    · rcases ih hn.2 c h with h | h
                      · exact Or.inl h
                      · exact Or.inr ⟨by simp [h.1], h.2⟩
              exact this r.params hnd
          | none =>
            have hnotin : ∀ c ∈ r.params, c.pp.path ≠ p := by
              rw [hfc] at hex
              intro c hc e
              have := (List.find?_eq_none.1 hex) c hc
              simp [e] at this
            have hd : p ∉ paramsDeclared es := by
              intro h
              obtain ⟨c, hc, e⟩ := (mem_params_iff hR0 p).1 h
              exact hnotin c hc e
            have hverb := hf.2.2.2 hl
            simp only []
            by_cases hv : (PathParam.set p).customVerb ≠ []
            · rw [if_pos hv]
              refine ⟨a1, key _ ?_ ?_⟩
              · rw [hks, heads_new_verb hl (by rw [← hverb]; exact decide_eq_true hv) es e0 er hd, List.map_cons, hrtp, par]
              · intro c hc
                rcases List.mem_cons.1 hc with h | h
                · exact Or.inl h
                · exact Or.inr ⟨h, hnotin c h⟩
            · rw [if_neg hv]
              refine ⟨a1, key _ ?_ ?_⟩
              · rw [hks, heads_new_plain hl (by rw [← hverb]; exact decide_eq_false hv) es e0 er hd, List.map_append, par]
                simp [hrtp]
              · intro c hc
                rcases List.mem_append.1 hc with h | h
                · exact Or.inr ⟨h, hnotin c h⟩
                · left; simpa using h
    | wild n =>
      have hw : isWildSeg p = true := (isWild_iff p).2 ⟨n, hs⟩
      have hnp : isParamSeg p = false := by unfold isParamSeg; rw [hs]
      have hnl : isLitSeg p = false := by unfold isLitSeg; rw [hs]
      have hf := set_flags p
      rw [hf.1, hnp] at hstep
      simp only [hf.2.1 hnp, hw, Bool.false_eq_true, if_false, if_true, wild_clash hW hR hs] at hstep
      rw [hstep, hw]
      simp only [Bool.not_true, Bool.or_false]
      cases hcl : clashes p es with
      | true => simp
      | false =>
        simp only [Bool.not_false, Bool.true_and, Bool.false_eq_true, if_false]
        cases hE : rest.isEmpty with
        | false => simp
        | true =>
          rw [hE] at hrec hrt
          simp only [if_true] at hrec hrt
          simp only [Bool.not_true, Bool.false_eq_true, if_false, Bool.true_and]
          cases hi : insertAt k rest rt0.setEnd with
          | none => rw [hi] at hrec; exact hrec
          | some rt =>
            rw [hi] at hrec
            obtain ⟨a1, a2⟩ := hrec
            obtain ⟨b1, b2, -⟩ := hrt rt hi
            have hrtp : rt.pp.path = p := by rw [b2, set_path]
            refine ⟨a1, ?_⟩
            have hwi : wildIn (es ++ pre1 p (preL rest (k0 :: ks))) = some (p, child p es ++ preL rest (k0 :: ks)) := by
              rw [wildIn_append]
              unfold child
              rw [if_pos hw]
              cases hi : wildIn es with
              | none => rw [hks, wildFold_new hw _ _ _ (by intro l h; cases h)]; rfl
              | some x =>
                obtain ⟨w, l⟩ := x
                by_cases hwp : w = p
                · subst hwp; simp only [if_true]; exact wildFold_same hw _ _
                · simp only [if_neg hwp]
                  rw [hks, wildFold_new hw _ _ _ (by intro l h; cases h; exact hwp rfl)]; rfl
            cases hR with
            | mk tbl litNone litEnd litRep par parEnd parRep wil wilRep =>
            constructor <;> simp only [Route.setWild_tbl, Route.setWild_params, Route.setWild_wild, litLookup_setWild]
            · rw [tableAt_pre1]; exact tbl
            · intro q hq
              have : q ≠ p := by rintro rfl; rw [hnl] at hq; cases hq
              rw [beneath_append, beneath_pre1_ne this, List.append_nil]; exact litNone q hq
            · intro q c hc
              have : q ≠ p := by
                rintro rfl
                cases hW with | mk lit _ _ _ _ _ _ _ _ =>
                obtain ⟨⟨s, e⟩, _⟩ := lit q c hc; rw [hs] at e; cases e
              rw [beneath_append, beneath_pre1_ne this, List.append_nil]; exact litEnd q c hc
            · intro q c hc
              have : q ≠ p := by
                rintro rfl
                cases hW with | mk lit _ _ _ _ _ _ _ _ =>
                obtain ⟨⟨s, e⟩, _⟩ := lit q c hc; rw [hs] at e; cases e
              rw [beneath_append, beneath_pre1_ne this, List.append_nil]; exact litRep q c hc
            · rw [par]; unfold paramHeads; rw [declared_not hnp]
            · intro c hc
              have : c.pp.path ≠ p := by
                intro e; have := (hW.parPP hc).2; rw [e, hnp] at this; cases this
              rw [beneath_append, beneath_pre1_ne this, List.append_nil]; exact parEnd c hc
            · intro c hc
              have : c.pp.path ≠ p := by
                intro e; have := (hW.parPP hc).2; rw [e, hnp] at this; cases this
              rw [beneath_append, beneath_pre1_ne this, List.append_nil]; exact parRep c hc
            · rw [hwi]; simp [hrtp]
            · intro w l h1 h2
              cases h1
              rw [hwi, hrtp] at h2
              cases h2
              exact a2

end Verif.Router
