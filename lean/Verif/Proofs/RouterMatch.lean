import Verif.Proofs.RouterReg
/-! Helper lemmas: the matcher against the specification of matching. -/
namespace Verif.Router
open Verif.Go Spec

variable {P : Str → Prop}

theorem trimSuffix_spec (p v : Str) (hv : v ≠ []) (x : Str) :
    (trimSuffix p v = x ∧ x.length ≠ p.length) ↔ p = x ++ v := by
  unfold trimSuffix hasSuffix
  by_cases h : v.isSuffixOf p = true
  · rw [if_pos h]
    rw [List.isSuffixOf_iff_suffix] at h
    obtain ⟨a, rfl⟩ := h
    have : (a ++ v).take ((a ++ v).length - v.length) = a := by simp
    rw [this]
    constructor
    · rintro ⟨rfl, _⟩; rfl
    · intro h
      have := List.append_cancel_right h
      subst this
      refine ⟨rfl, ?_⟩
      have : v.length ≠ 0 := by simpa using hv
      simp; exact hv
  · rw [if_neg h]
    constructor
    · rintro ⟨rfl, h2⟩; exact absurd rfl h2
    · rintro rfl
      exact absurd (List.isSuffixOf_iff_suffix.2 (List.suffix_append x v)) h

theorem matchParamRoute_spec {c p n v value : Str} (hs : segOf c = .param n v) :
    (PathParam.set c).matchParamRoute p = some value ↔ p = value ++ v := by
  have h := set_spec c
  rw [hs] at h
  obtain ⟨-, h1, -, -, h4⟩ := h
  unfold PathParam.matchParamRoute
  rw [h1, h4]
  simp only [Bool.not_true, Bool.false_eq_true, if_false]
  by_cases hv : v = []
  · subst hv; simp
  · simp only [ne_eq, hv, not_false_eq_true, if_true]
    rw [← trimSuffix_spec p v hv value]
    constructor
    · intro h
      split at h
      · rename_i hne; cases h; exact ⟨rfl, hne⟩
      · cases h
    · rintro ⟨rfl, hne⟩; rw [if_pos hne]

/-- continue matching below a child -/
def descend (paths : List Str) (c : Route) : Option (Route × Params) :=
  if paths = [] then some (c, []) else matchRoute paths c

/-- result of the parameter loop -/
theorem matchParams_spec (paths : List Str) (p : Str) (l : List Route) :
    match matchParams (matchRoute paths) p (!paths.isEmpty) l with
    | some (rt, ps) => ∃ l1 pr l2 value ps1, l = l1 ++ pr :: l2 ∧
        pr.pp.matchParamRoute p = some value ∧ descend paths pr = some (rt, ps1) ∧
        rt.isEnd = true ∧ ps = (pr.pp.paramName, value) :: ps1 ∧
        (∀ x ∈ l1, ∀ v, x.pp.matchParamRoute p = some v →
          ∀ y, descend paths x = some y → y.1.isEnd = false)
    | none => ∀ x ∈ l, ∀ v, x.pp.matchParamRoute p = some v →
          ∀ y, descend paths x = some y → y.1.isEnd = false := by
  induction l with
  | nil => simp [matchParams]
  | cons pr prs ih =>
    -- the failing head case
    have step : (∀ v, pr.pp.matchParamRoute p = some v →
          ∀ y, descend paths pr = some y → y.1.isEnd = false) →
        matchParams (matchRoute paths) p (!paths.isEmpty) (pr :: prs) =
          matchParams (matchRoute paths) p (!paths.isEmpty) prs →
        match matchParams (matchRoute paths) p (!paths.isEmpty) (pr :: prs) with
        | some (rt, ps) => ∃ l1 pr' l2 value ps1, pr :: prs = l1 ++ pr' :: l2 ∧
            pr'.pp.matchParamRoute p = some value ∧ descend paths pr' = some (rt, ps1) ∧
            rt.isEnd = true ∧ ps = (pr'.pp.paramName, value) :: ps1 ∧
            (∀ x ∈ l1, ∀ v, x.pp.matchParamRoute p = some v →
              ∀ y, descend paths x = some y → y.1.isEnd = false)
        | none => ∀ x ∈ pr :: prs, ∀ v, x.pp.matchParamRoute p = some v →
              ∀ y, descend paths x = some y → y.1.isEnd = false := by
      intro hf he
      rw [he]
      split
      · rename_i rt ps hsome
        rw [hsome] at ih
        obtain ⟨l1, pr', l2, value, ps1, h1, h2, h3, h4, h5, h6⟩ := ih
        refine ⟨pr :: l1, pr', l2, value, ps1, by rw [h1]; rfl, h2, h3, h4, h5, ?_⟩
        intro x hx
        rcases List.mem_cons.1 hx with rfl | hx
        · exact hf
        · exact h6 x hx
      · rename_i hnone
        rw [hnone] at ih
        intro x hx
        rcases List.mem_cons.1 hx with rfl | hx
        · exact hf
        · exact ih x hx
    cases hm : pr.pp.matchParamRoute p with
    | none =>
      apply step
      · intro v h; cases hm.symm.trans h
      · simp [matchParams, hm]
    | some value =>
      by_cases hp : paths = []
      · subst hp
        cases hE : pr.isEnd with
        | false =>
          apply step
          · intro v _ y hy; simp [descend] at hy; subst hy; exact hE
          · simp [matchParams, hm, hE]
        | true =>
          simp only [matchParams, hm, List.isEmpty_nil, Bool.not_true, Bool.not_false, if_true, hE,
            Bool.false_eq_true, if_false]
          exact ⟨[], pr, prs, value, [], rfl, hm, by simp [descend], by simp, rfl, by simp⟩
      · have hmore : (!paths.isEmpty) = true := by simpa using hp
        cases hr : matchRoute paths pr with
        | none =>
          apply step
          · intro v _ y hy; simp [descend, hp, hr] at hy
          · simp [matchParams, hm, hmore, hr]
        | some x =>
          obtain ⟨nr, ps⟩ := x
          cases hE : nr.isEnd with
          | false =>
            apply step
            · intro v _ y hy; simp [descend, hp, hr] at hy; subst hy; exact hE
            · simp [matchParams, hm, hmore, hr, hE]
          | true =>
            simp only [matchParams, hm, hmore, hr, hE, Bool.not_true, Bool.false_eq_true, if_false,
              if_true]
            exact ⟨[], pr, prs, value, ps, rfl, hm, by simp [descend, hp, hr], by simp, rfl, by simp⟩

/-- the literal branch -/
def litBranch (paths : List Str) (r : Route) (p : Str) : Option (Route × Params) :=
  match litLookup r p with
  | none => none
  | some c =>
    match descend paths c with
    | none => none
    | some (rt, ps) => if rt.isEnd then some (rt, ps) else some (rt, [])

theorem matchRoute_cons (p : Str) (paths : List Str) (r : Route) :
    matchRoute (p :: paths) r =
      match (match litBranch paths r p with
        | some x => some x
        | none => matchParams (matchRoute paths) p (!paths.isEmpty) r.params) with
      | some (rt, ps) =>
        if rt.isEnd then some (rt, ps)
        else match r.wild with
          | none => some (rt, ps)
          | some w => some (w, ps ++ [(w.pp.paramName, join1 47 (p :: paths))])
      | none =>
        match r.wild with
        | none => none
        | some w => some (w, [(w.pp.paramName, join1 47 (p :: paths))]) := by
  conv => lhs; unfold matchRoute
  unfold litBranch descend
  cases litLookup r p with
  | none => rfl
  | some c =>
    by_cases hp : paths = []
    · subst hp; simp only [List.isEmpty_nil, Bool.not_true, if_true, Bool.false_eq_true, if_false]
      cases hE : c.isEnd <;> simp [hE] <;> cases r.wild <;> rfl
    · have : (!paths.isEmpty) = true := by simpa using hp
      simp only [this, if_true, hp, if_false]
      cases matchRoute paths c with
      | none => rfl
      | some x =>
        obtain ⟨rt, ps⟩ := x
        cases hE : rt.isEnd <;> simp [hE] <;> cases r.wild <;> rfl

theorem nodeAt_chain {r n : Route} (h : WF P r) : ∀ {q}, nodeAt q r = some n →
    n.chain = r.chain ++ q ∧ WF P n := by
  intro q
  induction q generalizing r with
  | nil => intro hn; simp [nodeAt] at hn; subst hn; exact ⟨by simp, h⟩
  | cons p q ih =>
    intro hn
    simp only [nodeAt] at hn
    cases hf : findChild r p with
    | none => rw [hf] at hn; cases hn
    | some c =>
      rw [hf] at hn
      obtain ⟨hc, hk⟩ := findChild_WF h hf
      obtain ⟨h1, h2⟩ := ih hc hn
      exact ⟨by rw [h1, hk.chain]; simp, h2⟩

/-- membership forms of `findChild` -/
theorem findChild_of_lit {r c : Route} {p : Str} (h : WF P r) (hl : litLookup r p = some c) :
    findChild r p = some c ∧ segOf p = .lit p := by
  have h0 := h
  cases h with
  | mk lit _ _ _ _ _ _ _ _ =>
    obtain ⟨⟨s, hs⟩, hk⟩ := lit p c hl
    refine ⟨by rw [findChild_lit h0 hs]; exact hl, ?_⟩
    have := set_spec p
    rw [hs] at this
    rw [hs, this.2.1]

theorem findChild_of_param {r c : Route} (h : WF P r) (hc : c ∈ r.params) :
    findChild r c.pp.path = some c ∧ c.pp = PathParam.set c.pp.path ∧
    ∃ v, segOf c.pp.path = .param c.pp.paramName v ∧ v = c.pp.customVerb := by
  have h0 := h
  cases h with
  | mk _ _ par _ _ _ _ nodup _ =>
    obtain ⟨⟨n, v, hs⟩, hk⟩ := par c hc
    refine ⟨by rw [findChild_param h0 hs]; exact find?_path_of_mem nodup hc, hk.pp, v, ?_⟩
    have := set_spec c.pp.path
    rw [hs] at this
    rw [hs]
    constructor
    · congr 1; rw [hk.pp]; exact this.2.2.2.1.symm
    · rw [hk.pp]; exact this.2.2.2.2.symm

theorem findChild_of_wild {r w : Route} (h : WF P r) (hw : r.wild = some w) :
    findChild r w.pp.path = some w ∧ segOf w.pp.path = .wild w.pp.paramName ∧ w.isEnd = true := by
  have h0 := h
  cases h with
  | mk _ _ _ _ wil _ _ _ _ =>
    obtain ⟨⟨n, hs⟩, hk, hE⟩ := wil w hw
    refine ⟨by rw [findChild_wild h0 hs, hw]; simp, ?_, hE⟩
    have := set_spec w.pp.path
    rw [hs] at this
    rw [hs]
    congr 1; rw [hk.pp]; exact this.2.2.2.symm

theorem nodeAt_cons {r c n : Route} {p : Str} {q : List Str} (h : findChild r p = some c)
    (hn : nodeAt q c = some n) : nodeAt (p :: q) r = some n := by
  simp [nodeAt, h, hn]

/-- Whatever the matcher returns is a node whose pattern matches the path. -/
theorem matchRoute_sound : ∀ (path : List Str) (r rt : Route) (ps : Params), WF P r →
    matchRoute path r = some (rt, ps) →
    ∃ q ps', q ≠ [] ∧ nodeAt q r = some rt ∧ Matches (q.map segOf) path ps' ∧
      (rt.isEnd = true → ps' = ps) := by
  intro path
  induction path with
  | nil => intro r rt ps _ h; simp [matchRoute] at h
  | cons p paths ih =>
    intro r rt ps hr h
    have hdesc : ∀ c rt ps, WF P c → descend paths c = some (rt, ps) →
        ∃ q ps', nodeAt q c = some rt ∧ Matches (q.map segOf) paths ps' ∧
          (rt.isEnd = true → ps' = ps) := by
      intro c rt ps hc hd
      unfold descend at hd
      split at hd
      · rename_i hp; cases hd; subst hp
        exact ⟨[], [], rfl, by simpa using Matches.nil, fun _ => rfl⟩
      · obtain ⟨q, ps', -, h⟩ := ih c rt ps hc hd; exact ⟨q, ps', h⟩
    have hwild : ∀ w, r.wild = some w → rt = w → ps = [(w.pp.paramName, join1 47 (p :: paths))] →
        ∃ q ps', q ≠ [] ∧ nodeAt q r = some rt ∧ Matches (q.map segOf) (p :: paths) ps' ∧
          (rt.isEnd = true → ps' = ps) := by
      rintro w hw rfl rfl
      obtain ⟨h1, h2, -⟩ := findChild_of_wild hr hw
      refine ⟨[rt.pp.path], _, by simp, nodeAt_cons h1 rfl, ?_, fun _ => rfl⟩
      simp only [List.map_cons, List.map_nil, h2]
      exact Matches.wild
    rw [matchRoute_cons] at h
    cases hl : litBranch paths r p with
    | some x =>
      obtain ⟨rt1, ps1⟩ := x
      rw [hl] at h
      simp only [] at h
      -- what the literal branch gives
      have hlit : ∃ q ps', q ≠ [] ∧ nodeAt q r = some rt1 ∧
          Matches (q.map segOf) (p :: paths) ps' ∧ (rt1.isEnd = true → ps' = ps1) := by
        unfold litBranch at hl
        cases hk : litLookup r p with
        | none => rw [hk] at hl; cases hl
        | some c =>
          rw [hk] at hl
          simp only [] at hl
          cases hd : descend paths c with
          | none => rw [hd] at hl; cases hl
          | some y =>
            obtain ⟨rt2, ps2⟩ := y
            rw [hd] at hl
            simp only [] at hl
            obtain ⟨hf, hs⟩ := findChild_of_lit hr hk
            obtain ⟨q, ps', h1, h2, h3⟩ := hdesc c rt2 ps2 (findChild_WF hr hf).1 hd
            have hm : Matches ((p :: q).map segOf) (p :: paths) ps' := by
              rw [List.map_cons, hs]; exact Matches.lit h2
            split at hl
            · rename_i hE; cases hl
              exact ⟨p :: q, ps', by simp, nodeAt_cons hf h1, hm, h3⟩
            · rename_i hE; cases hl
              exact ⟨p :: q, ps', by simp, nodeAt_cons hf h1, hm, fun h => absurd h hE⟩
      split at h
      · cases h; exact hlit
      · rename_i hE
        cases hw : r.wild with
        | none => rw [hw] at h; cases h; exact hlit
        | some w =>
          rw [hw] at h; cases h
          have hps : ps1 = [] := by
            unfold litBranch at hl
            cases hk : litLookup r p with
            | none => rw [hk] at hl; cases hl
            | some c =>
              rw [hk] at hl
              simp only [] at hl
              cases hd : descend paths c with
              | none => rw [hd] at hl; cases hl
              | some y =>
                rw [hd] at hl
                simp only [] at hl
                split at hl
                · rename_i h2; cases hl; exact absurd h2 hE
                · cases hl; rfl
          apply hwild rt hw rfl
          rw [hps]; rfl
    | none =>
      rw [hl] at h
      simp only [] at h
      have hpar := matchParams_spec paths p r.params
      cases hm : matchParams (matchRoute paths) p (!paths.isEmpty) r.params with
      | none =>
        rw [hm] at h
        simp only [] at h
        cases hw : r.wild with
        | none => rw [hw] at h; cases h
        | some w => rw [hw] at h; cases h; exact hwild rt hw rfl rfl
      | some x =>
        obtain ⟨rt1, ps1⟩ := x
        rw [hm] at h hpar
        simp only [] at h
        obtain ⟨l1, pr, l2, value, ps2, h1, h2, h3, h4, h5, -⟩ := hpar
        rw [h4] at h
        simp only [if_true] at h
        cases h
        have hmem : pr ∈ r.params := by rw [h1]; simp
        obtain ⟨hf, hpp, v, hs, -⟩ := findChild_of_param hr hmem
        obtain ⟨q, ps', g1, g2, g3⟩ := hdesc pr rt ps2 (findChild_WF hr hf).1 h3
        rw [hpp] at h2
        rw [matchParamRoute_spec hs] at h2
        refine ⟨pr.pp.path :: q, (pr.pp.paramName, value) :: ps', by simp,
          nodeAt_cons hf g1, ?_, ?_⟩
        · rw [List.map_cons, hs, h2]; exact Matches.param g2
        · intro hE; rw [h5, g3 hE]

/-! ### completeness and precedence -/

/-- no node that is not an end route matches the whole path -/
def DeadFree (r : Route) (path : List Str) : Prop :=
  ∀ q n ps, q ≠ [] → nodeAt q r = some n → Matches (q.map segOf) path ps → n.isEnd = true

theorem Spec.Matches.cons_inv {s : Seg} {ss : List Seg} {p : Str} {paths : List Str} {ps : Params}
    (h : Matches (s :: ss) (p :: paths) ps) :
    (s = .lit p ∧ Matches ss paths ps) ∨
    (∃ n v x ps', s = .param n v ∧ p = x ++ v ∧ Matches ss paths ps' ∧ ps = (n, x) :: ps') ∨
    (∃ n, s = .wild n ∧ ss = []) := by
  cases h with
  | lit h => exact Or.inl ⟨rfl, h⟩
  | param h => exact Or.inr (Or.inl ⟨_, _, _, _, rfl, rfl, h, rfl⟩)
  | wild => exact Or.inr (Or.inr ⟨_, rfl, rfl⟩)

theorem matches_cons_path {ss : List Seg} {p : Str} {paths : List Str} {ps : Params}
    (h : Matches ss (p :: paths) ps) : ∃ s ss', ss = s :: ss' := by
  cases h with
  | lit h => exact ⟨_, _, rfl⟩
  | param h => exact ⟨_, _, rfl⟩
  | wild => exact ⟨_, _, rfl⟩

theorem matches_nil_path {ss : List Seg} {ps : Params} (h : Matches ss [] ps) :
    ss = [] ∧ ps = [] := by
  cases h; exact ⟨rfl, rfl⟩

theorem matches_nil_pat {path : List Str} {ps : Params} (h : Matches [] path ps) : path = [] := by
  cases h; rfl

theorem lit_seg_eq {s p : Str} (h : segOf s = .lit p) : s = p := by
  have := set_spec s
  rw [h] at this
  exact this.2.1.symm

theorem matchRoute_complete : ∀ (path : List Str) (r : Route), WF P r → DeadFree r path →
    ∀ q' n' ps', q' ≠ [] → nodeAt q' r = some n' → n'.isEnd = true →
      Matches (q'.map segOf) path ps' →
    ∃ rt ps q, matchRoute path r = some (rt, ps) ∧ rt.isEnd = true ∧ nodeAt q r = some rt ∧
      q ≠ [] ∧ Matches (q.map segOf) path ps ∧ PrecLE q q' := by
  intro path
  induction path with
  | nil =>
    intro r _ _ q' n' ps' hq' _ _ hm
    cases q' with
    | nil => exact absurd rfl hq'
    | cons a b => have := (matches_nil_path hm).1; simp at this
  | cons p paths ih =>
    intro r hr hdf q' n' ps' hq' hn' hE' hm'
    -- descending below a child, completeness with precedence
    have hdesc : ∀ pc c q1 n1 ps1, findChild r pc = some c →
        (∀ q2 ps2, Matches (q2.map segOf) paths ps2 → ∃ ps3, Matches ((pc :: q2).map segOf) (p :: paths) ps3) →
        nodeAt q1 c = some n1 → n1.isEnd = true → Matches (q1.map segOf) paths ps1 →
        ∃ rt ps q, descend paths c = some (rt, ps) ∧ rt.isEnd = true ∧ nodeAt q c = some rt ∧
          Matches (q.map segOf) paths ps ∧ PrecLE q q1 := by
      intro pc c q1 n1 ps1 hf hext hn1 hE1 hm1
      unfold descend
      split
      · rename_i hp; subst hp
        have : q1 = [] := by
          cases q1 with
          | nil => rfl
          | cons a b => have := (matches_nil_path hm1).1; simp at this
        subst this
        simp [nodeAt] at hn1; subst hn1
        exact ⟨c, [], [], rfl, hE1, rfl, Matches.nil, trivial⟩
      · rename_i hp
        have hq1 : q1 ≠ [] := by
          rintro rfl
          exact hp (matches_nil_pat hm1)
        obtain ⟨rt, ps, q, g1, g2, g3, g4, g5, g6⟩ := ih c (findChild_WF hr hf).1
          (by
            intro q n ps hq hn hm
            obtain ⟨ps3, h3⟩ := hext q ps hm
            exact hdf (pc :: q) n ps3 (by simp) (nodeAt_cons hf hn) h3)
          q1 n1 ps1 hq1 hn1 hE1 hm1
        exact ⟨rt, ps, q, g1, g2, g3, g5, g6⟩
    -- a route found below the node with its params always exists and is an end route
    have hend : ∀ rt ps, matchRoute (p :: paths) r = some (rt, ps) → rt.isEnd = true := by
      intro rt ps h
      obtain ⟨q, ps', hq, h1, h2, -⟩ := matchRoute_sound (p :: paths) r rt ps hr h
      exact hdf q rt ps' hq h1 h2
    have hdescE : ∀ pc c rt ps, findChild r pc = some c →
        (∀ q2 ps2, Matches (q2.map segOf) paths ps2 → ∃ ps3, Matches ((pc :: q2).map segOf) (p :: paths) ps3) →
        descend paths c = some (rt, ps) → rt.isEnd = true := by
      intro pc c rt ps hf hext hd
      unfold descend at hd
      split at hd
      · rename_i hp; subst hp; cases hd
        obtain ⟨ps3, h3⟩ := hext [] [] (by simpa using Matches.nil)
        exact hdf [pc] _ ps3 (by simp) (nodeAt_cons hf rfl) h3
      · obtain ⟨q, ps', hq, h1, h2, -⟩ := matchRoute_sound paths c rt ps (findChild_WF hr hf).1 hd
        obtain ⟨ps3, h3⟩ := hext q ps' h2
        exact hdf (pc :: q) rt ps3 (by simp) (nodeAt_cons hf h1) h3
    have hextLit : ∀ c, litLookup r p = some c → ∀ q2 ps2, Matches (q2.map segOf) paths ps2 →
        ∃ ps3, Matches ((p :: q2).map segOf) (p :: paths) ps3 := by
      intro c hl q2 ps2 hm
      rw [List.map_cons, (findChild_of_lit hr hl).2]; exact ⟨ps2, Matches.lit hm⟩
    have hextPar : ∀ c ∈ r.params, ∀ v, c.pp.matchParamRoute p = some v →
        ∀ q2 ps2, Matches (q2.map segOf) paths ps2 →
        ∃ ps3, Matches ((c.pp.path :: q2).map segOf) (p :: paths) ps3 := by
      intro c hc v hv q2 ps2 hm
      obtain ⟨hf, hpp, v', hs, -⟩ := findChild_of_param hr hc
      rw [hpp, matchParamRoute_spec hs] at hv
      rw [List.map_cons, hs, hv]; exact ⟨_, Matches.param hm⟩
    cases q' with
    | nil => exact absurd rfl hq'
    | cons x q1 =>
    simp only [nodeAt] at hn'
    cases hfx : findChild r x with
    | none => rw [hfx] at hn'; cases hn'
    | some cx =>
    rw [hfx] at hn'
    replace hn' : nodeAt q1 cx = some n' := hn'
    rw [List.map_cons] at hm'
    have hinv := hm'.cons_inv
    rw [matchRoute_cons]
    have hrest : (¬ ∃ s, segOf x = .lit s) →
        ∃ rt ps q,
          (match (match (none : Option (Route × Params)) with
            | some x => some x
            | none => matchParams (matchRoute paths) p (!paths.isEmpty) r.params) with
          | some (rt, ps) =>
            if rt.isEnd = true then some (rt, ps)
            else match r.wild with
              | none => some (rt, ps)
              | some w => some (w, ps ++ [(w.pp.paramName, join1 47 (p :: paths))])
          | none =>
            match r.wild with
            | none => none
            | some w => some (w, [(w.pp.paramName, join1 47 (p :: paths))])) = some (rt, ps) ∧
        rt.isEnd = true ∧ nodeAt q r = some rt ∧
        q ≠ [] ∧ Matches (q.map segOf) (p :: paths) ps ∧ PrecLE q (x :: q1) := by
      intro hnl
      simp only []
      have hpar := matchParams_spec paths p r.params
      -- a parameter x would succeed
      have hxpar : ∀ n v, segOf x = .param n v → cx ∈ r.params ∧ cx.pp.path = x ∧
          ∃ val, cx.pp.matchParamRoute p = some val ∧
          ∃ rt ps q, descend paths cx = some (rt, ps) ∧ rt.isEnd = true ∧ nodeAt q cx = some rt ∧
          Matches (q.map segOf) paths ps ∧ PrecLE q q1 := by
        intro n v hs
        have hf2 := hfx
        rw [findChild_param hr hs] at hf2
        have hmem := List.mem_of_find?_eq_some hf2
        have hpath := List.find?_some hf2
        simp at hpath
        obtain ⟨-, hpp, v', hs', -⟩ := findChild_of_param hr hmem
        rcases hinv with ⟨h, _⟩ | ⟨n2, v2, y, ps2, h, hy, hm2, _⟩ | ⟨n, h, _⟩
        · exact absurd ⟨_, h⟩ hnl
        · have hval : cx.pp.matchParamRoute p = some y := by
            rw [hpp, hpath, matchParamRoute_spec h]; exact hy
          refine ⟨hmem, hpath, y, hval, ?_⟩
          exact hdesc x cx q1 n' ps2 hfx (hpath ▸ hextPar cx hmem y hval) hn' hE' hm2
        · rw [hs] at h; cases h
      cases hm : matchParams (matchRoute paths) p (!paths.isEmpty) r.params with
      | some z =>
        obtain ⟨rt, ps⟩ := z
        rw [hm] at hpar
        obtain ⟨l1, pr, l2, value, ps1, h1, h2, h3, h4, h5, h6⟩ := hpar
        simp only [h4, if_true]
        have hmem : pr ∈ r.params := by rw [h1]; simp
        obtain ⟨hf, hpp, v, hs, hv⟩ := findChild_of_param hr hmem
        have h2' := h2
        rw [hpp, matchParamRoute_spec hs] at h2'
        by_cases hxp : x = pr.pp.path
        · obtain ⟨_, _, val, _, rt2, ps2, q, g1, g2, g3, g4, g5⟩ :=
            hxpar pr.pp.paramName v (by rw [hxp]; exact hs)
          have hcx : cx = pr := by
            rw [hxp, hf] at hfx; cases hfx; rfl
          subst hcx
          rw [h3] at g1; cases g1
          refine ⟨rt, ps, cx.pp.path :: q, rfl, h4, nodeAt_cons hf g3, by simp, ?_, ?_⟩
          · rw [List.map_cons, hs, h2', h5]; exact Matches.param g4
          · simp [PrecLE, hxp]; exact g5
        · have hsnd : ∃ q, nodeAt q pr = some rt ∧ Matches (q.map segOf) paths ps1 := by
            unfold descend at h3
            split at h3
            · rename_i hp; subst hp; cases h3; exact ⟨[], rfl, Matches.nil⟩
            · obtain ⟨q, ps', hq, g1, g2, g3⟩ :=
                matchRoute_sound paths pr rt ps1 (findChild_WF hr hf).1 h3
              exact ⟨q, g1, g3 h4 ▸ g2⟩
          obtain ⟨q, g1, g2⟩ := hsnd
          refine ⟨rt, ps, pr.pp.path :: q, rfl, h4, nodeAt_cons hf g1, by simp, ?_, ?_⟩
          · rw [List.map_cons, hs, h2', h5]; exact Matches.param g2
          · simp only [PrecLE, if_neg (Ne.symm hxp)]
            rw [hs]
            cases hsx : segOf x with
            | lit s => exact absurd ⟨s, hsx⟩ hnl
            | wild n => simp only [segRank]; split <;> omega
            | param n' v' =>
              obtain ⟨hcmem, hcpath, val, hval, rt2, ps2, q2, k1, k2, -⟩ := hxpar n' v' hsx
              have hnl1 : cx ∉ l1 := by
                intro hin
                have := h6 cx hin val hval _ k1
                simp [k2] at this
              have hne : cx ≠ pr := by rintro rfl; exact hxp hcpath.symm
              have hin2 : cx ∈ l2 := by
                rw [h1] at hcmem
                rcases List.mem_append.1 hcmem with h | h
                · exact absurd h hnl1
                · rcases List.mem_cons.1 h with h | h
                  · exact absurd h hne
                  · exact h
              obtain ⟨-, -, v2, hs2, hv2⟩ := findChild_of_param hr hcmem
              rw [hcpath, hsx] at hs2
              cases hs2
              cases hr with
              | mk _ _ _ _ _ _ _ _ sorted =>
                rw [h1, List.pairwise_append] at sorted
                have := (List.pairwise_cons.1 sorted.2.1).1 cx hin2
                rw [← hv, ← hv2] at this
                simp only [segRank]
                by_cases hv0 : v = []
                · simp [hv0, this hv0]
                · simp [hv0]; split <;> omega
      | none =>
        rw [hm] at hpar
        simp only [] at hpar ⊢
        cases hsx : segOf x with
        | lit s => exact absurd ⟨s, hsx⟩ hnl
        | param n v =>
          obtain ⟨hcmem, hcpath, val, hval, rt2, ps2, q2, k1, k2, -⟩ := hxpar n v hsx
          have := hpar cx hcmem val hval _ k1
          simp [k2] at this
        | wild n =>
          have hf2 := hfx
          rw [findChild_wild hr hsx] at hf2
          cases hw : r.wild with
          | none => rw [hw] at hf2; cases hf2
          | some w =>
            rw [hw] at hf2
            simp only [] at hf2 ⊢
            split at hf2
            · rename_i hwp
              cases hf2
              obtain ⟨g1, g2, g3⟩ := findChild_of_wild hr hw
              refine ⟨cx, _, [cx.pp.path], rfl, g3, nodeAt_cons g1 rfl, by simp, ?_, ?_⟩
              · simp only [List.map_cons, List.map_nil, g2]; exact Matches.wild
              · simp [PrecLE, hwp]
            · cases hf2
    have hlitx : x ≠ p → ¬ ∃ s, segOf x = .lit s := by
      rintro hne ⟨s, hs⟩
      rcases hinv with ⟨h, _⟩ | ⟨n, v, y, ps2, h, _⟩ | ⟨n, h, _⟩
      · exact hne (lit_seg_eq h)
      · rw [hs] at h; cases h
      · rw [hs] at h; cases h
    -- literal branch
    cases hl : litLookup r p with
    | some c =>
      obtain ⟨hfp, hsp⟩ := findChild_of_lit hr hl
      cases hd : descend paths c with
      | some y =>
        obtain ⟨rt, ps⟩ := y
        have hE := hdescE p c rt ps hfp (hextLit c hl) hd
        have hb : litBranch paths r p = some (rt, ps) := by simp [litBranch, hl, hd, hE]
        rw [hb]
        simp only [hE, if_true]
        by_cases hx : x = p
        · subst hx
          rw [hfx] at hfp; cases hfp
          have hm1 : Matches (q1.map segOf) paths ps' := by
            rcases hinv with ⟨_, h⟩ | ⟨n, v, y, ps2, h, _⟩ | ⟨n, h, _⟩
            · exact h
            · rw [hsp] at h; cases h
            · rw [hsp] at h; cases h
          obtain ⟨rt2, ps2, q, g1, g2, g3, g4, g5⟩ := hdesc x cx q1 n' ps' hfx (hextLit cx hl) hn' hE' hm1
          rw [hd] at g1; cases g1
          refine ⟨rt, ps, x :: q, rfl, g2, nodeAt_cons hfx g3, by simp, ?_, ?_⟩
          · rw [List.map_cons, hsp]; exact Matches.lit g4
          · simp [PrecLE]; exact g5
        · -- the literal wins
          have hs : ∃ q, nodeAt q c = some rt ∧ Matches (q.map segOf) paths ps := by
            unfold descend at hd
            split at hd
            · rename_i hp; subst hp; cases hd; exact ⟨[], rfl, Matches.nil⟩
            · obtain ⟨q, ps', hq, h1, h2, h3⟩ := matchRoute_sound paths c rt ps (findChild_WF hr hfp).1 hd
              exact ⟨q, h1, h3 hE ▸ h2⟩
          obtain ⟨q, h1, h2⟩ := hs
          refine ⟨rt, ps, p :: q, rfl, hE, nodeAt_cons hfp h1, by simp, ?_, ?_⟩
          · rw [List.map_cons, hsp]; exact Matches.lit h2
          · simp [PrecLE, Ne.symm hx, hsp, segRank]
      | none =>
        -- then x is not the literal
        have hx : x ≠ p := by
          rintro rfl
          rw [hfx] at hfp; cases hfp
          have hm1 : Matches (q1.map segOf) paths ps' := by
            rcases hinv with ⟨_, h⟩ | ⟨n, v, y, ps2, h, _⟩ | ⟨n, h, _⟩
            · exact h
            · rw [hsp] at h; cases h
            · rw [hsp] at h; cases h
          obtain ⟨rt2, ps2, q, g1, -⟩ := hdesc x cx q1 n' ps' hfx (hextLit cx hl) hn' hE' hm1
          rw [hd] at g1; cases g1
        have hb : litBranch paths r p = none := by simp [litBranch, hl, hd]
        rw [hb]
        exact hrest (hlitx hx)
    | none =>
      have hb : litBranch paths r p = none := by simp [litBranch, hl]
      rw [hb]
      apply hrest
      rintro ⟨s, hs⟩
      rcases hinv with ⟨h, _⟩ | ⟨n, v, y, ps2, h, _⟩ | ⟨n, h, _⟩
      · have := lit_seg_eq h
        subst this
        rw [findChild_lit hr h, hl] at hfx; cases hfx
      · rw [hs] at h; cases h
      · rw [hs] at h; cases h

/-! ### every node leads to an end route -/

def Live (r : Route) : Prop := ∃ q, (obs r q).1 = true
def AllLive (r : Route) : Prop := ∀ q n, q ≠ [] → nodeAt q r = some n → Live n

theorem nodeAt_append {r n : Route} {q q2 : List Str} (h : nodeAt q r = some n) :
    nodeAt (q ++ q2) r = nodeAt q2 n := by
  induction q generalizing r with
  | nil => simp [nodeAt] at h; subst h; rfl
  | cons p q ih =>
    simp only [nodeAt, List.cons_append] at h ⊢
    cases hf : findChild r p with
    | none => rw [hf] at h; cases h
    | some c => rw [hf] at h; simp only [Option.bind_some] at h ⊢; exact ih h

theorem obs_append {r n : Route} {q q2 : List Str} (h : nodeAt q r = some n) :
    obs r (q ++ q2) = obs n q2 := by
  unfold obs; rw [nodeAt_append h]

theorem nodeAt_setTbl {r : Route} {t : Table} {q : List Str} (hq : q ≠ []) :
    nodeAt q (r.setTbl t) = nodeAt q r := by
  cases q with
  | nil => exact absurd rfl hq
  | cons p q => simp [nodeAt, findChild_setTbl]

theorem nodeAt_setEnd {r : Route} {q : List Str} (hq : q ≠ []) :
    nodeAt q r.setEnd = nodeAt q r := by
  cases q with
  | nil => exact absurd rfl hq
  | cons p q => simp [nodeAt, findChild_setEnd]

theorem AllLive.setTbl {r : Route} (t : Table) (h : AllLive r) : AllLive (r.setTbl t) := by
  intro q n hq hn; rw [nodeAt_setTbl hq] at hn; exact h q n hq hn

theorem AllLive.setEnd {r : Route} (h : AllLive r) : AllLive r.setEnd := by
  intro q n hq hn; rw [nodeAt_setEnd hq] at hn; exact h q n hq hn

theorem AllLive.child {r c : Route} {p : Str} (h : AllLive r) (hf : findChild r p = some c) :
    AllLive c := by
  intro q n _ hn; exact h (p :: q) n (by simp) (nodeAt_cons hf hn)

theorem AllLive.newChild {r : Route} {p : Str} : AllLive (newChild r p) := by
  intro q n hq hn
  cases q with
  | nil => exact absurd rfl hq
  | cons a q => simp [nodeAt, findChild, litLookup] at hn

theorem AllLive.newRoot : AllLive newRoot := by
  intro q n hq hn
  cases q with
  | nil => exact absurd rfl hq
  | cons a q =>
    simp [nodeAt, findChild, litLookup, Router.newRoot, Route.params, Route.lits, Route.wild] at hn

theorem insertAt_live {k : Route → Option Route}
    (hk : ∀ n n', WF P n → k n = some n' → WF P n' ∧ Frame n n')
    (hl : ∀ n n', WF P n → AllLive n → k n = some n' → AllLive n') :
    ∀ (segs : List Str) (r r' : Route), (∀ s ∈ segs, P s) → WF P r → AllLive r →
      insertAt k segs r = some r' → AllLive r' ∧ (segs ≠ [] → Live r') := by
  intro segs
  induction segs with
  | nil => intro r r' _ hr ha h; exact ⟨hl r r' hr ha h, fun h => absurd rfl h⟩
  | cons p rest ih =>
    intro r r' hP hr ha h
    have hP' : ∀ s ∈ rest, P s := fun s hs => hP s (by simp [hs])
    obtain ⟨rt0, rt, hrt0, hi, hWrt, hFrt, hWr', hFr', htbl, hfp, hsub, -, -, -⟩ :=
      insertAt_step hr (hP p (by simp))
      (fun n n' hn hi => insertAt_WF hk rest n n' hP' hn hi) h
    have hc : WF P ((findChild r p).getD (Router.newChild r p)) ∧
        AllLive ((findChild r p).getD (Router.newChild r p)) := by
      cases hf : findChild r p with
      | some c => exact ⟨(findChild_WF hr hf).1, ha.child hf⟩
      | none => exact ⟨newChild_WF, AllLive.newChild⟩
    have h0 : WF P rt0 ∧ AllLive rt0 := by
      rw [hrt0]; split
      · exact ⟨hc.1.setEnd, hc.2.setEnd⟩
      · exact hc
    obtain ⟨hart, hlrt⟩ := ih rt0 rt hP' h0.1 h0.2 hi
    have hlive : Live rt := by
      by_cases hrest : rest = []
      · refine ⟨[], ?_⟩
        rw [obs_nil, hFrt.isEnd, hrt0]
        simp [hrest]
      · exact hlrt hrest
    constructor
    · intro q n hq hn
      cases q with
      | nil => exact absurd rfl hq
      | cons p' q =>
        simp only [nodeAt] at hn
        by_cases hpp : p' = p
        · subst hpp
          rw [hfp] at hn
          simp only [Option.bind_some] at hn
          cases q with
          | nil => simp [nodeAt] at hn; subst hn; exact hlive
          | cons a q => exact hart (a :: q) n (by simp) hn
        · cases hf : findChild r' p' with
          | none => rw [hf] at hn; cases hn
          | some c =>
            rw [hf] at hn
            exact ha (p' :: q) n (by simp) (nodeAt_cons (hsub p' c hpp hf) hn)
    · intro _
      obtain ⟨q, hq⟩ := hlive
      refine ⟨p :: q, ?_⟩
      rw [obs_cons, hfp]; exact hq

theorem configNested_live (hs : List Handler) :
    ∀ (fs : List Filter) (pre : List Str) (r r' : Route),
      (∀ e ∈ regs pre fs hs, ∀ s ∈ e.pattern, P s) → WF P r → AllLive r →
      configNested fs hs r = some r' → AllLive r' := by
  induction hs using handlers_ind with
  | nil => intro fs pre r r' _ _ ha h; simp [configNested] at h; subst h; exact ha
  | other h rest hn ih =>
    intro fs pre r r' hP hr ha h
    rw [configNested_other hn] at h
    rw [regs_other hn] at hP
    exact ih fs pre r r' hP hr ha h
  | router path hs rest ih1 ih2 =>
    intro fs pre r r' hP hr ha h
    rw [configNested_router] at h
    rw [regs_router] at hP
    split at h
    · rename_i hnil
      simp only [hnil, if_true, List.nil_append] at hP
      exact ih2 fs pre r r' hP hr ha h
    · rename_i hne
      simp only [hne, if_false] at hP
      cases hi : insertAt (nestK fs hs) (pathSegs path) r with
      | none => rw [hi] at h; cases h
      | some r1 =>
        rw [hi] at h
        have hPin : ∀ e ∈ regs (pre ++ pathSegs path) (innerFilters fs hs) hs,
            ∀ s ∈ e.pattern, P s := fun e he s hs => hP e (by simp [he]) s hs
        have hPseg : ∀ s ∈ pathSegs path, P s :=
          fun s hs' => hP ⟨pre ++ pathSegs path, innerFilters fs hs, argMethods hs⟩ (by simp) s (by simp [hs'])
        have hk : ∀ n n', WF P n → nestK fs hs n = some n' →
            (WF P n' ∧ Frame n n') ∧ (AllLive n → AllLive n') := by
          intro n n' hn hk
          unfold nestK at hk
          cases hm : configMethods (innerFilters fs hs) n.tbl (argMethods hs) with
          | none => rw [hm] at hk; cases hk
          | some t =>
            rw [hm] at hk
            obtain ⟨ha, hb⟩ := configNested_WF hs _ (pre ++ pathSegs path) (n.setTbl t) n'
              hPin (hn.setTbl t) hk
            exact ⟨⟨ha, by simpa using hb.pp, by simpa using hb.chain, by simpa using hb.isEnd⟩,
              fun hal => ih1 _ (pre ++ pathSegs path) (n.setTbl t) n' hPin (hn.setTbl t)
                (hal.setTbl t) hk⟩
        have h1 := insertAt_WF (fun n n' hn h => (hk n n' hn h).1) (pathSegs path) r r1 hPseg hr hi
        have h2 := insertAt_live (fun n n' hn h => (hk n n' hn h).1)
          (fun n n' hn ha h => (hk n n' hn h).2 ha) (pathSegs path) r r1 hPseg hr ha hi
        exact ih2 fs pre r1 r' (fun e he s hs => hP e (by simp [he]) s hs) h1.1 h2.1 h

theorem registerAll_live (hss : List (List Handler)) : ∀ (r r' : Route),
    (∀ e ∈ allRegs hss, ∀ s ∈ e.pattern, P s) → WF P r → AllLive r → registerAll hss r = some r' →
    AllLive r' := by
  induction hss with
  | nil => intro r r' _ hr ha h; simp [registerAll] at h; subst h; exact ha
  | cons hs hss ih =>
    intro r r' hP hr ha h
    unfold registerAll at h
    cases h1 : routers hs r with
    | none => rw [h1] at h; cases h
    | some r1 =>
      rw [h1] at h
      have hA : allRegs (hs :: hss) = callRegs hs ++ allRegs hss := by simp [allRegs]
      rw [hA] at hP
      have hPc : ∀ e ∈ callRegs hs, ∀ s ∈ e.pattern, P s := fun e he => hP e (by simp [he])
      obtain ⟨a1, -⟩ := routers_obs hs r r1 hPc hr h1
      refine ih r1 r' (fun e he => hP e (by simp [he])) a1 ?_ h
      unfold routers configRoutes at h1
      simp only [] at h1
      cases hm : configMethods (fremove (fappend [] (argFilters hs)) (argExempts hs)) r.tbl
          (argMethods hs) with
      | none => rw [hm] at h1; cases h1
      | some t =>
        rw [hm] at h1
        exact configNested_live hs _ [] _ _ (fun e he => hPc e (by simp [callRegs, he]))
          (hr.setTbl t) (ha.setTbl t) h1

/-- every node of an application is on the way to a declared pattern -/
theorem node_declared {hss : List (List Handler)} {root n : Route} {q : List Str}
    (h : registerAll hss newRoot = some root) (hn : nodeAt q root = some n) (hq : q ≠ []) :
    ∃ e ∈ allRegs hss, q <+: e.pattern := by
  have hlive := registerAll_live (P := (· ≠ [])) hss newRoot root (allRegs_seg_ne hss) newRoot_WF
    AllLive.newRoot h
  obtain ⟨-, -, h3, -⟩ := registerAll_obs (P := (· ≠ [])) hss newRoot root (allRegs_seg_ne hss)
    newRoot_WF h
  obtain ⟨q2, hq2⟩ := hlive q n hq hn
  rw [← obs_append hn] at hq2
  rcases h3 (q ++ q2) hq2 with h | ⟨e, he, hep⟩
  · rw [obs_newRoot] at h
    split at h
    · rename_i h0; simp at h0; exact absurd h0.1 hq
    · simp at h
  · exact ⟨e, he, by rw [hep]; exact List.prefix_append _ _⟩

end Verif.Router
