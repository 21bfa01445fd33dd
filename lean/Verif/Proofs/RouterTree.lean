import Verif.Proofs.RouterBase
/-! Helper lemmas: the tree invariant and its preservation by registration. -/
namespace Verif.Router
open Verif.Go Spec

/-- `c` sits below `r` under the raw segment `p`. -/
structure Kid (P : Str → Prop) (r : Route) (p : Str) (c : Route) : Prop where
  pp : c.pp = PathParam.set p
  ok : P p
  chain : c.chain = r.chain ++ [p]

/-- Tree invariant. `P` is a predicate every segment satisfies. -/
inductive WF (P : Str → Prop) : Route → Prop
  | mk {r : Route}
    (lit : ∀ p c, litLookup r p = some c → (∃ s, segOf p = .lit s) ∧ Kid P r p c)
    (litWF : ∀ p c, litLookup r p = some c → WF P c)
    (par : ∀ c ∈ r.params, (∃ n v, segOf c.pp.path = .param n v) ∧ Kid P r c.pp.path c)
    (parWF : ∀ c ∈ r.params, WF P c)
    (wil : ∀ w, r.wild = some w →
      (∃ n, segOf w.pp.path = .wild n) ∧ Kid P r w.pp.path w ∧ w.isEnd = true)
    (wilWF : ∀ w, r.wild = some w → WF P w)
    (names : ∀ c ∈ r.params, ∀ c' ∈ r.params, c.pp.paramName = c'.pp.paramName)
    (nodup : (r.params.map (·.pp.path)).Nodup)
    (sorted : r.params.Pairwise (fun a b => a.pp.customVerb = [] → b.pp.customVerb = [])) :
    WF P r

/-- What an update of a node below its own identity keeps. -/
structure Frame (r r' : Route) : Prop where
  pp : r'.pp = r.pp
  chain : r'.chain = r.chain
  isEnd : r'.isEnd = r.isEnd

theorem Frame.refl (r : Route) : Frame r r := ⟨rfl, rfl, rfl⟩
theorem Frame.trans {a b c : Route} (h : Frame a b) (h' : Frame b c) : Frame a c :=
  ⟨h'.pp.trans h.pp, h'.chain.trans h.chain, h'.isEnd.trans h.isEnd⟩

variable {P : Str → Prop}

theorem find?_path_of_mem {l : List Route} (hn : (l.map (·.pp.path)).Nodup) {c : Route}
    (hc : c ∈ l) : l.find? (fun x => decide (x.pp.path = c.pp.path)) = some c := by
  induction l with
  | nil => cases hc
  | cons a l ih =>
    simp at hn
    rcases List.mem_cons.1 hc with rfl | hc
    · simp
    · have : a.pp.path ≠ c.pp.path := fun e => hn.1 c hc e.symm
      simp [List.find?_cons, this, ih hn.2 hc]

/-- the class of a segment decides where a child of that name lives -/
theorem findChild_lit {r : Route} (h : WF P r) {p s : Str} (hp : segOf p = .lit s) :
    findChild r p = litLookup r p := by
  cases h with
  | mk lit _ par _ wil _ names nodup sorted =>
    unfold findChild
    have h1 : r.params.find? (fun c => decide (c.pp.path = p)) = none := by
      rw [List.find?_eq_none]
      intro c hc
      obtain ⟨⟨n, v, e⟩, _⟩ := par c hc
      simp; intro h2; rw [h2, hp] at e; cases e
    rw [h1]
    cases hl : litLookup r p with
    | some c => rfl
    | none =>
      cases hw : r.wild with
      | none => rfl
      | some w =>
        obtain ⟨⟨n, e⟩, _⟩ := wil w hw
        have : w.pp.path ≠ p := by intro h2; rw [h2, hp] at e; cases e
        simp [this]

theorem findChild_param {r : Route} (h : WF P r) {p n v : Str} (hp : segOf p = .param n v) :
    findChild r p = r.params.find? (fun c => decide (c.pp.path = p)) := by
  cases h with
  | mk lit _ par _ wil _ names nodup sorted =>
    unfold findChild
    cases hf : r.params.find? (fun c => decide (c.pp.path = p)) with
    | some c => rfl
    | none =>
      cases hl : litLookup r p with
      | some c =>
        obtain ⟨⟨s, e⟩, _⟩ := lit p c hl
        rw [hp] at e; cases e
      | none =>
        cases hw : r.wild with
        | none => rfl
        | some w =>
          obtain ⟨⟨n', e⟩, _⟩ := wil w hw
          have : w.pp.path ≠ p := by intro h2; rw [h2, hp] at e; cases e
          simp [this]

theorem findChild_wild {r : Route} (h : WF P r) {p n : Str} (hp : segOf p = .wild n) :
    findChild r p = match r.wild with
      | some w => if w.pp.path = p then some w else none
      | none => none := by
  cases h with
  | mk lit _ par _ wil _ names nodup sorted =>
    unfold findChild
    have h1 : r.params.find? (fun c => decide (c.pp.path = p)) = none := by
      rw [List.find?_eq_none]
      intro c hc
      obtain ⟨⟨n, v, e⟩, _⟩ := par c hc
      simp; intro h2; rw [h2, hp] at e; cases e
    rw [h1]
    have h2 : litLookup r p = none := by
      cases hl : litLookup r p with
      | none => rfl
      | some c =>
        obtain ⟨⟨s, e⟩, _⟩ := lit p c hl
        rw [hp] at e; cases e
    rw [h2]
    cases r.wild <;> rfl

theorem findChild_WF {r c : Route} (h : WF P r) {p : Str} (hc : findChild r p = some c) :
    WF P c ∧ Kid P r p c := by
  have h0 := h
  cases h with
  | mk lit litWF par parWF wil wilWF names nodup sorted =>
    unfold findChild at hc
    split at hc
    · rename_i c' hf
      cases hc
      have h1 := List.find?_some hf
      have h2 := List.mem_of_find?_eq_some hf
      simp at h1
      exact ⟨parWF c h2, h1 ▸ (par c h2).2⟩
    · split at hc
      · rename_i c' hl
        cases hc
        exact ⟨litWF p c hl, (lit p c hl).2⟩
      · split at hc
        · rename_i w hw
          split at hc
          · rename_i h1
            cases hc
            exact ⟨wilWF _ hw, h1 ▸ (wil _ hw).2.1⟩
          · cases hc
        · cases hc

theorem newChild_WF {r : Route} {p : Str} : WF P (newChild r p) := by
  constructor <;> simp [litLookup]

theorem newRoot_WF : WF P newRoot := by
  constructor <;> simp [litLookup, newRoot, Route.lits, Route.params, Route.wild]

theorem WF.setEnd {r : Route} (h : WF P r) : WF P r.setEnd := by
  cases h with
  | mk lit litWF par parWF wil wilWF names nodup sorted =>
    constructor <;> simp only [litLookup_setEnd, Route.setEnd_params, Route.setEnd_wild]
    · intro p c hc; obtain ⟨h1, h2⟩ := lit p c hc
      exact ⟨h1, h2.pp, h2.ok, by simpa using h2.chain⟩
    · exact litWF
    · intro c hc; obtain ⟨h1, h2⟩ := par c hc
      exact ⟨h1, h2.pp, h2.ok, by simpa using h2.chain⟩
    · exact parWF
    · intro c hc; obtain ⟨h1, h2, h3⟩ := wil c hc
      exact ⟨h1, ⟨h2.pp, h2.ok, by simpa using h2.chain⟩, h3⟩
    · exact wilWF
    · exact names
    · exact nodup
    · exact sorted

theorem WF.setTbl {r : Route} (t : Table) (h : WF P r) : WF P (r.setTbl t) := by
  cases h with
  | mk lit litWF par parWF wil wilWF names nodup sorted =>
    constructor <;> simp only [litLookup_setTbl, Route.setTbl_params, Route.setTbl_wild]
    · intro p c hc; obtain ⟨h1, h2⟩ := lit p c hc
      exact ⟨h1, h2.pp, h2.ok, by simpa using h2.chain⟩
    · exact litWF
    · intro c hc; obtain ⟨h1, h2⟩ := par c hc
      exact ⟨h1, h2.pp, h2.ok, by simpa using h2.chain⟩
    · exact parWF
    · intro c hc; obtain ⟨h1, h2, h3⟩ := wil c hc
      exact ⟨h1, ⟨h2.pp, h2.ok, by simpa using h2.chain⟩, h3⟩
    · exact wilWF
    · exact names
    · exact nodup
    · exact sorted

theorem WF.litSet {r c : Route} {p s : Str} (h : WF P r) (hs : segOf p = .lit s)
    (hc : WF P c) (hk : Kid P r p c) : WF P (litSet r p c) := by
  cases h with
  | mk lit litWF par parWF wil wilWF names nodup sorted =>
    constructor <;> simp only [litLookup_litSet, litSet_params, litSet_wild]
    · intro p' c' hc'
      split at hc'
      · rename_i e; cases hc'; subst e; exact ⟨⟨s, hs⟩, hk.pp, hk.ok, by simpa using hk.chain⟩
      · obtain ⟨h1, h2⟩ := lit p' c' hc'
        exact ⟨h1, h2.pp, h2.ok, by simpa using h2.chain⟩
    · intro p' c' hc'
      split at hc'
      · cases hc'; exact hc
      · exact litWF p' c' hc'
    · intro c hc; obtain ⟨h1, h2⟩ := par c hc
      exact ⟨h1, h2.pp, h2.ok, by simpa using h2.chain⟩
    · exact parWF
    · intro c hc; obtain ⟨h1, h2, h3⟩ := wil c hc
      exact ⟨h1, ⟨h2.pp, h2.ok, by simpa using h2.chain⟩, h3⟩
    · exact wilWF
    · exact names
    · exact nodup
    · exact sorted

theorem WF.setWild {r c : Route} {p n : Str} (h : WF P r) (hs : segOf p = .wild n)
    (hc : WF P c) (hk : Kid P r p c) (he : c.isEnd = true) : WF P (r.setWild (some c)) := by
  have hpath : c.pp.path = p := by rw [hk.pp, set_path]
  cases h with
  | mk lit litWF par parWF wil wilWF names nodup sorted =>
    constructor <;> simp only [litLookup_setWild, Route.setWild_params, Route.setWild_wild]
    · intro p c hc; obtain ⟨h1, h2⟩ := lit p c hc
      exact ⟨h1, h2.pp, h2.ok, by simpa using h2.chain⟩
    · exact litWF
    · intro c hc; obtain ⟨h1, h2⟩ := par c hc
      exact ⟨h1, h2.pp, h2.ok, by simpa using h2.chain⟩
    · exact parWF
    · intro w hw; cases hw; rw [hpath]
      exact ⟨⟨n, hs⟩, ⟨hk.pp, hk.ok, by simpa using hk.chain⟩, he⟩
    · intro w hw; cases hw; exact hc
    · exact names
    · exact nodup
    · exact sorted

theorem WF.setParams {r : Route} {ps : List Route} (h : WF P r)
    (hp : ∀ c ∈ ps, (∃ n v, segOf c.pp.path = .param n v) ∧ Kid P r c.pp.path c ∧ WF P c)
    (hn : ∀ c ∈ ps, ∀ c' ∈ ps, c.pp.paramName = c'.pp.paramName)
    (hd : (ps.map (·.pp.path)).Nodup)
    (hs : ps.Pairwise (fun a b => a.pp.customVerb = [] → b.pp.customVerb = [])) :
    WF P (r.setParams ps) := by
  cases h with
  | mk lit litWF par parWF wil wilWF names nodup sorted =>
    constructor <;> simp only [litLookup_setParams, Route.setParams_params, Route.setParams_wild]
    · intro p c hc; obtain ⟨h1, h2⟩ := lit p c hc
      exact ⟨h1, h2.pp, h2.ok, by simpa using h2.chain⟩
    · exact litWF
    · intro c hc; obtain ⟨h1, h2, _⟩ := hp c hc
      exact ⟨h1, h2.pp, h2.ok, by simpa using h2.chain⟩
    · exact fun c hc => (hp c hc).2.2
    · intro c hc; obtain ⟨h1, h2, h3⟩ := wil c hc
      exact ⟨h1, ⟨h2.pp, h2.ok, by simpa using h2.chain⟩, h3⟩
    · exact wilWF
    · exact hn
    · exact hd
    · exact hs

/-! replacing a parameter child -/

theorem replaceParam_map_pp {p : Str} {c : Route} {l : List Route}
    (h : ∀ x ∈ l, x.pp.path = p → c.pp = x.pp) : (replaceParam p c l).map (·.pp) = l.map (·.pp) := by
  induction l with
  | nil => rfl
  | cons a l ih =>
    unfold replaceParam
    split
    · rename_i e; simp [h a (by simp) e]
    · simp [ih (fun x hx => h x (by simp [hx]))]

theorem mem_replaceParam {p : Str} {c x : Route} {l : List Route} (h : x ∈ replaceParam p c l) :
    x = c ∨ x ∈ l := by
  induction l with
  | nil => exact absurd h (by simp [replaceParam])
  | cons a l ih =>
    unfold replaceParam at h
    split at h
    · rcases List.mem_cons.1 h with h | h
      · exact Or.inl h
      · exact Or.inr (by simp [h])
    · rcases List.mem_cons.1 h with h | h
      · exact Or.inr (by simp [h])
      · rcases ih h with h | h
        · exact Or.inl h
        · exact Or.inr (by simp [h])

theorem find?_replaceParam {p p' : Str} {c : Route} (hc : c.pp.path = p) {l : List Route}
    (hm : ∃ x ∈ l, x.pp.path = p) :
    (replaceParam p c l).find? (fun x => decide (x.pp.path = p')) =
      if p' = p then some c else l.find? (fun x => decide (x.pp.path = p')) := by
  induction l with
  | nil => obtain ⟨x, hx, _⟩ := hm; cases hx
  | cons a l ih =>
    unfold replaceParam
    split
    · rename_i e
      by_cases h : p' = p
      · subst h; simp [hc]
      · have h1 : ¬ c.pp.path = p' := by rw [hc]; exact fun e => h e.symm
        have h2 : ¬ a.pp.path = p' := by rw [e]; exact fun e => h e.symm
        simp [List.find?_cons, h1, h2, h]
    · rename_i e
      have : ∃ x ∈ l, x.pp.path = p := by
        obtain ⟨x, hx, hxp⟩ := hm
        rcases List.mem_cons.1 hx with rfl | hx
        · exact absurd hxp e
        · exact ⟨x, hx, hxp⟩
      by_cases h : a.pp.path = p'
      · have : p' ≠ p := by rw [← h]; exact e
        simp [h, this]
      · simp [List.find?_cons, h, ih this]

theorem pairwise_of_map_pp {l l' : List Route} (h : l.map (·.pp) = l'.map (·.pp))
    (hs : l'.Pairwise (fun a b => a.pp.customVerb = [] → b.pp.customVerb = [])) :
    l.Pairwise (fun a b => a.pp.customVerb = [] → b.pp.customVerb = []) := by
  have h1 : (l'.map (·.pp)).Pairwise (fun a b => a.customVerb = [] → b.customVerb = []) := by
    rw [List.pairwise_map]; exact hs
  rw [← h, List.pairwise_map] at h1
  exact h1

/-- One level of `insertAt`: which child is descended into and how the updated child is stored. -/
theorem insertAt_step {k : Route → Option Route} {p : Str} {rest : List Str} {r r' : Route}
    (hr : WF P r) (hp : P p)
    (hkWF : ∀ n n', WF P n → insertAt k rest n = some n' → WF P n' ∧ Frame n n')
    (hi : insertAt k (p :: rest) r = some r') :
    ∃ rt0 rt, rt0 = (if rest.isEmpty then ((findChild r p).getD (newChild r p)).setEnd
                      else (findChild r p).getD (newChild r p)) ∧
      insertAt k rest rt0 = some rt ∧ WF P rt ∧ Frame rt0 rt ∧
      WF P r' ∧ Frame r r' ∧ r'.tbl = r.tbl ∧
      findChild r' p = some rt ∧
      (∀ p' c, p' ≠ p → findChild r' p' = some c → findChild r p' = some c) ∧
      ((∀ s, P s → PlainWild s) → ∀ p', p' ≠ p → findChild r' p' = findChild r p') ∧
      ((∃ n, segOf p = .wild n) → rest = []) ∧
      (∀ n v, segOf p = .param n v → ∀ c ∈ r.params, c.pp.paramName = n) := by
  -- the child descended into
  have hrt0 : WF P ((findChild r p).getD (newChild r p)) ∧
      Kid P r p ((findChild r p).getD (newChild r p)) := by
    cases hf : findChild r p with
    | some c => exact findChild_WF hr hf
    | none => exact ⟨newChild_WF, by constructor <;> simp [hp]⟩
  generalize hex : findChild r p = existing at hrt0
  obtain ⟨hW0, hK0⟩ := hrt0
  generalize hg : existing.getD (newChild r p) = rt0 at hW0 hK0
  have hspec := set_spec p
  unfold insertAt at hi
  simp only [hex, hg] at hi
  have hpath : rt0.pp.path = p := by rw [hK0.pp, set_path]
  have mk0 : WF P (if rest.isEmpty then rt0.setEnd else rt0) ∧
      Kid P r p (if rest.isEmpty then rt0.setEnd else rt0) := by
    split
    · exact ⟨hW0.setEnd, by simpa using hK0.pp, hK0.ok, by simpa using hK0.chain⟩
    · exact ⟨hW0, hK0⟩
  refine ⟨if rest.isEmpty then rt0.setEnd else rt0, ?_⟩
  split at hi
  · -- parameter
    rename_i hisP
    split at hi
    · cases hi
    · rename_i hnc
      split at hi
      · cases hi
      · rename_i rt hrt
        obtain ⟨hWrt, hFrt⟩ := hkWF _ _ mk0.1 hrt
        have hKrt : Kid P r p rt := ⟨hFrt.pp.trans mk0.2.pp, hp, hFrt.chain.trans mk0.2.chain⟩
        have hrtpath : rt.pp.path = p := by rw [hKrt.pp, set_path]
        refine ⟨rt, rfl, hrt, hWrt, hFrt, ?_⟩
        have hseg : ∃ n v, segOf p = .param n v := by
          rw [hK0.pp] at hisP
          revert hspec
          split
          · intro h; rw [h.2.2.1] at hisP; cases hisP
          · rename_i n v _; intro _; exact ⟨n, v, by assumption⟩
          · intro h; rw [h.2.2.1] at hisP; cases hisP
        obtain ⟨n0, v0, hseg⟩ := hseg
        have hname0 : (PathParam.set p).paramName = n0 ∧ (PathParam.set p).customVerb = v0 := by
          rw [hseg] at hspec; exact ⟨hspec.2.2.2.1, hspec.2.2.2.2⟩
        have hnames : ∀ c ∈ r.params, c.pp.paramName = (PathParam.set p).paramName := by
          intro c hc
          simp at hnc
          rw [← hK0.pp]; exact hnc c hc
        have hlast : ((∃ n, segOf p = .wild n) → rest = []) ∧
            (∀ n v, segOf p = .param n v → ∀ c ∈ r.params, c.pp.paramName = n) := by
          constructor
          · rintro ⟨n, h⟩; rw [hseg] at h; cases h
          · intro n v h c hc
            rw [hseg] at h; cases h
            rw [hnames c hc, hname0.1]
        have hr0 := hr
        cases hr with
        | mk lit litWF par parWF wil wilWF names nodup sorted =>
        -- common facts for a new parameter list
        have key : ∀ ps : List Route, r' = r.setParams ps →
            (∀ c ∈ ps, c = rt ∨ c ∈ r.params) →
            (ps.map (·.pp.path)).Nodup →
            ps.Pairwise (fun a b => a.pp.customVerb = [] → b.pp.customVerb = []) →
            (∀ p', ps.find? (fun x => decide (x.pp.path = p')) =
              if p' = p then some rt else r.params.find? (fun x => decide (x.pp.path = p'))) →
            WF P r' ∧ Frame r r' ∧ r'.tbl = r.tbl ∧ findChild r' p = some rt ∧
            (∀ p' c, p' ≠ p → findChild r' p' = some c → findChild r p' = some c) ∧
            ((∀ s, P s → PlainWild s) → ∀ p', p' ≠ p → findChild r' p' = findChild r p') := by
          intro ps hr' hmem hnd hpw hfind
          subst hr'
          have hfc : ∀ p', p' ≠ p → findChild (r.setParams ps) p' = findChild r p' := by
            intro p' hne
            unfold findChild
            simp only [Route.setParams_params, hfind, hne, if_false, litLookup_setParams,
              Route.setParams_wild]
          refine ⟨?_, ⟨by simp, by simp, by simp⟩, by simp, ?_, ?_, fun _ => hfc⟩
          · apply hr0.setParams
            · intro c hc
              rcases hmem c hc with rfl | hc
              · rw [hrtpath]; exact ⟨⟨n0, v0, hseg⟩, hKrt, hWrt⟩
              · exact ⟨(par c hc).1, (par c hc).2, parWF c hc⟩
            · intro c hc c' hc'
              have aux : ∀ x ∈ ps, x.pp.paramName = (PathParam.set p).paramName := by
                intro x hx
                rcases hmem x hx with rfl | hx
                · rw [hKrt.pp]
                · exact hnames x hx
              rw [aux c hc, aux c' hc']
            · exact hnd
            · exact hpw
          · unfold findChild; simp [hfind]
          · intro p' c hne h; rw [hfc p' hne] at h; exact h
        split at hi
        · -- existing
          rename_i c0
          cases hi
          rw [findChild_param hr0 hseg] at hex
          have hc0 := List.mem_of_find?_eq_some hex
          have hc0p := List.find?_some hex
          simp at hc0p
          have hpps : (replaceParam p rt r.params).map (·.pp) = r.params.map (·.pp) := by
            apply replaceParam_map_pp
            intro x hx hxp
            rw [hKrt.pp, (par x hx).2.pp, hxp]
          obtain ⟨a, b, c, d, e, f⟩ := key (replaceParam p rt r.params) rfl
            (fun c hc => mem_replaceParam hc)
            (by
              have : (replaceParam p rt r.params).map (·.pp.path) = r.params.map (·.pp.path) := by
                have := congrArg (List.map (·.path)) hpps
                simpa [List.map_map, Function.comp_def] using this
              rw [this]; exact nodup)
            (pairwise_of_map_pp hpps sorted)
            (fun p' => find?_replaceParam hrtpath ⟨c0, hc0, hc0p⟩)
          exact ⟨a, b, c, d, e, f, hlast⟩
        · -- new
          rename_i hnone
          rw [findChild_param hr0 hseg] at hex
          have hnot : ∀ x ∈ r.params, x.pp.path ≠ p := by
            intro x hx hxp
            have := (List.find?_eq_none.1 hex) x hx
            simp [hxp] at this
          have hfn : ∀ p', p' = p → r.params.find? (fun x => decide (x.pp.path = p')) = none := by
            rintro p' rfl; exact hex
          split at hi
          · rename_i hv
            cases hi
            obtain ⟨a, b, c, d, e, f⟩ := key (rt :: r.params) rfl
              (fun c hc => by simpa using hc)
              (by simp; exact ⟨fun x hx h => hnot x hx (h.trans hrtpath), nodup⟩)
              (by
                refine List.pairwise_cons.2 ⟨?_, sorted⟩
                intro b _ h
                rw [hKrt.pp, ← hK0.pp] at h
                exact absurd h hv)
              (by
                intro p'
                by_cases h : p' = p
                · subst h; simp [hrtpath]
                · have : ¬ rt.pp.path = p' := by rw [hrtpath]; exact fun e => h e.symm
                  simp [this, h])
            exact ⟨a, b, c, d, e, f, hlast⟩
          · rename_i hv
            cases hi
            obtain ⟨a, b, c, d, e, f⟩ := key (r.params ++ [rt]) rfl
              (fun c hc => by simp at hc; exact hc.symm)
              (by
                rw [List.map_append, List.nodup_append]
                refine ⟨nodup, by simp, ?_⟩
                intro a ha b hb
                simp at hb; subst hb
                obtain ⟨x, hx, rfl⟩ := List.mem_map.1 ha
                rw [hrtpath]; exact hnot x hx)
              (by
                rw [List.pairwise_append]
                refine ⟨sorted, by simp, ?_⟩
                intro a _ b hb _
                simp at hb; subst hb
                rw [hKrt.pp, ← hK0.pp]; simpa using hv)
              (by
                intro p'
                rw [List.find?_append]
                by_cases h : p' = p
                · rw [hfn p' h]; subst h; simp [hrtpath]
                · have : ¬ rt.pp.path = p' := by rw [hrtpath]; exact fun e => h e.symm
                  simp [this, h])
            exact ⟨a, b, c, d, e, f, hlast⟩
  · rename_i hnotP
    split at hi
    · -- wild
      rename_i hisW
      have hseg : ∃ n, segOf p = .wild n := by
        rw [hK0.pp] at hisW
        revert hspec
        split
        · intro h; rw [h.2.2.2] at hisW; cases hisW
        · intro h; rw [h.2.2.1] at hisW; cases hisW
        · rename_i n _; intro _; exact ⟨n, by assumption⟩
      obtain ⟨n0, hseg⟩ := hseg
      have hname0 : (PathParam.set p).paramName = n0 := by
        rw [hseg] at hspec; exact hspec.2.2.2
      split at hi
      · cases hi
      · rename_i hnc
        split at hi
        · cases hi
        · rename_i hE
          split at hi
          · cases hi
          · rename_i rt hrt
            cases hi
            simp only [Bool.not_eq_true, Bool.not_eq_false'] at hE
            rw [hE] at mk0 ⊢
            obtain ⟨hWrt, hFrt⟩ := hkWF _ _ mk0.1 hrt
            have hKrt : Kid P r p rt := ⟨hFrt.pp.trans mk0.2.pp, hp, hFrt.chain.trans mk0.2.chain⟩
            have hrtpath : rt.pp.path = p := by rw [hKrt.pp, set_path]
            have hrest : rest = [] := by simpa using hE
            have hr1 : WF P (r.setWild (some rt)) :=
              hr.setWild hseg hWrt hKrt (by rw [hFrt.isEnd]; simp)
            refine ⟨rt, rfl, by simpa using hrt, hWrt, hFrt, hr1, ⟨by simp, by simp, by simp⟩, by simp,
              ?_, ?_, ?_, fun _ => hrest, ?_⟩
            · rw [findChild_wild hr1 hseg]; simp [hrtpath]
            · intro p' c hne h
              cases hs' : segOf p' with
              | lit s => rw [findChild_lit hr1 hs'] at h; rw [findChild_lit hr hs']; simpa using h
              | param n v =>
                rw [findChild_param hr1 hs'] at h; rw [findChild_param hr hs']; simpa using h
              | wild n =>
                rw [findChild_wild hr1 hs'] at h
                simp [hrtpath] at h
                exact absurd h.1.symm hne
            · intro hplain p' hne
              cases hs' : segOf p' with
              | lit s => rw [findChild_lit hr1 hs', findChild_lit hr hs']; simp
              | param n v => rw [findChild_param hr1 hs', findChild_param hr hs']; simp
              | wild n =>
                rw [findChild_wild hr1 hs', findChild_wild hr hs']
                have : ¬ rt.pp.path = p' := by rw [hrtpath]; exact fun e => hne e.symm
                simp only [Route.setWild_wild, this, if_false]
                cases hw : r.wild with
                | none => rfl
                | some w =>
                  simp only []
                  have hneq : ¬ w.pp.path = p' := by
                    intro e
                    cases hr with
                    | mk lit litWF par parWF wil wilWF names nodup sorted =>
                    have hwk := (wil w hw).2.1
                    rw [hw] at hnc
                    simp at hnc
                    have h1 := hplain p hp n0 hseg
                    have h2 := hplain p' (e ▸ hwk.ok) n hs'
                    have hwn : w.pp.paramName = n := by
                      have := set_spec p'
                      rw [hs'] at this
                      rw [hwk.pp, e]; exact this.2.2.2
                    rw [hwn, hK0.pp, hname0] at hnc
                    exact hne (by rw [h1, h2, hnc])
                  simp [hneq]
            · intro n v h; rw [hseg] at h; cases h
    · -- literal
      rename_i hnotW
      have hseg : ∃ s, segOf p = .lit s := by
        rw [hK0.pp] at hnotW hnotP
        revert hspec
        split
        · rename_i s _; intro _; exact ⟨s, by assumption⟩
        · intro h; rw [h.2.1] at hnotP; exact absurd rfl hnotP
        · intro h; rw [h.2.1] at hnotW; exact absurd rfl hnotW
      obtain ⟨s0, hseg⟩ := hseg
      split at hi
      · cases hi
      · rename_i rt hrt
        cases hi
        obtain ⟨hWrt, hFrt⟩ := hkWF _ _ mk0.1 hrt
        have hKrt : Kid P r p rt := ⟨hFrt.pp.trans mk0.2.pp, hp, hFrt.chain.trans mk0.2.chain⟩
        have hr1 : WF P (litSet r p rt) := hr.litSet hseg hWrt hKrt
        have hfc : ∀ p', p' ≠ p → findChild (litSet r p rt) p' = findChild r p' := by
          intro p' hne
          unfold findChild
          simp only [litSet_params, litLookup_litSet, hne, if_false, litSet_wild]
        refine ⟨rt, rfl, hrt, hWrt, hFrt, hr1, ⟨by simp, by simp, by simp⟩, by simp,
          ?_, ?_, fun _ => hfc, ?_, ?_⟩
        · rw [findChild_lit hr1 hseg]; simp
        · intro p' c hne h; rw [hfc p' hne] at h; exact h
        · rintro ⟨n, h⟩; rw [hseg] at h; cases h
        · intro n v h; rw [hseg] at h; cases h

end Verif.Router
