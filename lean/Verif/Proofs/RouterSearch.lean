import Verif.Proofs.RouterRep
/-! Helper lemmas: the matcher computes the specified search. -/
namespace Verif.Router
open Verif.Go Spec

variable {P : Str → Prop}

/-- the table made by registrations at one place -/
def foldTable (es : List Reg) : Option Table := es.foldlM (fun t e => configMethods e.filters t e.methods) {}

theorem foldTable_here (es : List Reg) : foldTable (here es) = tableAt es [] {} := rfl

/-- the search result and the matcher's result agree -/
def FoundRel (base : List Str) : Found → Option (Route × Params) → Prop
  | .miss, x => x = none
  | .dead, x => ∃ rt, x = some (rt, []) ∧ rt.isEnd = false
  | .hit q es ps, x => ∃ rt, x = some (rt, ps) ∧ rt.isEnd = true ∧ rt.chain = base ++ q ∧ foldTable es = some rt.tbl

theorem Rep.table {es : List Reg} {r : Route} (h : Rep es r) : foldTable (here es) = some r.tbl := by
  rw [foldTable_here]; cases h; assumption

theorem stripVerb_iff (p v x : Str) : stripVerb p v = some x ↔ p = x ++ v := by
  unfold stripVerb
  by_cases h : v <:+ p
  · rw [if_pos h]
    obtain ⟨a, rfl⟩ := h
    have : (a ++ v).take ((a ++ v).length - v.length) = a := by simp
    rw [this]
    constructor
    · intro e; cases e; rfl
    · intro e; rw [List.append_cancel_right e]
  · rw [if_neg h]
    constructor
    · intro e; cases e
    · rintro rfl; exact absurd (List.suffix_append x v) h

theorem firstHit_not_dead (f : Str → Found) (l : List Str) : firstHit f l ≠ .dead := by
  induction l with
  | nil => intro h; cases h
  | cons s ss ih =>
    unfold firstHit
    cases f s with
    | miss => exact ih
    | dead => exact ih
    | hit q es ps => intro h; cases h

/-- the parameter loop -/
theorem params_search {base : List Str} (f : Str → Found) (paths : List Str) (p : Str) : ∀ (l : List Route),
    (∀ c ∈ l, match c.pp.matchParamRoute p with
      | none => f c.pp.path = .miss
      | some value => ∃ g, f c.pp.path = Found.under c.pp.path [(c.pp.paramName, value)] g ∧ FoundRel (base ++ [c.pp.path]) g (descend paths c)) →
    FoundRel base (firstHit f (l.map (·.pp.path))) (matchParams (matchRoute paths) p (!paths.isEmpty) l) := by
  intro l
  induction l with
  | nil => intro _; rfl
  | cons c l ih =>
    intro h
    have ih := ih (fun x hx => h x (List.mem_cons_of_mem _ hx))
    have hc := h c (by simp)
    show FoundRel base (firstHit f (c.pp.path :: l.map (·.pp.path))) _
    unfold firstHit matchParams
    cases hm : c.pp.matchParamRoute p with
    | none =>
      rw [hm] at hc
      simp only [] at hc
      rw [hc]
      exact ih
    | some value =>
      rw [hm] at hc
      obtain ⟨g, hg, hrel⟩ := hc
      rw [hg]
      by_cases hp : paths = []
      · subst hp
        simp only [descend, if_true] at hrel
        simp only [List.isEmpty_nil, Bool.not_true, Bool.not_false, if_true]
        cases g with
        | miss => cases hrel
        | dead =>
          obtain ⟨rt, e1, e2⟩ := hrel
          cases e1
          simp only [e2, Found.under, Bool.not_false, if_true]
          exact ih
        | hit q es ps =>
          obtain ⟨rt, e1, e2, e3, e4⟩ := hrel
          cases e1
          simp only [e2, Found.under, Bool.not_true, Bool.false_eq_true, if_false]
          exact ⟨c, rfl, e2, by rw [e3]; simp, e4⟩
      · have hmore : (!paths.isEmpty) = true := by simpa using hp
        simp only [descend, if_neg hp] at hrel
        simp only [hmore, Bool.not_true, Bool.false_eq_true, if_false]
        cases g with
        | miss =>
          have hrel : matchRoute paths c = none := hrel
          simp only [hrel, Found.under]
          rw [hmore] at ih; exact ih
        | dead =>
          obtain ⟨rt, e1, e2⟩ := hrel
          simp only [e1, e2, Found.under, Bool.false_eq_true, if_false]
          rw [hmore] at ih; exact ih
        | hit q es ps =>
          obtain ⟨rt, e1, e2, e3, e4⟩ := hrel
          simp only [e1, e2, Found.under, if_true]
          exact ⟨rt, rfl, e2, by rw [e3]; simp, e4⟩

theorem match_search : ∀ (path : List Str) (es : List Reg) (r : Route), path ≠ [] → WF P r → Rep es r →
    FoundRel r.chain (search path es) (matchRoute path r) := by
  intro path
  induction path with
  | nil => intro es r h; exact absurd rfl h
  | cons p paths ih =>
    intro es r _ hW hR
    -- going on below a child
    have hdesc : ∀ (es : List Reg) (c : Route), WF P c → Rep es c → (c.isEnd = true ↔ here es ≠ []) →
        FoundRel c.chain (search paths es) (descend paths c) := by
      intro es c hWc hRc hE
      by_cases hp : paths = []
      · subst hp
        simp only [descend, if_true, search]
        by_cases he : here es = []
        · rw [if_pos (by simp [he])]
          refine ⟨c, rfl, ?_⟩
          cases h : c.isEnd with
          | false => rfl
          | true => exact absurd he (hE.1 h)
        · rw [if_neg (by simp [he])]
          exact ⟨c, rfl, hE.2 he, by simp, hRc.table⟩
      · simp only [descend, if_neg hp]
        exact ih es c hp hWc hRc
    rw [matchRoute_cons]
    have hR0 := hR
    have hW0 := hW
    cases hR with
    | mk tbl litNone litEnd litRep par parEnd parRep wil wilRep =>
    cases hW with
    | mk wlit wlitWF wpar wparWF wwil wwilWF names nodup sorted =>
    -- literals
    have hlit : FoundRel r.chain (if isLitSeg p && !(beneath p es).isEmpty then (search paths (beneath p es)).under p [] else .miss)
        (litBranch paths r p) := by
      unfold litBranch
      cases hl : litLookup r p with
      | none =>
        rw [if_neg]
        · rfl
        · intro h
          simp only [Bool.and_eq_true, Bool.not_eq_true', List.isEmpty_eq_false_iff] at h
          exact h.2 ((litNone p h.1).1 hl)
      | some c =>
        obtain ⟨hs, hk⟩ := wlit p c hl
        have hls := (isLit_iff p).2 hs
        have hne : beneath p es ≠ [] := fun h => by rw [(litNone p hls).2 h] at hl; cases hl
        rw [if_pos (by simp [hls, hne])]
        have hd := hdesc (beneath p es) c (wlitWF p c hl) (litRep p c hl) (litEnd p c hl)
        simp only []
        cases hsr : search paths (beneath p es) with
        | miss =>
          rw [hsr] at hd
          have hd : descend paths c = none := hd
          rw [hd]; rfl
        | dead =>
          rw [hsr] at hd
          obtain ⟨rt, e1, e2⟩ := hd
          rw [e1]
          simp only [e2, Bool.false_eq_true, if_false]
          exact ⟨rt, rfl, e2⟩
        | hit q es' ps =>
          rw [hsr] at hd
          obtain ⟨rt, e1, e2, e3, e4⟩ := hd
          rw [e1]
          simp only [e2, if_true]
          exact ⟨rt, by simp, e2, by rw [e3, hk.chain]; simp, e4⟩
    -- parameters
    have hpar : FoundRel r.chain (firstHit (fun s => match segOf s with
          | .param n v =>
            match stripVerb p v with
            | some x => (search paths (beneath s es)).under s [(n, x)]
            | none => .miss
          | _ => .miss) (paramHeads es)) (matchParams (matchRoute paths) p (!paths.isEmpty) r.params) := by
      rw [← par]
      apply params_search
      intro c hc
      obtain ⟨⟨n, v, hs⟩, hk⟩ := wpar c hc
      have hspec := set_spec c.pp.path
      rw [hs] at hspec
      have hname : c.pp.paramName = n := by rw [hk.pp]; exact hspec.2.2.2.1
      have hmp : ∀ value, c.pp.matchParamRoute p = some value ↔ p = value ++ v := by
        intro value
        have := matchParamRoute_spec (p := p) (value := value) hs
        rw [← hk.pp] at this
        exact this
      simp only [hs]
      cases hm : c.pp.matchParamRoute p with
      | none =>
        simp only []
        cases hsv : stripVerb p v with
        | none => rfl
        | some x =>
          rw [(hmp x).2 ((stripVerb_iff p v x).1 hsv)] at hm; cases hm
      | some value =>
        simp only []
        rw [(stripVerb_iff p v value).2 ((hmp value).1 hm)]
        refine ⟨search paths (beneath c.pp.path es), by rw [hname], ?_⟩
        have := hdesc _ c (wparWF c hc) (parRep c hc) (parEnd c hc)
        rw [hk.chain] at this
        exact this
    -- the wildcard
    have hwild : ∀ (x : Found) (y : Option (Route × Params)), (∀ q es ps, x ≠ .hit q es ps) → FoundRel r.chain x y →
        FoundRel r.chain (match wildIn es with
          | some (w, l) => .hit [w] (here l) [(nameOfSeg w, join1 47 (p :: paths))]
          | none => x)
          (match y with
          | some (rt, ps) =>
            if rt.isEnd then some (rt, ps)
            else match r.wild with
              | none => some (rt, ps)
              | some w => some (w, ps ++ [(w.pp.paramName, join1 47 (p :: paths))])
          | none => match r.wild with
            | none => none
            | some w => some (w, [(w.pp.paramName, join1 47 (p :: paths))])) := by
      intro x y hx hxy
      have hw : ∀ w l w', r.wild = some w → wildIn es = some (w', l) →
          FoundRel r.chain (.hit [w'] (here l) [(nameOfSeg w', join1 47 (p :: paths))]) (some (w, [(w.pp.paramName, join1 47 (p :: paths))])) := by
        intro w l w' h1 h2
        have : w.pp.path = w' := by rw [h1, h2] at wil; simpa using wil
        subst this
        obtain ⟨hp1, hp2, hp3⟩ := hW0.wilPP h1
        refine ⟨w, by rw [name_of_wild hp1 hp2], hp3, (wwil w h1).2.1.chain, (wilRep w l h1 h2).table⟩
      cases hwr : r.wild with
      | none =>
        have : wildIn es = none := by
          rw [hwr] at wil
          cases hi : wildIn es with
          | none => rfl
          | some z => rw [hi] at wil; cases wil
        rw [this]
        simp only []
        cases x with
        | miss => have hxy : y = none := hxy; rw [hxy]; rfl
        | dead => obtain ⟨rt, e1, e2⟩ := hxy; rw [e1]; simp only [e2, Bool.false_eq_true, if_false]; exact ⟨rt, rfl, e2⟩
        | hit q es ps => exact absurd rfl (hx _ _ _)
      | some w =>
        obtain ⟨w', l, hi⟩ : ∃ w' l, wildIn es = some (w', l) := by
          rw [hwr] at wil
          cases hi : wildIn es with
          | none => rw [hi] at wil; cases wil
          | some z => exact ⟨z.1, z.2, rfl⟩
        rw [hi]
        simp only []
        cases x with
        | miss => have hxy : y = none := hxy; rw [hxy]; exact hw w l w' hwr hi
        | dead =>
          obtain ⟨rt, e1, e2⟩ := hxy
          rw [e1]; simp only [e2, Bool.false_eq_true, if_false, List.nil_append]; exact hw w l w' hwr hi
        | hit q es ps => exact absurd rfl (hx _ _ _)
    -- everything together
    unfold search
    simp only []
    generalize (if isLitSeg p && !(beneath p es).isEmpty then (search paths (beneath p es)).under p [] else Found.miss) = L at hlit
    generalize (firstHit _ (paramHeads es)) = F at hpar
    cases L with
    | miss =>
      have hl : litBranch paths r p = none := hlit
      rw [hl]
      simp only []
      cases F with
      | miss => exact hwild .miss _ (by intro _ _ _ h; cases h) hpar
      | dead => exact hwild .dead _ (by intro _ _ _ h; cases h) hpar
      | hit q es' ps =>
        obtain ⟨rt, e1, e2, e3, e4⟩ := hpar
        rw [e1]
        simp only [e2, if_true]
        exact ⟨rt, rfl, e2, e3, e4⟩
    | dead =>
      have hlit' := hlit
      obtain ⟨rt, e1, e2⟩ := hlit
      have := hwild .dead _ (by intro _ _ _ h; cases h) hlit'
      rw [e1] at this ⊢
      exact this
    | hit q es' ps =>
      obtain ⟨rt, e1, e2, e3, e4⟩ := hlit
      rw [e1]
      simp only [e2, if_true]
      exact ⟨rt, rfl, e2, e3, e4⟩

/-! ### registration -/

theorem action_last (m : MethodDecl) : m.action = lastAction m := by
  unfold MethodDecl.action lastAction
  generalize m.items = l
  have key : ∀ (l : List MItem) (acc : Str), l.foldl (fun acc i => match i with | .action a => a | _ => acc) acc =
      ((l.filterMap fun i => match i with | .action a => some a | _ => none).getLast?).getD acc := by
    intro l
    induction l with
    | nil => intro acc; rfl
    | cons i l ih =>
      intro acc
      rw [List.foldl_cons, ih]
      cases i with
      | filter fs => rfl
      | exempt fs => rfl
      | action a =>
        simp only [List.filterMap_cons]
        rw [List.getLast?_cons]
        cases (l.filterMap fun i => match i with | .action a => some a | _ => none).getLast? <;> rfl
  exact key l []

theorem ensure_hasAction (c : Controller) (a : Str) : c.ensureHasAction a = hasAction c a := by
  unfold Controller.ensureHasAction hasAction
  cases c.kind <;> simp

theorem ok_declOk (m : MethodDecl) : m.ok = declOk m := by
  unfold MethodDecl.ok declOk isAll isAny Controller.isFunc
  simp only [ensure_hasAction, action_last]
  congr 1
  · cases h1 : decide (lastAction m = []) <;> cases h2 : m.ctl.kind <;> by_cases h3 : m.method = b!"*" <;> by_cases h4 : m.method = b!"**" <;>
      simp_all

theorem configExact_some (fs : List Filter) : ∀ (ms : List MethodDecl) (t : Table), (configExact fs t ms).isSome = ms.all declOk := by
  intro ms
  induction ms with
  | nil => intro t; rfl
  | cons m ms ih =>
    intro t
    unfold configExact
    rw [ok_declOk]
    cases h : declOk m with
    | false => simp [h]
    | true =>
      simp only [Bool.not_true, Bool.false_eq_true, if_false]
      split
      · rw [ih]; simp [h]
      · rw [ih]; simp [h]

theorem lastAction_mem (m : MethodDecl) (h : lastAction m ≠ []) (hok : declOk m = true) : hasAction m.ctl (lastAction m) = true := by
  unfold declOk at hok
  rw [Bool.and_eq_true] at hok
  have hall := hok.1
  rw [List.all_eq_true] at hall
  have key : ∀ l : List MItem, (∀ i ∈ l, i ∈ m.items) →
      ((l.filterMap fun i => match i with | .action a => some a | _ => none).getLast?).getD [] ≠ [] →
      hasAction m.ctl (((l.filterMap fun i => match i with | .action a => some a | _ => none).getLast?).getD []) = true := by
    intro l hl h
    generalize hg : (l.filterMap fun i => match i with | .action a => some a | _ => none).getLast? = o at h ⊢
    cases o with
    | none => exact absurd rfl h
    | some a =>
      rw [Option.getD_some]
      have := List.mem_of_getLast? hg
      obtain ⟨i, hi, hia⟩ := List.mem_filterMap.1 this
      have := hall i (hl i hi)
      cases i with
      | filter fs => cases hia
      | exempt fs => cases hia
      | action b => cases hia; exact this
  exact key m.items (fun _ h => h) h

theorem getLast_filter_mem {l : List MethodDecl} {f : MethodDecl → Bool} {m : MethodDecl} (h : (l.filter f).getLast? = some m) : m ∈ l :=
  (List.mem_filter.1 (List.mem_of_getLast? h)).1

theorem configAll_some (fs : List Filter) (ms : List MethodDecl) (t : Table) (hok : ms.all declOk = true) : (configAllRoute fs t ms).isSome = true := by
  unfold configAllRoute
  split
  · rfl
  · rename_i m hm
    have hmok : declOk m = true := by
      rw [List.all_eq_true] at hok
      exact hok m (getLast_filter_mem hm)
    simp only [action_last, ensure_hasAction]
    by_cases h3 : lastAction m = [] ∧ (!m.ctl.isFunc) = true
    · simp only [if_pos h3]
      by_cases h4 : m.ctl.actionFuncExists b!"All" = true
      · simp only [if_pos h4]
        have h5 : hasAction m.ctl b!"All" = true := by
          unfold Controller.actionFuncExists at h4
          rw [Bool.and_eq_true] at h4
          unfold hasAction
          have : m.ctl.kind = .struct := by simpa using h4.1
          rw [this]
          exact h4.2
        rw [h5]; simp
      · simp only [if_neg h4]; simp
    · simp only [if_neg h3]
      by_cases h4 : lastAction m = []
      · simp [h4]
      · rw [lastAction_mem m h4 hmok]; simp

theorem configAny_some (fs : List Filter) (ms : List MethodDecl) (t : Table) (hok : ms.all declOk = true) : (configAnyRoute fs t ms).isSome =
    (match (ms.filter fun m => m.method = b!"**").getLast? with
      | some m => if lastAction m = [] && m.ctl.kind ≠ .func then hasAction m.ctl b!"Any" else true
      | none => true) := by
  unfold configAnyRoute
  have hf : (fun m : MethodDecl => isAny m.method) = (fun m => decide (m.method = b!"**")) := by
    funext m; unfold isAny; rw [Bool.eq_iff_iff]; simp
  rw [hf]
  cases hm : (ms.filter fun m => decide (m.method = b!"**")).getLast? with
  | none => rfl
  | some m =>
    have hmok : declOk m = true := by
      rw [List.all_eq_true] at hok
      exact hok m (getLast_filter_mem hm)
    simp only [action_last, ensure_hasAction]
    have hfun : (lastAction m = [] ∧ (!m.ctl.isFunc) = true) ↔ (lastAction m = [] && m.ctl.kind ≠ .func) = true := by
      unfold Controller.isFunc; cases m.ctl.kind <;> simp
    by_cases h1 : (lastAction m = [] && m.ctl.kind ≠ .func) = true
    · rw [if_pos (hfun.2 h1), if_pos h1]
      cases h2 : hasAction m.ctl b!"Any" with
      | true => simp
      | false => simp
    · rw [if_neg (fun h => h1 (hfun.1 h)), if_neg h1]
      by_cases h2 : lastAction m = []
      · simp [h2]
      · rw [lastAction_mem m h2 hmok]; simp

theorem configMethods_some (fs : List Filter) (ms : List MethodDecl) (t : Table) : (configMethods fs t ms).isSome = declsOk ms := by
  unfold configMethods declsOk
  have h1 := configExact_some fs ms t
  cases he : configExact fs t ms with
  | none => rw [he] at h1; rw [← h1]; rfl
  | some t1 =>
    rw [he] at h1
    have hok : ms.all declOk = true := h1.symm
    rw [hok]
    show ((configAllRoute fs (headDefault t1) ms).bind _).isSome = _
    have h2 := configAll_some fs ms (headDefault t1) hok
    cases ha : configAllRoute fs (headDefault t1) ms with
    | none => rw [ha] at h2; cases h2
    | some t2 => exact configAny_some fs ms t2 hok

end Verif.Router
