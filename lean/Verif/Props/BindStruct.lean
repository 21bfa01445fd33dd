import Verif.Model.BindStruct
import Verif.Props.Binder
/-!
# C71, C72: binding parameters to structs and maps
-/
namespace Verif.Params
open Verif.Go Verif.Conv

/-! ## C71 -/

/-- The plain field at a path: type and value. -/
def Spec.fieldAt : List SF → List Nat → Option (Ty × V)
  | _, [] => none
  | fs, i :: q =>
    match fs[i]?, q with
    | some (.leaf _ _ _ t v), [] => some (t, v)
    | some (.emb _ _ gs), _ :: _ => Spec.fieldAt gs q
    | some (.embPtr _ _ _ gs), _ :: _ => Spec.fieldAt gs q
    | _, _ => none

/-- The parameter's name of the plain field at a path: `none` when it is unexported, tagged "-" or inside an
embedded field tagged "-"; otherwise its tag (up to a comma), or its own name without a tag. -/
def Spec.nameAt : List SF → List Nat → Option Str
  | _, [] => none
  | fs, i :: q =>
    match fs[i]?, q with
    | some (.leaf exported tag name _ _), [] =>
      if exported = true ∧ tag ≠ b!"-" then
        some (if tag = [] then name else (splitOn1 44 tag).headD [])
      else none
    | some (.emb _ tag gs), _ :: _ => if tag = b!"-" then none else Spec.nameAt gs q
    | some (.embPtr _ tag _ gs), _ :: _ => if tag = b!"-" then none else Spec.nameAt gs q
    | _, _ => none

/-- Some plain field directly in this struct has a parameter with a value. -/
def Spec.hasParam (p : P) (fs : List SF) : Prop :=
  ∃ i n s, Spec.nameAt fs [i] = some n ∧ firstValue p n = some s

/-- Every nil pointer on the way to the path's field has a parameter for one of the plain fields of its struct. -/
def Spec.reached (p : P) : List SF → List Nat → Prop
  | _, [] => True
  | fs, i :: q =>
    match fs[i]?, q with
    | some (.emb _ _ gs), _ :: _ => Spec.reached p gs q
    | some (.embPtr _ _ isNil gs), _ :: _ => (isNil = true → Spec.hasParam p gs) ∧ Spec.reached p gs q
    | _, _ => True

theorem paramName_eq (tag name : Str) (h : tag ≠ []) : paramName tag name = (splitOn1 44 tag).headD [] := by
  have e := firstPart_eq 44 tag
  unfold firstPart Spec.before at e
  unfold paramName
  by_cases hc : (44 : UInt8) ∈ tag
  · rw [if_pos hc, e]
  · rw [if_neg hc, if_neg h, splitOn1_of_not_mem 44 tag hc]; rfl

theorem paramName_nil (name : Str) : paramName [] name = name := rfl

theorem paramName_spec (tag name : Str) :
    paramName tag name = if tag = [] then name else (splitOn1 44 tag).headD [] := by
  by_cases h : tag = []
  · rw [if_pos h, h]; rfl
  · rw [if_neg h, paramName_eq tag name h]

theorem anyParam_iff (p : P) (fs : List SF) : anyParam p fs = true ↔ Spec.hasParam p fs := by
  have key : ∀ fs : List SF, anyParam p fs = true ↔
      ∃ (i : Nat) (e : Bool) (tag name : Str) (t : Ty) (v : V) (s : Str), fs[i]? = some (.leaf e tag name t v) ∧ e = true ∧ tag ≠ b!"-" ∧
        firstValue p (paramName tag name) = some s := by
    intro fs
    induction fs with
    | nil => simp [anyParam]
    | cons f fs ih =>
      have shift : (∃ (i : Nat) (e : Bool) (tag name : Str) (t : Ty) (v : V) (s : Str),
          fs[i]? = some (.leaf e tag name t v) ∧ e = true ∧ tag ≠ b!"-" ∧
          firstValue p (paramName tag name) = some s) →
          ∃ (i : Nat) (e : Bool) (tag name : Str) (t : Ty) (v : V) (s : Str),
          (f :: fs)[i]? = some (.leaf e tag name t v) ∧ e = true ∧ tag ≠ b!"-" ∧
          firstValue p (paramName tag name) = some s := by
        rintro ⟨i, e, tag, name, t, v, s, h⟩
        exact ⟨i + 1, e, tag, name, t, v, s, by simpa using h⟩
      cases f with
      | leaf e tag name t v =>
        simp only [anyParam, Bool.or_eq_true, Bool.and_eq_true, decide_eq_true_eq]
        constructor
        · rintro (⟨⟨h1, h2⟩, h3⟩ | h)
          · obtain ⟨s, hs⟩ := Option.isSome_iff_exists.1 h3
            exact ⟨0, e, tag, name, t, v, s, by simp, h1, h2, hs⟩
          · exact shift (ih.1 h)
        · rintro ⟨i, e', tag', name', t', v', s, h1, h2, h3, h4⟩
          cases i with
          | zero =>
            simp only [List.getElem?_cons_zero, Option.some.injEq, SF.leaf.injEq] at h1
            obtain ⟨rfl, rfl, rfl, rfl, rfl⟩ := h1
            exact Or.inl ⟨⟨h2, h3⟩, by rw [h4]; rfl⟩
          | succ i => exact Or.inr (ih.2 ⟨i, e', tag', name', t', v', s, by simpa using h1, h2, h3, h4⟩)
      | _ =>
        simp only [anyParam]
        constructor
        · intro h; exact shift (ih.1 h)
        · rintro ⟨i, e', tag', name', t', v', s, h1, h2⟩
          cases i with
          | zero => simp at h1
          | succ i => exact ih.2 ⟨i, e', tag', name', t', v', s, by simpa using h1, h2⟩
  rw [key]
  unfold Spec.hasParam
  constructor
  · rintro ⟨i, e, tag, name, t, v, s, h1, h2, h3, h4⟩
    refine ⟨i, _, s, ?_, h4⟩
    simp only [Spec.nameAt, h1]
    rw [if_pos ⟨h2, h3⟩, paramName_spec]
  · rintro ⟨i, n, s, h1, h2⟩
    simp only [Spec.nameAt] at h1
    cases hf : fs[i]? with
    | none => rw [hf] at h1; cases h1
    | some f =>
      rw [hf] at h1
      cases f with
      | leaf e tag name t v =>
        simp only at h1
        by_cases hc : e = true ∧ tag ≠ b!"-"
        · rw [if_pos hc] at h1
          simp only [Option.some.injEq] at h1
          exact ⟨i, e, tag, name, t, v, s, hf, hc.1, hc.2, by rw [paramName_spec, h1, h2]⟩
        · rw [if_neg hc] at h1; cases h1
      | _ => cases h1

theorem bindSFs_get (x : Ext) (it : Order) (p : P) (path : List Nat) :
    ∀ (fs : List SF) (n : Nat) (gs : List SF), bindSFs x it p path n fs = some gs → ∀ i : Nat,
      (fs[i]? = none → gs[i]? = none) ∧
      (∀ f, fs[i]? = some f → ∃ g q, gs[i]? = some g ∧ bindSF x it p q f = some g)
  | [], n, gs, h, i => by
    unfold bindSFs at h; cases h; simp
  | f :: fs, n, gs, h, i => by
    unfold bindSFs at h
    cases h1 : bindSF x it p (n :: path) f with
    | none => rw [h1] at h; cases h
    | some g =>
      cases h2 : bindSFs x it p path (n + 1) fs with
      | none => rw [h1, h2] at h; cases h
      | some gs' =>
        rw [h1, h2] at h
        cases h
        cases i with
        | succ i => simpa using bindSFs_get x it p path fs (n + 1) gs' h2 i
        | zero =>
          refine ⟨fun e => by simp at e, fun f' e => ?_⟩
          simp only [List.getElem?_cons_zero, Option.some.injEq] at e
          subst e
          exact ⟨g, _, by simp, h1⟩

/-- **C71**: after binding, every plain field at every depth that is not behind a pointer that stays nil has the
value bound from its parameter (zero when the parameter is absent) if it has a parameter name, and its old value
otherwise. -/
theorem C71_fields_bound (x : Ext) (it : Order) (p : P) :
    ∀ (q : List Nat) (path : List Nat) (n : Nat) (fs gs : List SF), bindSFs x it p path n fs = some gs →
      Spec.reached p fs q → ∀ t v, Spec.fieldAt fs q = some (t, v) →
      ∃ w, Spec.fieldAt gs q = some (t, w) ∧
        (∀ name, Spec.nameAt fs q = some name → ∃ path', bind x it t path' p name = some w) ∧
        (Spec.nameAt fs q = none → w = v)
  | [], _, _, _, _, _, _, _, _, h => by cases h
  | i :: q, path, n, fs, gs, h, hr, t, v, hf => by
    obtain ⟨_, hsome⟩ := bindSFs_get x it p path fs n gs h i
    simp only [Spec.fieldAt, Spec.nameAt, Spec.reached] at hf hr ⊢
    cases hfi : fs[i]? with
    | none => rw [hfi] at hf; cases hf
    | some f =>
      obtain ⟨g, pth, hg, hb⟩ := hsome f hfi
      rw [hfi] at hf hr
      rw [hg]
      cases f with
      | leaf e tag name t' v' =>
        cases q with
        | cons _ _ => cases hf
        | nil =>
          simp only [Option.some.injEq, Prod.mk.injEq] at hf
          obtain ⟨rfl, rfl⟩ := hf
          unfold bindSF at hb
          by_cases hc : e = false ∨ tag = b!"-"
          · rw [if_pos hc] at hb
            cases hb
            refine ⟨v', rfl, ?_, fun _ => rfl⟩
            simp only
            rw [if_neg (by rintro ⟨a, b⟩; rcases hc with hc | hc; simp [a] at hc; exact b hc)]
            intro name h; cases h
          · rw [if_neg hc] at hb
            have hc' : e = true ∧ tag ≠ b!"-" := by
              constructor
              · cases e <;> simp_all
              · exact fun h => hc (Or.inr h)
            cases hw : bind x it t' pth p (paramName tag name) with
            | none => rw [hw] at hb; cases hb
            | some w =>
              rw [hw] at hb
              cases hb
              refine ⟨w, rfl, ?_, ?_⟩
              · simp only
                rw [if_pos hc']
                intro nm hn
                simp only [Option.some.injEq] at hn
                exact ⟨pth, by rw [← hn, ← paramName_spec]; exact hw⟩
              · simp only
                rw [if_pos hc']
                intro h; cases h
      | emb e tag ks =>
        cases q with
        | nil => cases hf
        | cons j q =>
          unfold bindSF at hb
          by_cases hc : tag = b!"-"
          · rw [if_pos hc] at hb
            cases hb
            simp only at hf ⊢
            rw [if_pos hc]
            exact ⟨v, hf, (fun _ h => nomatch h), fun _ => rfl⟩
          · rw [if_neg hc] at hb
            cases hk : bindSFs x it p pth 0 ks with
            | none => rw [hk] at hb; cases hb
            | some ks' =>
              rw [hk] at hb
              cases hb
              simp only at hf hr ⊢
              rw [if_neg hc]
              exact C71_fields_bound x it p (j :: q) pth 0 ks ks' hk hr t v hf
      | embPtr e tag isNil ks =>
        cases q with
        | nil => cases hf
        | cons j q =>
          unfold bindSF at hb
          by_cases hc : tag = b!"-"
          · rw [if_pos hc] at hb
            cases hb
            simp only at hf ⊢
            rw [if_pos hc]
            exact ⟨v, hf, (fun _ h => nomatch h), fun _ => rfl⟩
          · rw [if_neg hc] at hb
            cases hk : bindSFs x it p pth 0 ks with
            | none => rw [hk] at hb; cases hb
            | some ks' =>
              rw [hk] at hb
              simp only at hb hf hr ⊢
              rw [if_neg hc]
              have ih := C71_fields_bound x it p (j :: q) pth 0 ks ks' hk hr.2 t v hf
              by_cases ha : anyParam p ks = true
              · rw [if_pos ha] at hb
                cases e with
                | false => simp at hb
                | true =>
                  simp only [if_true] at hb
                  cases hb
                  exact ih
              · rw [if_neg ha] at hb
                cases isNil with
                | true => exact absurd ((anyParam_iff p ks).2 (hr.1 rfl)) ha
                | false =>
                  simp only [Bool.false_eq_true, if_false] at hb
                  cases hb
                  exact ih
      | embOther v' => cases q <;> cases hf

/-- **C71**: an embedded nil pointer is allocated exactly when one of the plain fields of its struct has a
parameter. -/
theorem C71_pointer_allocated_iff (x : Ext) (it : Order) (p : P) (path : List Nat) (fs gs : List SF) (n : Nat)
    (h : bindSFs x it p path n fs = some gs) (i : Nat) (e : Bool) (tag : Str) (ks : List SF)
    (hf : fs[i]? = some (.embPtr e tag true ks)) (ht : tag ≠ b!"-") :
    (∃ ks', gs[i]? = some (.embPtr e tag false ks')) ↔ Spec.hasParam p ks := by
  obtain ⟨g, pth, hg, hb⟩ := (bindSFs_get x it p path fs n gs h i).2 _ hf
  rw [hg]
  unfold bindSF at hb
  rw [if_neg ht] at hb
  rw [← anyParam_iff]
  cases hk : bindSFs x it p pth 0 ks with
  | none => rw [hk] at hb; cases hb
  | some ks' =>
    rw [hk] at hb
    simp only at hb
    by_cases ha : anyParam p ks = true
    · rw [if_pos ha] at hb
      cases e with
      | false => simp at hb
      | true => simp only [if_true] at hb; cases hb; exact ⟨fun _ => ha, fun _ => ⟨_, rfl⟩⟩
    · rw [if_neg ha] at hb
      simp only [if_true] at hb
      cases hb
      exact ⟨fun ⟨_, h⟩ => (by simp at h), fun h => absurd h ha⟩

/-- **C71 fails** for absent parameters: they reset the field instead of leaving it. -/
theorem C71_absent_resets_violated (x : Ext) (it : Order) (path : List Nat) (n : Nat) :
    bindSFs x it ⟨[], []⟩ path n [.leaf true [] b!"Limit" (.int .int) (.int 20)] =
      some [.leaf true [] b!"Limit" (.int .int) (.int 0)] := by
  simp [bindSFs, bindSF, bind, firstValue, lookup]

/-- **C71 fails** for tags with options but no name: the field is bound to the parameter with the empty name. -/
theorem C71_option_tag_violated : paramName b!",omitempty" b!"Limit" = [] := by decide

/-- **C71 fails** for embedded pointers to unexported structs: a parameter for one of their fields makes the binding
panic. -/
theorem C71_unexported_pointer_panics_violated (x : Ext) (it : Order) (path : List Nat) (n : Nat) (isNil : Bool) :
    bindSFs x it ⟨[(b!"value", [b!"v"])], []⟩ path n
      [.embPtr false [] isNil [.leaf true b!"value" b!"Value" .string (.str [])]] = none := by
  simp [bindSFs, bindSF, bind, firstValue, lookup, anyParam, paramName]

/-- **C71 fails** for structs embedded two levels deep behind a pointer: their parameters do not allocate it, and
are lost. -/
theorem C71_deep_embedding_lost_violated (x : Ext) (it : Order) (path : List Nat) (n : Nat) :
    bindSFs x it ⟨[(b!"Q", [b!"v"])], []⟩ path n
      [.embPtr true [] true [.emb true [] [.leaf true [] b!"Q" .string (.str [])]]] =
    some [.embPtr true [] true [.emb true [] [.leaf true [] b!"Q" .string (.str [])]]] := by
  simp [bindSFs, bindSF, bind, firstValue, lookup, anyParam, paramName]

/-- plain, embedded, embedded pointer and skipped fields -/
def Spec.exampleFields : List SF :=
  [.leaf true b!"limit,x" b!"Limit" .string (.str b!"3"), .emb true [] [.leaf true [] b!"Name" .string (.str b!"old")],
    .embPtr true [] true [.leaf true b!"page" b!"Page" .string (.str [])], .leaf true b!"-" b!"Kept" .string (.str b!"k")]

example : Spec.reached ⟨[(b!"page", [b!"7"]), (b!"Name", [b!"new"])], []⟩ Spec.exampleFields [2, 0] ∧
    Spec.nameAt Spec.exampleFields [0] = some b!"limit" ∧ Spec.nameAt Spec.exampleFields [3] = none ∧
    bindSFs Spec.toyExt Spec.asIs ⟨[(b!"page", [b!"7"]), (b!"Name", [b!"new"])], []⟩ [] 0 Spec.exampleFields =
      some [.leaf true b!"limit,x" b!"Limit" .string (.str []), .emb true [] [.leaf true [] b!"Name" .string (.str b!"new")],
        .embPtr true [] false [.leaf true b!"page" b!"Page" .string (.str b!"7")],
        .leaf true b!"-" b!"Kept" .string (.str b!"k")] := by
  refine ⟨⟨fun _ => ⟨0, b!"page", b!"7", rfl, rfl⟩, trivial⟩, rfl, rfl, rfl⟩

/-! ## C72 -/

/-- `key` is `name[txt]`. -/
def Spec.MapKey (name key txt : Str) : Prop := key = name ++ 91 :: (txt ++ [93])

theorem mapKey_iff (name key : Str) :
    (hasPrefix key (name ++ [91]) = true ∧ key.getLast? = some 93) ↔
      Spec.MapKey name key ((key.drop (name.length + 1)).dropLast) := by
  unfold Spec.MapKey hasPrefix
  rw [List.isPrefixOf_iff_prefix]
  constructor
  · rintro ⟨⟨t, rfl⟩, hl⟩
    have hd : (name ++ [91] ++ t).drop (name.length + 1) = t := List.drop_left' (by simp)
    rw [hd]
    have ht : t ≠ [] := by
      rintro rfl
      simp at hl
    have : t.getLast? = some 93 := by
      rw [List.getLast?_append] at hl
      cases h : t.getLast? with
      | none => exact absurd (List.getLast?_eq_none_iff.1 h) ht
      | some c => rw [h] at hl; simpa using hl
    have e : t.dropLast ++ [93] = t := by
      have h1 := List.dropLast_concat_getLast ht
      rw [List.getLast?_eq_some_getLast ht] at this
      simp only [Option.some.injEq] at this
      rw [this] at h1
      exact h1
    rw [e]; simp
  · intro h
    refine ⟨⟨(key.drop (name.length + 1)).dropLast ++ [93], ?_⟩, ?_⟩
    · rw [List.append_assoc]; exact h.symm
    · have e : key = (name ++ 91 :: (key.drop (name.length + 1)).dropLast) ++ [93] := by
        rw [List.append_assoc]; exact h
      rw [e, List.getLast?_concat]

theorem mapKey_txt {name key txt : Str} (h : Spec.MapKey name key txt) : (key.drop (name.length + 1)).dropLast = txt := by
  unfold Spec.MapKey at h
  rw [h]
  have : name ++ 91 :: (txt ++ [93]) = (name ++ [91]) ++ (txt ++ [93]) := by simp
  rw [this, List.drop_left' (by simp)]
  simp

/-- **C72**: for string-keyed lookups of the bound map: a key has a value exactly when some parameter `name[txt]`
converts to it, and it is the bound first value of that parameter, in whatever order Go visits the parameters,
provided no two parameters convert to the same key. -/
theorem C72_map_binding_partial {K W : Type} [DecidableEq K] (kb : Str → K) (bv : Str → W) (vals visit : Values)
    (hp : visit.Perm vals) (hm : Spec.IsMap vals) (name : Str)
    (hinj : ∀ e ∈ vals, ∀ e' ∈ vals, ∀ t t', Spec.MapKey name e.1 t → Spec.MapKey name e'.1 t' → kb t = kb t' → t = t')
    (k : K) (w : W) :
    (k, w) ∈ bindMap kb bv visit name ↔
      ∃ e ∈ vals, ∃ txt, Spec.MapKey name e.1 txt ∧ kb txt = k ∧ w = bv (e.2.headD []) := by
  have hm' : Spec.IsMap visit := by
    unfold Spec.IsMap
    exact (hp.map (fun e : Str × List Str => e.1)).nodup_iff.2 hm
  have hinj' : ∀ e ∈ visit, ∀ e' ∈ visit, ∀ t t', Spec.MapKey name e.1 t → Spec.MapKey name e'.1 t' →
      kb t = kb t' → t = t' := fun e he e' he' => hinj e (hp.mem_iff.1 he) e' (hp.mem_iff.1 he')
  suffices h : (k, w) ∈ bindMap kb bv visit name ↔
      ∃ e ∈ visit, ∃ txt, Spec.MapKey name e.1 txt ∧ kb txt = k ∧ w = bv (e.2.headD []) by
    rw [h]
    constructor
    · rintro ⟨e, he, r⟩; exact ⟨e, hp.mem_iff.1 he, r⟩
    · rintro ⟨e, he, r⟩; exact ⟨e, hp.mem_iff.2 he, r⟩
  clear hm hinj hp
  unfold bindMap
  rw [← List.foldr_reverse]
  have hkey : ∀ e ∈ visit, ∀ e' ∈ visit, ∀ t t', Spec.MapKey name e.1 t → Spec.MapKey name e'.1 t' →
      kb t = kb t' → e = e' := by
    intro e he e' he' t t' h1 h2 h3
    have ht := hinj' e he e' he' t t' h1 h2 h3
    subst ht
    have hk : e.1 = e'.1 := h1.trans h2.symm
    obtain ⟨a, v⟩ := e
    obtain ⟨a', v'⟩ := e'
    simp only at hk
    subst hk
    have l1 := lookup_of_mem visit hm' _ _ he
    have l2 := lookup_of_mem visit hm' _ _ he'
    rw [l1] at l2
    simp only [Option.some.injEq] at l2
    rw [l2]
  have hsub : ∀ e ∈ visit.reverse, e ∈ visit := fun e he => List.mem_reverse.1 he
  have hmem : (∃ e ∈ visit, ∃ txt, Spec.MapKey name e.1 txt ∧ kb txt = k ∧ w = bv (e.2.headD [])) ↔
      (∃ e ∈ visit.reverse, ∃ txt, Spec.MapKey name e.1 txt ∧ kb txt = k ∧ w = bv (e.2.headD [])) := by
    constructor
    · rintro ⟨e, he, r⟩; exact ⟨e, List.mem_reverse.2 he, r⟩
    · rintro ⟨e, he, r⟩; exact ⟨e, hsub e he, r⟩
  rw [hmem]
  clear hmem
  generalize visit.reverse = l at hsub ⊢
  induction l with
  | nil => simp
  | cons a l ih =>
    obtain ⟨i1, i2⟩ := ih (fun e he => hsub e (by simp [he]))
    have ih' := Iff.intro i1 i2
    rw [List.foldr_cons]
    by_cases hc : hasPrefix a.1 (name ++ [91]) = true ∧ a.1.getLast? = some 93
    · have hk := (mapKey_iff name a.1).1 hc
      rw [if_pos hc, List.mem_cons, List.mem_filter, ih']
      constructor
      · rintro (e | ⟨⟨e, he, t, h1, h2, h3⟩, _⟩)
        · rw [Prod.mk.injEq] at e
          exact ⟨a, by simp, _, hk, e.1.symm, e.2⟩
        · exact ⟨e, by simp [he], t, h1, h2, h3⟩
      · rintro ⟨e, he, t, h1, h2, h3⟩
        rcases List.mem_cons.1 he with rfl | he
        · left
          rw [mapKey_txt h1, h2, h3]
        · by_cases hkk : k = kb ((a.1.drop (name.length + 1)).dropLast)
          · have := hkey e (hsub e (by simp [he])) a (hsub a (by simp)) t _ h1 hk (h2.trans hkk)
            subst this
            left
            rw [mapKey_txt h1, h2, h3]
          · right
            exact ⟨⟨e, he, t, h1, h2, h3⟩, by simpa using hkk⟩
    · rw [if_neg hc, ih']
      constructor
      · rintro ⟨e, he, r⟩; exact ⟨e, by simp [he], r⟩
      · rintro ⟨e, he, t, h1, r⟩
        rcases List.mem_cons.1 he with rfl | he
        · exfalso
          refine hc ((mapKey_iff name e.1).2 ?_)
          rw [mapKey_txt h1]; exact h1
        · exact ⟨e, he, t, h1, r⟩

/-- **C72 fails** when two parameters convert to the same key (`m[1]` and `m[01]` for integer keys, or any two keys
that are not numbers): the value depends on the order. -/
theorem C72_clash_violated :
    bindMap (bindInt .int) (fun s => s) [(b!"m[1]", [b!"x"]), (b!"m[01]", [b!"y"])] b!"m" = [(1, b!"y")] ∧
    bindMap (bindInt .int) (fun s => s) [(b!"m[01]", [b!"y"]), (b!"m[1]", [b!"x"])] b!"m" = [(1, b!"x")] := by
  decide +kernel

example : bindMap (fun s => s) (bindInt .int) [(b!"m[a]", [b!"1"]), (b!"n", [b!"5"]), (b!"m[b]", [b!"2", b!"3"])] b!"m" =
    [(b!"b", 2), (b!"a", 1)] := by decide +kernel

end Verif.Params
