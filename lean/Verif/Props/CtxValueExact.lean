import Verif.Props.CtxValue
/-!
# C129: values attached to a Go context, exactly: all types, all arguments
-/
namespace Verif.Ctx

/-! ## Specification -/

/-- What the functions accept: a pointer, or a pointer to a pointer, to a type that is neither a pointer nor one of the
predeclared basic types. -/
def Spec.Usable (v : Arg) : Prop := ∃ t, v.ty = some t ∧ t.basic = false

/-- Neither package paths nor type names of Go hold a colon. -/
def Spec.NoColon (v : Arg) : Prop := ∀ t, v.ty = some t → (58 : UInt8) ∉ t.pkg ∧ (58 : UInt8) ∉ t.name

/-- Two values go under the same key: types of the same package path and name (both empty for slices, maps, functions
and other unnamed types), attached under the same extra name. -/
def Spec.SameKey (v : Arg) (e : List Str) (w : Arg) (f : List Str) : Prop :=
  ∃ t u, v.ty = some t ∧ w.ty = some u ∧ t.pkg = u.pkg ∧ t.name = u.name ∧ Spec.label e = Spec.label f

/-- `w` is the last value of the list that has the key. -/
def Spec.IsLast (v : Arg) (e : List Str) (l : List (Arg × List Str)) (w : Arg) : Prop :=
  ∃ l1 f l2, l = l1 ++ (w, f) :: l2 ∧ Spec.SameKey v e w f ∧ ∀ q ∈ l2, ¬ Spec.SameKey v e q.1 q.2

/-- What looking into a stored value gives. -/
inductive Spec.Gets : Arg → Arg → Found → Prop where
  /-- a nil pointer was attached, of whatever type: nothing happens -/
  | nilPtr (v : Arg) (u : Ty) : Spec.Gets v (.ptr u none) .unchanged
  | nilPtr2 (v : Arg) (u : Ty) : Spec.Gets v (.pptr u none) .unchanged
  /-- a `*T` looked for by a `*T`: the value is copied -/
  | copy (t : Ty) (b a : Nat) : Spec.Gets (.ptr t (some b)) (.ptr t (some a)) (.copy a)
  /-- a `**T` looked for by a `*T`: the value behind is copied, unless there is none -/
  | copy2 (t : Ty) (b a : Nat) : Spec.Gets (.ptr t (some b)) (.pptr t (some (some a))) (.copy a)
  | copyNil (t u : Ty) (b : Nat) : Spec.Gets (.ptr t (some b)) (.pptr u (some none)) .panic
  /-- a `*T` looked for by a `**T`: the pointer is set -/
  | point (t : Ty) (b : Option Nat) (a : Nat) : Spec.Gets (.pptr t (some b)) (.ptr t (some a)) (.point (some a))
  | point2 (t : Ty) (b a : Option Nat) : Spec.Gets (.pptr t (some b)) (.pptr t (some a)) (.point a)
  /-- another type of the same key -/
  | mismatch (v w : Arg) (t u : Ty) : v.ty = some t → w.ty = some u → t ≠ u → w ≠ .ptr u none → w ≠ .pptr u none →
      Spec.Gets v w .panic

/-- Is the argument of `CtxFindValue` a nil pointer? -/
def Spec.NilArg : Arg → Prop
  | .ptr _ none => True
  | .pptr _ none => True
  | _ => False

/-! ## Lemmas -/

theorem keyOf_some (v : Arg) (e : List Str) (t : Ty) (hv : v.ty = some t) (hb : t.basic = false) :
    keyOf v e = some (key t (Spec.label e)) := keyOf_eq hv hb e

theorem keyOf_none (v : Arg) (e : List Str) : keyOf v e = none ↔ ¬ Spec.Usable v := by
  constructor
  · rintro h ⟨t, ht, hb⟩
    rw [keyOf_some v e t ht hb] at h; cases h
  · intro h
    cases v with
    | deep => rfl
    | noPtr => rfl
    | ptr t a =>
      cases hb : t.basic with
      | false => exact absurd ⟨t, rfl, hb⟩ h
      | true => simp [keyOf, hb]
    | pptr t a =>
      cases hb : t.basic with
      | false => exact absurd ⟨t, rfl, hb⟩ h
      | true => simp [keyOf, hb]

theorem key_iff {t u : Ty} {n m : Str} (ht : (58 : UInt8) ∉ t.pkg ∧ (58 : UInt8) ∉ t.name)
    (hu : (58 : UInt8) ∉ u.pkg ∧ (58 : UInt8) ∉ u.name) :
    key t n = key u m ↔ t.pkg = u.pkg ∧ t.name = u.name ∧ n = m := by
  constructor
  · intro h
    unfold key at h
    simp only [List.append_assoc, List.cons_append, List.nil_append] at h
    obtain ⟨h1, h2⟩ := cut_unique _ _ _ _ ht.1 hu.1 h
    obtain ⟨h3, h4⟩ := cut_unique _ _ _ _ ht.2 hu.2 h2
    exact ⟨h1, h3, h4⟩
  · rintro ⟨h1, h2, h3⟩
    unfold key
    rw [h1, h2, h3]

theorem attach_lookup (v : Arg) (e : List Str) (t : Ty) (hv : v.ty = some t) (hn : Spec.NoColon v) :
    ∀ (l : List (Arg × List Str)) (c c' : Context), attach c l = some c' → (∀ q ∈ l, Spec.NoColon q.1) →
    (∀ w, Spec.IsLast v e l w → c'.lookup (key t (Spec.label e)) = some w) ∧
    ((∀ q ∈ l, ¬ Spec.SameKey v e q.1 q.2) → c'.lookup (key t (Spec.label e)) = c.lookup (key t (Spec.label e))) := by
  intro l
  induction l with
  | nil =>
    intro c c' h _
    cases h
    refine ⟨?_, fun _ => rfl⟩
    rintro w ⟨l1, f, l2, h, _⟩
    cases l1 <;> cases h
  | cons q l ih =>
    intro c c' h hc
    obtain ⟨w, f⟩ := q
    unfold attach withValue at h
    cases hk : keyOf w f with
    | none => rw [hk] at h; cases h
    | some k =>
      rw [hk] at h
      simp only [Option.map_some, Option.bind_some] at h
      obtain ⟨i1, i2⟩ := ih ((k, w) :: c) c' h (fun q hq => hc q (List.mem_cons_of_mem _ hq))
      have hu : Spec.Usable w := Classical.byContradiction fun e => by
        rw [(keyOf_none w f).2 e] at hk; cases hk
      obtain ⟨u, hwu, hub⟩ := hu
      have hku : k = key u (Spec.label f) := by
        rw [keyOf_some w f u hwu hub] at hk; exact (Option.some.inj hk).symm
      have hsame : (key t (Spec.label e) == k) = true ↔ Spec.SameKey v e w f := by
        rw [beq_iff_eq, hku, key_iff (hn t hv) (hc (w, f) (by simp) u hwu)]
        constructor
        · rintro ⟨h1, h2, h3⟩; exact ⟨t, u, hv, hwu, h1, h2, h3⟩
        · rintro ⟨t', u', h1, h2, h3, h4, h5⟩
          rw [hv] at h1; cases h1
          rw [hwu] at h2; cases h2
          exact ⟨h3, h4, h5⟩
      constructor
      · rintro w' ⟨l1, f', l2, hl, hs, hl2⟩
        cases l1 with
        | nil =>
          simp only [List.nil_append, List.cons.injEq, Prod.mk.injEq] at hl
          obtain ⟨⟨rfl, rfl⟩, rfl⟩ := hl
          rw [i2 hl2, List.lookup_cons, hsame.2 hs]
        | cons q' l1 =>
          simp only [List.cons_append, List.cons.injEq] at hl
          exact i1 w' ⟨l1, f', l2, hl.2, hs, hl2⟩
      · intro hno
        rw [i2 (fun q hq => hno q (List.mem_cons_of_mem _ hq)), List.lookup_cons]
        have : (key t (Spec.label e) == k) = false := by
          cases hb : key t (Spec.label e) == k with
          | false => rfl
          | true => exact absurd (hsame.1 hb) (hno (w, f) (by simp))
        rw [this]

/-! ## C129 -/

/-- **C129**: attaching values panics exactly if one of them is not a pointer, points to a pointer to a pointer, or to a
predeclared basic type. -/
theorem C129_attach (l : List (Arg × List Str)) (c : Context) : attach c l = none ↔ ∃ q ∈ l, ¬ Spec.Usable q.1 := by
  induction l generalizing c with
  | nil => simp [attach]
  | cons q l ih =>
    obtain ⟨w, f⟩ := q
    unfold attach withValue
    by_cases hu : Spec.Usable w
    · cases hk : keyOf w f with
      | none => exact absurd hu ((keyOf_none w f).1 hk)
      | some k =>
        simp only [Option.map_some, Option.bind_some]
        rw [ih]
        simp [hu]
    · rw [(keyOf_none w f).2 hu]
      simp [hu]

/-- **C129**: looking for something the functions do not accept, or by a nil pointer, panics. -/
theorem C129_find_panics (c : Context) (v : Arg) (e : List Str) (h : ¬ Spec.Usable v ∨ Spec.NilArg v) :
    find c v e = .panic ∧ mustFind c v e = .panic := by
  have key : find c v e = .panic := by
    by_cases hu : Spec.Usable v
    · rcases h with h | h
      · exact absurd hu h
      · obtain ⟨t, ht, hb⟩ := hu
        unfold find
        rw [keyOf_some v e t ht hb]
        cases v with
        | deep => cases ht
        | noPtr => cases ht
        | ptr t a => cases a with | none => rfl | some a => cases h
        | pptr t a => cases a with | none => rfl | some a => cases h
    · unfold find; rw [(keyOf_none v e).2 hu]
  exact ⟨key, by unfold mustFind; rw [key]⟩

/-- **C129**: for every sequence of attached values and every acceptable argument, the last value attached under the same
key decides: nothing of that key — not found (`MustCtxFindValue` panics) — or what looking into that value gives. -/
theorem C129_find (l : List (Arg × List Str)) (c : Context) (hc : attach [] l = some c) (hl : ∀ q ∈ l, Spec.NoColon q.1)
    (v : Arg) (e : List Str) (hv : Spec.Usable v) (hn : ¬ Spec.NilArg v) (hcol : Spec.NoColon v) :
    ((∀ q ∈ l, ¬ Spec.SameKey v e q.1 q.2) → find c v e = .notFound ∧ mustFind c v e = .panic) ∧
    (∀ w, Spec.IsLast v e l w → ∃ r, Spec.Gets v w r ∧ find c v e = r ∧ mustFind c v e = r) ∧
    ((∀ q ∈ l, ¬ Spec.SameKey v e q.1 q.2) ∨ ∃ w, Spec.IsLast v e l w) := by
  obtain ⟨t, ht, hb⟩ := hv
  obtain ⟨h1, h2⟩ := attach_lookup v e t ht hcol l [] c hc hl
  refine ⟨fun hno => ?_, fun w hw => ?_, ?_⟩
  · have h3 := h2 hno
    rw [List.lookup_nil] at h3
    have key : find c v e = .notFound := by
      unfold find
      rw [keyOf_some v e t ht hb]
      cases v with
      | deep => cases ht
      | noPtr => cases ht
      | ptr t' a => cases a with
        | none => exact absurd trivial hn
        | some a => simp only; rw [h3]
      | pptr t' a => cases a with
        | none => exact absurd trivial hn
        | some a => simp only; rw [h3]
    exact ⟨key, by unfold mustFind; rw [key]⟩
  · have h3 := h1 w hw
    have hwt : ∃ u, w.ty = some u := by
      obtain ⟨_, _, _, _, ⟨_, u, _, hu, _⟩, _⟩ := hw
      exact ⟨u, hu⟩
    obtain ⟨u, hu⟩ := hwt
    have key : ∃ r, Spec.Gets v w r ∧ find c v e = r ∧ r ≠ .notFound := by
      unfold find
      rw [keyOf_some v e t ht hb]
      cases v with
      | deep => cases ht
      | noPtr => cases ht
      | ptr t' a =>
        simp only [Arg.ty, Option.some.injEq] at ht
        subst ht
        cases a with
        | none => exact absurd trivial hn
        | some b =>
          simp only [h3]
          cases w with
          | deep => cases hu
          | noPtr => cases hu
          | ptr u' a =>
            cases a with
            | none => exact ⟨_, .nilPtr _ _, rfl, by simp⟩
            | some a =>
              by_cases htu : u' = t'
              · subst htu; exact ⟨_, .copy _ _ _, if_pos rfl, by simp⟩
              · exact ⟨_, .mismatch _ _ t' u' rfl rfl (Ne.symm htu) (by simp) (by simp), if_neg htu, by simp⟩
          | pptr u' a =>
            cases a with
            | none => exact ⟨_, .nilPtr2 _ _, rfl, by simp⟩
            | some a =>
              cases a with
              | none => exact ⟨_, .copyNil _ _ _, rfl, by simp⟩
              | some a =>
                by_cases htu : u' = t'
                · subst htu; exact ⟨_, .copy2 _ _ _, if_pos rfl, by simp⟩
                · exact ⟨_, .mismatch _ _ t' u' rfl rfl (Ne.symm htu) (by simp) (by simp), if_neg htu, by simp⟩
      | pptr t' a =>
        simp only [Arg.ty, Option.some.injEq] at ht
        subst ht
        cases a with
        | none => exact absurd trivial hn
        | some b =>
          simp only [h3]
          cases w with
          | deep => cases hu
          | noPtr => cases hu
          | ptr u' a =>
            cases a with
            | none => exact ⟨_, .nilPtr _ _, rfl, by simp⟩
            | some a =>
              by_cases htu : u' = t'
              · subst htu; exact ⟨_, .point _ _ _, if_pos rfl, by simp⟩
              · exact ⟨_, .mismatch _ _ t' u' rfl rfl (Ne.symm htu) (by simp) (by simp), if_neg htu, by simp⟩
          | pptr u' a =>
            cases a with
            | none => exact ⟨_, .nilPtr2 _ _, rfl, by simp⟩
            | some a =>
              by_cases htu : u' = t'
              · subst htu; exact ⟨_, .point2 _ _ _, if_pos rfl, by simp⟩
              · exact ⟨_, .mismatch _ _ t' u' rfl rfl (Ne.symm htu) (by simp) (by simp), if_neg htu, by simp⟩
    obtain ⟨r, g1, g2, g3⟩ := key
    refine ⟨r, g1, g2, ?_⟩
    unfold mustFind
    rw [g2]
    cases r <;> first | rfl | exact absurd rfl g3
  · clear h1 h2 hc hl
    induction l with
    | nil => exact Or.inl (by simp)
    | cons q l ih =>
      rcases ih with ih | ⟨w, l1, f, l2, rfl, hs, hl2⟩
      · by_cases hq : Spec.SameKey v e q.1 q.2
        · exact Or.inr ⟨q.1, [], q.2, l, rfl, hq, ih⟩
        · exact Or.inl (by
            intro p hp
            rcases List.mem_cons.1 hp with rfl | hp
            · exact hq
            · exact ih p hp)
      · exact Or.inr ⟨w, q :: l1, f, l2, rfl, hs, hl2⟩

/-- **C129**: what looking into a value gives is determined. -/
theorem C129_unique (v w : Arg) (r r' : Found) (h : Spec.Gets v w r) (h' : Spec.Gets v w r') : r = r' := by
  cases h <;> cases h' <;> first | rfl | (simp_all [Arg.ty])

/-- A value of another package-level type of the same name declared inside a function (same path and name, another type)
hides the first; a nil pointer of it makes the lookup do nothing; basic types are refused. -/
example :
    (attach [] [(.ptr ⟨1, b!"p", b!"T", false⟩ (some 10), []), (.ptr ⟨2, b!"p", b!"T", false⟩ (some 20), [])]).map
      (fun c => find c (.pptr ⟨1, b!"p", b!"T", false⟩ (some none)) []) = some .panic ∧
    (attach [] [(.ptr ⟨1, b!"p", b!"T", false⟩ (some 10), []), (.ptr ⟨2, b!"p", b!"T", false⟩ none, [])]).map
      (fun c => find c (.ptr ⟨1, b!"p", b!"T", false⟩ (some 0)) []) = some .unchanged ∧
    attach [] [(.ptr ⟨3, [], b!"int", true⟩ (some 1), [])] = none ∧
    find [] (.ptr ⟨1, b!"p", b!"T", false⟩ (some 0)) [] = .notFound ∧
    mustFind [] (.ptr ⟨1, b!"p", b!"T", false⟩ (some 0)) [] = .panic := by decide +kernel

/-- What `GetLogger` makes of the value attached under the logger's name. -/
inductive Spec.GetsLogger : Arg → GotLogger → Prop where
  /-- a logger's variable, or a pointer to one -/
  | var (a : Nat) : Spec.GetsLogger (.ptr loggerTy (some a)) (.var a)
  | var2 (a : Nat) : Spec.GetsLogger (.pptr loggerTy (some (some a))) (.var a)
  /-- a nil pointer, of whatever type: no logger at all -/
  | nil (u : Ty) : Spec.GetsLogger (.ptr u none) .nil
  | nil2 (u : Ty) : Spec.GetsLogger (.pptr u none) .nil
  /-- a pointer to a nil pointer, or another type of the same names -/
  | inner (u : Ty) : Spec.GetsLogger (.pptr u (some none)) .panic
  | other (u : Ty) (a : Nat) : u ≠ loggerTy → Spec.GetsLogger (.ptr u (some a)) .panic
  | other2 (u : Ty) (a : Nat) : u ≠ loggerTy → Spec.GetsLogger (.pptr u (some (some a))) .panic

/-- **C114**, exactly: the logger of a context is the global one if nothing was attached under the logger's name, and what
the last thing attached under it gives otherwise. -/
theorem C114_exact (l : List (Arg × List Str)) (c : Context) (hc : attach [] l = some c) (hl : ∀ q ∈ l, Spec.NoColon q.1) :
    ((∀ q ∈ l, ¬ Spec.SameKey (.ptr loggerTy (some 0)) [] q.1 q.2) → getLogger c = .global) ∧
    (∀ w, Spec.IsLast (.ptr loggerTy (some 0)) [] l w → Spec.GetsLogger w (getLogger c)) := by
  have hn : Spec.Usable (.ptr loggerTy (some 0)) := ⟨loggerTy, rfl, rfl⟩
  have hcol : Spec.NoColon (.ptr loggerTy (some 0)) := by
    intro t ht; cases ht; decide +kernel
  obtain ⟨h1, h2, -⟩ := C129_find l c hc hl (.ptr loggerTy (some 0)) [] hn (fun h => h) hcol
  refine ⟨fun h => ?_, fun w hw => ?_⟩
  · unfold getLogger; rw [(h1 h).1]
  · obtain ⟨r, hg, hf, -⟩ := h2 w hw
    unfold getLogger
    rw [hf]
    generalize hv : Arg.ptr loggerTy (some 0) = v at hg
    cases hg with
    | nilPtr => exact .nil _
    | nilPtr2 => exact .nil2 _
    | copy t b a => cases hv; exact .var _
    | copy2 t b a => cases hv; exact .var2 _
    | copyNil t u b => exact .inner _
    | point => cases hv
    | point2 => cases hv
    | mismatch v w t u ht hu hne h3 h4 =>
      subst hv
      cases ht
      cases w with
      | deep => cases hu
      | noPtr => cases hu
      | ptr u' a =>
        cases hu
        cases a with
        | none => exact absurd rfl h3
        | some a => exact .other _ a (Ne.symm hne)
      | pptr u' a =>
        cases hu
        cases a with
        | none => exact absurd rfl h4
        | some a =>
          cases a with
          | none => exact .inner _
          | some a => exact .other2 _ a (Ne.symm hne)

example : (attach [] [(.ptr loggerTy (some 3), []), (.ptr loggerTy none, [])]).map getLogger = some .nil ∧
    (attach [] [(.pptr loggerTy (some (some 3)), [])]).map getLogger = some (.var 3) ∧
    (attach [] [(.ptr loggerTy (some 3), []), (.ptr ⟨9, loggerTy.pkg, loggerTy.name, false⟩ (some 1), [])]).map getLogger =
      some .panic := by decide +kernel

end Verif.Ctx
