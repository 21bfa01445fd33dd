import Verif.Model.CtxValue
/-!
# C66: values attached to a Go context
-/
namespace Verif.Ctx

/-! ## Specification -/

/-- Named types as the Go compiler has them at package level: no colon in the package path or the name, and the path and
the name determine the type. -/
def Spec.Named (t : Ty) : Prop := t.basic = false ∧ (58 : UInt8) ∉ t.pkg ∧ (58 : UInt8) ∉ t.name

def Spec.Distinct (ts : List Ty) : Prop := ∀ t ∈ ts, ∀ u ∈ ts, t.pkg = u.pkg → t.name = u.name → t = u

/-- The name a value is attached under. -/
def Spec.label (extra : List Str) : Str := extra.head?.getD []

/-- The last value of the type `t` attached under the name `n`. -/
def Spec.last (t : Ty) (n : Str) (l : List (Arg × List Str)) : Option Arg :=
  ((l.filter (fun p => decide (p.1.ty = some t ∧ Spec.label p.2 = n))).getLast?).map (·.1)

/-- What looking for a `T` (by a pointer to a `T`) or a pointer to a `T` (by a pointer to such) must give, for the
attached value. -/
def Spec.result (v : Arg) : Option Arg → Found
  | none => .notFound
  | some (.ptr _ none) | some (.pptr _ none) => .unchanged
  | some (.ptr _ (some a)) | some (.pptr _ (some (some a))) =>
    match v with
    | .ptr .. => .copy a
    | _ => .point (some a)
  | some (.pptr _ (some none)) =>
    match v with
    | .ptr .. => .panic
    | _ => .point none
  | some _ => .panic

/-! ## Lemmas -/

theorem cut_unique {c : UInt8} : ∀ (a b r s : List UInt8), c ∉ a → c ∉ b → a ++ c :: r = b ++ c :: s → a = b ∧ r = s
  | [], [], r, s, _, _, h => by simpa using h
  | [], y :: b, r, s, _, hb, h => by
    simp only [List.nil_append, List.cons_append, List.cons.injEq] at h
    exact absurd (by rw [h.1]; simp) hb
  | x :: a, [], r, s, ha, _, h => by
    simp only [List.nil_append, List.cons_append, List.cons.injEq] at h
    exact absurd (by rw [← h.1]; simp) ha
  | x :: a, y :: b, r, s, ha, hb, h => by
    simp only [List.cons_append, List.cons.injEq] at h
    have := cut_unique a b r s (fun hh => ha (by simp [hh])) (fun hh => hb (by simp [hh])) h.2
    exact ⟨by rw [h.1, this.1], this.2⟩

def key (t : Ty) (n : Str) : Str := t.pkg ++ b!":" ++ t.name ++ b!":" ++ n

theorem key_inj {t u : Ty} {n m : Str} (ht : Spec.Named t) (hu : Spec.Named u) (h : key t n = key u m) :
    t.pkg = u.pkg ∧ t.name = u.name ∧ n = m := by
  unfold key at h
  simp only [List.append_assoc, List.cons_append, List.nil_append] at h
  obtain ⟨h1, h2⟩ := cut_unique _ _ _ _ ht.2.1 hu.2.1 h
  obtain ⟨h3, h4⟩ := cut_unique _ _ _ _ ht.2.2 hu.2.2 h2
  exact ⟨h1, h3, h4⟩

theorem keyOf_eq {v : Arg} {t : Ty} (hv : v.ty = some t) (ht : t.basic = false) (e : List Str) : keyOf v e = some (key t (Spec.label e)) := by
  cases v <;> simp only [Arg.ty, Option.some.injEq, reduceCtorEq] at hv <;> subst hv <;> simp [keyOf, ht, key, Spec.label]

theorem lookup_attach (t : Ty) (ht : Spec.Named t) (n : Str) : ∀ (l : List (Arg × List Str)) (c c' : Context),
    attach c l = some c' → (∀ p ∈ l, ∃ u, p.1.ty = some u ∧ Spec.Named u) →
    Spec.Distinct (t :: l.filterMap (fun p => p.1.ty)) →
    c'.lookup (key t n) = (Spec.last t n l).or (c.lookup (key t n)) := by
  intro l
  induction l with
  | nil =>
    intro c c' h _ _
    cases h
    rfl
  | cons p l ih =>
    intro c c' h hn hd
    obtain ⟨v, e⟩ := p
    unfold attach withValue at h
    obtain ⟨u, hu, hun⟩ := hn (v, e) (by simp)
    rw [keyOf_eq hu hun.1] at h
    simp only [Option.map_some, Option.bind_some] at h
    have hd' : Spec.Distinct (t :: l.filterMap (fun p => p.1.ty)) := by
      intro a ha b hb
      refine hd a ?_ b ?_
      · rcases List.mem_cons.1 ha with ha | ha
        · simp [ha]
        · exact List.mem_cons_of_mem _ (by rw [List.filterMap_cons]; simp only [hu]; exact List.mem_cons_of_mem _ ha)
      · rcases List.mem_cons.1 hb with hb | hb
        · simp [hb]
        · exact List.mem_cons_of_mem _ (by rw [List.filterMap_cons]; simp only [hu]; exact List.mem_cons_of_mem _ hb)
    rw [ih _ c' h (fun p hp => hn p (by simp [hp])) hd', List.lookup_cons]
    unfold Spec.last
    rw [List.filter_cons]
    by_cases hc : (v.ty = some t ∧ Spec.label e = n)
    · rw [if_pos (by simpa using hc)]
      have hut : u = t := by
        have := hc.1
        rw [hu] at this
        exact Option.some.inj this
      have : (key t n == key u (Spec.label e)) = true := by rw [hut, hc.2]; simp
      rw [this]
      simp only
      cases hl : l.filter (fun p => decide (p.1.ty = some t ∧ Spec.label p.2 = n)) with
      | nil => simp
      | cons a b => simp [List.getLast?_cons]
    · rw [if_neg (by simpa using hc)]
      have : (key t n == key u (Spec.label e)) = false := by
        rw [beq_eq_false_iff_ne]
        intro hk
        obtain ⟨h1, h2, h3⟩ := key_inj ht hun hk
        have := hd t (by simp) u (by rw [List.filterMap_cons]; simp [hu]) h1 h2
        exact hc ⟨by rw [hu, this], h3.symm⟩
      rw [this]

/-- C66: after any sequence of attached values, of named types, looking for a type under a name gives the last one
attached of that type under that name, whether the values were attached and are looked for as pointers or as pointers to
pointers; not found if there is none. `v` is the argument of `CtxFindValue`, a non-nil pointer. -/
theorem C66_last_attached_found (l : List (Arg × List Str)) (c : Context) (v : Arg) (extra : List Str) (t : Ty)
    (hv : v.ty = some t) (hnil : v ≠ .ptr t none ∧ v ≠ .pptr t none)
    (hn : Spec.Named t) (hl : ∀ p ∈ l, ∃ u, p.1.ty = some u ∧ Spec.Named u)
    (hd : Spec.Distinct (t :: l.filterMap (fun p => p.1.ty))) (h : attach [] l = some c) :
    find c v extra = Spec.result v (Spec.last t (Spec.label extra) l) := by
  have hk := lookup_attach t hn (Spec.label extra) l [] c h hl hd
  simp only [List.lookup_nil, Option.or_none] at hk
  have hty : ∀ w, Spec.last t (Spec.label extra) l = some w → w.ty = some t := by
    intro w hw
    unfold Spec.last at hw
    cases hg : (l.filter (fun p => decide (p.1.ty = some t ∧ Spec.label p.2 = Spec.label extra))).getLast? with
    | none => rw [hg] at hw; cases hw
    | some p =>
      rw [hg] at hw
      simp only [Option.map_some, Option.some.injEq] at hw
      have := List.mem_filter.1 (List.mem_of_getLast? hg)
      rw [← hw]
      have h2 := this.2
      simp only [decide_eq_true_eq] at h2
      exact h2.1
  unfold find
  rw [keyOf_eq hv hn.1]
  simp only
  rw [hk]
  generalize hw : Spec.last t (Spec.label extra) l = w at hty
  cases v with
  | ptr t' a =>
    simp only [Arg.ty, Option.some.injEq] at hv
    subst hv
    cases a with
    | none => exact absurd rfl hnil.1
    | some a =>
      simp only
      cases w with
      | none => rfl
      | some w =>
        have := hty w rfl
        cases w with
        | ptr t2 b =>
          simp only [Arg.ty, Option.some.injEq] at this
          subst this
          cases b <;> simp [Spec.result]
        | pptr t2 b =>
          simp only [Arg.ty, Option.some.injEq] at this
          subst this
          rcases b with _ | (_ | _) <;> simp [Spec.result]
        | deep => cases this
        | noPtr => cases this
  | pptr t' a =>
    simp only [Arg.ty, Option.some.injEq] at hv
    subst hv
    cases a with
    | none => exact absurd rfl hnil.2
    | some a =>
      simp only
      cases w with
      | none => rfl
      | some w =>
        have := hty w rfl
        cases w with
        | ptr t2 b =>
          simp only [Arg.ty, Option.some.injEq] at this
          subst this
          cases b <;> simp [Spec.result]
        | pptr t2 b =>
          simp only [Arg.ty, Option.some.injEq] at this
          subst this
          rcases b with _ | (_ | _) <;> simp [Spec.result]
        | deep => cases this
        | noPtr => cases this
  | deep => cases hv
  | noPtr => cases hv

/-- C66: attaching does not panic for such values. -/
theorem C66_attach_total (l : List (Arg × List Str)) (hl : ∀ p ∈ l, ∃ u, p.1.ty = some u ∧ Spec.Named u) (c : Context) :
    (attach c l).isSome = true := by
  induction l generalizing c with
  | nil => rfl
  | cons p l ih =>
    obtain ⟨v, e⟩ := p
    obtain ⟨u, hu, hun⟩ := hl (v, e) (by simp)
    unfold attach withValue
    rw [keyOf_eq hu hun.1]
    exact ih (fun p hp => hl p (by simp [hp])) _

/-- A case that meets the hypotheses of C66: two values of one type and one of another, the second under a name. -/
theorem C66_example :
    (attach [] [(.ptr ⟨1, b!"a/b", b!"T", false⟩ (some 10), []), (.ptr ⟨2, b!"a/b", b!"U", false⟩ (some 20), []),
      (.pptr ⟨1, b!"a/b", b!"T", false⟩ (some (some 11)), []), (.ptr ⟨1, b!"a/b", b!"T", false⟩ (some 12), [b!"n"])]).map
      (fun c => (find c (.ptr ⟨1, b!"a/b", b!"T", false⟩ (some 0)) [], find c (.pptr ⟨1, b!"a/b", b!"T", false⟩ (some none)) [b!"n"],
        find c (.pptr ⟨2, b!"a/b", b!"U", false⟩ (some none)) [], find c (.ptr ⟨2, b!"a/b", b!"U", false⟩ (some 0)) [b!"n"])) =
    some (.copy 11, .point (some 12), .point (some 20), .notFound) := by decide +kernel

/-- C66: all unnamed types (slices, maps, functions, …) share one key: attaching a `map[string]int` hides a `[]int` attached
before, and looking for the `[]int` panics. -/
theorem C66_unnamed_types_collide_violated :
    (attach [] [(.ptr ⟨1, [], [], false⟩ (some 10), []), (.ptr ⟨2, [], [], false⟩ (some 20), [])]).map
      (fun c => find c (.ptr ⟨1, [], [], false⟩ (some 0)) []) = some .panic := by decide +kernel

/-- C66: a nil inner pointer attached as a pointer to a pointer panics when looked for as a value. -/
theorem C66_nil_inner_pointer_violated :
    (attach [] [(.pptr ⟨1, b!"a", b!"T", false⟩ (some none), [])]).map
      (fun c => find c (.ptr ⟨1, b!"a", b!"T", false⟩ (some 0)) []) = some .panic := by decide +kernel

/-! ## C114: the logger of a context -/

/-- The last logger attached to a context as `WithLogger`, `CtxWithValue(ctx, &log)` and the request log filter do. -/
def Spec.lastLogger (l : List (Arg × List Str)) : Option Nat :=
  l.foldl (fun r p => match p with
    | (.ptr t (some a), e) => if t = loggerTy ∧ Spec.label e = [] then some a else r
    | _ => r) none

theorem last_snoc (t : Ty) (n : Str) (l : List (Arg × List Str)) (p : Arg × List Str) :
    Spec.last t n (l ++ [p]) = if p.1.ty = some t ∧ Spec.label p.2 = n then some p.1 else Spec.last t n l := by
  unfold Spec.last
  rw [List.filter_append, List.filter_cons]
  by_cases h : p.1.ty = some t ∧ Spec.label p.2 = n
  · rw [if_pos (by simpa using h), if_pos h]
    simp
  · rw [if_neg (by simpa using h), if_neg h]
    simp

theorem lastLogger_snoc (l : List (Arg × List Str)) (p : Arg × List Str) :
    Spec.lastLogger (l ++ [p]) = (match p with
      | (.ptr t (some a), e) => if t = loggerTy ∧ Spec.label e = [] then some a else Spec.lastLogger l
      | _ => Spec.lastLogger l) := by
  unfold Spec.lastLogger
  rw [List.foldl_append]
  rfl

theorem snocInd {α : Type} {P : List α → Prop} (h0 : P []) (h1 : ∀ l a, P l → P (l ++ [a])) (l : List α) : P l := by
  rw [← List.reverse_reverse l]
  induction l.reverse with
  | nil => exact h0
  | cons a r ih => rw [List.reverse_cons]; exact h1 _ _ ih

theorem last_logger (l : List (Arg × List Str)) : (∀ p ∈ l, p.1.ty = some loggerTy → ∃ a, p.1 = .ptr loggerTy (some a)) →
    Spec.last loggerTy [] l = (Spec.lastLogger l).map (fun a => .ptr loggerTy (some a)) := by
  refine snocInd (P := fun l => (∀ p ∈ l, p.1.ty = some loggerTy → ∃ a, p.1 = .ptr loggerTy (some a)) →
    Spec.last loggerTy [] l = (Spec.lastLogger l).map (fun a => .ptr loggerTy (some a))) ?_ ?_ l
  · intro _; rfl
  · intro l p ih h
    have ih := ih (fun q hq => h q (by simp [hq]))
    rw [last_snoc, lastLogger_snoc]
    obtain ⟨v, e⟩ := p
    by_cases hc : v.ty = some loggerTy ∧ Spec.label e = []
    · obtain ⟨a, ha⟩ := h (v, e) (by simp) hc.1
      simp only at ha
      subst ha
      rw [if_pos hc]
      simp [hc.2]
    · rw [if_neg hc, ih]
      cases v with
      | ptr t a =>
        cases a with
        | none => rfl
        | some a =>
          simp only
          rw [if_neg (fun hh => hc ⟨by rw [hh.1]; rfl, hh.2⟩)]
      | pptr t a => rfl
      | deep => rfl
      | noPtr => rfl

/-- **C114**: whatever was attached to a context, and in whatever order, `GetLogger` gives the last logger attached by `WithLogger` or by the request
log filter, and the global logger if there is none. (Values of other named types, and loggers attached under a name, do not matter; a
`Logger` attached by hand must be attached like `WithLogger` does.) -/
theorem C114_get_logger (l : List (Arg × List Str)) (c : Context) (hl : ∀ p ∈ l, ∃ u, p.1.ty = some u ∧ Spec.Named u)
    (hd : Spec.Distinct (loggerTy :: l.filterMap (fun p => p.1.ty)))
    (hp : ∀ p ∈ l, p.1.ty = some loggerTy → ∃ a, p.1 = .ptr loggerTy (some a)) (h : attach [] l = some c) :
    getLogger c = match Spec.lastLogger l with
      | some a => .var a
      | none => .global := by
  have hn : Spec.Named loggerTy := by unfold Spec.Named; decide +kernel
  have hf := C66_last_attached_found l c (.ptr loggerTy (some 0)) [] loggerTy rfl ⟨by simp, by simp⟩ hn hl hd h
  have hll := last_logger l hp
  unfold getLogger
  rw [hf]
  rw [show Spec.last loggerTy (Spec.label []) l = _ from hll]
  cases Spec.lastLogger l <;> rfl

/-- **C114**: in particular right after `WithLogger`. -/
theorem C114_with_logger (c : Context) (a : Nat) : (withLogger c a).map getLogger = some (.var a) := by
  have hk : keyOf (.ptr loggerTy (some a)) [] = keyOf (.ptr loggerTy (some 0)) [] := rfl
  have hs : (keyOf (.ptr loggerTy (some 0)) []).isSome = true := rfl
  unfold withLogger withValue getLogger find
  rw [hk]
  cases hh : keyOf (.ptr loggerTy (some 0)) [] with
  | none => rw [hh] at hs; cases hs
  | some k => simp

example : (attach [] [(.ptr loggerTy (some 3), []), (.ptr ⟨1, b!"a/b", b!"T", false⟩ (some 10), []), (.ptr loggerTy (some 4), []),
    (.ptr loggerTy (some 5), [b!"n"])]).map getLogger = some (.var 4) := by decide +kernel
example : (attach [] [(.ptr ⟨1, b!"a/b", b!"T", false⟩ (some 10), [])]).map getLogger = some .global := by decide +kernel

end Verif.Ctx
