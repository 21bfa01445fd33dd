import Verif.Model.InjectKey
/-! # C26: injection keys identify types -/
namespace Verif.Inj

theorem split_colon {a b c d : Str} (ha : colon ∉ a) (hc : colon ∉ c) (h : a ++ colon :: b = c ++ colon :: d) : a = c ∧ b = d := by
  induction a generalizing c with
  | nil =>
    cases c with
    | nil => exact ⟨rfl, by simpa using h⟩
    | cons x c =>
      simp only [List.nil_append, List.cons_append, List.cons.injEq] at h
      exact absurd (by simp [h.1]) hc
  | cons x a ih =>
    cases c with
    | nil =>
      simp only [List.nil_append, List.cons_append, List.cons.injEq] at h
      exact absurd (by simp [h.1]) ha
    | cons y c =>
      simp only [List.cons_append, List.cons.injEq] at h
      obtain ⟨rfl, h2⟩ := ih (fun g => ha (by simp [g])) (fun g => hc (by simp [g])) h.2
      exact ⟨by rw [h.1], h2⟩

/-- A type declared at package level (or predeclared); import paths and identifiers contain no `:`. -/
def TopLevel (t : GoType) : Prop := ∃ pkg name, t = .decl pkg name 0 ∧ colon ∉ pkg ∧ colon ∉ name

/-- **C26 (partial).** Types declared at package level, and pointers to them, have the same slot only if they are the same type up
to pointers and the slot names agree. -/
theorem C26_slots_distinct_partial {t u : GoType} {a b : Str} (ht : TopLevel t.indirect) (hu : TopLevel u.indirect) :
    slotOf t a = slotOf u b ↔ t.indirect = u.indirect ∧ a = b := by
  obtain ⟨p, n, e, h1, h2⟩ := ht
  obtain ⟨q, m, e', h3, h4⟩ := hu
  constructor
  · intro h
    simp only [slotOf, e, e', createName, GoType.pkgPath, GoType.name, List.append_assoc, List.cons_append, List.nil_append] at h
    obtain ⟨hp, hr⟩ := split_colon h1 h3 h
    obtain ⟨hm, hs⟩ := split_colon h2 h4 hr
    exact ⟨by rw [e, e', hp, hm], hs⟩
  · rintro ⟨h, rfl⟩
    simp only [slotOf, h]

/-- **C26 (partial).** A declared type of any scope never shares a slot with an unnamed type, nor do different packages share one. -/
theorem C26_named_vs_unnamed_partial {pkg name a b : Str} {sc n : Nat} (h1 : colon ∉ pkg) (h2 : colon ∉ name) (hn : name ≠ []) :
    slotOf (.decl pkg name sc) a ≠ slotOf (.lit n) b := by
  intro h
  simp only [slotOf, GoType.indirect, createName, GoType.pkgPath, GoType.name, List.append_assoc, List.cons_append, List.nil_append] at h
  obtain ⟨_, hr⟩ := split_colon (c := []) h1 (by simp) h
  obtain ⟨hs, _⟩ := split_colon (c := []) h2 (by simp) hr
  exact hn hs

/-- **C26 fails** for unnamed types: all of them (slices, maps, function types, …) share one slot. -/
theorem C26_unnamed_violated (n m : Nat) (slot : Str) : slotOf (.lit n) slot = slotOf (.lit m) slot := rfl

/-- **C26 fails** for types of the same name declared in different functions of a package. -/
theorem C26_local_violated (pkg name slot : Str) (n m : Nat) : slotOf (.decl pkg name n) slot = slotOf (.decl pkg name m) slot := rfl

/-- By design, a type and the pointers to it share the slot. -/
theorem C26_pointer_same (t : GoType) (slot : Str) : slotOf (.ptr t) slot = slotOf t slot := rfl

example : TopLevel (GoType.indirect (.ptr (.decl b!"github.com/teapots/teapot" b!"Context" 0))) := ⟨_, _, rfl, by decide, by decide⟩
example : slotOf (.decl b!"main" b!"A" 0) b!"x" ≠ slotOf (.ptr (.decl b!"main" b!"B" 0)) b!"x" := by decide
/-- A concrete collision: `[]string` and `func(int)`. -/
example : GoType.lit 0 ≠ GoType.lit 1 ∧ slotOf (.lit 0) [] = slotOf (.lit 1) [] := ⟨by decide, rfl⟩

/-! ## C108: exactly which types share a slot -/

/-- Names as Go has them: import paths and identifiers contain no `:`, a declared type has a name. -/
def GoType.WfNames : GoType → Prop
  | .decl pkg name _ => colon ∉ pkg ∧ colon ∉ name ∧ name ≠ []
  | .ptr t => t.WfNames
  | .lit _ => True

/-- What is left of a type below its pointers, as far as injection can tell: a package and a name, or unnamed. -/
def GoType.identity : GoType → Option (Str × Str)
  | .decl pkg name _ => some (pkg, name)
  | .ptr t => t.identity
  | .lit _ => none

theorem indirect_identity : ∀ t : GoType, t.indirect.identity = t.identity
  | .decl _ _ _ => rfl
  | .lit _ => rfl
  | .ptr t => indirect_identity t

theorem indirect_wf : ∀ t : GoType, t.WfNames → t.indirect.WfNames
  | .decl _ _ _, h => h
  | .lit _, h => h
  | .ptr t, h => indirect_wf t h

theorem indirect_cases : ∀ t : GoType, (∃ p n s, t.indirect = .decl p n s) ∨ ∃ n, t.indirect = .lit n
  | .decl p n s => .inl ⟨p, n, s, rfl⟩
  | .lit n => .inr ⟨n, rfl⟩
  | .ptr t => indirect_cases t

/-- **C108.** Two slots, of any two types, are the same exactly when the slot names agree and, below their pointers, both types are
unnamed or both are declared with the same name in the same package. -/
theorem C108_same_slot_iff {t u : GoType} {a b : Str} (ht : t.WfNames) (hu : u.WfNames) :
    slotOf t a = slotOf u b ↔ t.identity = u.identity ∧ a = b := by
  have ht' := indirect_wf t ht
  have hu' := indirect_wf u hu
  rw [← indirect_identity t, ← indirect_identity u]
  unfold slotOf
  rcases indirect_cases t with ⟨p, n, sc, e⟩ | ⟨n, e⟩ <;> rcases indirect_cases u with ⟨q, m, sd, e'⟩ | ⟨m, e'⟩ <;>
    rw [e] at ht' ⊢ <;> rw [e'] at hu' ⊢ <;>
    simp only [createName, GoType.pkgPath, GoType.name, GoType.identity, List.append_assoc, List.cons_append, List.nil_append,
      Option.some.injEq, Prod.mk.injEq, true_and, reduceCtorEq, false_and, iff_false]
  · constructor
    · intro h
      obtain ⟨hp, hr⟩ := split_colon ht'.1 hu'.1 h
      obtain ⟨hm, hs⟩ := split_colon ht'.2.1 hu'.2.1 hr
      exact ⟨⟨hp, hm⟩, hs⟩
    · rintro ⟨⟨rfl, rfl⟩, rfl⟩; rfl
  · intro h
    obtain ⟨_, hr⟩ := split_colon (c := []) ht'.1 (by simp) h
    obtain ⟨hs, _⟩ := split_colon (c := []) ht'.2.1 (by simp) hr
    exact ht'.2.2 hs
  · intro h
    obtain ⟨_, hr⟩ := split_colon (c := []) hu'.1 (by simp) h.symm
    obtain ⟨hs, _⟩ := split_colon (c := []) hu'.2.1 (by simp) hr
    exact hu'.2.2 hs
  · constructor
    · intro h; injection h with _ h; injection h
    · intro h; rw [h]

example : GoType.WfNames (.ptr (.ptr (.decl b!"main" b!"A" 3))) ∧
    GoType.identity (.ptr (.ptr (.decl b!"main" b!"A" 3))) = GoType.identity (.decl b!"main" b!"A" 0) ∧
    GoType.identity (.decl b!"main" b!"A" 0) ≠ GoType.identity (.lit 4) := by
  refine ⟨⟨by decide, by decide, by decide⟩, by decide, by decide⟩

end Verif.Inj
