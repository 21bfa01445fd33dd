import Verif.Proofs.RouterMatch
/-! Helper lemmas about filter lists. -/
namespace Verif.Router
open Verif.Go Spec

theorem mem_fappend (h vs : List Filter) (f : Filter) : f ∈ fappend h vs ↔ f ∈ h ∨ f ∈ vs := by
  induction vs generalizing h with
  | nil => simp [fappend]
  | cons v vs ih =>
    unfold fappend
    split
    · rename_i hv
      rw [ih]; simp
      constructor
      · rintro (h | h)
        · exact Or.inl h
        · exact Or.inr (Or.inr h)
      · rintro (h | rfl | h)
        · exact Or.inl h
        · exact Or.inl hv
        · exact Or.inr h
    · rw [ih]; simp [or_assoc]

theorem nodup_fappend (h vs : List Filter) (hn : h.Nodup) : (fappend h vs).Nodup := by
  induction vs generalizing h with
  | nil => exact hn
  | cons v vs ih =>
    unfold fappend
    split
    · exact ih h hn
    · rename_i hv
      apply ih
      rw [List.nodup_append]
      refine ⟨hn, by simp, ?_⟩
      intro a ha b hb
      simp at hb; subst hb
      rintro rfl; exact hv ha

/-- `fappend` keeps the old list in front and adds a sublist of the new values. -/
theorem fappend_eq (h vs : List Filter) : ∃ add, fappend h vs = h ++ add ∧ add.Sublist vs := by
  induction vs generalizing h with
  | nil => exact ⟨[], by simp [fappend]⟩
  | cons v vs ih =>
    unfold fappend
    split
    · obtain ⟨add, h1, h2⟩ := ih h
      exact ⟨add, h1, h2.cons v⟩
    · obtain ⟨add, h1, h2⟩ := ih (h ++ [v])
      exact ⟨v :: add, by rw [h1]; simp, h2.cons_cons v⟩

theorem mem_fremove (h vs : List Filter) (f : Filter) : f ∈ fremove h vs ↔ f ∈ h ∧ f ∉ vs := by
  simp [fremove]

theorem nodup_fremove (h vs : List Filter) (hn : h.Nodup) : (fremove h vs).Nodup :=
  hn.filter _

theorem fremove_sublist (h vs : List Filter) : (fremove h vs).Sublist h := List.filter_sublist

theorem fappend_skip {h vs : List Filter} {v : Filter} (hv : v ∈ h) :
    fappend h (v :: vs) = fappend h vs := by
  conv => lhs; unfold fappend
  simp [hv]

theorem fappend_push {h vs : List Filter} {v : Filter} (hv : v ∉ h) :
    fappend h (v :: vs) = fappend (h ++ [v]) vs := by
  conv => lhs; unfold fappend
  simp [hv]

theorem fappend_fappend (h vs ws : List Filter) : fappend (fappend h vs) ws = fappend h (vs ++ ws) := by
  induction vs generalizing h with
  | nil => rfl
  | cons v vs ih =>
    simp only [List.cons_append]
    by_cases hv : v ∈ h
    · rw [fappend_skip hv, fappend_skip hv, ih]
    · rw [fappend_push hv, fappend_push hv, ih]

theorem fappend_fappend' (g h vs : List Filter) :
    fappend g (fappend h vs) = fappend g (h ++ vs) := by
  induction vs generalizing h with
  | nil => simp [fappend]
  | cons v vs ih =>
    by_cases hv : v ∈ h
    · rw [fappend_skip hv, ih]
      -- g ++ h already contains v
      rw [← fappend_fappend g h vs, ← fappend_fappend g h (v :: vs)]
      rw [fappend_skip]
      rw [mem_fappend]; exact Or.inr hv
    · rw [fappend_push hv, ih]
      simp

theorem foldl_fappend_filters {α} (l : List α) (g : α → List Filter) (acc : List Filter) :
    l.foldl (fun acc a => fappend acc (g a)) acc = fappend acc (l.flatMap g) := by
  induction l generalizing acc with
  | nil => rfl
  | cons a l ih => rw [List.foldl_cons, ih, fappend_fappend]; simp

theorem argFilters_eq (hs : List Handler) : argFilters hs = fappend [] (routerLevel hs).own := by
  unfold argFilters routerLevel
  rw [← foldl_fappend_filters]
  congr
  funext acc h
  cases h <;> rfl

theorem argExempts_eq (hs : List Handler) : argExempts hs = fappend [] (routerLevel hs).exempts := by
  unfold argExempts routerLevel
  rw [← foldl_fappend_filters]
  congr
  funext acc h
  cases h <;> rfl

theorem mfilters_eq (m : MethodDecl) : m.filters = fappend [] (Spec.MethodDecl.level m).own := by
  unfold MethodDecl.filters Spec.MethodDecl.level
  rw [← foldl_fappend_filters]
  congr
  funext acc h
  cases h <;> rfl

theorem mexempts_eq (m : MethodDecl) : m.exempts = fappend [] (Spec.MethodDecl.level m).exempts := by
  unfold MethodDecl.exempts Spec.MethodDecl.level
  rw [← foldl_fappend_filters]
  congr
  funext acc h
  cases h <;> rfl

/-- filters after a list of levels -/
def filtersOf (ls : List Level) : List Filter :=
  ls.foldl (fun acc l => fremove (fappend acc l.own) l.exempts) []

theorem fremove_congr {h vs ws : List Filter} (e : ∀ f, f ∈ vs ↔ f ∈ ws) :
    fremove h vs = fremove h ws := by
  unfold fremove
  apply List.filter_congr
  intro x _
  have := e x
  by_cases hx : x ∈ vs
  · simp [hx, this.1 hx]
  · have hx2 : x ∉ ws := fun h => hx (this.2 h)
    simp [hx, hx2]

theorem fappend_nil_own (acc own : List Filter) : fappend acc (fappend [] own) = fappend acc own := by
  rw [fappend_fappend']; simp

theorem level_step (acc : List Filter) (hs : List Handler) :
    innerFilters acc hs = fremove (fappend acc (routerLevel hs).own) (routerLevel hs).exempts := by
  unfold innerFilters
  rw [argFilters_eq, argExempts_eq, fappend_nil_own]
  exact fremove_congr (fun f => by simp [mem_fappend])

theorem method_step (acc : List Filter) (m : MethodDecl) :
    fremove (fappend acc m.filters) m.exempts =
      fremove (fappend acc (Spec.MethodDecl.level m).own) (Spec.MethodDecl.level m).exempts := by
  rw [mfilters_eq, mexempts_eq, fappend_nil_own]
  exact fremove_congr (fun f => by simp [mem_fappend])

theorem mem_foldl_levels (ls : List Level) (acc : List Filter) (f : Filter) :
    f ∈ ls.foldl (fun acc l => fremove (fappend acc l.own) l.exempts) acc ↔
      (f ∈ acc ∧ ∀ l ∈ ls, f ∉ l.exempts) ∨ InForce ls f := by
  induction ls generalizing acc with
  | nil => simp [InForce]
  | cons l ls ih =>
    rw [List.foldl_cons, ih, mem_fremove, mem_fappend]
    simp only [InForce, List.mem_cons, forall_eq_or_imp]
    constructor
    · rintro (⟨⟨h | h, h2⟩, h3⟩ | h)
      · exact Or.inl ⟨h, h2, h3⟩
      · exact Or.inr (Or.inl ⟨h, h2, h3⟩)
      · exact Or.inr (Or.inr h)
    · rintro (⟨h, h2, h3⟩ | ⟨h, h2, h3⟩ | h)
      · exact Or.inl ⟨⟨Or.inl h, h2⟩, h3⟩
      · exact Or.inl ⟨⟨Or.inr h, h2⟩, h3⟩
      · exact Or.inr h

theorem nodup_foldl_levels (ls : List Level) (acc : List Filter) (h : acc.Nodup) :
    (ls.foldl (fun acc l => fremove (fappend acc l.own) l.exempts) acc).Nodup := by
  induction ls generalizing acc with
  | nil => exact h
  | cons l ls ih => exact ih _ (nodup_fremove _ _ (nodup_fappend _ _ h))

theorem sublist_foldl_levels (ls : List Level) (acc : List Filter) :
    (ls.foldl (fun acc l => fremove (fappend acc l.own) l.exempts) acc).Sublist
      (acc ++ ls.flatMap (·.own)) := by
  induction ls generalizing acc with
  | nil => simp
  | cons l ls ih =>
    rw [List.foldl_cons]
    refine (ih _).trans ?_
    obtain ⟨add, h1, h2⟩ := fappend_eq acc l.own
    rw [h1]
    have : (fremove (acc ++ add) l.exempts).Sublist (acc ++ l.own) :=
      (fremove_sublist _ _).trans (h2.append_left acc)
    simpa using this.append_right (ls.flatMap (·.own))

theorem filtersOf_snoc (ls : List Level) (l : Level) :
    filtersOf (ls ++ [l]) = fremove (fappend (filtersOf ls) l.own) l.exempts := by
  simp [filtersOf]

/-- each registration carries the filters of its levels -/
theorem regs_levels (hs : List Handler) : ∀ (pre : List Str) (ls : List Level),
    ∀ e ∈ regs pre (filtersOf ls) hs, ∀ m ∈ e.methods,
      ∃ ls', (e.pattern, ls', m) ∈ declsL pre ls hs ∧ e.filters = filtersOf ls' := by
  induction hs using handlers_ind with
  | nil => intro pre ls e he; simp [regs] at he
  | other h rest hn ih =>
    intro pre ls e he m hm
    rw [regs_other hn] at he
    obtain ⟨ls', h1, h2⟩ := ih pre ls e he m hm
    refine ⟨ls', ?_, h2⟩
    cases h with
    | router p hs => exact absurd rfl (hn p hs)
    | _ => simpa [declsL, declsLOne] using h1
  | router path hs rest ih1 ih2 =>
    intro pre ls e he m hm
    rw [regs_router] at he
    have hin : innerFilters (filtersOf ls) hs = filtersOf (ls ++ [routerLevel hs]) := by
      rw [level_step, filtersOf_snoc]
    rw [hin] at he
    rcases List.mem_append.1 he with he | he
    · split at he
      · simp at he
      · rename_i hne
        rcases List.mem_cons.1 he with rfl | he
        · refine ⟨ls ++ [routerLevel hs], ?_, rfl⟩
          simp only [declsL, declsLOne, hne, if_false]
          simp only [List.mem_append, List.mem_map]
          left; left; exact ⟨m, hm, rfl⟩
        · obtain ⟨ls', h1, h2⟩ := ih1 _ _ e he m hm
          refine ⟨ls', ?_, h2⟩
          simp only [declsL, declsLOne, hne, if_false]
          simp only [List.mem_append]
          left; right; exact h1
    · obtain ⟨ls', h1, h2⟩ := ih2 pre ls e he m hm
      refine ⟨ls', ?_, h2⟩
      simp only [declsL, declsLOne]
      simp only [List.mem_append]
      right; exact h1

theorem allRegs_levels (hss : List (List Handler)) :
    ∀ e ∈ allRegs hss, ∀ m ∈ e.methods,
      ∃ ls', (e.pattern, ls', m) ∈ allDeclsL hss ∧ e.filters = filtersOf ls' := by
  intro e he m hm
  obtain ⟨hs, hhs, he⟩ := List.mem_flatMap.1 he
  have hin : fremove (fappend [] (argFilters hs)) (argExempts hs) = filtersOf [routerLevel hs] := by
    have := level_step [] hs
    unfold innerFilters at this
    rw [this]; rfl
  have key : ∃ ls', (e.pattern, ls', m) ∈
      ((argMethods hs).map (fun m => (([] : List Str), [routerLevel hs], m)) ++
        declsL [] [routerLevel hs] hs) ∧ e.filters = filtersOf ls' := by
    unfold callRegs at he
    rw [hin] at he
    rcases List.mem_cons.1 he with rfl | he
    · exact ⟨[routerLevel hs], by simp; left; exact hm, rfl⟩
    · obtain ⟨ls', h1, h2⟩ := regs_levels hs [] [routerLevel hs] e he m hm
      exact ⟨ls', by simp [h1], h2⟩
  obtain ⟨ls', h1, h2⟩ := key
  exact ⟨ls', List.mem_flatMap.2 ⟨hs, hhs, h1⟩, h2⟩

/-! ### what a registration puts in a table -/

/-- `a` comes from the declaration `m` registered with filters `fs` -/
def FromDecl (fs : List Filter) (m : MethodDecl) (a : RouteAction) : Prop :=
  a.ctl = m.ctl ∧ a.filters = fremove (fappend fs m.filters) m.exempts

/-- all actions of a table satisfy `Q` -/
def TableAll (Q : RouteAction → Prop) (t : Table) : Prop :=
  (∀ e ∈ t.action, Q e.2) ∧ (∀ a, t.allRoute = some a → Q a) ∧ (∀ a, t.anyRoute = some a → Q a)

theorem TableAll.set {Q : RouteAction → Prop} {t : Table} {m : Str} {a : RouteAction}
    (h : TableAll Q t) (ha : Q a) : TableAll Q (t.set m a) := by
  refine ⟨?_, h.2.1, h.2.2⟩
  intro e he
  simp [Table.set] at he
  rcases he with rfl | he
  · exact ha
  · exact h.1 e he.1

theorem mem_of_lookup {β} {l : List (Str × β)} {k : Str} {v : β} (h : l.lookup k = some v) :
    (k, v) ∈ l := by
  induction l with
  | nil => simp at h
  | cons e l ih =>
    obtain ⟨k', v'⟩ := e
    rw [List.lookup_cons] at h
    split at h
    · rename_i hk; cases h; simp at hk; subst hk; simp
    · simp [ih h]

theorem TableAll.get {Q : RouteAction → Prop} {t : Table} {m : Str} {a : RouteAction}
    (h : TableAll Q t) (ha : t.get m = some a) : Q a := h.1 _ (mem_of_lookup ha)

theorem configExact_all {Q : RouteAction → Prop} {fs : List Filter} (ms : List MethodDecl) :
    ∀ t t', TableAll Q t → (∀ m ∈ ms, ∀ a, FromDecl fs m a → Q a) →
      configExact fs t ms = some t' → TableAll Q t' := by
  induction ms with
  | nil => intro t t' h _ hc; simp [configExact] at hc; subst hc; exact h
  | cons m ms ih =>
    intro t t' h hQ hc
    unfold configExact at hc
    split at hc
    · cases hc
    · split at hc
      · exact ih t t' h (fun m hm => hQ m (by simp [hm])) hc
      · refine ih _ t' (h.set ?_) (fun m hm => hQ m (by simp [hm])) hc
        exact hQ m (by simp) _ ⟨rfl, rfl⟩

theorem headDefault_all {Q : RouteAction → Prop} {t : Table} (h : TableAll Q t) :
    TableAll Q (headDefault t) := by
  unfold headDefault
  split
  · rename_i a _ hg; exact h.set (h.get hg)
  · exact h

theorem of_guard {α} {c : Prop} [Decidable c] {x y : α}
    (h : (if c then none else some x) = some y) : x = y := by
  split at h
  · cases h
  · cases h; rfl

theorem configMethods_all {Q : RouteAction → Prop} {fs : List Filter} {ms : List MethodDecl}
    {t t' : Table} (h : TableAll Q t) (hQ : ∀ m ∈ ms, ∀ a, FromDecl fs m a → Q a)
    (hc : configMethods fs t ms = some t') : TableAll Q t' := by
  unfold configMethods at hc
  cases h1 : configExact fs t ms with
  | none => rw [h1] at hc; cases hc
  | some t1 =>
    rw [h1] at hc
    simp only [Option.bind_some] at hc
    have a1 := headDefault_all (configExact_all ms t t1 h hQ h1)
    cases h2 : configAllRoute fs (headDefault t1) ms with
    | none => rw [h2] at hc; cases hc
    | some t2 =>
      rw [h2] at hc
      simp only [Option.bind_some] at hc
      have a2 : TableAll Q t2 := by
        unfold configAllRoute at h2
        split at h2
        · cases h2; exact a1
        · rename_i m hm
          have hm' : m ∈ ms := (List.mem_filter.1 (List.mem_of_getLast? hm)).1
          have := of_guard h2
          subst this
          refine ⟨a1.1, ?_, a1.2.2⟩
          intro a ha
          cases ha
          exact hQ m hm' _ ⟨rfl, rfl⟩
      unfold configAnyRoute at hc
      split at hc
      · cases hc; exact a2
      · rename_i m hm
        have hm' : m ∈ ms := (List.mem_filter.1 (List.mem_of_getLast? hm)).1
        have := of_guard hc
        subst this
        refine ⟨a2.1, a2.2.1, ?_⟩
        intro a ha
        cases ha
        exact hQ m hm' _ ⟨rfl, rfl⟩

theorem tableAt_all {Q : RouteAction → Prop} (es : List Reg) (q : List Str) :
    ∀ t t', TableAll Q t →
    (∀ e ∈ es, e.pattern = q → ∀ m ∈ e.methods, ∀ a, FromDecl e.filters m a → Q a) →
    tableAt es q t = some t' → TableAll Q t' := by
  induction es with
  | nil => intro t t' h _ hc; simp [tableAt] at hc; subst hc; exact h
  | cons e es ih =>
    intro t t' h hQ hc
    by_cases he : e.pattern = q
    · rw [tableAt_cons_match _ _ _ _ he] at hc
      cases h1 : configMethods e.filters t e.methods with
      | none => rw [h1] at hc; cases hc
      | some t1 =>
        rw [h1] at hc
        exact ih t1 t' (configMethods_all h (hQ e (by simp) he) h1)
          (fun e he => hQ e (by simp [he])) hc
    · rw [tableAt_cons_nomatch _ _ _ _ he] at hc
      exact ih t t' h (fun e he => hQ e (by simp [he])) hc

theorem chooseAction_all {Q : RouteAction → Prop} {t : Table} {m f : Str} {a : RouteAction}
    (h : TableAll Q t) (hc : chooseAction t m = some (a, f)) : Q a := by
  unfold chooseAction at hc
  split at hc
  · rename_i a' hg; cases hc; exact h.get hg
  · have hany : ∀ x, (match t.anyRoute with
      | some a => if (a.ctl.isFunc || a.ctl.actionFuncExists a.action) = true then some (a, a.action) else none
      | none => none) = some x → Q x.1 := by
      intro x hx
      split at hx
      · rename_i b hb
        split at hx
        · cases hx; exact h.2.2 _ hb
        · cases hx
      · cases hx
    simp only [] at hc
    split at hc
    · rename_i b hb
      split at hc
      · cases hc; exact h.2.1 _ hb
      · split at hc
        · cases hc; exact h.2.1 _ hb
        · exact hany _ hc
    · exact hany _ hc

end Verif.Router
