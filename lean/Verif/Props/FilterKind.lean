import Verif.Model.FilterKind
/-! # C115: which filters are deduplicated and exempted -/
namespace Verif.FilterKind

/-! ## Specification -/

/-- Is it a function? -/
def Spec.isFn : FVal → Prop
  | .filterFunc _ | .factory _ | .fn .. => True
  | _ => False

instance : DecidablePred Spec.isFn := fun v => by cases v <;> unfold Spec.isFn <;> infer_instance

/-- Is it something that can be a filter? -/
def Spec.usable (v : FVal) : Prop := ∀ n, v ≠ .other n

/-- The values mentioned in `Filter(...)`, in order. -/
def Spec.filtered : List Decl → List FVal
  | [] => []
  | .filter vs :: ds => vs ++ Spec.filtered ds
  | .exempt _ :: ds => Spec.filtered ds

/-- The values mentioned in `Exempt(...)`. -/
def Spec.exempted : List Decl → List FVal
  | [] => []
  | .filter _ :: ds => Spec.exempted ds
  | .exempt vs :: ds => vs ++ Spec.exempted ds

/-- Of each function only the first mention; all mentions of lists. -/
def Spec.firsts : List FVal → List FVal → List FVal
  | _, [] => []
  | seen, v :: vs => if Spec.isFn v ∧ v ∈ seen then Spec.firsts seen vs else v :: Spec.firsts (v :: seen) vs

/-- The filters that must be in force: of each function not exempted one, all lists. -/
def Spec.chain (ds : List Decl) : List FVal :=
  (Spec.firsts [] (Spec.filtered ds)).filter (fun v => ¬ (Spec.isFn v ∧ v ∈ Spec.exempted ds))

/-! ## Proof -/

/-- The value of a function. -/
def fnVal : FVal → RVal
  | .filterFunc p => .word 0 p
  | .factory p => .word 1 p
  | .fn ty p => .word (ty + 2) p
  | .provide _ => .box 0
  | .other _ => .box 0

theorem fnVal_inj {v w : FVal} (hv : Spec.isFn v) (hw : Spec.isFn w) (h : fnVal v = fnVal w) : v = w := by
  cases v <;> cases w <;> simp [Spec.isFn, fnVal] at hv hw h ⊢ <;> first | exact h | exact ⟨by omega, h.2⟩ | omega | trivial

/-- Filters as `makeFilters` builds them: functions have their value, others a place in `[lo, hi)`. -/
def Made (lo hi : Nat) (f : Filter) : Prop :=
  makeFilter f.src = some f.runs ∧ (Spec.isFn f.src → f.value = fnVal f.src) ∧ (¬ Spec.isFn f.src → ∃ a, lo ≤ a ∧ a < hi ∧ f.value = .box a)

theorem Made.mono {lo hi lo' hi' : Nat} {f : Filter} (h : Made lo hi f) (h1 : lo' ≤ lo) (h2 : hi ≤ hi') : Made lo' hi' f :=
  ⟨h.1, h.2.1, fun hn => let ⟨a, h3, h4, h5⟩ := h.2.2 hn; ⟨a, by omega, by omega, h5⟩⟩

/-- Two filters of one list share no place. -/
def Boxes (l : List Filter) : Prop := l.Pairwise (fun f g => ∀ a, f.value = .box a → g.value ≠ .box a)

theorem makeFilters_some : ∀ (vs : List FVal) (next : Nat) (l : List Filter) (n : Nat), makeFilters vs next = some (l, n) →
    next ≤ n ∧ l.map (·.src) = vs ∧ (∀ f ∈ l, Made next n f) ∧ Boxes l ∧ ∀ v ∈ vs, Spec.usable v := by
  intro vs
  induction vs with
  | nil => intro next l n h; cases h; exact ⟨Nat.le_refl _, rfl, by simp, List.Pairwise.nil, by simp⟩
  | cons v vs ih =>
    intro next l n h
    unfold makeFilters at h
    cases hm : makeFilter v with
    | none => rw [hm] at h; cases h
    | some r =>
      rw [hm] at h
      simp only at h
      cases hr : makeFilters vs (convert v next).2 with
      | none => rw [hr] at h; cases h
      | some o =>
        obtain ⟨fs, n'⟩ := o
        rw [hr] at h
        cases h
        obtain ⟨h1, h2, h3, h4, h5⟩ := ih _ _ _ hr
        have hu : Spec.usable v := by rintro m rfl; cases hm
        have hc : next ≤ (convert v next).2 := by cases v <;> simp [convert]
        refine ⟨by omega, by simp [h2], ?_, ?_, ?_⟩
        · intro f hf
          rcases List.mem_cons.1 hf with rfl | hf
          · refine ⟨hm, ?_, ?_⟩
            · intro hv; cases v <;> simp [Spec.isFn] at hv <;> rfl
            · intro hv
              cases v with
              | provide c => exact ⟨next, Nat.le_refl _, by simp only [convert] at h1; omega, rfl⟩
              | other m => exact absurd rfl (hu m)
              | filterFunc p => exact absurd trivial hv
              | factory p => exact absurd trivial hv
              | fn t p => exact absurd trivial hv
          · exact (h3 f hf).mono hc (Nat.le_refl _)
        · refine List.Pairwise.cons ?_ h4
          intro g hg a ha hga
          have hm' := h3 g hg
          simp only at ha
          by_cases hgf : Spec.isFn g.src
          · have hv := hm'.2.1 hgf
            rw [hga] at hv
            revert hgf hv
            cases g.src <;> simp [Spec.isFn, fnVal]
          · obtain ⟨b, hb1, _, hb3⟩ := hm'.2.2 hgf
            rw [hga] at hb3
            cases hb3
            revert ha hb1
            cases v <;> simp [convert] <;> omega
        · intro w hw
          rcases List.mem_cons.1 hw with rfl | hw
          · exact hu
          · exact h5 w hw

theorem makeFilters_none : ∀ (vs : List FVal) (next : Nat), makeFilters vs next = none → ∃ v ∈ vs, ¬ Spec.usable v := by
  intro vs
  induction vs with
  | nil => intro next h; cases h
  | cons v vs ih =>
    intro next h
    unfold makeFilters at h
    cases hm : makeFilter v with
    | none =>
      refine ⟨v, by simp, fun hu => ?_⟩
      cases v with
      | other n => exact hu n rfl
      | filterFunc p => cases hm
      | factory p => cases hm
      | fn t p => cases hm
      | provide c => cases hm
    | some r =>
      rw [hm] at h
      simp only at h
      cases hr : makeFilters vs (convert v next).2 with
      | none => obtain ⟨w, hw, h2⟩ := ih _ hr; exact ⟨w, by simp [hw], h2⟩
      | some o => rw [hr] at h; cases h

/-- The functions among the values already present. -/
theorem any_value {h : List Filter} {n lo hi : Nat} (hh : ∀ g ∈ h, Made 0 n g) {f : Filter} (hf : Made lo hi f) (hn : n ≤ lo) :
    (h.any (fun v => v.value = f.value)) = decide (Spec.isFn f.src ∧ f.src ∈ h.map (·.src)) := by
  rw [Bool.eq_iff_iff]
  simp only [List.any_eq_true, decide_eq_true_eq, List.mem_map]
  constructor
  · rintro ⟨g, hg, he⟩
    have hm := hh g hg
    by_cases hfn : Spec.isFn f.src
    · have hv := hf.2.1 hfn
      by_cases hgn : Spec.isFn g.src
      · have hgv := hm.2.1 hgn
        exact ⟨hfn, g, hg, fnVal_inj hgn hfn (by rw [← hgv, ← hv]; exact he)⟩
      · obtain ⟨a, _, _, ha⟩ := hm.2.2 hgn
        exfalso
        rw [ha, hv] at he
        revert he hfn
        cases f.src <;> simp [Spec.isFn, fnVal]
    · obtain ⟨a, h1, _, ha⟩ := hf.2.2 hfn
      exfalso
      by_cases hgn : Spec.isFn g.src
      · have hgv := hm.2.1 hgn
        rw [hgv, ha] at he
        revert he hgn
        cases g.src <;> simp [Spec.isFn, fnVal]
      · obtain ⟨b, _, h2, hb⟩ := hm.2.2 hgn
        rw [ha, hb] at he
        cases he
        omega
  · rintro ⟨hfn, g, hg, he⟩
    exact ⟨g, hg, by rw [(hh g hg).2.1 (by rw [he]; exact hfn), hf.2.1 hfn, he]⟩

theorem firsts_pos {seen vs : List FVal} {v : FVal} (h : Spec.isFn v ∧ v ∈ seen) : Spec.firsts seen (v :: vs) = Spec.firsts seen vs := if_pos h

theorem firsts_neg {seen vs : List FVal} {v : FVal} (h : ¬ (Spec.isFn v ∧ v ∈ seen)) :
    Spec.firsts seen (v :: vs) = v :: Spec.firsts (v :: seen) vs := if_neg h

theorem firsts_congr : ∀ (vs a b : List FVal), (∀ v, v ∈ a ↔ v ∈ b) → Spec.firsts a vs = Spec.firsts b vs := by
  intro vs
  induction vs with
  | nil => intro a b _; rfl
  | cons v vs ih =>
    intro a b h
    unfold Spec.firsts
    by_cases hc : Spec.isFn v ∧ v ∈ a
    · rw [if_pos hc, if_pos ⟨hc.1, (h v).1 hc.2⟩]; exact ih a b h
    · rw [if_neg hc, if_neg (fun hh => hc ⟨hh.1, (h v).2 hh.2⟩)]
      rw [ih (v :: a) (v :: b) (fun w => by simp [h w])]

/-- `append` of newly made filters. -/
theorem append_spec : ∀ (l : List Filter) (h : List Filter) (n lo hi : Nat), (∀ g ∈ h, Made 0 n g) → n ≤ lo → (∀ f ∈ l, Made lo hi f) → Boxes l →
    (append h l).map (·.src) = h.map (·.src) ++ Spec.firsts (h.map (·.src)) (l.map (·.src)) ∧ ∀ g ∈ append h l, g ∈ h ∨ g ∈ l := by
  -- the places of the rest differ from those taken over
  have key : ∀ (l : List Filter) (h : List Filter) (lo hi : Nat), (∀ g ∈ h, ∃ n, Made 0 n g) → (∀ f ∈ l, Made lo hi f) →
      (∀ g ∈ h, ∀ f ∈ l, ∀ a, g.value = .box a → f.value ≠ .box a) → Boxes l →
      (append h l).map (·.src) = h.map (·.src) ++ Spec.firsts (h.map (·.src)) (l.map (·.src)) ∧ ∀ g ∈ append h l, g ∈ h ∨ g ∈ l := by
    intro l
    induction l with
    | nil => intro h lo hi _ _ _ _; exact ⟨by simp [append, Spec.firsts], fun g hg => .inl hg⟩
    | cons f fs ih =>
      intro h lo hi hh hl hx hb
      have hf := hl f (by simp)
      have hany : (h.any (fun v => v.value = f.value)) = decide (Spec.isFn f.src ∧ f.src ∈ h.map (·.src)) := by
        rw [Bool.eq_iff_iff]
        simp only [List.any_eq_true, decide_eq_true_eq, List.mem_map]
        constructor
        · rintro ⟨g, hg, he⟩
          obtain ⟨n, hm⟩ := hh g hg
          by_cases hgn : Spec.isFn g.src
          · by_cases hfn : Spec.isFn f.src
            · exact ⟨hfn, g, hg, fnVal_inj hgn hfn (by rw [← hm.2.1 hgn, ← hf.2.1 hfn]; exact he)⟩
            · obtain ⟨a, _, _, ha⟩ := hf.2.2 hfn
              exfalso
              rw [ha, hm.2.1 hgn] at he
              revert he hgn
              cases g.src <;> simp [Spec.isFn, fnVal]
          · obtain ⟨a, _, _, ha⟩ := hm.2.2 hgn
            exact absurd (he ▸ ha) (hx g hg f (by simp) a ha)
        · rintro ⟨hfn, g, hg, he⟩
          obtain ⟨n, hm⟩ := hh g hg
          exact ⟨g, hg, by rw [hm.2.1 (by rw [he]; exact hfn), hf.2.1 hfn, he]⟩
      have hrest : ∀ f' ∈ fs, Made lo hi f' := fun f' hf' => hl f' (by simp [hf'])
      have hb' : Boxes fs := (List.pairwise_cons.1 hb).2
      unfold append
      simp only [List.map_cons]
      by_cases hc : Spec.isFn f.src ∧ f.src ∈ h.map (·.src)
      · rw [if_pos (by rw [hany]; simpa using hc), firsts_pos hc]
        obtain ⟨h1, h2⟩ := ih h lo hi hh hrest (fun g hg f' hf' => hx g hg f' (by simp [hf'])) hb'
        exact ⟨h1, fun g hg => (h2 g hg).imp_right (fun h => by simp [h])⟩
      · rw [if_neg (by rw [hany]; simpa using hc), firsts_neg hc]
        obtain ⟨h1, h2⟩ := ih (h ++ [f]) lo hi
          (by
            intro g hg
            rcases List.mem_append.1 hg with hg | hg
            · exact hh g hg
            · simp at hg; subst hg; exact ⟨hi, hf.mono (Nat.zero_le _) (Nat.le_refl _)⟩) hrest
          (by
            intro g hg f' hf' a
            rcases List.mem_append.1 hg with hg | hg
            · exact hx g hg f' (by simp [hf']) a
            · simp at hg; subst hg; exact (List.pairwise_cons.1 hb).1 f' hf' a) hb'
        refine ⟨?_, ?_⟩
        · rw [h1]
          simp only [List.map_append, List.map_cons, List.map_nil, List.append_assoc, List.cons_append, List.nil_append]
          rw [firsts_congr _ _ (f.src :: h.map (·.src)) (fun v => by simp [or_comm])]
        · intro g hg
          rcases h2 g hg with h | h
          · rcases List.mem_append.1 h with h | h
            · exact .inl h
            · simp at h; subst h; exact .inr (by simp)
          · exact .inr (by simp [h])
  intro l h n lo hi hh hn hl hb
  refine key l h lo hi (fun g hg => ⟨n, hh g hg⟩) hl ?_ hb
  intro g hg f hf a hga hfa
  have h1 := hh g hg
  have h2 := hl f hf
  have hgn : ¬ Spec.isFn g.src := by
    intro h3
    have := h1.2.1 h3
    rw [hga] at this
    revert this h3
    cases g.src <;> simp [Spec.isFn, fnVal]
  have hfn : ¬ Spec.isFn f.src := by
    intro h3
    have := h2.2.1 h3
    rw [hfa] at this
    revert this h3
    cases f.src <;> simp [Spec.isFn, fnVal]
  obtain ⟨b, _, h4, h5⟩ := h1.2.2 hgn
  obtain ⟨c, h6, _, h7⟩ := h2.2.2 hfn
  rw [hga] at h5; rw [hfa] at h7
  cases h5; cases h7
  omega

theorem firsts_append : ∀ (xs ys seen : List FVal), Spec.firsts seen (xs ++ ys) =
    Spec.firsts seen xs ++ Spec.firsts (Spec.firsts seen xs ++ seen) ys := by
  intro xs
  induction xs with
  | nil => intro ys seen; rfl
  | cons x xs ih =>
    intro ys seen
    simp only [List.cons_append]
    by_cases hc : Spec.isFn x ∧ x ∈ seen
    · rw [firsts_pos hc, firsts_pos hc]; exact ih ys seen
    · rw [firsts_neg hc, firsts_neg hc, ih, List.cons_append]
      congr 2
      refine firsts_congr _ _ _ (fun v => ?_)
      simp only [List.mem_append, List.mem_cons]
      constructor
      · rintro (h | h | h) <;> simp [h]
      · rintro ((h | h) | h) <;> simp [h]

/-- `collect`. -/
theorem collect_spec : ∀ (ds : List Decl) (next : Nat) (fs es : List Filter), (∀ g ∈ fs, Made 0 next g) → (∀ g ∈ es, Made 0 next g) →
    (∀ f ∈ fs, ∀ e ∈ es, ∀ a, f.value = .box a → e.value ≠ .box a) →
    (collect ds next fs es = none ↔ ∃ v ∈ Spec.filtered ds ++ Spec.exempted ds, ¬ Spec.usable v) ∧
    ∀ fs' es', collect ds next fs es = some (fs', es') →
      fs'.map (·.src) = fs.map (·.src) ++ Spec.firsts (fs.map (·.src)) (Spec.filtered ds) ∧
      (∀ v, v ∈ es'.map (·.src) ↔ v ∈ es.map (·.src) ∨ v ∈ Spec.exempted ds) ∧
      (∀ g ∈ fs', ∃ n, Made 0 n g) ∧ (∀ g ∈ es', ∃ n, Made 0 n g) ∧
      (∀ f ∈ fs', ∀ e ∈ es', ∀ a, f.value = .box a → e.value ≠ .box a) := by
  intro ds
  induction ds with
  | nil =>
    intro next fs es h1 h2 h3
    refine ⟨by simp [collect, Spec.filtered, Spec.exempted], ?_⟩
    intro fs' es' h
    cases h
    exact ⟨by simp [Spec.filtered, Spec.firsts], by simp [Spec.exempted], fun g hg => ⟨_, h1 g hg⟩, fun g hg => ⟨_, h2 g hg⟩, h3⟩
  | cons d ds ih =>
    intro next fs es h1 h2 h3
    have mix : ∀ (n : Nat) (l : List Filter) (gs : List Filter), (∀ f ∈ l, Made next n f) → (∀ g ∈ gs, Made 0 next g) →
        ∀ f ∈ l, ∀ g ∈ gs, ∀ a, f.value = .box a → g.value ≠ .box a := by
      intro n l gs hl hg f hf g hgg a hfa hga
      have m1 := hl f hf
      have m2 := hg g hgg
      have hgn : ¬ Spec.isFn g.src := by
        intro h3
        have := m2.2.1 h3
        rw [hga] at this
        revert this h3
        cases g.src <;> simp [Spec.isFn, fnVal]
      have hfn : ¬ Spec.isFn f.src := by
        intro h3
        have := m1.2.1 h3
        rw [hfa] at this
        revert this h3
        cases f.src <;> simp [Spec.isFn, fnVal]
      obtain ⟨b, h6, _, h5⟩ := m1.2.2 hfn
      obtain ⟨c, _, h4, h7⟩ := m2.2.2 hgn
      rw [hfa] at h5; rw [hga] at h7
      cases h5; cases h7
      omega
    cases d with
    | filter vs =>
      unfold collect
      cases hm : makeFilters vs next with
      | none =>
        obtain ⟨v, hv, hu⟩ := makeFilters_none vs next hm
        exact ⟨⟨fun _ => ⟨v, by simp [Spec.filtered, hv], hu⟩, fun _ => rfl⟩, fun _ _ h => by cases h⟩
      | some o =>
        obtain ⟨l, n⟩ := o
        obtain ⟨hn, hsrc, hmade, hb, hus⟩ := makeFilters_some vs next l n hm
        obtain ⟨ha, hmem⟩ := append_spec l fs next next n h1 (Nat.le_refl _) hmade hb
        have h1' : ∀ g ∈ append fs l, Made 0 n g := by
          intro g hg
          rcases hmem g hg with hg | hg
          · exact (h1 g hg).mono (Nat.le_refl _) hn
          · exact (hmade g hg).mono (Nat.zero_le _) (Nat.le_refl _)
        have h3' : ∀ f ∈ append fs l, ∀ e ∈ es, ∀ a, f.value = .box a → e.value ≠ .box a := by
          intro f hf e he a
          rcases hmem f hf with hf | hf
          · exact h3 f hf e he a
          · exact mix n l es hmade h2 f hf e he a
        obtain ⟨i1, i2⟩ := ih n (append fs l) es h1' (fun g hg => (h2 g hg).mono (Nat.le_refl _) hn) h3'
        simp only
        refine ⟨?_, ?_⟩
        · rw [i1]
          constructor
          · rintro ⟨v, hv, hu⟩
            refine ⟨v, ?_, hu⟩
            simp [Spec.filtered, Spec.exempted] at hv ⊢
            rcases hv with h | h <;> simp [h]
          · rintro ⟨v, hv, hu⟩
            refine ⟨v, ?_, hu⟩
            simp [Spec.filtered, Spec.exempted] at hv ⊢
            rcases hv with h | h | h
            · exact absurd (hus v h) hu
            · simp [h]
            · simp [h]
        · intro fs' es' h
          obtain ⟨j1, j2, j3⟩ := i2 fs' es' h
          refine ⟨?_, j2, j3⟩
          rw [j1, ha, hsrc]
          show _ = _ ++ Spec.firsts _ (vs ++ Spec.filtered ds)
          rw [firsts_append, List.append_assoc]
          congr 2
          exact firsts_congr _ _ _ (fun v => by simp [or_comm])
    | exempt vs =>
      unfold collect
      cases hm : makeFilters vs next with
      | none =>
        obtain ⟨v, hv, hu⟩ := makeFilters_none vs next hm
        exact ⟨⟨fun _ => ⟨v, by simp [Spec.exempted, hv], hu⟩, fun _ => rfl⟩, fun _ _ h => by cases h⟩
      | some o =>
        obtain ⟨l, n⟩ := o
        obtain ⟨hn, hsrc, hmade, hb, hus⟩ := makeFilters_some vs next l n hm
        obtain ⟨ha, hmem⟩ := append_spec l es next next n h2 (Nat.le_refl _) hmade hb
        have h2' : ∀ g ∈ append es l, Made 0 n g := by
          intro g hg
          rcases hmem g hg with hg | hg
          · exact (h2 g hg).mono (Nat.le_refl _) hn
          · exact (hmade g hg).mono (Nat.zero_le _) (Nat.le_refl _)
        have h3' : ∀ f ∈ fs, ∀ e ∈ append es l, ∀ a, f.value = .box a → e.value ≠ .box a := by
          intro f hf e he a hfa
          rcases hmem e he with he | he
          · exact h3 f hf e he a hfa
          · intro hea
            exact mix n l fs hmade h1 e he f hf a hea hfa
        obtain ⟨i1, i2⟩ := ih n fs (append es l) (fun g hg => (h1 g hg).mono (Nat.le_refl _) hn) h2' h3'
        simp only
        refine ⟨?_, ?_⟩
        · rw [i1]
          constructor
          · rintro ⟨v, hv, hu⟩
            refine ⟨v, ?_, hu⟩
            simp [Spec.filtered, Spec.exempted] at hv ⊢
            rcases hv with h | h <;> simp [h]
          · rintro ⟨v, hv, hu⟩
            refine ⟨v, ?_, hu⟩
            simp [Spec.filtered, Spec.exempted] at hv ⊢
            rcases hv with h | h | h
            · simp [h]
            · exact absurd (hus v h) hu
            · simp [h]
        · intro fs' es' h
          obtain ⟨j1, j2, j3⟩ := i2 fs' es' h
          refine ⟨j1, ?_, j3⟩
          intro v
          rw [j2 v, ha, hsrc]
          have hfm : ∀ (vs seen : List FVal) (v : FVal), v ∈ Spec.firsts seen vs ∨ v ∈ seen ↔ v ∈ vs ∨ v ∈ seen := by
            intro vs
            induction vs with
            | nil => intro seen v; simp [Spec.firsts]
            | cons x xs ih =>
              intro seen v
              unfold Spec.firsts
              by_cases hc : Spec.isFn x ∧ x ∈ seen
              · rw [if_pos hc, ih seen v]
                constructor
                · rintro (h | h) <;> simp [h]
                · rintro (h | h)
                  · rcases List.mem_cons.1 h with rfl | h
                    · exact .inr hc.2
                    · exact .inl h
                  · exact .inr h
              · rw [if_neg hc]
                have := ih (x :: seen) v
                simp only [List.mem_cons] at this ⊢
                constructor
                · rintro ((h | h) | h)
                  · simp [h]
                  · rcases this.1 (.inl h) with h | h | h <;> simp [h]
                  · simp [h]
                · rintro ((h | h) | h)
                  · simp [h]
                  · rcases this.2 (.inl h) with h | h | h <;> simp [h]
                  · simp [h]
          have := hfm vs (es.map (·.src)) v
          simp only [List.mem_append, Spec.exempted]
          constructor
          · rintro ((h | h) | h)
            · simp [h]
            · rcases this.1 (.inl h) with h | h <;> simp [h]
            · simp [h]
          · rintro (h | h | h)
            · simp [h]
            · rcases this.2 (.inl h) with h | h <;> simp [h]
            · simp [h]

/-- What a filter of each kind does in its turn: a nil `FilterFunc` or factory is skipped, others are called and what they return
is invoked; plain functions and lists are invoked. -/
inductive Spec.Does : FVal → Runs → Prop where
  | nilFilter : Spec.Does (.filterFunc 0) .skipped
  | nilFactory : Spec.Does (.factory 0) .skipped
  | filterFunc (p : Nat) : p ≠ 0 → Spec.Does (.filterFunc p) (.resultOf p)
  | factory (p : Nat) : p ≠ 0 → Spec.Does (.factory p) (.resultOf p)
  | fn (ty p : Nat) : Spec.Does (.fn ty p) (.invoked (.fn ty p))
  | provide (c : Nat) : Spec.Does (.provide c) (.invoked (.provide c))

theorem makeFilter_does (v : FVal) (r : Runs) : makeFilter v = some r ↔ Spec.Does v r := by
  constructor
  · intro h
    cases v with
    | filterFunc p =>
      by_cases hp : p = 0
      · subst hp; cases h; exact .nilFilter
      · simp only [makeFilter, if_neg hp, Option.some.injEq] at h; subst h; exact .filterFunc p hp
    | factory p =>
      by_cases hp : p = 0
      · subst hp; cases h; exact .nilFactory
      · simp only [makeFilter, if_neg hp, Option.some.injEq] at h; subst h; exact .factory p hp
    | fn ty p => cases h; exact .fn ty p
    | provide c => cases h; exact .provide c
    | other n => cases h
  · intro h
    cases h with
    | nilFilter => rfl
    | nilFactory => rfl
    | filterFunc p hp => simp [makeFilter, hp]
    | factory p hp => simp [makeFilter, hp]
    | fn => rfl
    | provide => rfl

/-- **C115, exactly**: a declaration panics iff something that is neither a function nor a list is given as a filter; otherwise the filters in
force are, in order, the first mention of each function that is not exempted and all mentions of lists, and each runs what its kind says. -/
theorem C115_chain_exact (ds : List Decl) (next : Nat) :
    (chain ds next = none ↔ ∃ v ∈ Spec.filtered ds ++ Spec.exempted ds, ¬ Spec.usable v) ∧
    ∀ fs, chain ds next = some fs → fs.map (·.src) = Spec.chain ds ∧ ∀ f ∈ fs, Spec.Does f.src f.runs := by
  obtain ⟨h1, h2⟩ := collect_spec ds next [] [] (by simp) (by simp) (by simp)
  refine ⟨?_, ?_⟩
  · rw [← h1]
    unfold chain
    simp
  · intro fs h
    unfold chain at h
    cases hc : collect ds next [] [] with
    | none => rw [hc] at h; cases h
    | some o =>
      obtain ⟨fs', es'⟩ := o
      rw [hc] at h
      cases h
      obtain ⟨j1, j2, j3, j4, j5⟩ := h2 fs' es' hc
      simp only [List.map_nil, List.nil_append, List.not_mem_nil, false_or] at j1 j2
      refine ⟨?_, fun f hf => ?_⟩
      · unfold remove Spec.chain
        rw [← j1, List.filter_map]
        congr 1
        apply List.filter_congr
        intro f hf
        have hk : (es'.any (fun e => f.value = e.value)) = true ↔ Spec.isFn f.src ∧ f.src ∈ Spec.exempted ds := by
          rw [← j2]
          simp only [List.any_eq_true, decide_eq_true_eq, List.mem_map]
          obtain ⟨n, m1⟩ := j3 f hf
          constructor
          · rintro ⟨e, he, hv⟩
            obtain ⟨n', m2⟩ := j4 e he
            by_cases hfn : Spec.isFn f.src
            · refine ⟨hfn, e, he, ?_⟩
              by_cases hen : Spec.isFn e.src
              · exact fnVal_inj hen hfn (by rw [← m2.2.1 hen, ← m1.2.1 hfn, hv])
              · obtain ⟨a, _, _, ha⟩ := m2.2.2 hen
                exfalso
                rw [m1.2.1 hfn, ha] at hv
                revert hv hfn
                cases f.src <;> simp [Spec.isFn, fnVal]
            · obtain ⟨a, _, _, ha⟩ := m1.2.2 hfn
              exact absurd (hv ▸ ha) (j5 f hf e he a ha)
          · rintro ⟨hfn, e, he, hs⟩
            obtain ⟨n', m2⟩ := j4 e he
            exact ⟨e, he, by rw [m1.2.1 hfn, m2.2.1 (by rw [hs]; exact hfn), hs]⟩
        show decide (¬ (es'.any (fun e => f.value = e.value)) = true) = decide (¬ (Spec.isFn f.src ∧ f.src ∈ Spec.exempted ds))
        exact decide_eq_decide.2 (not_congr hk)
      · obtain ⟨n, m⟩ := j3 f (List.mem_filter.1 hf).1
        exact (makeFilter_does _ _).1 m.1

/-- **C115** (partial: for functions): an exempted filter is not in force, however often and wherever it was added in the declaration. -/
theorem C115_exempt_partial (ds : List Decl) (next : Nat) (fs : List Filter) (v : FVal) (h : chain ds next = some fs) (hv : Spec.isFn v)
    (he : v ∈ Spec.exempted ds) : ∀ f ∈ fs, f.src ≠ v := by
  intro f hf hs
  have h1 := ((C115_chain_exact ds next).2 fs h).1
  have : f.src ∈ Spec.chain ds := by rw [← h1]; exact List.mem_map.2 ⟨f, hf, rfl⟩
  unfold Spec.chain at this
  have h2 := (List.mem_filter.1 this).2
  simp only [decide_eq_true_eq] at h2
  exact h2 ⟨by rw [hs]; exact hv, by rw [hs]; exact he⟩

/-- **C115 fails** for `inject.Provide` lists: neither exemption nor deduplication recognises them. -/
theorem C115_provide_violated (c next : Nat) :
    (chain [.filter [.provide c], .exempt [.provide c]] next).map (fun l => l.map (·.src)) = some [.provide c] ∧
    (chain [.filter [.provide c], .filter [.provide c]] next).map (fun l => l.map (·.src)) = some [.provide c, .provide c] := by
  constructor
  · simp [chain, collect, makeFilters, makeFilter, convert, append, remove]
  · simp [chain, collect, makeFilters, makeFilter, convert, append, remove]

example : (chain [.filter [.fn 0 7, .filterFunc 7], .exempt [.fn 0 8], .filter [.fn 0 8, .provide 1, .fn 0 7, .factory 9], .exempt [.provide 1, .factory 9]] 5).map
    (fun l => l.map (fun f => (f.src, f.runs))) =
    some [(.fn 0 7, .invoked (.fn 0 7)), (.filterFunc 7, .resultOf 7), (.provide 1, .invoked (.provide 1))] := by decide +kernel
example : chain [.filter [.other 3]] 0 = none := by decide +kernel

end Verif.FilterKind
