import Verif.Model.BindCycle
/-!
# C190: binding to structs that point to each other
-/
namespace Verif.BindCycle

/-! ## Specification -/

/-- The type embeds a pointer to the other. -/
def Spec.Embeds (M : Mem) (t' t : Nat) : Prop := t' ∈ M.embeds t

/-- No chain of types, each embedding a pointer to the next, goes on for ever from here. -/
def Spec.Finite (M : Mem) (t : Nat) : Prop := Acc (Spec.Embeds M) t

/-- The structs in memory which can be reached from these fields by following embedded pointers. -/
inductive Spec.Reach (M : Mem) (fs : List Fld) : Nat → Prop where
  | here (ty a : Nat) : Fld.ptr ty (some a) ∈ fs → Spec.Reach M fs a
  | next (a ty b : Nat) : Spec.Reach M fs a → Fld.ptr ty (some b) ∈ M.structs a → Spec.Reach M fs b

/-- Some nil pointer, in the struct or one that can be reached, has a type from which a chain goes on for ever. -/
def Spec.Endless (M : Mem) (fs : List Fld) : Prop :=
  ∃ ty, ¬ Spec.Finite M ty ∧ (Fld.ptr ty none ∈ fs ∨ ∃ a, Spec.Reach M fs a ∧ Fld.ptr ty none ∈ M.structs a)

/-! ## The walk -/

theorem visit_nil (M : Mem) (n : Nat) (s : St) : visit M n [] s = some s := by unfold visit; rfl
theorem visit_cons (M : Mem) (n : Nat) (f : Fld) (fs : List Fld) (s : St) :
    visit M n (f :: fs) s = match field M n f s with | none => none | some s' => visit M n fs s' := by rw [visit]; rfl
theorem field_other (M : Mem) (n : Nat) (s : St) : field M n .other s = some s := by cases n <;> (unfold field; rfl)
theorem field_zero (M : Mem) (t : Nat) (o : Option Nat) (s : St) : field M 0 (.ptr t o) s = none := by unfold field; rfl
theorem field_nil (M : Mem) (n t : Nat) (s : St) :
    field M (n + 1) (.ptr t none) s = visit M n (M.zero t) { s with walked := .inr t :: s.walked } := by rw [field]
theorem field_some (M : Mem) (n t a : Nat) (s : St) :
    field M (n + 1) (.ptr t (some a)) s =
      if a ∈ s.seen then some s else visit M n (M.structs a) ⟨a :: s.seen, .inl a :: s.walked⟩ := by rw [field]

/-- what is known of a field after it was walked -/
def Fine (M : Mem) (s : St) : Fld → Prop
  | .other => True
  | .ptr t none => Spec.Finite M t
  | .ptr _ (some a) => a ∈ s.seen

theorem Fine.mono {M : Mem} {s s' : St} (h : ∀ a ∈ s.seen, a ∈ s'.seen) {f : Fld} (hf : Fine M s f) : Fine M s' f := by
  cases f with
  | other => trivial
  | ptr t o => cases o with
    | none => exact hf
    | some a => exact h a hf

/-- the walk from `s` to `s'` -/
structure Post (M : Mem) (s s' : St) : Prop where
  grows : ∀ a ∈ s.seen, a ∈ s'.seen
  closed : ∀ a ∈ s'.seen, a ∈ s.seen ∨ ∀ f ∈ M.structs a, Fine M s' f
  nodup : s.seen.Nodup → s'.seen.Nodup
  longer : s.seen.length ≤ s'.seen.length
  walked : s'.walked.filterMap (fun x => x.getLeft?) = s'.seen ↔ s.walked.filterMap (fun x => x.getLeft?) = s.seen

theorem Post.refl (M : Mem) (s : St) : Post M s s := ⟨fun _ h => h, fun _ h => Or.inl h, fun h => h, Nat.le_refl _, Iff.rfl⟩

theorem Post.trans {M : Mem} {s1 s2 s3 : St} (h : Post M s1 s2) (k : Post M s2 s3) : Post M s1 s3 := by
  refine ⟨fun a ha => k.grows a (h.grows a ha), fun a ha => ?_, fun hn => k.nodup (h.nodup hn), Nat.le_trans h.longer k.longer, k.walked.trans h.walked⟩
  rcases k.closed a ha with h2 | h2
  · rcases h.closed a h2 with h1 | h1
    · exact Or.inl h1
    · exact Or.inr (fun f hf => (h1 f hf).mono k.grows)
  · exact Or.inr h2

theorem visit_post (M : Mem) : ∀ (n : Nat) (fs : List Fld) (s s' : St), visit M n fs s = some s' →
    Post M s s' ∧ ∀ f ∈ fs, Fine M s' f := by
  intro n
  induction n with
  | zero =>
    intro fs
    induction fs with
    | nil => intro s s' h; rw [visit_nil] at h; cases h; exact ⟨Post.refl M s, fun f hf => by cases hf⟩
    | cons f fs ih =>
      intro s s' h
      rw [visit_cons] at h
      cases f with
      | other =>
        rw [field_other] at h
        obtain ⟨h1, h2⟩ := ih s s' h
        refine ⟨h1, fun g hg => ?_⟩
        rcases List.mem_cons.mp hg with rfl | hg
        · trivial
        · exact h2 g hg
      | ptr t o => rw [field_zero] at h; cases h
  | succ n ihn =>
    intro fs
    induction fs with
    | nil => intro s s' h; rw [visit_nil] at h; cases h; exact ⟨Post.refl M s, fun f hf => by cases hf⟩
    | cons f fs ih =>
      intro s s' h
      rw [visit_cons] at h
      have hone : ∀ s1, field M (n + 1) f s = some s1 → Post M s s1 ∧ Fine M s1 f := by
        intro s1 hf
        cases f with
        | other => rw [field_other] at hf; cases hf; exact ⟨Post.refl M s, trivial⟩
        | ptr t o =>
          cases o with
          | none =>
            rw [field_nil] at hf
            obtain ⟨p, q⟩ := ihn _ _ _ hf
            refine ⟨⟨p.grows, p.closed, p.nodup, p.longer, p.walked⟩, ?_⟩
            refine Acc.intro t (fun t' ht' => ?_)
            exact q (.ptr t' none) (List.mem_map.mpr ⟨t', ht', rfl⟩)
          | some a =>
            rw [field_some] at hf
            by_cases ha : a ∈ s.seen
            · rw [if_pos ha] at hf
              cases hf
              exact ⟨Post.refl M s, ha⟩
            · rw [if_neg ha] at hf
              obtain ⟨p, q⟩ := ihn _ _ _ hf
              refine ⟨⟨fun b hb => p.grows b (List.mem_cons_of_mem _ hb), fun b hb => ?_, fun hn => p.nodup (List.nodup_cons.mpr ⟨ha, hn⟩),
                Nat.le_trans (Nat.le_succ _) p.longer, p.walked.trans ?_⟩, p.grows a (List.mem_cons_self ..)⟩
              · rcases p.closed b hb with h1 | h1
                · rcases List.mem_cons.mp h1 with rfl | h1
                  · exact Or.inr q
                  · exact Or.inl h1
                · exact Or.inr h1
              · simp
      cases hf : field M (n + 1) f s with
      | none => rw [hf] at h; cases h
      | some s1 =>
        rw [hf] at h
        obtain ⟨p1, q1⟩ := hone s1 hf
        obtain ⟨p2, q2⟩ := ih s1 s' h
        refine ⟨p1.trans p2, fun g hg => ?_⟩
        rcases List.mem_cons.mp hg with rfl | hg
        · exact q1.mono p2.grows
        · exact q2 g hg

/-! ## More depth changes nothing -/

theorem visit_succ (M : Mem) : ∀ (n : Nat) (fs : List Fld) (s s' : St), visit M n fs s = some s' → visit M (n + 1) fs s = some s' := by
  intro n
  induction n with
  | zero =>
    intro fs
    induction fs with
    | nil => intro s s' h; rw [visit_nil] at h ⊢; exact h
    | cons f fs ih =>
      intro s s' h
      rw [visit_cons] at h ⊢
      cases f with
      | other => rw [field_other] at h ⊢; exact ih s s' h
      | ptr t o => rw [field_zero] at h; cases h
  | succ n ihn =>
    intro fs
    induction fs with
    | nil => intro s s' h; rw [visit_nil] at h ⊢; exact h
    | cons f fs ih =>
      intro s s' h
      rw [visit_cons] at h ⊢
      cases hf : field M (n + 1) f s with
      | none => rw [hf] at h; cases h
      | some s1 =>
        rw [hf] at h
        have h2 : field M (n + 1 + 1) f s = some s1 := by
          cases f with
          | other => rw [field_other] at hf ⊢; exact hf
          | ptr t o =>
            cases o with
            | none => rw [field_nil] at hf ⊢; exact ihn _ _ _ hf
            | some a =>
              rw [field_some] at hf ⊢
              split at hf
              · rename_i ha; rw [if_pos ha]; exact hf
              · rename_i ha; rw [if_neg ha]; exact ihn _ _ _ hf
        rw [h2]
        exact ih s1 s' h

theorem visit_le (M : Mem) {n m : Nat} (h : n ≤ m) {fs : List Fld} {s s' : St} (hv : visit M n fs s = some s') : visit M m fs s = some s' := by
  induction h with
  | refl => exact hv
  | step _ ih => exact visit_succ M _ fs s s' ih

/-- one field, then the rest, at depths of their own -/
theorem visit_both (M : Mem) {n m : Nat} {f : Fld} {fs : List Fld} {s s1 s' : St} (h1 : visit M n [f] s = some s1) (h2 : visit M m fs s1 = some s') :
    ∃ k, visit M k (f :: fs) s = some s' := by
  refine ⟨max n m, ?_⟩
  have a := visit_le M (Nat.le_max_left n m) h1
  have b := visit_le M (Nat.le_max_right n m) h2
  rw [visit_cons] at a ⊢
  cases hf : field M (max n m) f s with
  | none => rw [hf] at a; cases a
  | some s2 =>
    rw [hf] at a
    simp only [visit_nil, Option.some.injEq] at a
    subst a
    exact b

theorem visit_one (M : Mem) (n : Nat) (f : Fld) (s s' : St) (h : field M n f s = some s') : visit M n [f] s = some s' := by
  rw [visit_cons, h]
  exact visit_nil M n s'

/-! ## The walk ends -/

theorem new_ends (M : Mem) (t : Nat) (h : Spec.Finite M t) : ∀ s : St, ∃ n s', visit M n [.ptr t none] s = some s' ∧ s'.seen = s.seen := by
  induction h with
  | intro t _ ih =>
    intro s
    have hl : ∀ (l : List Nat), (∀ t' ∈ l, Spec.Embeds M t' t) → ∀ s : St, ∃ n s', visit M n (l.map (fun t => Fld.ptr t none)) s = some s' ∧ s'.seen = s.seen := by
      intro l
      induction l with
      | nil => intro _ s; exact ⟨0, s, visit_nil M 0 s, rfl⟩
      | cons t' l ihl =>
        intro hm s
        obtain ⟨n1, s1, h1, e1⟩ := ih t' (hm t' (List.mem_cons_self ..)) s
        obtain ⟨n2, s2, h2, e2⟩ := ihl (fun x hx => hm x (List.mem_cons_of_mem _ hx)) s1
        obtain ⟨k, hk⟩ := visit_both M h1 h2
        exact ⟨k, s2, hk, e2.trans e1⟩
    obtain ⟨n, s', h1, h2⟩ := hl (M.embeds t) (fun _ h => h) { s with walked := .inr t :: s.walked }
    exact ⟨n + 1, s', visit_one M (n + 1) _ s s' ((field_nil M n t s).trans h1), h2⟩

theorem nodup_bound : ∀ (N : Nat) (l : List Nat), l.Nodup → (∀ a ∈ l, a < N) → l.length ≤ N
  | 0, l, _, h => by
    cases l with
    | nil => exact Nat.le_refl _
    | cons a l => exact absurd (h a (List.mem_cons_self ..)) (Nat.not_lt_zero a)
  | N + 1, l, hn, h => by
    have ih := nodup_bound N (l.erase N) (hn.erase N) (fun a ha => by
      have h1 := (hn.mem_erase_iff).mp ha
      have := h a h1.2
      have := h1.1
      omega)
    rw [List.length_erase] at ih
    split at ih <;> omega

/-- Every address in these fields and in memory is below `N`, and every nil pointer's type is finite. -/
def Sound (M : Mem) (R : Nat → Prop) (f : Fld) : Prop :=
  match f with
  | .other => True
  | .ptr t none => Spec.Finite M t
  | .ptr _ (some a) => R a

theorem walk_ends (M : Mem) (R : Nat → Prop) (N : Nat) (hN : ∀ a, R a → a < N) (hR : ∀ a, R a → ∀ f ∈ M.structs a, Sound M R f) :
    ∀ (k : Nat) (fs : List Fld) (s : St), (∀ f ∈ fs, Sound M R f) → s.seen.Nodup → (∀ a ∈ s.seen, R a) → N - s.seen.length ≤ k →
      ∃ n s', visit M n fs s = some s' ∧ ∀ a ∈ s'.seen, R a := by
  intro k
  induction k with
  | zero =>
    intro fs
    induction fs with
    | nil => intro s _ _ hs _; exact ⟨0, s, visit_nil M 0 s, hs⟩
    | cons f fs ih =>
      intro s hf hn hs hk
      have hone : ∃ n s1, visit M n [f] s = some s1 ∧ s1.seen = s.seen := by
        cases f with
        | other => exact ⟨0, s, visit_one M 0 _ s s (field_other M 0 s), rfl⟩
        | ptr t o =>
          cases o with
          | none => exact new_ends M t (hf _ (List.mem_cons_self ..)) s
          | some a =>
            refine ⟨1, s, visit_one M 1 _ s s ?_, rfl⟩
            rw [field_some]
            have ha : a ∈ s.seen := by
              apply Classical.byContradiction
              intro hna
              have hRa : R a := hf _ (List.mem_cons_self ..)
              have := nodup_bound N (a :: s.seen) (List.nodup_cons.mpr ⟨hna, hn⟩) (fun b hb => by
                rcases List.mem_cons.mp hb with rfl | hb
                · exact hN _ hRa
                · exact hN b (hs b hb))
              simp only [List.length_cons] at this
              omega
            rw [if_pos ha]
      obtain ⟨n1, s1, h1, e1⟩ := hone
      obtain ⟨n2, s2, h2, e2⟩ := ih s1 (fun g hg => hf g (List.mem_cons_of_mem _ hg)) (e1 ▸ hn) (e1 ▸ hs) (e1 ▸ hk)
      obtain ⟨m, hm⟩ := visit_both M h1 h2
      exact ⟨m, s2, hm, e2⟩
  | succ k ihk =>
    intro fs
    induction fs with
    | nil => intro s _ _ hs _; exact ⟨0, s, visit_nil M 0 s, hs⟩
    | cons f fs ih =>
      intro s hf hn hs hk
      have hone : ∃ n s1, visit M n [f] s = some s1 ∧ ∀ a ∈ s1.seen, R a := by
        cases f with
        | other => exact ⟨0, s, visit_one M 0 _ s s (field_other M 0 s), hs⟩
        | ptr t o =>
          cases o with
          | none =>
            obtain ⟨n, s1, h1, e1⟩ := new_ends M t (hf _ (List.mem_cons_self ..)) s
            exact ⟨n, s1, h1, e1 ▸ hs⟩
          | some a =>
            have hRa : R a := hf _ (List.mem_cons_self ..)
            by_cases ha : a ∈ s.seen
            · exact ⟨1, s, visit_one M 1 _ s s (by rw [field_some, if_pos ha]), hs⟩
            · obtain ⟨n, s1, h1, e1⟩ := ihk (M.structs a) ⟨a :: s.seen, .inl a :: s.walked⟩ (hR a hRa) (List.nodup_cons.mpr ⟨ha, hn⟩)
                (fun b hb => by
                  rcases List.mem_cons.mp hb with rfl | hb
                  · exact hRa
                  · exact hs b hb) (by simp only [List.length_cons]; omega)
              exact ⟨n + 1, s1, visit_one M (n + 1) _ s s1 (by rw [field_some, if_neg ha]; exact h1), e1⟩
      obtain ⟨n1, s1, h1, e1⟩ := hone
      have p1 := (visit_post M n1 [f] s s1 h1).1
      obtain ⟨n2, s2, h2, e2⟩ := ih s1 (fun g hg => hf g (List.mem_cons_of_mem _ hg)) (p1.nodup hn) e1 (by have := p1.longer; omega)
      obtain ⟨m, hm⟩ := visit_both M h1 h2
      exact ⟨m, s2, hm, e2⟩

/-! ## The properties -/

/-- **C190**: in a memory of finitely many structs, sharing and cycles included, the walk ends exactly if no nil pointer that can be reached has a type
which embeds a pointer to itself, directly or by way of others. -/
theorem C190_ends_iff (M : Mem) (fs : List Fld) (N : Nat) (hN : ∀ a, Spec.Reach M fs a → a < N) :
    (∃ n s, start M n fs = some s) ↔ ¬ Spec.Endless M fs := by
  constructor
  · rintro ⟨n, s, h⟩ ⟨ty, hty, hw⟩
    obtain ⟨p, q⟩ := visit_post M n fs _ _ h
    rcases hw with hw | ⟨a, ha, hw⟩
    · exact hty (q _ hw)
    · have hcl : ∀ b, Spec.Reach M fs b → b ∈ s.seen ∧ ∀ f ∈ M.structs b, Fine M s f := by
        intro b hb
        induction hb with
        | here t b hm =>
          have h1 : b ∈ s.seen := q _ hm
          exact ⟨h1, (p.closed b h1).resolve_left (by simp)⟩
        | next a' t b _ hm ih =>
          have h1 : b ∈ s.seen := ih.2 _ hm
          exact ⟨h1, (p.closed b h1).resolve_left (by simp)⟩
      exact hty ((hcl a ha).2 _ hw)
  · intro h
    have hfin : ∀ t, (Fld.ptr t none ∈ fs ∨ ∃ a, Spec.Reach M fs a ∧ Fld.ptr t none ∈ M.structs a) → Spec.Finite M t := by
      intro t ht
      apply Classical.byContradiction
      intro hn
      exact h ⟨t, hn, ht⟩
    obtain ⟨n, s', h1, _⟩ := walk_ends M (Spec.Reach M fs) N hN
      (fun a ha f hf => by
        cases f with
        | other => trivial
        | ptr t o => cases o with
          | none => exact hfin t (Or.inr ⟨a, ha, hf⟩)
          | some b => exact Spec.Reach.next a t b ha hf)
      N fs ⟨[], []⟩
      (fun f hf => by
        cases f with
        | other => trivial
        | ptr t o => cases o with
          | none => exact hfin t (Or.inl hf)
          | some b => exact Spec.Reach.here t b hf)
      List.nodup_nil (fun a ha => by cases ha) (Nat.sub_le _ _)
    exact ⟨n, s', h1⟩

/-- **C190**: when it ends, every struct that can be reached was walked, and none was walked twice. -/
theorem C190_each_once (M : Mem) (fs : List Fld) (n : Nat) (s : St) (h : start M n fs = some s) :
    (∀ a, Spec.Reach M fs a → Sum.inl a ∈ s.walked) ∧ (s.walked.filterMap (fun x => x.getLeft?)).Nodup := by
  obtain ⟨p, q⟩ := visit_post M n fs _ _ h
  have hw : s.walked.filterMap (fun x => x.getLeft?) = s.seen := p.walked.mpr rfl
  refine ⟨fun a ha => ?_, by rw [hw]; exact p.nodup List.nodup_nil⟩
  have hs : a ∈ s.seen ∧ ∀ f ∈ M.structs a, Fine M s f := by
    induction ha with
    | here t b hm =>
      have h1 : b ∈ s.seen := q _ hm
      exact ⟨h1, (p.closed b h1).resolve_left (by simp)⟩
    | next a' t b _ hm ih =>
      have h1 : b ∈ s.seen := ih.2 _ hm
      exact ⟨h1, (p.closed b h1).resolve_left (by simp)⟩
  have h2 := hs.1
  rw [← hw] at h2
  obtain ⟨x, hx, he⟩ := List.mem_filterMap.mp h2
  cases x with
  | inl b => simp only [Sum.getLeft?_inl, Option.some.injEq] at he; exact he ▸ hx
  | inr b => simp at he

/-- The structs that can be reached are the only ones walked. -/
theorem walked_reach (M : Mem) (fs0 : List Fld) : ∀ (n : Nat) (fs : List Fld) (s s' : St), visit M n fs s = some s' →
    (∀ ty a, Fld.ptr ty (some a) ∈ fs → Spec.Reach M fs0 a) → (∀ a, Sum.inl a ∈ s.walked → Spec.Reach M fs0 a) →
    ∀ a, Sum.inl a ∈ s'.walked → Spec.Reach M fs0 a := by
  intro n
  induction n with
  | zero =>
    intro fs
    induction fs with
    | nil => intro s s' h _ hs; rw [visit_nil] at h; cases h; exact hs
    | cons f fs ih =>
      intro s s' h hf hs
      rw [visit_cons] at h
      cases f with
      | other => rw [field_other] at h; exact ih s s' h (fun t a hm => hf t a (List.mem_cons_of_mem _ hm)) hs
      | ptr t o => rw [field_zero] at h; cases h
  | succ n ihn =>
    intro fs
    induction fs with
    | nil => intro s s' h _ hs; rw [visit_nil] at h; cases h; exact hs
    | cons f fs ih =>
      intro s s' h hf hs
      rw [visit_cons] at h
      cases hfe : field M (n + 1) f s with
      | none => rw [hfe] at h; cases h
      | some s1 =>
        rw [hfe] at h
        refine ih s1 s' h (fun t a hm => hf t a (List.mem_cons_of_mem _ hm)) ?_
        cases f with
        | other => rw [field_other] at hfe; cases hfe; exact hs
        | ptr t o =>
          cases o with
          | none =>
            rw [field_nil] at hfe
            refine ihn _ _ _ hfe (fun t' a hm => ?_) (fun a ha => hs a (by simpa using ha))
            obtain ⟨x, _, hx⟩ := List.mem_map.mp hm
            cases hx
          | some b =>
            rw [field_some] at hfe
            have hb : Spec.Reach M fs0 b := hf t b (List.mem_cons_self ..)
            split at hfe
            · cases hfe; exact hs
            · refine ihn _ _ _ hfe (fun t' a hm => Spec.Reach.next b t' a hb hm) (fun a ha => ?_)
              rcases List.mem_cons.mp ha with e | e
              · cases e; exact hb
              · exact hs a e

/-- **C190**: nothing else in memory is walked. -/
theorem C190_only_reached (M : Mem) (fs : List Fld) (n : Nat) (s : St) (h : start M n fs = some s) :
    ∀ a, Sum.inl a ∈ s.walked → Spec.Reach M fs a :=
  walked_reach M fs n fs _ _ h (fun ty a hm => Spec.Reach.here ty a hm) (fun a ha => by cases ha)

/-- **C190**: binding to a new value of a type that embeds a pointer to itself never ends (the program's stack overflows). -/
theorem C190_self_embedding_violated (M : Mem) (ty : Nat) (h : ty ∈ M.embeds ty) (n : Nat) : start M n (M.zero ty) = none := by
  cases hs : start M n (M.zero ty) with
  | none => rfl
  | some s =>
    exfalso
    have hq := (visit_post M n _ _ _ hs).2 (.ptr ty none) (List.mem_map.mpr ⟨ty, h, rfl⟩)
    have : ∀ t, Acc (Spec.Embeds M) t → t ≠ ty := by
      intro t ht
      induction ht with
      | intro t _ ih =>
        rintro rfl
        exact ih t h rfl
    exact this ty hq rfl

/-- Two structs of a type that embeds a pointer to itself, in a cycle with the one given (at address 0): each is walked once, the given one a second time. -/
theorem C190_example (n : Nat) (hn : 4 ≤ n) :
    start ⟨fun _ => [7], fun a => if a = 0 then [.other, .ptr 7 (some 1)] else [.ptr 7 (some 0)]⟩ n [.other, .ptr 7 (some 1)] =
      some ⟨[0, 1], [.inl 0, .inl 1]⟩ := by
  refine visit_le _ hn ?_
  simp [visit_cons, visit_nil, field_other, field_some]

end Verif.BindCycle
