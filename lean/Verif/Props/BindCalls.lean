import Verif.Model.BindCalls
import Verif.Proofs.Binder
/-!
# C191: binding to types that contain themselves
-/
namespace Verif.BindCalls
open Verif.Go Verif.Params

/-! ## Specification -/

/-- No infinite chain of calls of `Bind`, each made by the one before, starts with this call. -/
def Spec.Ends (T : Nat → TyDef) (c : Call) : Prop := Acc (fun c' c => c' ∈ calls T c) c

/-- The type is a pointer to, or a slice of, the other. -/
def Spec.Thin (T : Nat → TyDef) (t' t : Nat) : Prop := T t = .ptr t' ∨ T t = .slice t'

/-- Going from a pointer to what it points to and from a slice to its elements stops. -/
def Spec.Tame (T : Nat → TyDef) (t : Nat) : Prop := Acc (Spec.Thin T) t

/-! ## One value -/

theorem firstValue_single (v : Str) : (firstValue (single v) []).isSome = true := rfl

theorem calls_single (T : Nat → TyDef) (t : Nat) (v : Str) (c : Call) (h : c ∈ calls T ⟨t, single v, []⟩) :
    ∃ t', Spec.Thin T t' t ∧ c = ⟨t', single v, []⟩ := by
  unfold calls at h
  simp only at h
  cases ht : T t with
  | plain => rw [ht] at h; cases h
  | ptr e =>
    rw [ht] at h
    simp only [firstValue_single, if_true] at h
    exact ⟨e, Or.inl ht, List.mem_singleton.mp h⟩
  | slice e =>
    rw [ht] at h
    simp only at h
    have he : elementCalls e (single v) [] (normalizeKey [] []) [v] 0 = [⟨e, single v, []⟩] := rfl
    rw [show (single v).values = [([], [v])] from rfl, show (single v).files = [] from rfl] at h
    simp only [List.flatMap_cons, List.flatMap_nil, List.append_nil, he] at h
    exact ⟨e, Or.inr ht, List.mem_singleton.mp h⟩
  | struct fs =>
    rw [ht] at h
    obtain ⟨f, _, hf⟩ := List.mem_filterMap.mp h
    have hm : mentions (single v) [] f.1 = false := rfl
    rw [hm, Bool.and_false] at hf
    cases hf

theorem calls_file (T : Nat → TyDef) (t : Nat) (c : Call) (h : c ∈ calls T ⟨t, singleFile, []⟩) :
    ∃ t', Spec.Thin T t' t ∧ c = ⟨t', singleFile, []⟩ := by
  unfold calls at h
  simp only at h
  cases ht : T t with
  | plain => rw [ht] at h; cases h
  | ptr e =>
    rw [ht] at h
    have hm : (firstValue singleFile []).isSome = false := rfl
    simp only [hm] at h
    cases h
  | slice e =>
    rw [ht] at h
    simp only at h
    have he : elementCalls e singleFile [] (normalizeKey [] []) [] 1 = [⟨e, singleFile, []⟩] := rfl
    rw [show singleFile.values = [] from rfl, show singleFile.files = [([], 1)] from rfl] at h
    simp only [List.flatMap_cons, List.flatMap_nil, List.append_nil, List.nil_append, he] at h
    exact ⟨e, Or.inr ht, List.mem_singleton.mp h⟩
  | struct fs =>
    rw [ht] at h
    obtain ⟨f, _, hf⟩ := List.mem_filterMap.mp h
    have hm : mentions singleFile [] f.1 = false := rfl
    rw [hm, Bool.and_false] at hf
    cases hf

theorem single_ends (T : Nat → TyDef) (t : Nat) (h : Spec.Tame T t) (v : Str) : Spec.Ends T ⟨t, single v, []⟩ := by
  induction h with
  | intro t _ ih =>
    refine Acc.intro _ (fun c hc => ?_)
    obtain ⟨t', h1, rfl⟩ := calls_single T t v c hc
    exact ih t' h1

theorem file_ends (T : Nat → TyDef) (t : Nat) (h : Spec.Tame T t) : Spec.Ends T ⟨t, singleFile, []⟩ := by
  induction h with
  | intro t _ ih =>
    refine Acc.intro _ (fun c hc => ?_)
    obtain ⟨t', h1, rfl⟩ := calls_file T t c hc
    exact ih t' h1

/-! ## All parameters -/

theorem prefix_length {s p : Str} (h : hasPrefix s p = true) : p.length ≤ s.length :=
  (List.isPrefixOf_iff_prefix.mp h).length_le

theorem keyIndex_longer {name key sub : Str} {i : Nat} (hp : hasPrefix key (name ++ [91]) = true) (h : keyIndex name key = some (i, sub)) :
    name.length < sub.length ∧ sub.length ≤ key.length := by
  have hl := prefix_length hp
  simp only [List.length_append, List.length_cons, List.length_nil] at hl
  unfold keyIndex at h
  split at h
  · cases h
  · split at h
    · split at h
      · simp only [Option.some.injEq, Prod.mk.injEq] at h
        rw [← h.2, List.length_take]
        omega
      · cases h
    · cases h

theorem normalizeKey_length (name key : Str) : (normalizeKey name key).length ≤ key.length + 2 := by
  unfold normalizeKey
  split
  · simp
  · omega

theorem elementCalls_mem {t : Nat} {p : P} {name key : Str} {vals : List Str} {n : Nat} {c : Call} (h : c ∈ elementCalls t p name key vals n) :
    c.ty = t ∧ ((c.p = p ∧ name.length < c.name.length ∧ c.name.length ≤ key.length) ∨ (∃ v, c.p = single v ∧ c.name = []) ∨ (c.p = singleFile ∧ c.name = [])) := by
  unfold elementCalls at h
  split at h
  · rename_i hp
    cases hk : keyIndex name key with
    | some i =>
      rw [hk] at h
      have hc := List.mem_singleton.mp h
      subst hc
      exact ⟨rfl, Or.inl ⟨rfl, keyIndex_longer hp hk⟩⟩
    | none =>
      rw [hk] at h
      rcases List.mem_append.mp h with h | h
      · obtain ⟨v, _, rfl⟩ := List.mem_map.mp h
        exact ⟨rfl, Or.inr (Or.inl ⟨v, rfl, rfl⟩)⟩
      · obtain rfl := (List.mem_replicate.mp h).2
        exact ⟨rfl, Or.inr (Or.inr ⟨rfl, rfl⟩)⟩
  · cases h

theorem mentions_length {p : P} {name f : Str} (h : mentions p name f = true) : ∃ e ∈ p.values, name.length + 1 + f.length ≤ e.1.length := by
  unfold mentions at h
  obtain ⟨e, he, hc⟩ := List.any_eq_true.mp h
  rw [Bool.and_eq_true, decide_eq_true_eq] at hc
  have h1 := prefix_length hc.1
  simp only [List.length_append, List.length_cons, List.length_nil] at h1
  refine ⟨e, he, ?_⟩
  have h2 : f.length ≤ (e.1.drop (name.length + 1)).length := by
    rw [← hc.2]
    exact (List.takeWhile_sublist _).length_le
  rw [List.length_drop] at h2
  omega

theorem ends_of (T : Nat → TyDef) (hT : ∀ t, Spec.Tame T t) (p : P) (L : Nat) (hv : ∀ e ∈ p.values, e.1.length + 2 ≤ L) (hf : ∀ e ∈ p.files, e.1.length + 2 ≤ L) :
    ∀ (k : Nat) (name : Str), L - name.length ≤ k → ∀ t, Spec.Ends T ⟨t, p, name⟩ := by
  intro k
  induction k with
  | zero =>
    intro name hk t
    induction hT t with
    | intro t _ ih =>
      refine Acc.intro _ (fun c hc => ?_)
      unfold calls at hc
      simp only at hc
      cases ht : T t with
      | plain => rw [ht] at hc; cases hc
      | ptr e =>
        rw [ht] at hc
        simp only at hc
        split at hc
        · obtain rfl := List.mem_singleton.mp hc
          exact ih e (Or.inl ht)
        · cases hc
      | slice e =>
        rw [ht] at hc
        have hx : ∃ key vals n, c ∈ elementCalls e p name key vals n ∧ key.length ≤ L := by
          rcases List.mem_append.mp hc with h | h
          · obtain ⟨x, hx, hc⟩ := List.mem_flatMap.mp h
            exact ⟨_, _, _, hc, Nat.le_trans (normalizeKey_length name x.1) (hv x hx)⟩
          · obtain ⟨x, hx, hc⟩ := List.mem_flatMap.mp h
            exact ⟨_, _, _, hc, Nat.le_trans (normalizeKey_length name x.1) (hf x hx)⟩
        obtain ⟨key, vals, n, hm, hl⟩ := hx
        obtain ⟨h1, h2⟩ := elementCalls_mem hm
        obtain ⟨ct, cp, cn⟩ := c
        simp only at h1 h2
        subst h1
        rcases h2 with ⟨rfl, h3, h4⟩ | ⟨v, rfl, rfl⟩ | ⟨rfl, rfl⟩
        · omega
        · exact single_ends T _ (hT _) v
        · exact file_ends T _ (hT _)
      | struct fs =>
        rw [ht] at hc
        obtain ⟨f, _, he⟩ := List.mem_filterMap.mp hc
        split at he
        · rename_i hm
          rw [Bool.and_eq_true] at hm
          obtain ⟨e, he', hl⟩ := mentions_length hm.2
          have := hv e he'
          omega
        · cases he
  | succ k ihk =>
    intro name hk t
    induction hT t with
    | intro t _ ih =>
      refine Acc.intro _ (fun c hc => ?_)
      unfold calls at hc
      simp only at hc
      cases ht : T t with
      | plain => rw [ht] at hc; cases hc
      | ptr e =>
        rw [ht] at hc
        simp only at hc
        split at hc
        · obtain rfl := List.mem_singleton.mp hc
          exact ih e (Or.inl ht)
        · cases hc
      | slice e =>
        rw [ht] at hc
        have hx : ∃ key vals n, c ∈ elementCalls e p name key vals n := by
          rcases List.mem_append.mp hc with h | h
          · obtain ⟨x, hx, hc⟩ := List.mem_flatMap.mp h
            exact ⟨_, _, _, hc⟩
          · obtain ⟨x, hx, hc⟩ := List.mem_flatMap.mp h
            exact ⟨_, _, _, hc⟩
        obtain ⟨key, vals, n, hm⟩ := hx
        obtain ⟨h1, h2⟩ := elementCalls_mem hm
        obtain ⟨ct, cp, cn⟩ := c
        simp only at h1 h2
        subst h1
        rcases h2 with ⟨rfl, h3, h4⟩ | ⟨v, rfl, rfl⟩ | ⟨rfl, rfl⟩
        · exact ihk cn (by omega) _
        · exact single_ends T _ (hT _) v
        · exact file_ends T _ (hT _)
      | struct fs =>
        rw [ht] at hc
        obtain ⟨f, _, he⟩ := List.mem_filterMap.mp hc
        split at he
        · simp only [Option.some.injEq] at he
          subst he
          refine ihk _ ?_ _
          simp only [List.length_append, List.length_cons, List.length_nil]
          omega
        · cases he

theorem bound_exists (l : List Nat) : ∃ L, ∀ x ∈ l, x ≤ L := by
  induction l with
  | nil => exact ⟨0, fun x hx => by cases hx⟩
  | cons a l ih =>
    obtain ⟨L, hL⟩ := ih
    refine ⟨max a L, fun x hx => ?_⟩
    rcases List.mem_cons.mp hx with rfl | hx
    · exact Nat.le_max_left _ _
    · exact Nat.le_trans (hL x hx) (Nat.le_max_right _ _)

/-- **C191**: when every type that contains itself does so by way of a struct, binding ends for all types, parameters and names. -/
theorem C191_ends (T : Nat → TyDef) (hT : ∀ t, Spec.Tame T t) (c : Call) : Spec.Ends T c := by
  obtain ⟨t, p, name⟩ := c
  obtain ⟨L1, h1⟩ := bound_exists (p.values.map (fun e => e.1.length + 2))
  obtain ⟨L2, h2⟩ := bound_exists (p.files.map (fun e => e.1.length + 2))
  exact ends_of T hT p (max L1 L2)
    (fun e he => Nat.le_trans (h1 _ (List.mem_map.mpr ⟨e, he, rfl⟩)) (Nat.le_max_left _ _))
    (fun e he => Nat.le_trans (h2 _ (List.mem_map.mpr ⟨e, he, rfl⟩)) (Nat.le_max_right _ _)) _ name (Nat.le_refl _) t

/-- what a call with one value does for a pointer or a slice -/
theorem thin_called (T : Nat → TyDef) {t' t : Nat} (h : Spec.Thin T t' t) (v : Str) : (⟨t', single v, []⟩ : Call) ∈ calls T ⟨t, single v, []⟩ := by
  unfold calls
  rcases h with h | h
  · simp only [h, firstValue_single, if_true]
    exact List.mem_singleton.mpr rfl
  · simp only [h]
    refine List.mem_append.mpr (Or.inl ?_)
    exact List.mem_flatMap.mpr ⟨([], [v]), List.mem_singleton.mpr rfl, List.mem_singleton.mpr rfl⟩

/-- **C191**: and only then: for a type with an endless chain of pointers and slices, binding one value never ends. -/
theorem C191_one_value_iff (T : Nat → TyDef) (t : Nat) (v : Str) : Spec.Ends T ⟨t, single v, []⟩ ↔ Spec.Tame T t := by
  constructor
  · intro h
    generalize hc : (⟨t, single v, []⟩ : Call) = c at h
    induction h generalizing t with
    | intro c _ ih =>
      subst hc
      exact Acc.intro t (fun t' ht' => ih _ (thin_called T ht' v) t' rfl)
  · exact fun h => single_ends T t h v

/-- **C191**: both together: binding ends for everything exactly if no type goes on for ever in pointers and slices alone. -/
theorem C191_iff (T : Nat → TyDef) : (∀ c, Spec.Ends T c) ↔ ∀ t, Spec.Tame T t :=
  ⟨fun h t => (C191_one_value_iff T t []).mp (h _), fun h c => C191_ends T h c⟩

theorem loop_endless {T : Nat → TyDef} {c : Call} (h : c ∈ calls T c) : ¬ Spec.Ends T c := by
  intro he
  have : ∀ d, Acc (fun c' c => c' ∈ calls T c) d → d ≠ c := by
    intro d hd
    induction hd with
    | intro d _ ih =>
      rintro rfl
      exact ih d h rfl
  exact this c he rfl

/-- **C191**: `type P *P`: binding never ends if the parameter is there. -/
theorem C191_pointer_violated (T : Nat → TyDef) (t : Nat) (ht : T t = .ptr t) (p : P) (name : Str) :
    Spec.Ends T ⟨t, p, name⟩ ↔ firstValue p name = none := by
  constructor
  · intro h
    cases hv : firstValue p name with
    | none => rfl
    | some v =>
      exfalso
      refine loop_endless (T := T) (c := ⟨t, p, name⟩) ?_ h
      unfold calls
      simp only [ht, hv, Option.isSome_some, if_true]
      exact List.mem_singleton.mpr rfl
  · intro h
    refine Acc.intro _ (fun c hc => ?_)
    unfold calls at hc
    simp only [ht, h, Option.isSome_none] at hc
    cases hc

/-- **C191**: `type S []S`: one value under the slice's name is enough. -/
theorem C191_slice_violated (T : Nat → TyDef) (t : Nat) (ht : T t = .slice t) (p : P) (name : Str) (vals : List Str) (v : Str)
    (hv : v ∈ vals) (he : (name, vals) ∈ p.values) : ¬ Spec.Ends T ⟨t, p, name⟩ := by
  intro h
  have hk : normalizeKey name name = name ++ b!"[]" := by
    unfold normalizeKey trimPrefix
    rw [if_pos]
    rw [if_pos (by unfold hasPrefix; exact List.isPrefixOf_iff_prefix.mpr (List.prefix_refl _))]
    exact List.drop_length
  have hp : hasPrefix (name ++ b!"[]") (name ++ [91]) = true := by
    unfold hasPrefix
    exact List.isPrefixOf_iff_prefix.mpr ⟨[93], by simp⟩
  have hi : keyIndex name (name ++ b!"[]") = none := by
    unfold keyIndex
    rw [List.drop_left]
    rfl
  have hc : (⟨t, single v, []⟩ : Call) ∈ calls T ⟨t, p, name⟩ := by
    unfold calls
    simp only [ht]
    refine List.mem_append.mpr (Or.inl (List.mem_flatMap.mpr ⟨(name, vals), he, ?_⟩))
    simp only [hk]
    unfold elementCalls
    rw [if_pos hp, hi]
    exact List.mem_append.mpr (Or.inl (List.mem_map.mpr ⟨v, hv, rfl⟩))
  exact loop_endless (thin_called T (Or.inr ht) v) (h.inv hc)

/-- A tree, `type Node struct { Name string; Next *Node; Kids []Node }`: binding always ends, and follows a key as deep as it goes. -/
def exNode : Nat → TyDef
  | 0 => .struct [(b!"Name", true, 1), (b!"Next", true, 2), (b!"Kids", true, 3)]
  | 2 => .ptr 0
  | 3 => .slice 0
  | _ => .plain

theorem exNode_tame : ∀ t, Spec.Tame exNode t := by
  have h0 : ∀ t, t ≠ 2 → t ≠ 3 → Spec.Tame exNode t := by
    intro t h2 h3
    refine Acc.intro t (fun t' h => ?_)
    match t, h2, h3, h with
    | 0, _, _, h => rcases h with h | h <;> cases h
    | 1, _, _, h => rcases h with h | h <;> cases h
    | n + 4, _, _, h => rcases h with h | h <;> cases h
  intro t
  refine Acc.intro t (fun t' h => ?_)
  match t, h with
  | 0, h => rcases h with h | h <;> cases h
  | 1, h => rcases h with h | h <;> cases h
  | 2, h => rcases h with h | h <;> cases h; exact h0 0 (by decide) (by decide)
  | 3, h => rcases h with h | h <;> cases h; exact h0 0 (by decide) (by decide)
  | n + 4, h => rcases h with h | h <;> cases h

theorem C191_example :
    (calls exNode ⟨0, ⟨[(b!"n.Kids[1].Name", [b!"x"])], []⟩, b!"n"⟩).map (fun c => (c.ty, c.name)) = [(3, b!"n.Kids")] ∧
    (calls exNode ⟨3, ⟨[(b!"n.Kids[1].Name", [b!"x"])], []⟩, b!"n.Kids"⟩).map (fun c => (c.ty, c.name)) = [(0, b!"n.Kids[1]")] ∧
    (calls exNode ⟨0, ⟨[(b!"n.Kids[1].Name", [b!"x"])], []⟩, b!"n.Kids[1]"⟩).map (fun c => (c.ty, c.name)) = [(1, b!"n.Kids[1].Name")] := by
  decide +kernel

end Verif.BindCalls
