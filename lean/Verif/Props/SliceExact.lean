import Verif.Props.BindValues
/-!
# C138: when binding panics, and what a slice holds, exactly
-/
namespace Verif.Params
open Verif.Go Verif.Conv

/-! ## Specification -/

mutual
/-- Binding a value of the type to the parameter `name` panics: some slice in it has an index of `maxLen` or more. -/
def Spec.Panics (maxLen : Nat) (p : P) : Ty → Str → Prop
  | .slice t, name => ∃ k ∈ Spec.keys p, ∃ i sub, Spec.Indexed name k i sub ∧ (maxLen ≤ i ∨ Spec.Panics maxLen p t sub)
  | .ptr t, name => firstValue p name ≠ none ∧ Spec.Panics maxLen p t name
  | .struct fs, name => Spec.PanicsF maxLen p fs name
  | _, _ => False
/-- One of the exported fields that a parameter is about. -/
def Spec.PanicsF (maxLen : Nat) (p : P) : Fields → Str → Prop
  | .nil, _ => False
  | .cons f exported t rest, name =>
    (exported = true ∧ Spec.Mentioned p name f ∧ Spec.Panics maxLen p t (name ++ [46] ++ f)) ∨ Spec.PanicsF maxLen p rest name
end

mutual
/-- The names of fields are Go identifiers: no dots and brackets. -/
def Spec.GoNames : Ty → Prop
  | .slice t => Spec.GoNames t
  | .ptr t => Spec.GoNames t
  | .struct fs => Spec.GoNamesF fs
  | _ => True
def Spec.GoNamesF : Fields → Prop
  | .nil => True
  | .cons f _ t rest => (46 ∉ f ∧ 91 ∉ f) ∧ Spec.GoNames t ∧ Spec.GoNamesF rest
end

/-! ## The elements -/

theorem elements_cases (bindE : List Nat → P → Str → Option V) (p visit : P) (name : Str) (path : List Nat) (e : SV)
    (he : e ∈ elements bindE p name path visit) :
    (∃ k ∈ Spec.keys visit, ∃ i sub q, Spec.Indexed name k i sub ∧ e = ⟨some i, bindE q p sub⟩) ∨
    (∃ q s, e = ⟨none, bindE q (single s) []⟩) ∨ (∃ q, e = ⟨none, bindE q singleFile []⟩) := by
  have one : ∀ key ∈ Spec.keys visit, ∀ q vals nf, e ∈ processElement bindE p name q (normalizeKey name key) vals nf →
      (∃ k ∈ Spec.keys visit, ∃ i sub q, Spec.Indexed name k i sub ∧ e = ⟨some i, bindE q p sub⟩) ∨
      (∃ q s, e = ⟨none, bindE q (single s) []⟩) ∨ (∃ q, e = ⟨none, bindE q singleFile []⟩) := by
    intro key hk q vals nf he
    by_cases hx : ∃ i sub, Spec.Indexed name key i sub
    · obtain ⟨i, sub, hx⟩ := hx
      rw [process_indexed _ p name q key vals nf i sub hx] at he
      simp only [List.mem_singleton] at he
      exact .inl ⟨key, hk, i, sub, _, hx, he⟩
    · by_cases hu : Spec.Unindexed name key
      · rw [process_unindexed _ p name q key vals nf hu] at he
        rcases List.mem_append.1 he with he | he
        · obtain ⟨v, _, rfl⟩ := List.mem_map.1 he; exact .inr (.inl ⟨_, v, rfl⟩)
        · obtain ⟨v, _, rfl⟩ := List.mem_map.1 he; exact .inr (.inr ⟨_, rfl⟩)
      · rw [process_other _ p name q key vals nf hu hx] at he; cases he
  unfold elements at he
  rcases List.mem_append.1 he with he | he
  · obtain ⟨⟨a, j⟩, ha, he⟩ := List.mem_flatMap.1 he
    rw [List.mem_zipIdx_iff_getElem?] at ha
    exact one a.1 (List.mem_append_left _ (List.mem_map.2 ⟨a, List.mem_of_getElem? ha, rfl⟩)) _ _ _ he
  · obtain ⟨⟨a, j⟩, ha, he⟩ := List.mem_flatMap.1 he
    rw [List.mem_zipIdx_iff_getElem?] at ha
    exact one a.1 (List.mem_append_right _ (List.mem_map.2 ⟨a, List.mem_of_getElem? ha, rfl⟩)) _ _ _ he

theorem elements_has (bindE : List Nat → P → Str → Option V) (p visit : P) (name : Str) (path : List Nat) (k : Str)
    (hk : k ∈ Spec.keys visit) (i : Nat) (sub : Str) (h : Spec.Indexed name k i sub) :
    ∃ q, (⟨some i, bindE q p sub⟩ : SV) ∈ elements bindE p name path visit := by
  unfold elements
  rcases List.mem_append.1 hk with hk | hk
  · obtain ⟨a, ha, rfl⟩ := List.mem_map.1 hk
    obtain ⟨j, hj⟩ := List.mem_iff_getElem?.1 ha
    refine ⟨0 :: j :: 0 :: path, List.mem_append_left _ (List.mem_flatMap.2 ⟨(a, j), List.mem_zipIdx_iff_getElem?.2 hj, ?_⟩)⟩
    · rw [process_indexed _ p name _ a.1 a.2 0 i sub h]
      exact List.mem_singleton.2 rfl
  · obtain ⟨a, ha, rfl⟩ := List.mem_map.1 hk
    obtain ⟨j, hj⟩ := List.mem_iff_getElem?.1 ha
    refine ⟨0 :: j :: 1 :: path, List.mem_append_right _ (List.mem_flatMap.2 ⟨(a, j), List.mem_zipIdx_iff_getElem?.2 hj, ?_⟩)⟩
    · rw [process_indexed _ p name _ a.1 [] a.2 i sub h]
      exact List.mem_singleton.2 rfl

theorem build_none (m : Nat) (z : V) (l : List SV) :
    build m z l = none ↔ (∃ e ∈ l, e.val = none) ∨ ∃ e ∈ l, ∃ i, e.idx = some i ∧ m ≤ i := by
  unfold build
  by_cases h1 : l.any (fun e => e.val.isNone) = true
  · rw [if_pos h1]
    obtain ⟨e, he, hn⟩ := List.any_eq_true.1 h1
    exact ⟨fun _ => .inl ⟨e, he, by simpa using hn⟩, fun _ => rfl⟩
  · rw [if_neg h1]
    have h1' : ¬ ∃ e ∈ l, e.val = none := fun ⟨e, he, hn⟩ => h1 (List.any_eq_true.2 ⟨e, he, by simp [hn]⟩)
    by_cases h2 : size l > m
    · rw [if_pos h2]
      refine ⟨fun _ => .inr ?_, fun _ => rfl⟩
      apply Classical.byContradiction
      intro hn
      have : size l ≤ m := (size_le l m).2 fun e he i hi => by
        apply Classical.byContradiction
        intro hlt
        exact hn ⟨e, he, i, hi, by omega⟩
      omega
    · rw [if_neg h2]
      refine ⟨(nofun), fun h => ?_⟩
      rcases h with h | ⟨e, he, i, hi, hm⟩
      · exact absurd h h1'
      · have := size_lt l e he i hi
        omega

/-! ## When binding panics -/

theorem not_indexed_nil (i : Nat) (sub : Str) : ¬ Spec.Indexed [] [] i sub := by
  rintro ⟨txt, rest, e, _⟩
  simp at e

mutual
theorem no_panic_one (m : Nat) (p : P) (hk : ∀ k ∈ Spec.keys p, k = []) : ∀ (t : Ty), ¬ Spec.Panics m p t []
  | .slice t => by
    unfold Spec.Panics
    rintro ⟨k, h1, i, sub, h2, _⟩
    rw [hk k h1] at h2
    exact not_indexed_nil i sub h2
  | .ptr t => by
    unfold Spec.Panics
    exact fun h => no_panic_one m p hk t h.2
  | .struct fs => by
    unfold Spec.Panics
    exact no_panic_oneF m p hk fs
  | .bool => by simp [Spec.Panics]
  | .int _ => by simp [Spec.Panics]
  | .float _ => by simp [Spec.Panics]
  | .string => by simp [Spec.Panics]
  | .time => by simp [Spec.Panics]
  | .other => by simp [Spec.Panics]
theorem no_panic_oneF (m : Nat) (p : P) (hk : ∀ k ∈ Spec.keys p, k = []) : ∀ (fs : Fields), ¬ Spec.PanicsF m p fs []
  | .nil => by simp [Spec.PanicsF]
  | .cons f e t rest => by
    unfold Spec.PanicsF
    rintro (⟨_, ⟨e, he, r, hr, _⟩, _⟩ | h)
    · rw [hk e.1 (List.mem_append_left _ (List.mem_map.2 ⟨e, he, rfl⟩))] at hr
      simp at hr
    · exact no_panic_oneF m p hk rest h
end

mutual
/-- **C138**, panics: binding panics exactly when some slice in the value has a key whose index is the limit of slices or more (an
index too large for 64 bits reads as the largest one); never for any other reason, and in whatever order the maps are visited. -/
theorem C138_panics (x : Ext) (it : Order) (hv : Spec.ValidOrder it) : ∀ (t : Ty), Spec.GoNames t → ∀ (path : List Nat) (p : P) (name : Str),
    bind x it t path p name = none ↔ Spec.Panics x.maxLen p t name
  | .slice t, hg, path, p, name => by
    unfold Spec.GoNames at hg
    have ih := C138_panics x it hv t hg
    have hkeys : ∀ k, k ∈ Spec.keys (it path p) ↔ k ∈ Spec.keys p := mem_keys_perm (hv path p).1 (hv path p).2
    have hs : ∀ q s, bind x it t q (single s) [] ≠ none := fun q s h =>
      no_panic_one x.maxLen (single s) (by simp [Spec.keys, single]) t ((ih q _ _).1 h)
    have hfi : ∀ q, bind x it t q singleFile [] ≠ none := fun q h =>
      no_panic_one x.maxLen singleFile (by simp [Spec.keys, singleFile]) t ((ih q _ _).1 h)
    unfold bind Spec.Panics
    rw [build_none]
    constructor
    · rintro (⟨e, he, hn⟩ | ⟨e, he, i, hi, hm⟩)
      · rcases elements_cases _ p _ name _ e he with ⟨k, hk, i, sub, q, hx, rfl⟩ | ⟨q, s, rfl⟩ | ⟨q, rfl⟩
        · exact ⟨k, (hkeys k).1 hk, i, sub, hx, .inr ((ih q p sub).1 hn)⟩
        · exact absurd hn (hs q s)
        · exact absurd hn (hfi q)
      · rcases elements_cases _ p _ name _ e he with ⟨k, hk, i', sub, q, hx, rfl⟩ | ⟨q, s, rfl⟩ | ⟨q, rfl⟩
        · cases hi
          exact ⟨k, (hkeys k).1 hk, i, sub, hx, .inl hm⟩
        · cases hi
        · cases hi
    · rintro ⟨k, hk, i, sub, hx, h⟩
      obtain ⟨q, hq⟩ := elements_has (fun path p n => bind x it t path p n) p (it path p) name (1 :: path) k ((hkeys k).2 hk) i sub hx
      rcases h with h | h
      · exact .inr ⟨_, hq, i, rfl, h⟩
      · exact .inl ⟨_, hq, (ih q p sub).2 h⟩
  | .ptr t, hg, path, p, name => by
    unfold Spec.GoNames at hg
    have ih := C138_panics x it hv t hg (0 :: path) p name
    unfold bind Spec.Panics
    cases h : firstValue p name with
    | none => simp
    | some s => simp [ih]
  | .struct fs, hg, path, p, name => by
    unfold Spec.GoNames at hg
    unfold bind Spec.Panics
    rw [Option.map_eq_none_iff]
    exact C138_panicsF x it hv fs hg 0 path p name
  | .bool, _, path, p, name => by simp [bind, Spec.Panics]
  | .int _, _, path, p, name => by simp [bind, Spec.Panics]
  | .float _, _, path, p, name => by simp [bind, Spec.Panics]
  | .string, _, path, p, name => by simp [bind, Spec.Panics]
  | .time, _, path, p, name => by simp [bind, Spec.Panics]
  | .other, _, path, p, name => by simp [bind, Spec.Panics]
theorem C138_panicsF (x : Ext) (it : Order) (hv : Spec.ValidOrder it) : ∀ (fs : Fields), Spec.GoNamesF fs → ∀ (n : Nat) (path : List Nat) (p : P) (name : Str),
    bindFields x it fs n path p name = none ↔ Spec.PanicsF x.maxLen p fs name
  | .nil, _, n, path, p, name => by simp [bindFields, Spec.PanicsF]
  | .cons f e t rest, hg, n, path, p, name => by
    unfold Spec.GoNamesF at hg
    have ih := C138_panics x it hv t hg.2.1 (n :: path) p (name ++ [46] ++ f)
    have ihr := C138_panicsF x it hv rest hg.2.2 (n + 1) path p name
    have hm := mentions_iff p name f hg.1
    unfold bindFields Spec.PanicsF
    rw [← ihr, ← ih, ← hm]
    by_cases hc : (e && mentions p name f) = true
    · rw [if_pos hc]
      simp only [Bool.and_eq_true] at hc
      cases h1 : bind x it t (n :: path) p (name ++ [46] ++ f) with
      | none => simp [hc.1, hc.2]
      | some v =>
        cases h2 : bindFields x it rest (n + 1) path p name with
        | none => simp
        | some vs => simp
    · rw [if_neg hc]
      simp only [Bool.and_eq_true] at hc
      cases h2 : bindFields x it rest (n + 1) path p name with
      | none => simp
      | some vs =>
        simp only [reduceCtorEq, or_false, false_iff]
        rintro ⟨h3, h4, _⟩
        exact hc ⟨h3, h4⟩
end

/-! ## What a slice holds -/

open Classical in
/-- The values without an index, key by key in the order of the list: the texts and (as `none`) the files. -/
noncomputable def Spec.unindexed (name : Str) (values : Values) (files : List (Str × Nat)) : List (Option Str) :=
  values.flatMap (fun e => if Spec.Unindexed name e.1 then e.2.map some else []) ++
  files.flatMap (fun e => if Spec.Unindexed name e.1 then List.replicate e.2 none else [])

/-- `w` is the value of the element type for a text (or a file) on its own. -/
def Spec.Alone (x : Ext) (it : Order) (t : Ty) (o : Option Str) (w : V) : Prop :=
  ∃ q, bind x it t q (match o with | some s => single s | none => singleFile) [] = some w

/-- The two lists have the same length and related members. -/
def Spec.Matching {α β : Type} (R : α → β → Prop) : List α → List β → Prop
  | [], [] => True
  | a :: l, b :: l' => R a b ∧ Spec.Matching R l l'
  | _, _ => False

theorem pairs_append {α β : Type} {R : α → β → Prop} : ∀ {l1 : List α} {m1 : List β} {l2 : List α} {m2 : List β},
    Spec.Matching R l1 m1 → Spec.Matching R l2 m2 → Spec.Matching R (l1 ++ l2) (m1 ++ m2)
  | [], [], _, _, _, h => h
  | _ :: _, _ :: _, _, _, h1, h => ⟨h1.1, pairs_append h1.2 h⟩
  | [], _ :: _, _, _, h, _ => nomatch h
  | _ :: _, [], _, _, h, _ => nomatch h

/-- the last element with an index -/
theorem foldl_placeIdx_some (l : List SV) (acc : List V) (j : Nat) (hs : ∀ e ∈ l, e.val ≠ none) (w : V)
    (h : (l.foldl placeIdx acc)[j]? = some w) :
    (∃ e ∈ l, e.idx = some j ∧ e.val = some w) ∨ ((∀ e ∈ l, e.idx ≠ some j) ∧ acc[j]? = some w) := by
  induction l generalizing acc with
  | nil => exact .inr ⟨by simp, h⟩
  | cons a l ih =>
    rw [List.foldl_cons] at h
    rcases ih (placeIdx acc a) (fun e he => hs e (List.mem_cons_of_mem _ he)) h with ⟨e, he, h1⟩ | ⟨hno, h1⟩
    · exact .inl ⟨e, List.mem_cons_of_mem _ he, h1⟩
    · obtain ⟨idx, val⟩ := a
      cases val with
      | none => exact absurd rfl (hs ⟨idx, none⟩ List.mem_cons_self)
      | some v =>
        cases idx with
        | none => exact .inr ⟨by simpa using hno, h1⟩
        | some i =>
          simp only [placeIdx] at h1
          by_cases hij : i = j
          · subst hij
            left
            refine ⟨⟨some i, some v⟩, List.mem_cons_self, rfl, ?_⟩
            rw [List.getElem?_set] at h1
            simp only [if_true] at h1
            split at h1
            · exact h1
            · cases h1
          · rw [List.getElem?_set_ne hij] at h1
            refine .inr ⟨?_, h1⟩
            intro e he
            rcases List.mem_cons.1 he with rfl | he
            · simpa using hij
            · exact hno e he

theorem appended_process (x : Ext) (it : Order) (t : Ty) (p : P) (name : Str) (q : List Nat) (key : Str) (vals : List Str) (nf : Nat)
    (hs : ∀ e ∈ processElement (fun path p n => bind x it t path p n) p name q (normalizeKey name key) vals nf, e.val ≠ none)
    (l : List (Option Str)) (hl : l = vals.map some ++ List.replicate nf none) (hu : Spec.Unindexed name key) :
    Spec.Matching (Spec.Alone x it t) l
      (appended (processElement (fun path p n => bind x it t path p n) p name q (normalizeKey name key) vals nf)) := by
  rw [process_unindexed _ p name q key vals nf hu] at hs ⊢
  rw [appended_append, hl]
  apply pairs_append
  · have hs1 : ∀ v ∈ vals, bind x it t (1 :: q) (single v) [] ≠ none := fun v hv =>
      hs ⟨none, bind x it t (1 :: q) (single v) []⟩ (List.mem_append_left _ (List.mem_map.2 ⟨v, hv, rfl⟩))
    clear hl hs
    induction vals with
    | nil => trivial
    | cons v vals ih =>
      cases hb : bind x it t (1 :: q) (single v) [] with
      | none => exact absurd hb (hs1 v List.mem_cons_self)
      | some w =>
        have e : appended ((v :: vals).map fun v => (⟨none, bind x it t (1 :: q) (single v) []⟩ : SV)) =
            w :: appended (vals.map fun v => (⟨none, bind x it t (1 :: q) (single v) []⟩ : SV)) := by
          simp [appended, hb]
        rw [e]
        exact ⟨⟨_, hb⟩, ih fun v hv => hs1 v (List.mem_cons_of_mem _ hv)⟩
  · have hs1 : ∀ j ∈ List.range nf, bind x it t (j :: 2 :: q) singleFile [] ≠ none := fun j hj =>
      hs ⟨none, bind x it t (j :: 2 :: q) singleFile []⟩ (List.mem_append_right _ (List.mem_map.2 ⟨j, hj, rfl⟩))
    have hr : List.replicate nf (none : Option Str) = (List.range nf).map fun _ => none := by
      rw [List.map_const', List.length_range]
    rw [hr]
    clear hl hs hr
    generalize List.range nf = js at hs1 ⊢
    induction js with
    | nil => trivial
    | cons j js ih =>
      cases hb : bind x it t (j :: 2 :: q) singleFile [] with
      | none => exact absurd hb (hs1 j List.mem_cons_self)
      | some w =>
        have e : appended ((j :: js).map fun j => (⟨none, bind x it t (j :: 2 :: q) singleFile []⟩ : SV)) =
            w :: appended (js.map fun j => (⟨none, bind x it t (j :: 2 :: q) singleFile []⟩ : SV)) := by
          simp [appended, hb]
        rw [e]
        exact ⟨⟨_, hb⟩, ih fun v hv => hs1 v (List.mem_cons_of_mem _ hv)⟩

theorem appended_not (x : Ext) (it : Order) (t : Ty) (p : P) (name : Str) (q : List Nat) (key : Str) (vals : List Str) (nf : Nat)
    (hu : ¬ Spec.Unindexed name key) :
    appended (processElement (fun path p n => bind x it t path p n) p name q (normalizeKey name key) vals nf) = [] := by
  by_cases hx : ∃ i sub, Spec.Indexed name key i sub
  · obtain ⟨i, sub, hx⟩ := hx
    rw [process_indexed _ p name q key vals nf i sub hx]
    simp [appended]
  · rw [process_other _ p name q key vals nf hu hx]
    rfl

theorem pairs_flatMap {α β γ : Type} {R : α → β → Prop} (f : γ → List α) (g : γ → List β) : ∀ (l : List γ),
    (∀ c ∈ l, Spec.Matching R (f c) (g c)) → Spec.Matching R (l.flatMap f) (l.flatMap g)
  | [], _ => trivial
  | c :: l, h => by
    rw [List.flatMap_cons, List.flatMap_cons]
    exact pairs_append (h c List.mem_cons_self) (pairs_flatMap f g l fun d hd => h d (List.mem_cons_of_mem _ hd))

theorem appended_elements (x : Ext) (it : Order) (t : Ty) (p visit : P) (name : Str) (path : List Nat)
    (hs : ∀ e ∈ elements (fun path p n => bind x it t path p n) p name path visit, e.val ≠ none) :
    Spec.Matching (Spec.Alone x it t) (Spec.unindexed name visit.values visit.files)
      (appended (elements (fun path p n => bind x it t path p n) p name path visit)) := by
  unfold elements Spec.unindexed at *
  rw [appended_append]
  apply pairs_append
  · rw [appended_flatMap, ← zipIdx_flatMap visit.values 0]
    apply pairs_flatMap
    intro c hc
    by_cases hu : Spec.Unindexed name c.1.1
    · rw [if_pos hu]
      refine appended_process x it t p name _ c.1.1 c.1.2 0 (fun e he => ?_) _ (by simp) hu
      exact hs e (List.mem_append_left _ (List.mem_flatMap.2 ⟨c, hc, he⟩))
    · rw [if_neg hu, appended_not x it t p name _ c.1.1 c.1.2 0 hu]
      trivial
  · rw [appended_flatMap, ← zipIdx_flatMap visit.files 0]
    apply pairs_flatMap
    intro c hc
    by_cases hu : Spec.Unindexed name c.1.1
    · rw [if_pos hu]
      refine appended_process x it t p name _ c.1.1 [] c.1.2 (fun e he => ?_) _ (by simp) hu
      exact hs e (List.mem_append_right _ (List.mem_flatMap.2 ⟨c, hc, he⟩))
    · rw [if_neg hu, appended_not x it t p name _ c.1.1 [] c.1.2 hu]
      trivial

/-- **C138**, contents: a slice has a part for the indexes and a part without. The first is just long enough for the indexes of the
keys, and holds at each position what the element's binder makes of one of the keys with this index, or zero if there is none. The
second holds the values without an index, each bound on its own, key by key in some order of the keys, and then the files. -/
theorem C138_slice (x : Ext) (it : Order) (hv : Spec.ValidOrder it) (t : Ty) (path : List Nat) (p : P) (name : Str) (v : V)
    (h : bind x it (.slice t) path p name = some v) :
    ∃ vs ws, v = .slice (vs ++ ws) ∧
      (∀ n, vs.length ≤ n ↔ ∀ k ∈ Spec.keys p, ∀ i sub, Spec.Indexed name k i sub → i < n) ∧
      (∀ (j : Nat) w, vs[j]? = some w →
        (∃ k ∈ Spec.keys p, ∃ sub q, Spec.Indexed name k j sub ∧ bind x it t q p sub = some w) ∨
        ((∀ k ∈ Spec.keys p, ∀ sub, ¬ Spec.Indexed name k j sub) ∧ w = zero t)) ∧
      ∃ values files, values.Perm p.values ∧ files.Perm p.files ∧ Spec.Matching (Spec.Alone x it t) (Spec.unindexed name values files) ws := by
  have hkeys : ∀ k, k ∈ Spec.keys (it path p) ↔ k ∈ Spec.keys p := mem_keys_perm (hv path p).1 (hv path p).2
  unfold bind at h
  generalize hE : elements (fun path p n => bind x it t path p n) p name (1 :: path) (it path p) = E at h
  have hnn : build x.maxLen (zero t) E ≠ none := by rw [h]; simp
  rw [Ne, build_none] at hnn
  have hs : ∀ e ∈ E, e.val ≠ none := fun e he hn => hnn (.inl ⟨e, he, hn⟩)
  have hsz : size E ≤ x.maxLen := (size_le _ _).2 fun e he i hi => by
    apply Classical.byContradiction
    intro hlt
    exact hnn (.inr ⟨e, he, i, hi, by omega⟩)
  rw [build_eq_some _ _ E hs hsz] at h
  cases h
  have cases' := fun e (he : e ∈ E) => elements_cases (fun path p n => bind x it t path p n) p (it path p) name (1 :: path) e (by rw [hE]; exact he)
  have has := fun k hk i sub hx => elements_has (fun path p n => bind x it t path p n) p (it path p) name (1 :: path) k hk i sub hx
  rw [hE] at has
  refine ⟨_, _, rfl, ?_, ?_, (it path p).values, (it path p).files, (hv path p).1, (hv path p).2, ?_⟩
  · intro n
    rw [foldl_placeIdx_length, List.length_replicate, size_le]
    constructor
    · intro hn k hk i sub hx
      obtain ⟨q, hq⟩ := has k ((hkeys k).2 hk) i sub hx
      exact hn _ hq i rfl
    · intro hn e he i hi
      rcases cases' e he with ⟨k, hk, i', sub, q, hx, rfl⟩ | ⟨q, s, rfl⟩ | ⟨q, rfl⟩
      · cases hi
        exact hn k ((hkeys k).1 hk) i sub hx
      · cases hi
      · cases hi
  · intro j w hw
    rcases foldl_placeIdx_some E _ j hs w hw with ⟨e, he, h1, h2⟩ | ⟨hno, h1⟩
    · left
      rcases cases' e he with ⟨k, hk, i', sub, q, hx, rfl⟩ | ⟨q, s, rfl⟩ | ⟨q, rfl⟩
      · cases h1
        exact ⟨k, (hkeys k).1 hk, sub, q, hx, h2⟩
      · cases h1
      · cases h1
    · right
      refine ⟨fun k hk sub hx => ?_, ?_⟩
      · obtain ⟨q, hq⟩ := has k ((hkeys k).2 hk) j sub hx
        exact hno _ hq rfl
      · rw [List.getElem?_replicate] at h1
        split at h1
        · cases h1; rfl
        · cases h1
  · have := appended_elements x it t p (it path p) name (1 :: path) (by rw [hE]; exact hs)
    rw [hE] at this
    exact this

/-! ### Examples -/

/-- an index at the limit in a slice of slices -/
example : Spec.Panics 1000 ⟨[(b!"a[0][1000]", [b!"x"])], []⟩ (.slice (.slice .string)) b!"a" ∧
    bind Spec.toyExt Spec.asIs (.slice (.slice .string)) [] ⟨[(b!"a[0][1000]", [b!"x"])], []⟩ b!"a" = none := by
  have h : Spec.Panics 1000 ⟨[(b!"a[0][1000]", [b!"x"])], []⟩ (.slice (.slice .string)) b!"a" := by
    unfold Spec.Panics
    refine ⟨b!"a[0][1000]", by simp [Spec.keys], 0, b!"a[0]", ⟨b!"0", b!"[1000]", rfl, by decide, by decide, rfl, by decide +kernel⟩, .inr ?_⟩
    unfold Spec.Panics
    exact ⟨b!"a[0][1000]", by simp [Spec.keys], 1000, b!"a[0][1000]", ⟨b!"1000", [], rfl, by decide, by decide, rfl, by decide +kernel⟩, .inl (by decide)⟩
  exact ⟨h, (C138_panics Spec.toyExt Spec.asIs asIs_valid _ (by simp [Spec.GoNames]) [] _ _).2 h⟩

/-- indexes, a gap and values without index -/
example : bind Spec.toyExt Spec.asIs (.slice .string) [] ⟨[(b!"a", [b!"u", b!"v"]), (b!"a[2]", [b!"x"]), (b!"a[0]", [b!"y"]), (b!"a[]", [b!"w"])], []⟩ b!"a" =
    some (.slice [.str b!"y", .str [], .str b!"x", .str b!"u", .str b!"v", .str b!"w"]) := by rfl

end Verif.Params
