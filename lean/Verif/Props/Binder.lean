import Verif.Proofs.Binder
import Verif.Props.Params
import Verif.Props.Conv
/-!
# C54, C55: binding parameters to slices and integers
-/
namespace Verif.Params
open Verif.Go Verif.Conv Verif.Go.NumSpec

/-! ## C55: integers -/

/-- **C55**, complete: a parameter bound to an integer field is 0 unless it is decimal notation for a number of the
64-bit type, and then that number cut to the field's width. -/
theorem C55_bind_int (k : IntKind) (s : Str) (i : Int) :
    (Denotes k.signed s i → Fits k.signed 64 i → bindInt k s = k.conv i) ∧
    ((¬ ∃ j, Denotes k.signed s j ∧ Fits k.signed 64 j) → bindInt k s = 0) := by
  constructor
  · intro h hf
    have hne : s ≠ [] := by
      rintro rfl
      rcases h with ⟨h, _⟩ | ⟨_, r, e, _⟩ | ⟨_, r, e, _⟩
      · exact h.1 rfl
      · cases e
      · cases e
    unfold bindInt IntKind.conv
    rw [if_neg hne]
    revert h hf
    cases hs : k.signed with
    | true =>
      intro h hf
      rw [if_pos rfl, (parseInt_iff 64 (by omega) s i).2 ⟨h, hf⟩, if_pos rfl]
    | false =>
      intro h hf
      have h0 : 0 ≤ i := by unfold Fits at hf; simp at hf; omega
      obtain ⟨n, rfl⟩ := Int.eq_ofNat_of_zero_le h0
      rw [if_neg (by simp), (parseUint_iff 64 s n).2 ⟨h, hf⟩, if_neg (by simp)]
  · intro h
    unfold bindInt
    by_cases hne : s = []
    · rw [if_pos hne]
    · rw [if_neg hne]
      revert h
      cases hs : k.signed with
      | true =>
        intro h
        rw [if_pos rfl]
        cases he : parseInt 64 s with
        | mk i e =>
          cases e with
          | some e => rfl
          | none => exact absurd ⟨i, (parseInt_iff 64 (by omega) s i).1 he⟩ h
      | false =>
        intro h
        rw [if_neg (by simp)]
        cases he : parseUint 64 s with
        | mk n e =>
          cases e with
          | some e => rfl
          | none => exact absurd ⟨(n : Int), (parseUint_iff 64 s n).1 he⟩ h

theorem fits_width (k : IntKind) (i : Int) (h : Spec.InType k i) : Fits k.signed 64 i := by
  unfold Spec.InType Fits at *
  cases k <;> simp only [IntKind.signed, IntKind.width, if_true, if_false, Bool.false_eq_true] at * <;> omega

/-- **C55** for numbers the field can hold: any numeral of the number is bound to that number, for every width. -/
theorem C55_in_range_preserved (k : IntKind) (s : Str) (i : Int) (h : Denotes k.signed s i)
    (hi : Spec.InType k i) : bindInt k s = i := by
  rw [(C55_bind_int k s i).1 h (fits_width k i hi), conv_id k i hi]

/-- **C55** for the 64-bit kinds, which are the ones where it holds for every string: the number, or 0 when the
string is not a numeral of the type. -/
theorem C55_wide_kinds_partial (k : IntKind) (hw : k.width = 64) (s : Str) :
    (∃ i, Denotes k.signed s i ∧ Spec.InType k i ∧ bindInt k s = i) ∨
    ((¬ ∃ i, Denotes k.signed s i ∧ Spec.InType k i) ∧ bindInt k s = 0) := by
  by_cases h : ∃ i, Denotes k.signed s i ∧ Spec.InType k i
  · obtain ⟨i, h1, h2⟩ := h
    exact Or.inl ⟨i, h1, h2, C55_in_range_preserved k s i h1 h2⟩
  · refine Or.inr ⟨h, (C55_bind_int k s 0).2 ?_⟩
    rintro ⟨j, h1, h2⟩
    exact h ⟨j, h1, by unfold Spec.InType; rw [hw]; exact h2⟩

/-- **C55 fails** for narrow kinds: a number out of the field's range is bound to another number. -/
theorem C55_narrow_wraps_violated :
    bindInt .int8 b!"300" = 44 ∧ bindInt .uint8 b!"256" = 0 ∧ bindInt .int32 b!"4294967297" = 1 ∧
    bindInt .int16 b!"-32769" = 32767 := by decide +kernel

/-- Bound through the parameters: the first value of the name counts. -/
theorem C55_bind_int_param (x : Ext) (it : Order) (path : List Nat) (p : P) (name : Str) (k : IntKind) (s : Str)
    (rest : List Str) (h : lookup p.values name = some (s :: rest)) :
    bind x it (.int k) path p name = some (.int (bindInt k s)) := by
  unfold bind firstValue
  rw [h]

/-- An absent parameter is bound to zero, for every type without struct or slice parts. -/
theorem C55_absent_is_zero (x : Ext) (it : Order) (path : List Nat) (p : P) (name : Str)
    (h : lookup p.values name = none) (t : Ty)
    (ht : match t with | .struct _ => False | .slice _ => False | _ => True) :
    bind x it t path p name = some (zero t) := by
  cases t <;> first | exact absurd ht id | (unfold bind firstValue; rw [h]; rfl) | (unfold bind zero; rfl)

/-! ## C54: slices -/

/-- Every loop visits exactly the entries of the maps, in some order of its own. -/
def Spec.ValidOrder (it : Order) : Prop :=
  ∀ path p, (it path p).values.Perm p.values ∧ (it path p).files.Perm p.files

/-- Keys of both maps are distinct. -/
def Spec.Maps (p : P) : Prop := Spec.IsMap p.values ∧ (p.files.map (fun e => e.1)).Nodup

/-- All keys. -/
def Spec.keys (p : P) : List Str := p.values.map (fun e => e.1) ++ p.files.map (fun e => e.1)

mutual
/-- No ambiguity for a destination: in every slice reached, two keys with the same index spell it the same way, and
at most one key of values (and one of files) has no index. -/
def Spec.NoClash : Ty → P → Str → Prop
  | .slice t, p, name =>
    (∀ k1 ∈ Spec.keys p, ∀ k2 ∈ Spec.keys p, ∀ i s1 s2,
      Spec.Indexed name k1 i s1 → Spec.Indexed name k2 i s2 → s1 = s2) ∧
    (∀ e1 ∈ p.values, ∀ e2 ∈ p.values, Spec.Unindexed name e1.1 → Spec.Unindexed name e2.1 → e1.1 = e2.1) ∧
    (∀ e1 ∈ p.files, ∀ e2 ∈ p.files, Spec.Unindexed name e1.1 → Spec.Unindexed name e2.1 → e1.1 = e2.1) ∧
    (∀ k ∈ Spec.keys p, ∀ i sub, Spec.Indexed name k i sub → Spec.NoClash t p sub)
  | .struct fs, p, name => Spec.NoClashF fs p name
  | .ptr t, p, name => Spec.NoClash t p name
  | _, _, _ => True
def Spec.NoClashF : Fields → P → Str → Prop
  | .nil, _, _ => True
  | .cons f _ t rest, p, name => Spec.NoClash t p (name ++ [46] ++ f) ∧ Spec.NoClashF rest p name
end

/-- maps with at most one key are never ambiguous -/
theorem indexed_unique {name key : Str} {i : Nat} {s1 s2 : Str} (h1 : Spec.Indexed name key i s1)
    (h2 : Spec.Indexed name key i s2) : s1 = s2 := by
  have a := (keyIndex_iff name key i s1 (indexed_prefix h1)).2 h1
  have b := (keyIndex_iff name key i s2 (indexed_prefix h2)).2 h2
  rw [a] at b
  simpa using b

mutual
theorem noClash_single (p : P) (k : Str) (hk : ∀ k' ∈ Spec.keys p, k' = k) :
    ∀ (t : Ty) (name : Str), Spec.NoClash t p name
  | .slice t, name => by
    unfold Spec.NoClash
    have hv : ∀ e ∈ p.values, e.1 = k := fun e he =>
      hk e.1 (List.mem_append_left _ (List.mem_map.2 ⟨e, he, rfl⟩))
    have hf : ∀ e ∈ p.files, e.1 = k := fun e he =>
      hk e.1 (List.mem_append_right _ (List.mem_map.2 ⟨e, he, rfl⟩))
    refine ⟨fun k1 h1 k2 h2 i s1 s2 a b => ?_, fun e1 h1 e2 h2 _ _ => by rw [hv e1 h1, hv e2 h2],
      fun e1 h1 e2 h2 _ _ => by rw [hf e1 h1, hf e2 h2], fun _ _ _ sub _ => noClash_single p k hk t sub⟩
    rw [hk k1 h1] at a
    rw [hk k2 h2] at b
    exact indexed_unique a b
  | .struct fs, name => by unfold Spec.NoClash; exact noClashF_single p k hk fs name
  | .ptr t, name => by unfold Spec.NoClash; exact noClash_single p k hk t name
  | .bool, _ => by unfold Spec.NoClash; trivial
  | .int _, _ => by unfold Spec.NoClash; trivial
  | .float _, _ => by unfold Spec.NoClash; trivial
  | .string, _ => by unfold Spec.NoClash; trivial
  | .time, _ => by unfold Spec.NoClash; trivial
  | .other, _ => by unfold Spec.NoClash; trivial
theorem noClashF_single (p : P) (k : Str) (hk : ∀ k' ∈ Spec.keys p, k' = k) :
    ∀ (fs : Fields) (name : Str), Spec.NoClashF fs p name
  | .nil, _ => by unfold Spec.NoClashF; trivial
  | .cons f e t rest, name => by
    unfold Spec.NoClashF
    exact ⟨noClash_single p k hk t _, noClashF_single p k hk rest name⟩
end

theorem single_maps (v : Str) : Spec.Maps (single v) := by simp [Spec.Maps, Spec.IsMap, single]
theorem singleFile_maps : Spec.Maps singleFile := by simp [Spec.Maps, Spec.IsMap, singleFile]

theorem single_noClash (v : Str) (t : Ty) (n : Str) : Spec.NoClash t (single v) n :=
  noClash_single _ [] (by intro k; simp [Spec.keys, single]) t n
theorem singleFile_noClash (t : Ty) (n : Str) : Spec.NoClash t singleFile n :=
  noClash_single _ [] (by intro k; simp [Spec.keys, singleFile]) t n

/-- element binding that does not depend on the call path -/
theorem process_free (bindE : List Nat → P → Str → Option V) (B : P → Str → Option V) (p : P) (name : Str)
    (path : List Nat) (key : Str) (vals : List Str) (nf : Nat)
    (h : ∀ i sub, Spec.Indexed name key i sub → ∀ path, bindE path p sub = B p sub)
    (h1 : ∀ path v, bindE path (single v) [] = B (single v) []) (h2 : ∀ path, bindE path singleFile [] = B singleFile []) :
    processElement bindE p name path (normalizeKey name key) vals nf =
      processElement (fun _ => B) p name [] (normalizeKey name key) vals nf := by
  by_cases hi : ∃ i sub, Spec.Indexed name key i sub
  · obtain ⟨i, sub, hi⟩ := hi
    rw [process_indexed _ p name path key vals nf i sub hi, process_indexed _ p name [] key vals nf i sub hi, h i sub hi]
  · by_cases hu : Spec.Unindexed name key
    · rw [process_unindexed _ p name path key vals nf hu, process_unindexed _ p name [] key vals nf hu]
      simp [h1, h2]
    · rw [process_other _ p name path key vals nf hu hi, process_other _ p name [] key vals nf hu hi]

/-- the elements, when element binding does not depend on the call path -/
theorem elements_free (bindE : List Nat → P → Str → Option V) (B : P → Str → Option V) (p visit : P) (name : Str)
    (path : List Nat)
    (h : ∀ k ∈ Spec.keys visit, ∀ i sub, Spec.Indexed name k i sub → ∀ path, bindE path p sub = B p sub)
    (h1 : ∀ path v, bindE path (single v) [] = B (single v) []) (h2 : ∀ path, bindE path singleFile [] = B singleFile []) :
    elements bindE p name path visit =
      visit.values.flatMap (fun e => processElement (fun _ => B) p name [] (normalizeKey name e.1) e.2 0) ++
      visit.files.flatMap (fun e => processElement (fun _ => B) p name [] (normalizeKey name e.1) [] e.2) := by
  unfold elements
  congr 1
  · rw [← zipIdx_flatMap visit.values 0]
    refine flatMap_congr' _ _ _ fun e he => ?_
    have hm : e.1 ∈ visit.values := by
      obtain ⟨a, b⟩ := e
      rw [List.mem_zipIdx_iff_getElem?] at he
      exact List.mem_of_getElem? he
    exact process_free bindE B p name _ e.1.1 e.1.2 0
      (h e.1.1 (List.mem_append_left _ (List.mem_map.2 ⟨e.1, hm, rfl⟩))) h1 h2
  · rw [← zipIdx_flatMap visit.files 0]
    refine flatMap_congr' _ _ _ fun e he => ?_
    have hm : e.1 ∈ visit.files := by
      obtain ⟨a, b⟩ := e
      rw [List.mem_zipIdx_iff_getElem?] at he
      exact List.mem_of_getElem? he
    exact process_free bindE B p name _ e.1.1 [] e.1.2
      (h e.1.1 (List.mem_append_right _ (List.mem_map.2 ⟨e.1, hm, rfl⟩))) h1 h2

/-- every element of a key is an indexed one with the key's prefix, or an unindexed one -/
theorem process_mem (B : P → Str → Option V) (p : P) (name key : Str) (vals : List Str) (nf : Nat) (e : SV)
    (he : e ∈ processElement (fun _ => B) p name [] (normalizeKey name key) vals nf) :
    (∃ i sub, Spec.Indexed name key i sub ∧ e = ⟨some i, B p sub⟩) ∨ (Spec.Unindexed name key ∧ e.idx = none) := by
  by_cases hi : ∃ i sub, Spec.Indexed name key i sub
  · obtain ⟨i, sub, hi⟩ := hi
    rw [process_indexed _ p name [] key vals nf i sub hi] at he
    exact Or.inl ⟨i, sub, hi, by simpa using he⟩
  · by_cases hu : Spec.Unindexed name key
    · rw [process_unindexed _ p name [] key vals nf hu] at he
      right
      refine ⟨hu, ?_⟩
      rcases List.mem_append.1 he with he | he
      · obtain ⟨v, _, rfl⟩ := List.mem_map.1 he; rfl
      · obtain ⟨v, _, rfl⟩ := List.mem_map.1 he; rfl
    · rw [process_other _ p name [] key vals nf hu hi] at he
      cases he

theorem appended_append (a b : List SV) : appended (a ++ b) = appended a ++ appended b := by
  simp [appended, List.filterMap_append]

theorem appended_flatMap {α : Type} (l : List α) (g : α → List SV) :
    appended (l.flatMap g) = l.flatMap (fun a => appended (g a)) := by
  induction l with
  | nil => rfl
  | cons a l ih => rw [List.flatMap_cons, List.flatMap_cons, appended_append, ih]

theorem appended_empty (B : P → Str → Option V) (p : P) (name key : Str) (vals : List Str) (nf : Nat)
    (h : ¬ Spec.Unindexed name key) :
    appended (processElement (fun _ => B) p name [] (normalizeKey name key) vals nf) = [] := by
  unfold appended
  rw [List.filterMap_eq_nil_iff]
  intro e he
  rcases process_mem B p name key vals nf e he with ⟨i, sub, _, rfl⟩ | ⟨hu, _⟩
  · rfl
  · exact absurd hu h

theorem pairwise_of_nodup_keys {β : Type} (l : List (Str × β)) (hn : (l.map (fun e => e.1)).Nodup)
    (U : Str → Prop) (hu : ∀ e1 ∈ l, ∀ e2 ∈ l, U e1.1 → U e2.1 → e1.1 = e2.1) (R : Str × β → Str × β → Prop)
    (hR : ∀ a b, (¬ U a.1 ∨ ¬ U b.1) → R a b) : l.Pairwise R := by
  induction l with
  | nil => exact List.Pairwise.nil
  | cons a l ih =>
    rw [List.map_cons, List.nodup_cons] at hn
    rw [List.pairwise_cons]
    refine ⟨fun b hb => hR a b ?_, ih hn.2 (fun e1 h1 e2 h2 => hu e1 (by simp [h1]) e2 (by simp [h2]))⟩
    apply Classical.byContradiction
    intro hc
    have ha : U a.1 := Classical.byContradiction fun h => hc (Or.inl h)
    have hb' : U b.1 := Classical.byContradiction fun h => hc (Or.inr h)
    have := hu a (by simp) b (by simp [hb]) ha hb'
    exact hn.1 (this ▸ List.mem_map.2 ⟨b, hb, rfl⟩)

theorem mem_keys_perm {p q : P} (h1 : p.values.Perm q.values) (h2 : p.files.Perm q.files) (k : Str) :
    k ∈ Spec.keys p ↔ k ∈ Spec.keys q := by
  unfold Spec.keys
  rw [List.mem_append, List.mem_append, (h1.map _).mem_iff, (h2.map _).mem_iff]

/-- two visiting orders give the same slice -/
theorem build_orders (B : P → Str → Option V) (m : Nat) (z : V) (p q1 q2 : P) (name : Str) (hm : Spec.Maps p)
    (v1 : q1.values.Perm p.values) (f1 : q1.files.Perm p.files) (v2 : q2.values.Perm p.values)
    (f2 : q2.files.Perm p.files)
    (c1 : ∀ k1 ∈ Spec.keys p, ∀ k2 ∈ Spec.keys p, ∀ i s1 s2,
      Spec.Indexed name k1 i s1 → Spec.Indexed name k2 i s2 → s1 = s2)
    (c2 : ∀ e1 ∈ p.values, ∀ e2 ∈ p.values, Spec.Unindexed name e1.1 → Spec.Unindexed name e2.1 → e1.1 = e2.1)
    (c3 : ∀ e1 ∈ p.files, ∀ e2 ∈ p.files, Spec.Unindexed name e1.1 → Spec.Unindexed name e2.1 → e1.1 = e2.1) :
    let g := fun e : Str × List Str => processElement (fun _ => B) p name [] (normalizeKey name e.1) e.2 0
    let g' := fun e : Str × Nat => processElement (fun _ => B) p name [] (normalizeKey name e.1) [] e.2
    build m z (q1.values.flatMap g ++ q1.files.flatMap g') = build m z (q2.values.flatMap g ++ q2.files.flatMap g') := by
  intro g g'
  have hv : q1.values.Perm q2.values := v1.trans v2.symm
  have hf : q1.files.Perm q2.files := f1.trans f2.symm
  have mem_key : ∀ e ∈ q1.values.flatMap g ++ q1.files.flatMap g', ∃ k ∈ Spec.keys p,
      (∃ i sub, Spec.Indexed name k i sub ∧ e = ⟨some i, B p sub⟩) ∨ (Spec.Unindexed name k ∧ e.idx = none) := by
    intro e he
    rcases List.mem_append.1 he with he | he
    · obtain ⟨a, ha, he⟩ := List.mem_flatMap.1 he
      exact ⟨a.1, List.mem_append_left _ (List.mem_map.2 ⟨a, v1.mem_iff.1 ha, rfl⟩), process_mem B p name a.1 a.2 0 e he⟩
    · obtain ⟨a, ha, he⟩ := List.mem_flatMap.1 he
      exact ⟨a.1, List.mem_append_right _ (List.mem_map.2 ⟨a, f1.mem_iff.1 ha, rfl⟩), process_mem B p name a.1 [] a.2 e he⟩
  refine build_perm m z _ _ (fun e => ?_) (fun e he e' he' j hj hj' => ?_) ?_
  · rw [List.mem_append, List.mem_append, (List.Perm.flatMap_right g hv).mem_iff, (List.Perm.flatMap_right g' hf).mem_iff]
  · obtain ⟨k, hk, h⟩ := mem_key e he
    obtain ⟨k', hk', h'⟩ := mem_key e' he'
    rcases h with ⟨i, sub, hi, rfl⟩ | ⟨_, hn⟩
    · rcases h' with ⟨i', sub', hi', rfl⟩ | ⟨_, hn⟩
      · simp only [Option.some.injEq] at hj hj'
        subst hj
        subst hj'
        rw [c1 k hk k' hk' _ sub sub' hi hi']
      · rw [hn] at hj'; cases hj'
    · rw [hn] at hj; cases hj
  · rw [appended_append, appended_append, appended_flatMap, appended_flatMap, appended_flatMap, appended_flatMap]
    congr 1
    · refine flatMap_perm_single _ _ _ hv ?_
      refine v1.symm.pairwise ?_ (by rintro a b (e | e); exact Or.inr e; exact Or.inl e)
      refine pairwise_of_nodup_keys p.values hm.1 (Spec.Unindexed name) c2 _ fun a b h => ?_
      rcases h with h | h
      · exact Or.inl (appended_empty B p name a.1 a.2 0 h)
      · exact Or.inr (appended_empty B p name b.1 b.2 0 h)
    · refine flatMap_perm_single _ _ _ hf ?_
      refine f1.symm.pairwise ?_ (by rintro a b (e | e); exact Or.inr e; exact Or.inl e)
      refine pairwise_of_nodup_keys p.files hm.2 (Spec.Unindexed name) c3 _ fun a b h => ?_
      rcases h with h | h
      · exact Or.inl (appended_empty B p name a.1 [] a.2 h)
      · exact Or.inr (appended_empty B p name b.1 [] b.2 h)

mutual
/-- **C54**: for every destination type, two runs that visit the maps in any two families of orders give the same
value, or both panic, when no keys clash. -/
theorem C54_order_independent_partial (x : Ext) (it it' : Order) (hv : Spec.ValidOrder it) (hv' : Spec.ValidOrder it') :
    ∀ (t : Ty) (p : P) (name : Str), Spec.Maps p → Spec.NoClash t p name → ∀ path path',
      bind x it t path p name = bind x it' t path' p name
  | .slice t, p, name, hm, hc, path, path' => by
    unfold Spec.NoClash at hc
    obtain ⟨c1, c2, c3, c4⟩ := hc
    have ih := C54_order_independent_partial x it it' hv hv' t
    have ih0 := C54_order_independent_partial x it' it' hv' hv' t
    unfold bind
    have e1 := elements_free (fun path p n => bind x it t path p n) (fun p n => bind x it' t [] p n) p (it path p) name
      (1 :: path)
      (fun k hk i sub hi q => ih p sub hm
        (c4 k ((mem_keys_perm (hv path p).1 (hv path p).2 k).1 hk) i sub hi) q [])
      (fun q v => ih _ _ (single_maps v) (single_noClash v t []) q [])
      (fun q => ih _ _ singleFile_maps (singleFile_noClash t []) q [])
    have e2 := elements_free (fun path p n => bind x it' t path p n) (fun p n => bind x it' t [] p n) p (it' path' p) name
      (1 :: path')
      (fun k hk i sub hi q => ih0 p sub hm
        (c4 k ((mem_keys_perm (hv' path' p).1 (hv' path' p).2 k).1 hk) i sub hi) q [])
      (fun q v => ih0 _ _ (single_maps v) (single_noClash v t []) q [])
      (fun q => ih0 _ _ singleFile_maps (singleFile_noClash t []) q [])
    rw [e1, e2]
    exact build_orders _ _ _ p (it path p) (it' path' p) name hm (hv path p).1 (hv path p).2 (hv' path' p).1
      (hv' path' p).2 c1 c2 c3
  | .struct fs, p, name, hm, hc, path, path' => by
    unfold Spec.NoClash at hc
    unfold bind
    rw [C54_fields x it it' hv hv' fs 0 0 p name hm hc path path']
  | .ptr t, p, name, hm, hc, path, path' => by
    unfold Spec.NoClash at hc
    unfold bind
    rw [C54_order_independent_partial x it it' hv hv' t p name hm hc (0 :: path) (0 :: path')]
  | .bool, _, _, _, _, _, _ => by unfold bind; rfl
  | .int _, _, _, _, _, _, _ => by unfold bind; rfl
  | .float _, _, _, _, _, _, _ => by unfold bind; rfl
  | .string, _, _, _, _, _, _ => by unfold bind; rfl
  | .time, _, _, _, _, _, _ => by unfold bind; rfl
  | .other, _, _, _, _, _, _ => by unfold bind; rfl
theorem C54_fields (x : Ext) (it it' : Order) (hv : Spec.ValidOrder it) (hv' : Spec.ValidOrder it') :
    ∀ (fs : Fields) (n n' : Nat) (p : P) (name : Str), Spec.Maps p → Spec.NoClashF fs p name → ∀ path path',
      bindFields x it fs n path p name = bindFields x it' fs n' path' p name
  | .nil, _, _, _, _, _, _, _, _ => by unfold bindFields; rfl
  | .cons f e t rest, n, n', p, name, hm, hc, path, path' => by
    unfold Spec.NoClashF at hc
    unfold bindFields
    rw [C54_order_independent_partial x it it' hv hv' t p _ hm hc.1 (n :: path) (n' :: path'),
      C54_fields x it it' hv hv' rest (n + 1) (n' + 1) p name hm hc.2 path path']
end

/-! ### what the slice contains -/

/-- **C54**: each indexed value is at its index, indexes in between that no key gives are zero, and without
unindexed keys there is nothing else; for every order of visiting. -/
theorem C54_slice_content_partial (x : Ext) (it : Order) (hv : Spec.ValidOrder it) (t : Ty) (p : P) (name : Str)
    (hm : Spec.Maps p) (hc : Spec.NoClash (.slice t) p name) (path : List Nat) (vs : List V)
    (h : bind x it (.slice t) path p name = some (.slice vs)) :
    (∀ k ∈ Spec.keys p, ∀ i sub, Spec.Indexed name k i sub → vs[i]? = bind x it t [] p sub ∧ vs[i]? ≠ none) ∧
    (∀ k ∈ Spec.keys p, ∀ i sub, Spec.Indexed name k i sub → ∀ j < i,
      (∀ k' ∈ Spec.keys p, ∀ sub', ¬ Spec.Indexed name k' j sub') → vs[j]? = some (zero t)) ∧
    ((∀ k ∈ Spec.keys p, ¬ Spec.Unindexed name k) → ∀ n,
      (∀ k ∈ Spec.keys p, ∀ i sub, Spec.Indexed name k i sub → i < n) → vs.length ≤ n) := by
  unfold Spec.NoClash at hc
  obtain ⟨c1, c2, c3, c4⟩ := hc
  have ih := C54_order_independent_partial x it it hv hv t
  unfold bind at h
  rw [elements_free (fun path p n => bind x it t path p n) (fun p n => bind x it t [] p n) p (it path p) name
      (1 :: path)
      (fun k hk i sub hi q => ih p sub hm
        (c4 k ((mem_keys_perm (hv path p).1 (hv path p).2 k).1 hk) i sub hi) q [])
      (fun q v => ih _ _ (single_maps v) (single_noClash v t []) q [])
      (fun q => ih _ _ singleFile_maps (singleFile_noClash t []) q [])] at h
  generalize hB : (fun p n => bind x it t [] p n) = B at h
  have hBa : ∀ s, bind x it t [] p s = B p s := by intro s; rw [← hB]
  generalize hE : (it path p).values.flatMap (fun e => processElement (fun _ => B) p name [] (normalizeKey name e.1) e.2 0) ++
    (it path p).files.flatMap (fun e => processElement (fun _ => B) p name [] (normalizeKey name e.1) [] e.2) = E at h
  have hs : ∀ e ∈ E, e.val ≠ none := by
    intro e he hn
    unfold build at h
    rw [if_pos (List.any_eq_true.2 ⟨e, he, by simp [hn]⟩)] at h
    cases h
  have hsz : size E ≤ x.maxLen := by
    apply Classical.byContradiction
    intro hn
    unfold build at h
    rw [if_neg, if_pos (by omega)] at h
    · cases h
    · intro e
      obtain ⟨y, hy, hn⟩ := List.any_eq_true.1 e
      exact hs y hy (by simpa using hn)
  rw [build_eq_some _ _ E hs hsz] at h
  simp only [Option.some.injEq, V.slice.injEq] at h
  have memE : ∀ e ∈ E, ∃ k ∈ Spec.keys p,
      (∃ i sub, Spec.Indexed name k i sub ∧ e = ⟨some i, B p sub⟩) ∨ (Spec.Unindexed name k ∧ e.idx = none) := by
    intro e he
    rw [← hE] at he
    rcases List.mem_append.1 he with he | he
    · obtain ⟨a, ha, he⟩ := List.mem_flatMap.1 he
      exact ⟨a.1, List.mem_append_left _ (List.mem_map.2 ⟨a, (hv path p).1.mem_iff.1 ha, rfl⟩),
        process_mem B p name a.1 a.2 0 e he⟩
    · obtain ⟨a, ha, he⟩ := List.mem_flatMap.1 he
      exact ⟨a.1, List.mem_append_right _ (List.mem_map.2 ⟨a, (hv path p).2.mem_iff.1 ha, rfl⟩),
        process_mem B p name a.1 [] a.2 e he⟩
  have inE : ∀ k ∈ Spec.keys p, ∀ i sub, Spec.Indexed name k i sub → (⟨some i, B p sub⟩ : SV) ∈ E := by
    intro k hk i sub hi
    rw [← hE]
    rcases List.mem_append.1 hk with hk | hk
    · obtain ⟨a, ha, rfl⟩ := List.mem_map.1 hk
      refine List.mem_append_left _ (List.mem_flatMap.2 ⟨a, (hv path p).1.mem_iff.2 ha, ?_⟩)
      rw [process_indexed _ p name [] a.1 a.2 0 i sub hi]; simp
    · obtain ⟨a, ha, rfl⟩ := List.mem_map.1 hk
      refine List.mem_append_right _ (List.mem_flatMap.2 ⟨a, (hv path p).2.mem_iff.2 ha, ?_⟩)
      rw [process_indexed _ p name [] a.1 [] a.2 i sub hi]; simp
  have uniq : ∀ j, ∀ e ∈ E, ∀ e' ∈ E, e.idx = some j → e'.idx = some j → e.val = e'.val := by
    intro j e he e' he' hj hj'
    obtain ⟨k, hk, hcase⟩ := memE e he
    obtain ⟨k', hk', hcase'⟩ := memE e' he'
    rcases hcase with ⟨i, sub, hi, rfl⟩ | ⟨_, hn⟩
    · rcases hcase' with ⟨i', sub', hi', rfl⟩ | ⟨_, hn⟩
      · simp only [Option.some.injEq] at hj hj'
        subst hj
        subst hj'
        rw [c1 k hk k' hk' _ sub sub' hi hi']
      · rw [hn] at hj'; cases hj'
    · rw [hn] at hj; cases hj
  have hlen : (E.foldl placeIdx (List.replicate (size E) (zero t))).length = size E := by
    rw [foldl_placeIdx_length, List.length_replicate]
  refine ⟨fun k hk i sub hi => ?_, fun k hk i sub hi j hj hno => ?_, fun hnu n hn => ?_⟩
  · have he := inE k hk i sub hi
    have hlt := size_lt E _ he i rfl
    have := (foldl_placeIdx_get E (List.replicate (size E) (zero t)) i hs (uniq i)).1 _ he rfl
      (by rw [List.length_replicate]; exact hlt)
    have hvs : vs[i]? = B p sub := by
      rw [← h, List.getElem?_append_left (by rw [hlen]; exact hlt)]
      exact this
    exact ⟨by rw [hvs, hBa], by rw [hvs]; exact hs _ he⟩
  · have he := inE k hk i sub hi
    have hlt := size_lt E _ he i rfl
    have := (foldl_placeIdx_get E (List.replicate (size E) (zero t)) j hs (uniq j)).2 (by
      intro e hme hj'
      obtain ⟨k', hk', hcase⟩ := memE e hme
      rcases hcase with ⟨i', sub', hi', rfl⟩ | ⟨_, hnn⟩
      · simp only [Option.some.injEq] at hj'
        subst hj'
        exact hno k' hk' sub' hi'
      · rw [hnn] at hj'; cases hj')
    rw [← h, List.getElem?_append_left (by rw [hlen]; omega), this]
    rw [List.getElem?_replicate, if_pos (by omega)]
  · have hap : appended E = [] := by
      unfold appended
      rw [List.filterMap_eq_nil_iff]
      intro e he
      obtain ⟨k, hk, hcase⟩ := memE e he
      rcases hcase with ⟨i, sub, _, rfl⟩ | ⟨hu, _⟩
      · rfl
      · exact absurd hu (hnu k hk)
    rw [← h, hap, List.append_nil, hlen, size_le]
    intro e he i hi
    obtain ⟨k, hk, hcase⟩ := memE e he
    rcases hcase with ⟨i', sub, hidx, rfl⟩ | ⟨hu, hnn⟩
    · simp only [Option.some.injEq] at hi
      subst hi
      exact hn k hk _ sub hidx
    · rw [hnn] at hi; cases hi

/-- **C54**: binding does not panic when every index is below the limit and the elements can be bound. -/
theorem C54_no_panic (x : Ext) (it : Order) (hv : Spec.ValidOrder it) (t : Ty) (p : P) (name : Str) (path : List Nat)
    (hb : ∀ path p n, bind x it t path p n ≠ none)
    (hi : ∀ k ∈ Spec.keys p, ∀ i sub, Spec.Indexed name k i sub → i < x.maxLen) :
    ∃ vs, bind x it (.slice t) path p name = some (.slice vs) := by
  unfold bind
  have mem : ∀ e ∈ elements (fun path p n => bind x it t path p n) p name (1 :: path) (it path p),
      e.val ≠ none ∧ ∀ i, e.idx = some i → i + 1 ≤ x.maxLen := by
    have one : ∀ key ∈ Spec.keys p, ∀ q vals nf, ∀ e ∈ processElement (fun path p n => bind x it t path p n) p name q
        (normalizeKey name key) vals nf, e.val ≠ none ∧ ∀ i, e.idx = some i → i + 1 ≤ x.maxLen := by
      intro key hk q vals nf e he
      by_cases hx : ∃ i sub, Spec.Indexed name key i sub
      · obtain ⟨i, sub, hx⟩ := hx
        rw [process_indexed _ p name q key vals nf i sub hx] at he
        simp only [List.mem_singleton] at he
        subst he
        exact ⟨hb _ _ _, fun j hj => by
          simp only [Option.some.injEq] at hj
          subst hj
          exact hi key hk _ sub hx⟩
      · by_cases hu : Spec.Unindexed name key
        · rw [process_unindexed _ p name q key vals nf hu] at he
          rcases List.mem_append.1 he with he | he
          · obtain ⟨v, _, rfl⟩ := List.mem_map.1 he; exact ⟨hb _ _ _, fun i h => by cases h⟩
          · obtain ⟨v, _, rfl⟩ := List.mem_map.1 he; exact ⟨hb _ _ _, fun i h => by cases h⟩
        · rw [process_other _ p name q key vals nf hu hx] at he; cases he
    intro e he
    unfold elements at he
    rcases List.mem_append.1 he with he | he
    · obtain ⟨⟨a, j⟩, ha, he⟩ := List.mem_flatMap.1 he
      have hm : a ∈ (it path p).values := by
        rw [List.mem_zipIdx_iff_getElem?] at ha
        exact List.mem_of_getElem? ha
      exact one a.1 (List.mem_append_left _ (List.mem_map.2 ⟨a, (hv path p).1.mem_iff.1 hm, rfl⟩)) _ _ _ e he
    · obtain ⟨⟨a, j⟩, ha, he⟩ := List.mem_flatMap.1 he
      have hm : a ∈ (it path p).files := by
        rw [List.mem_zipIdx_iff_getElem?] at ha
        exact List.mem_of_getElem? ha
      exact one a.1 (List.mem_append_right _ (List.mem_map.2 ⟨a, (hv path p).2.mem_iff.1 hm, rfl⟩)) _ _ _ e he
  exact ⟨_, build_eq_some _ _ _ (fun e he => (mem e he).1) ((size_le _ _).2 fun e he i h => (mem e he).2 i h)⟩

/-- The key `name[i]`. -/
def Spec.indexKey (name : Str) (i : Nat) : Str := name ++ 91 :: (natDec i ++ [93])

theorem natDec_no_bracket (i : Nat) : (93 : UInt8) ∉ natDec i := by
  intro h
  have := natDec_digits i 93 h
  unfold isDig at this
  simp at this

theorem indexKey_indexed (name : Str) (i : Nat) (h : i < 2 ^ 63) :
    Spec.Indexed name (Spec.indexKey name i) i (Spec.indexKey name i) := by
  refine ⟨natDec i, [], rfl, natDec_no_bracket i, natDec_ne_nil i, rfl, ?_⟩
  have hd : Denotes true (natDec i) (i : Int) := fmtInt_denotes true (i : Int) (Or.inl rfl)
  have := (parseInt_iff 64 (by omega) (natDec i) i).2 ⟨hd, by unfold Fits; simp only [if_true]; omega⟩
  rw [this]

theorem indexKey_unique (name : Str) (j i : Nat) (sub : Str) (hj : j < 2 ^ 63)
    (h : Spec.Indexed name (Spec.indexKey name j) i sub) : i = j ∧ sub = Spec.indexKey name j := by
  have a := (keyIndex_iff name _ i sub (indexed_prefix h)).2 h
  have b := (keyIndex_iff name _ j _ (indexed_prefix h)).2 (indexKey_indexed name j hj)
  rw [a] at b
  simpa using b

theorem indexKey_not_unindexed (name : Str) (j : Nat) (hj : j < 2 ^ 63) :
    ¬ Spec.Unindexed name (Spec.indexKey name j) := by
  rintro (e | ⟨_, h⟩)
  · have := congrArg List.length e
    simp [Spec.indexKey] at this
  · exact h ⟨_, _, indexKey_indexed name j hj⟩

theorem indexKey_inj (name : Str) {i j : Nat} (h : Spec.indexKey name i = Spec.indexKey name j) : i = j := by
  unfold Spec.indexKey at h
  simp only [List.append_cancel_left_eq, List.cons.injEq, true_and] at h
  exact natDec_inj (List.append_cancel_right h)

/-- The parameters `name[0]=x₀, name[1]=x₁, …`. -/
def Spec.indexedParams (name : Str) (xs : List Str) : Values :=
  xs.zipIdx.map (fun e => (Spec.indexKey name e.2, [e.1]))

theorem lookup_of_mem (m : Values) (h : Spec.IsMap m) (k : Str) (v : List Str) (hm : (k, v) ∈ m) :
    lookup m k = some v := by
  induction m with
  | nil => cases hm
  | cons e m ih =>
    obtain ⟨a, w⟩ := e
    unfold Spec.IsMap at h
    rw [List.map_cons, List.nodup_cons] at h
    rw [lookup_cons]
    rcases List.mem_cons.1 hm with e | e
    · rw [Prod.mk.injEq] at e
      obtain ⟨rfl, rfl⟩ := e
      rw [if_pos rfl]
    · rw [if_neg, ih h.2 e]
      rintro rfl
      exact h.1 (List.mem_map.2 ⟨_, e, rfl⟩)

theorem mem_indexedParams (name : Str) (xs : List Str) (e : Str × List Str) :
    e ∈ Spec.indexedParams name xs ↔ ∃ (i : Nat) (s : Str), xs[i]? = some s ∧ e = (Spec.indexKey name i, [s]) := by
  unfold Spec.indexedParams
  rw [List.mem_map]
  constructor
  · rintro ⟨⟨s, i⟩, h, rfl⟩
    rw [List.mem_zipIdx_iff_getElem?] at h
    exact ⟨i, s, h, rfl⟩
  · rintro ⟨i, s, h, rfl⟩
    exact ⟨(s, i), by rw [List.mem_zipIdx_iff_getElem?]; exact h, rfl⟩

theorem indexedParams_isMap (name : Str) (xs : List Str) : Spec.IsMap (Spec.indexedParams name xs) := by
  unfold Spec.IsMap Spec.indexedParams
  rw [List.map_map]
  have key : ∀ n, ((xs.zipIdx n).map ((fun e : Str × List Str => e.1) ∘ fun e => (Spec.indexKey name e.2, [e.1]))).Nodup := by
    induction xs with
    | nil => simp
    | cons a xs ih =>
      intro n
      rw [List.zipIdx_cons, List.map_cons, List.nodup_cons]
      refine ⟨?_, ih (n + 1)⟩
      intro h
      obtain ⟨⟨s, i⟩, hm, he⟩ := List.mem_map.1 h
      have := indexKey_inj name he
      rw [List.mem_zipIdx_iff_le_and_getElem?_sub] at hm
      simp at this hm
      omega
  exact key 0

/-- **C54** for a plain list: parameters `name[0]`, `name[1]`, … in any order, bound to a slice of a type bound
from one value (`f`), give exactly those values in index order. -/
theorem C54_indexed_list_partial (x : Ext) (it : Order) (hv : Spec.ValidOrder it) (t : Ty) (f : Str → V)
    (hl : x.maxLen < 2 ^ 63)
    (ht : ∀ path p n, bind x it t path p n = some (match firstValue p n with | some s => f s | none => zero t))
    (hnc : ∀ p n, Spec.NoClash t p n)
    (name : Str) (xs : List Str) (hx : xs.length ≤ x.maxLen) (vals : Values)
    (hp : vals.Perm (Spec.indexedParams name xs)) (path : List Nat) :
    bind x it (.slice t) path ⟨vals, []⟩ name = some (.slice (xs.map f)) := by
  have hmap : Spec.IsMap vals := by
    unfold Spec.IsMap
    exact (hp.map (fun e : Str × List Str => e.1)).nodup_iff.2 (indexedParams_isMap name xs)
  have hkeys : ∀ k, k ∈ Spec.keys ⟨vals, []⟩ ↔ ∃ i : Nat, i < xs.length ∧ k = Spec.indexKey name i := by
    intro k
    simp only [Spec.keys, List.map_nil, List.append_nil, List.mem_map]
    constructor
    · rintro ⟨e, he, rfl⟩
      obtain ⟨i, s, h, rfl⟩ := (mem_indexedParams name xs e).1 (hp.mem_iff.1 he)
      exact ⟨i, (List.getElem?_eq_some_iff.1 h).1, rfl⟩
    · rintro ⟨i, hi, rfl⟩
      exact ⟨_, hp.mem_iff.2 ((mem_indexedParams name xs _).2 ⟨i, xs[i], List.getElem?_eq_getElem hi, rfl⟩), rfl⟩
  have hlook : ∀ (i : Nat) (hi : i < xs.length), lookup vals (Spec.indexKey name i) = some [xs[i]] := by
    intro i hi
    exact lookup_of_mem vals hmap _ _ (hp.mem_iff.2 ((mem_indexedParams name xs _).2
      ⟨i, xs[i], List.getElem?_eq_getElem hi, rfl⟩))
  have hm : Spec.Maps ⟨vals, []⟩ := ⟨hmap, by simp⟩
  have hnu : ∀ k ∈ Spec.keys ⟨vals, []⟩, ¬ Spec.Unindexed name k := by
    intro k hk
    obtain ⟨i, hi, rfl⟩ := (hkeys k).1 hk
    exact indexKey_not_unindexed name i (by omega)
  have hc : Spec.NoClash (.slice t) ⟨vals, []⟩ name := by
    unfold Spec.NoClash
    refine ⟨?_, ?_, ?_, fun _ _ _ sub _ => hnc _ sub⟩
    · intro k1 h1 k2 h2 i s1 s2 a b
      obtain ⟨i1, hi1, rfl⟩ := (hkeys k1).1 h1
      obtain ⟨i2, hi2, rfl⟩ := (hkeys k2).1 h2
      obtain ⟨e1, rfl⟩ := indexKey_unique name i1 i s1 (by omega) a
      obtain ⟨e2, rfl⟩ := indexKey_unique name i2 i s2 (by omega) b
      rw [← e1, ← e2]
    · intro e1 h1 _ _ hu
      exact absurd hu (hnu e1.1 (List.mem_append_left _ (List.mem_map.2 ⟨e1, h1, rfl⟩)))
    · intro e1 h1
      cases h1
  obtain ⟨vs, hvs⟩ := C54_no_panic x it hv t ⟨vals, []⟩ name path (fun q p n => by rw [ht]; simp) (by
    intro k hk i sub hi
    obtain ⟨j, hj, rfl⟩ := (hkeys k).1 hk
    obtain ⟨rfl, _⟩ := indexKey_unique name j i sub (by omega) hi
    omega)
  rw [hvs]
  obtain ⟨h1, _, h3⟩ := C54_slice_content_partial x it hv t _ name hm hc path vs hvs
  have hlen := h3 hnu xs.length (by
    intro k hk i sub hi
    obtain ⟨j, hj, rfl⟩ := (hkeys k).1 hk
    obtain ⟨rfl, _⟩ := indexKey_unique name j i sub (by omega) hi
    exact hj)
  congr 2
  apply List.ext_getElem?
  intro i
  by_cases hi : i < xs.length
  · obtain ⟨h, _⟩ := h1 _ ((hkeys _).2 ⟨i, hi, rfl⟩) i _ (indexKey_indexed name i (by omega))
    rw [h, ht]
    unfold firstValue
    simp only [hlook i hi]
    simp [hi]
  · rw [List.getElem?_eq_none (by omega), List.getElem?_eq_none (by simpa using hi)]

/-- **C54** for slices of strings. -/
theorem C54_strings (x : Ext) (it : Order) (hv : Spec.ValidOrder it) (hl : x.maxLen < 2 ^ 63) (name : Str)
    (xs : List Str) (hx : xs.length ≤ x.maxLen) (vals : Values) (hp : vals.Perm (Spec.indexedParams name xs))
    (path : List Nat) :
    bind x it (.slice .string) path ⟨vals, []⟩ name = some (.slice (xs.map .str)) :=
  C54_indexed_list_partial x it hv .string .str hl (by intros; unfold bind; split <;> simp [*, zero])
    (by intros; unfold Spec.NoClash; trivial) name xs hx vals hp path

/-- **C54** for slices of integers, given decimal notation of numbers of the element type. -/
theorem C54_ints (x : Ext) (it : Order) (hv : Spec.ValidOrder it) (hl : x.maxLen < 2 ^ 63) (k : IntKind) (name : Str)
    (ns : List Int) (hr : ∀ n ∈ ns, Spec.InType k n) (hx : ns.length ≤ x.maxLen) (vals : Values)
    (hp : vals.Perm (Spec.indexedParams name (ns.map fmtInt))) (path : List Nat) :
    bind x it (.slice (.int k)) path ⟨vals, []⟩ name = some (.slice (ns.map .int)) := by
  rw [C54_indexed_list_partial x it hv (.int k) (fun s => .int (bindInt k s)) hl
    (by intros; unfold bind; split <;> simp [*, zero])
    (by intros; unfold Spec.NoClash; trivial) name (ns.map fmtInt) (by simpa using hx) vals hp path]
  rw [List.map_map]
  congr 2
  refine List.map_congr_left fun n hn => ?_
  show V.int (bindInt k (fmtInt n)) = .int n
  rw [C55_in_range_preserved k _ n (fmtInt_denotes _ _ (signed_or_nonneg k n (hr n hn))) (hr n hn)]

/-! ### what goes wrong -/

def Spec.toyExt : Ext := ⟨fun _ _ => 0, fun _ => 0, 1000⟩

/-- the order given, and its reverse -/
def Spec.asIs : Order := fun _ p => p
def Spec.reversed : Order := fun _ p => ⟨p.values.reverse, p.files.reverse⟩

theorem asIs_valid : Spec.ValidOrder Spec.asIs := fun _ _ => ⟨.refl _, .refl _⟩
theorem reversed_valid : Spec.ValidOrder Spec.reversed := fun _ _ => ⟨List.reverse_perm _, List.reverse_perm _⟩

/-- **C54 fails** when two keys give the same index in different spellings, or an index that is no number (which
reads as 0): the value depends on the order Go happens to choose. -/
theorem C54_clash_violated :
    bind Spec.toyExt Spec.asIs (.slice .string) [] ⟨[(b!"a[0]", [b!"x"]), (b!"a[zero]", [b!"y"])], []⟩ b!"a" =
      some (.slice [.str b!"y"]) ∧
    bind Spec.toyExt Spec.reversed (.slice .string) [] ⟨[(b!"a[0]", [b!"x"]), (b!"a[zero]", [b!"y"])], []⟩ b!"a" =
      some (.slice [.str b!"x"]) := by
  constructor <;> rfl

/-- **C54 fails** for values given under both `a` and `a[]`: their order depends on the order Go happens to
choose. -/
theorem C54_unindexed_violated :
    bind Spec.toyExt Spec.asIs (.slice .string) [] ⟨[(b!"a", [b!"x"]), (b!"a[]", [b!"y"])], []⟩ b!"a" =
      some (.slice [.str b!"x", .str b!"y"]) ∧
    bind Spec.toyExt Spec.reversed (.slice .string) [] ⟨[(b!"a", [b!"x"]), (b!"a[]", [b!"y"])], []⟩ b!"a" =
      some (.slice [.str b!"y", .str b!"x"]) := by
  constructor <;> rfl

/-- **C54 fails** for large indexes: whatever the limit, one small request makes the binding panic. -/
theorem C54_huge_index_panics_violated (x : Ext) (it : Order) (hv : Spec.ValidOrder it) (hl : x.maxLen < 2 ^ 63)
    (name v : Str) (t : Ty) (path : List Nat) :
    bind x it (.slice t) path ⟨[(Spec.indexKey name x.maxLen, [v])], []⟩ name = none := by
  unfold bind
  have hv0 : (it path ⟨[(Spec.indexKey name x.maxLen, [v])], []⟩).values = [(Spec.indexKey name x.maxLen, [v])] :=
    List.perm_singleton.1 (hv path _).1
  have hf0 : (it path ⟨[(Spec.indexKey name x.maxLen, [v])], []⟩).files = [] := List.perm_nil.1 (hv path _).2
  unfold elements
  rw [hv0, hf0]
  simp only [List.zipIdx_cons, List.zipIdx_nil, List.flatMap_cons, List.flatMap_nil, List.append_nil]
  rw [process_indexed _ _ name _ _ _ _ x.maxLen _ (indexKey_indexed name x.maxLen hl)]
  unfold build
  split
  · rfl
  · rw [if_pos]
    show x.maxLen < size _
    simp [size, sizeStep]

/-- a clash-free request: a slice of structs with interleaved keys -/
example : ∃ t p, Spec.Maps p ∧ Spec.NoClash (.slice t) p b!"u" ∧
    bind Spec.toyExt Spec.asIs (.slice t) [] p b!"u" =
      some (.slice [.struct [.str b!"rob", .int 7], .struct [.str [], .int 8]]) := by
  refine ⟨.struct (.cons b!"Name" true .string (.cons b!"Age" true (.int .int8) .nil)),
    ⟨[(b!"u[1].Age", [b!"8"]), (b!"u[0].Name", [b!"rob"]), (b!"u[0].Age", [b!"7"])], []⟩, by
      constructor
      · show (_ : List Str).Nodup; decide
      · show (_ : List Str).Nodup; decide, ?_, rfl⟩
  have i1 : Spec.Indexed b!"u" b!"u[1].Age" 1 b!"u[1]" := ⟨b!"1", b!".Age", by decide, by decide, by decide, by decide, by decide⟩
  have i2 : Spec.Indexed b!"u" b!"u[0].Name" 0 b!"u[0]" := ⟨b!"0", b!".Name", by decide, by decide, by decide, by decide, by decide⟩
  have i3 : Spec.Indexed b!"u" b!"u[0].Age" 0 b!"u[0]" := ⟨b!"0", b!".Age", by decide, by decide, by decide, by decide, by decide⟩
  have all : ∀ k ∈ Spec.keys ⟨[(b!"u[1].Age", [b!"8"]), (b!"u[0].Name", [b!"rob"]), (b!"u[0].Age", [b!"7"])], []⟩,
      ∀ i s, Spec.Indexed b!"u" k i s → (i = 1 ∧ s = b!"u[1]") ∨ (i = 0 ∧ s = b!"u[0]") := by
    intro k hk i s h
    have det : ∀ {k' : Str} {i' : Nat} {s' : Str}, Spec.Indexed b!"u" k' i' s' → k' = k → i = i' ∧ s = s' := by
      intro k' i' s' h' e
      subst e
      have a := (keyIndex_iff _ _ _ _ (indexed_prefix h)).2 h
      have b := (keyIndex_iff _ _ _ _ (indexed_prefix h')).2 h'
      rw [a] at b
      simpa using b
    simp only [Spec.keys, List.map_cons, List.map_nil, List.append_nil, List.mem_cons, List.not_mem_nil, or_false] at hk
    rcases hk with rfl | rfl | rfl
    · exact Or.inl (det i1 rfl)
    · exact Or.inr (det i2 rfl)
    · exact Or.inr (det i3 rfl)
  have idx : ∀ k ∈ Spec.keys ⟨[(b!"u[1].Age", [b!"8"]), (b!"u[0].Name", [b!"rob"]), (b!"u[0].Age", [b!"7"])], []⟩,
      ¬ Spec.Unindexed b!"u" k := by
    intro k hk
    simp only [Spec.keys, List.map_cons, List.map_nil, List.append_nil, List.mem_cons, List.not_mem_nil, or_false] at hk
    rcases hk with rfl | rfl | rfl
    · rintro (e | ⟨_, e⟩); revert e; decide; exact e ⟨_, _, i1⟩
    · rintro (e | ⟨_, e⟩); revert e; decide; exact e ⟨_, _, i2⟩
    · rintro (e | ⟨_, e⟩); revert e; decide; exact e ⟨_, _, i3⟩
  unfold Spec.NoClash
  refine ⟨?_, ?_, fun e h => (by cases h), fun _ _ _ _ _ => by
    unfold Spec.NoClash Spec.NoClashF Spec.NoClash Spec.NoClashF Spec.NoClash Spec.NoClashF; trivial⟩
  · intro k1 h1 k2 h2 i s1 s2 a b
    rcases all k1 h1 i s1 a with ⟨e1, e2⟩ | ⟨e1, e2⟩ <;> rcases all k2 h2 i s2 b with ⟨e3, e4⟩ | ⟨e3, e4⟩
    · rw [e2, e4]
    · omega
    · omega
    · rw [e2, e4]
  · intro e1 h1 _ _ hu
    exact absurd hu (idx e1.1 (List.mem_append_left _ (List.mem_map.2 ⟨e1, h1, rfl⟩)))

end Verif.Params
