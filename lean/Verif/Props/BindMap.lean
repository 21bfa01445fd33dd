import Verif.Model.BindMap
import Verif.Props.BindStruct
/-!
# C125: map parameters, exactly
-/
namespace Verif.Params
open Verif.Go Verif.Conv Verif.Go.NumSpec

/-! ## Specification -/

/-- The decoder gives the entries of a map, and the loop visits each of them once. -/
def Spec.ValidJson (j : JExt) : Prop :=
  (∀ s, ((j.json s).map (fun e => e.1)).Nodup) ∧ ∀ path l, (j.order path l).Perm l

/-- The parameter has a first value and it is not empty. -/
def Spec.GivenAs (p : P) (name s : Str) : Prop := s ≠ [] ∧ ∃ rest, lookup p.values name = some (s :: rest)

/-- The request has an entry for the map called `name`: the text of its key and of its value. They are those of the JSON
object the parameter `name` holds, or, if it holds none, those of the parameters `name[key]`. -/
def Spec.Source (j : JExt) (p : P) (name key text : Str) : Prop :=
  (∃ s jv, Spec.GivenAs p name s ∧ (key, jv) ∈ j.json s ∧ text = sprint jv) ∨
  ((∀ s, ¬ Spec.GivenAs p name s) ∧ ∃ e ∈ p.values, Spec.MapKey name e.1 key ∧ e.2.head? = some text)

/-- `v` is what a text gives when bound to the type. -/
def Spec.Gives (x : Ext) (j : JExt) (it : Order) (T : MTy) (text : Str) (v : MV) : Prop :=
  ∃ path, bindM x j it T path (single text) [] = some v

/-! ## A single text never panics -/

theorem firstValue_single (s : Str) : firstValue (single s) [] = some s := rfl

theorem perm_one {α : Type} {l : List α} {a : α} (h : l.Perm [a]) : l = [a] := List.perm_singleton.1 h

mutual
theorem single_bind (x : Ext) (it : Order) (hv : Spec.ValidOrder it) :
    ∀ (t : Ty) (path : List Nat) (s : Str), bind x it t path (single s) [] ≠ none
  | .bool, path, s => by simp [bind]
  | .int k, path, s => by simp [bind]
  | .float b, path, s => by simp [bind]
  | .string, path, s => by simp [bind]
  | .time, path, s => by simp [bind]
  | .ptr t, path, s => by
    have := single_bind x it hv t (0 :: path) s
    simp only [bind, firstValue_single]
    simpa using this
  | .slice t, path, s => by
    have h1 : (it path (single s)).values = [([], [s])] := perm_one (hv path (single s)).1
    have h2 : (it path (single s)).files = [] := List.perm_nil.1 (hv path (single s)).2
    have hp : hasPrefix (normalizeKey [] []) [91] = true := by decide
    have hk : keyIndex [] (normalizeKey [] []) = none := by decide +kernel
    have hb := fun path => single_bind x it hv t path s
    unfold bind build
    have he : elements (fun path p n => bind x it t path p n) (single s) [] (1 :: path) (it path (single s)) =
        [⟨none, bind x it t (1 :: 0 :: 0 :: 1 :: path) (single s) []⟩] := by
      unfold elements
      rw [h1, h2]
      simp [processElement, hp, hk]
    rw [he, if_neg, if_neg]
    · simp
    · simp [size, sizeStep]
    · simp only [List.any_cons, List.any_nil, Bool.or_false]
      have := hb (1 :: 0 :: 0 :: 1 :: path)
      simpa using this
  | .struct fs, path, s => by
    have := single_bindFields x it hv fs 0 path s
    simp only [bind]
    simpa using this
  | .other, path, s => by simp [bind]
theorem single_bindFields (x : Ext) (it : Order) (hv : Spec.ValidOrder it) :
    ∀ (fs : Fields) (n : Nat) (path : List Nat) (s : Str), bindFields x it fs n path (single s) [] ≠ none
  | .nil, n, path, s => by simp [bindFields]
  | .cons f e t rest, n, path, s => by
    have ih := single_bindFields x it hv rest (n + 1) path s
    have hm : mentions (single s) [] f = false := by
      unfold mentions single
      simp [hasPrefix]
    unfold bindFields
    rw [hm]
    simp only [Bool.and_false, Bool.false_eq_true, if_false]
    cases h : bindFields x it rest (n + 1) path (single s) [] with
    | none => exact absurd h ih
    | some vs => simp
end

/-! ## The loop -/

theorem setEntry_keys (m : List (Key × MV)) (k : Key) (v : MV) (h : (m.map (fun e => e.1)).Nodup) :
    ((setEntry m k v).map (fun e => e.1)).Nodup := by
  unfold setEntry
  rw [List.map_cons, List.nodup_cons]
  refine ⟨?_, ?_⟩
  · intro e
    obtain ⟨a, ha, rfl⟩ := List.mem_map.1 e
    have := (List.mem_filter.1 ha).2
    simp at this
  · exact List.Nodup.sublist (List.filter_sublist.map _) h

theorem mem_setEntry (m : List (Key × MV)) (k : Key) (v : MV) (k' : Key) (v' : MV) :
    (k', v') ∈ setEntry m k v ↔ (k' = k ∧ v' = v) ∨ (k' ≠ k ∧ (k', v') ∈ m) := by
  unfold setEntry
  rw [List.mem_cons, List.mem_filter]
  constructor
  · rintro (h | ⟨h1, h2⟩)
    · cases h; exact .inl ⟨rfl, rfl⟩
    · exact .inr ⟨by simpa using h2, h1⟩
  · rintro (⟨rfl, rfl⟩ | ⟨h1, h2⟩)
    · exact .inl rfl
    · exact .inr ⟨h2, by simpa using h1⟩

/-- value of an entry -/
def valueAt (bindV : List Nat → Str → Option MV) (path : List Nat) (e : (Str × Option Str) × Nat) : Option MV :=
  e.1.2.bind (bindV (e.2 :: path))

theorem fill_none (kt : KTy) (bindV : List Nat → Str → Option MV) (path : List Nat) (l : List ((Str × Option Str) × Nat)) :
    l.foldl (fillStep kt bindV path) none = none := by
  induction l with
  | nil => rfl
  | cons a l ih => rw [List.foldl_cons]; exact ih

theorem foldl_fill (kt : KTy) (bindV : List Nat → Str → Option MV) (path : List Nat) :
    ∀ (l : List ((Str × Option Str) × Nat)) (m0 : List (Key × MV)), (m0.map (fun e => e.1)).Nodup →
    ((∃ e ∈ l, valueAt bindV path e = none) → l.foldl (fillStep kt bindV path) (some m0) = none) ∧
    ((∀ e ∈ l, valueAt bindV path e ≠ none) → ∃ m, l.foldl (fillStep kt bindV path) (some m0) = some m ∧
      (m.map (fun e => e.1)).Nodup ∧
      ∀ k v, (k, v) ∈ m ↔ (∃ pre e post, l = pre ++ e :: post ∧ bindKey kt e.1.1 = k ∧ valueAt bindV path e = some v ∧
          ∀ e' ∈ post, bindKey kt e'.1.1 ≠ k) ∨ ((k, v) ∈ m0 ∧ ∀ e ∈ l, bindKey kt e.1.1 ≠ k))
  | [], m0, hm => by
    refine ⟨by simp, fun _ => ⟨m0, rfl, hm, fun k v => ?_⟩⟩
    constructor
    · intro h; exact .inr ⟨h, by simp⟩
    · rintro (⟨pre, e, post, h, _⟩ | ⟨h, _⟩)
      · cases pre <;> cases h
      · exact h
  | a :: l, m0, hm => by
    cases hv : valueAt bindV path a with
    | none =>
      refine ⟨fun _ => ?_, fun h => absurd hv (h a (by simp))⟩
      rw [List.foldl_cons]
      have : fillStep kt bindV path (some m0) a = none := by
        unfold fillStep
        unfold valueAt at hv
        rw [hv]
      rw [this, fill_none]
    | some v0 =>
      have hs : fillStep kt bindV path (some m0) a = some (setEntry m0 (bindKey kt a.1.1) v0) := by
        unfold fillStep
        unfold valueAt at hv
        rw [hv]
      obtain ⟨i1, i2⟩ := foldl_fill kt bindV path l (setEntry m0 (bindKey kt a.1.1) v0) (setEntry_keys _ _ _ hm)
      rw [List.foldl_cons, hs]
      refine ⟨?_, ?_⟩
      · rintro ⟨e, he, hn⟩
        rcases List.mem_cons.1 he with rfl | he
        · rw [hv] at hn; cases hn
        · exact i1 ⟨e, he, hn⟩
      · intro h
        obtain ⟨m, h1, h2, h3⟩ := i2 (fun e he => h e (by simp [he]))
        refine ⟨m, h1, h2, fun k v => ?_⟩
        rw [h3, mem_setEntry]
        constructor
        · rintro (⟨pre, e, post, rfl, r⟩ | ⟨⟨rfl, rfl⟩ | ⟨hk, hm⟩, hl⟩)
          · exact .inl ⟨a :: pre, e, post, rfl, r⟩
          · exact .inl ⟨[], a, l, rfl, rfl, hv, hl⟩
          · refine .inr ⟨hm, fun e he => ?_⟩
            rcases List.mem_cons.1 he with rfl | he
            · exact fun e => hk e.symm
            · exact hl e he
        · rintro (⟨pre, e, post, he, q1, q2, q3⟩ | ⟨hm, hl⟩)
          · cases pre with
            | nil =>
              rw [List.nil_append] at he
              injection he with e1 e2
              subst e1; subst e2
              rw [hv] at q2
              cases q2
              exact .inr ⟨.inl ⟨q1.symm, rfl⟩, q3⟩
            | cons b pre =>
              rw [List.cons_append] at he
              injection he with e1 e2
              subst e1; subst e2
              exact .inl ⟨pre, e, post, rfl, q1, q2, q3⟩
          · exact .inr ⟨.inr ⟨fun e => hl a (by simp) e.symm, hm⟩, fun e he => hl e (by simp [he])⟩

theorem bindM_single (x : Ext) (j : JExt) (it : Order) (hv : Spec.ValidOrder it) :
    ∀ (T : MTy) (path : List Nat) (s : Str), bindM x j it T path (single s) [] ≠ none
  | .plain t, path, s => by
    have := single_bind x it hv t path s
    simp only [bindM]
    simpa using this
  | .map k T, path, s => by
    simp only [bindM, ne_eq, Option.map_eq_none_iff]
    intro hn
    have ih := fun path s => bindM_single x j it hv T path s
    obtain ⟨_, h2⟩ := foldl_fill k (fun path' s => bindM x j it T path' (single s) []) path
      (mapEntries j it path (single s) []).zipIdx [] (by simp)
    have hall : ∀ e ∈ (mapEntries j it path (single s) []).zipIdx,
        valueAt (fun path' s => bindM x j it T path' (single s) []) path e ≠ none := by
      intro e he
      have hm : e.1 ∈ mapEntries j it path (single s) [] := by
        obtain ⟨_, _, h⟩ := List.mem_zipIdx he
        rw [h]
        exact List.getElem_mem _
      have hsome : ∃ t, e.1.2 = some t := by
        unfold mapEntries at hm
        split at hm
        · obtain ⟨a, _, ha⟩ := List.mem_map.1 hm
          rw [← ha]; exact ⟨_, rfl⟩
        · have h1 : (it path (single s)).values = [([], [s])] := perm_one (hv path (single s)).1
          rw [h1] at hm
          simp [bracketEntry, hasPrefix] at hm
      obtain ⟨t, ht⟩ := hsome
      unfold valueAt
      rw [ht]
      exact ih _ t
    obtain ⟨m, hm, _⟩ := h2 hall
    unfold fill at hn
    rw [hm] at hn
    cases hn

/-! ## C125 -/

theorem getFirst_given (p : P) (name : Str) :
    (getFirst p name ≠ [] → Spec.GivenAs p name (getFirst p name)) ∧
    (∀ s, Spec.GivenAs p name s → getFirst p name = s) := by
  unfold Spec.GivenAs getFirst firstValue
  cases h : lookup p.values name with
  | none => exact ⟨fun h => absurd rfl h, by rintro s ⟨_, r, hr⟩; cases hr⟩
  | some l =>
    cases l with
    | nil => exact ⟨fun h => absurd rfl h, by rintro s ⟨_, r, hr⟩; cases hr⟩
    | cons a l => exact ⟨fun h => ⟨h, l, rfl⟩, by rintro s ⟨_, r, hr⟩; cases hr; rfl⟩

theorem bracketEntry_iff (name : Str) (e : Str × List Str) (key : Str) (t : Option Str) :
    bracketEntry name e = some (key, t) ↔ Spec.MapKey name e.1 key ∧ e.2.head? = t := by
  unfold bracketEntry
  constructor
  · intro h
    split at h
    · rename_i hc
      cases h
      exact ⟨(mapKey_iff name e.1).1 hc, rfl⟩
    · cases h
  · rintro ⟨h1, rfl⟩
    have hk := mapKey_txt h1
    rw [if_pos, hk]
    rw [mapKey_iff, hk]
    exact h1

/-- what the loop is offered -/
theorem mapEntries_mem (j : JExt) (it : Order) (hv : Spec.ValidOrder it) (hj : Spec.ValidJson j) (path : List Nat) (p : P)
    (name key : Str) :
    (∀ text, (key, some text) ∈ mapEntries j it path p name ↔ Spec.Source j p name key text) ∧
    ((key, none) ∈ mapEntries j it path p name ↔
      (∀ s, ¬ Spec.GivenAs p name s) ∧ ∃ e ∈ p.values, Spec.MapKey name e.1 key ∧ e.2 = []) := by
  obtain ⟨g1, g2⟩ := getFirst_given p name
  unfold mapEntries Spec.Source
  by_cases h : getFirst p name ≠ []
  · have hg := g1 h
    rw [if_pos h]
    refine ⟨fun text => ?_, ?_⟩
    · constructor
      · intro hm
        obtain ⟨a, ha, e⟩ := List.mem_map.1 hm
        cases e
        exact .inl ⟨_, a.2, hg, (hj.2 _ _).mem_iff.1 ha, rfl⟩
      · rintro (⟨s, jv, hs, hm, rfl⟩ | ⟨hn, _⟩)
        · rw [g2 s hs]
          exact List.mem_map.2 ⟨(key, jv), (hj.2 _ _).mem_iff.2 hm, rfl⟩
        · exact absurd hg (hn _)
    · constructor
      · intro hm
        obtain ⟨a, ha, e⟩ := List.mem_map.1 hm
        cases e
      · rintro ⟨hn, _⟩
        exact absurd hg (hn _)
  · rw [if_neg h]
    have hn : ∀ s, ¬ Spec.GivenAs p name s := by
      intro s hs
      apply h
      rw [g2 s hs]
      exact hs.1
    have hp := (hv path p).1
    refine ⟨fun text => ?_, ?_⟩
    · rw [List.mem_filterMap]
      constructor
      · rintro ⟨e, he, h⟩
        exact .inr ⟨hn, e, hp.mem_iff.1 he, (bracketEntry_iff name e key _).1 h⟩
      · rintro (⟨s, jv, hs, _⟩ | ⟨_, e, he, h⟩)
        · exact absurd hs (hn s)
        · exact ⟨e, hp.mem_iff.2 he, (bracketEntry_iff name e key _).2 h⟩
    · rw [List.mem_filterMap]
      constructor
      · rintro ⟨e, he, h⟩
        have := (bracketEntry_iff name e key _).1 h
        exact ⟨hn, e, hp.mem_iff.1 he, this.1, List.head?_eq_none_iff.1 this.2⟩
      · rintro ⟨_, e, he, h1, h2⟩
        exact ⟨e, hp.mem_iff.2 he, (bracketEntry_iff name e key _).2 ⟨h1, by rw [h2]; rfl⟩⟩

/-- Binding a map panics exactly when the parameter itself holds no text and some parameter `name[…]` has no value at
all. -/
theorem C125_panics (x : Ext) (j : JExt) (it : Order) (hv : Spec.ValidOrder it) (hj : Spec.ValidJson j) (kt : KTy) (T : MTy)
    (path : List Nat) (p : P) (name : Str) :
    bindM x j it (.map kt T) path p name = none ↔
      (∀ s, ¬ Spec.GivenAs p name s) ∧ ∃ e ∈ p.values, ∃ key, Spec.MapKey name e.1 key ∧ e.2 = [] := by
  have hent := mapEntries_mem j it hv hj path p name
  obtain ⟨f1, f2⟩ := foldl_fill kt (fun path' s => bindM x j it T path' (single s) []) path
      (mapEntries j it path p name).zipIdx [] (by simp)
  simp only [bindM, Option.map_eq_none_iff]
  constructor
  · intro hn
    apply Classical.byContradiction
    intro hc
    obtain ⟨m, hm, _⟩ := f2 (by
      intro e he
      have hm : e.1 ∈ mapEntries j it path p name := by
        obtain ⟨_, _, h⟩ := List.mem_zipIdx he
        rw [h]
        exact List.getElem_mem _
      obtain ⟨⟨key, t⟩, i⟩ := e
      cases t with
      | none =>
        obtain ⟨h1, e, h2, h3⟩ := (hent key).2.1 hm
        exact absurd ⟨h1, e, h2, key, h3⟩ hc
      | some t => exact bindM_single x j it hv T _ t)
    unfold fill at hn
    rw [hm] at hn
    cases hn
  · rintro ⟨h1, e, h2, key, h3⟩
    have hm := (hent key).2.2 ⟨h1, e, h2, h3⟩
    obtain ⟨i, hi, he⟩ := List.mem_iff_getElem.1 hm
    refine f1 ⟨((key, none), i), ?_, rfl⟩
    rw [List.mem_zipIdx_iff_getElem?]
    rw [List.getElem?_eq_getElem hi, he]

/-- The entries of the bound map. Each key has one value; every key of an entry of the request is there, converted; every
value is the bound text of an entry of the request with that key. -/
theorem C125_contents (x : Ext) (j : JExt) (it : Order) (hv : Spec.ValidOrder it) (hj : Spec.ValidJson j) (kt : KTy) (T : MTy)
    (path : List Nat) (p : P) (name : Str) (v : MV) (h : bindM x j it (.map kt T) path p name = some v) :
    ∃ m, v = .map m ∧ (m.map (fun e => e.1)).Nodup ∧
      (∀ k w, (k, w) ∈ m → ∃ key text, Spec.Source j p name key text ∧ bindKey kt key = k ∧ Spec.Gives x j it T text w) ∧
      (∀ key text, Spec.Source j p name key text → ∃ w, (bindKey kt key, w) ∈ m) := by
  have hent := mapEntries_mem j it hv hj path p name
  obtain ⟨f1, f2⟩ := foldl_fill kt (fun path' s => bindM x j it T path' (single s) []) path
      (mapEntries j it path p name).zipIdx [] (by simp)
  simp only [bindM, Option.map_eq_some_iff] at h
  obtain ⟨m, hm, rfl⟩ := h
  obtain ⟨m', hm', hnd, hmem⟩ := f2 (by
    intro e he hn
    have := f1 ⟨e, he, hn⟩
    unfold fill at hm
    rw [this] at hm
    cases hm)
  unfold fill at hm
  rw [hm'] at hm
  cases hm
  refine ⟨_, rfl, hnd, ?_, ?_⟩
  · intro k w hkw
    rcases (hmem k w).1 hkw with ⟨pre, e, post, hl, hk, hval, _⟩ | ⟨h, _⟩
    · obtain ⟨⟨key, t⟩, i⟩ := e
      have he : ((key, t), i) ∈ (mapEntries j it path p name).zipIdx := by rw [hl]; simp
      have hme : (key, t) ∈ mapEntries j it path p name := by
        obtain ⟨_, _, h⟩ := List.mem_zipIdx he
        rw [h]
        exact List.getElem_mem _
      cases t with
      | none => cases hval
      | some t => exact ⟨key, t, ((hent key).1 t).1 hme, hk, _, hval⟩
    · cases h
  · intro key text hs
    have hme := ((hent key).1 text).2 hs
    obtain ⟨i, hi, he⟩ := List.mem_iff_getElem.1 hme
    have hz : ((key, some text), i) ∈ (mapEntries j it path p name).zipIdx := by
      rw [List.mem_zipIdx_iff_getElem?, List.getElem?_eq_getElem hi, he]
    -- the last entry with this key
    have last : ∀ (l : List ((Str × Option Str) × Nat)), (∃ e ∈ l, bindKey kt e.1.1 = bindKey kt key) →
        ∃ pre e post, l = pre ++ e :: post ∧ bindKey kt e.1.1 = bindKey kt key ∧
          ∀ e' ∈ post, bindKey kt e'.1.1 ≠ bindKey kt key := by
      intro l
      induction l with
      | nil => rintro ⟨e, he, _⟩; cases he
      | cons a l ih =>
        rintro ⟨e, he, hk⟩
        by_cases hl : ∃ e ∈ l, bindKey kt e.1.1 = bindKey kt key
        · obtain ⟨pre, e', post, rfl, r⟩ := ih hl
          exact ⟨a :: pre, e', post, rfl, r⟩
        · rcases List.mem_cons.1 he with rfl | he
          · exact ⟨[], e, l, rfl, hk, fun e' he' hh => hl ⟨e', he', hh⟩⟩
          · exact absurd ⟨e, he, hk⟩ hl
    obtain ⟨pre, e, post, hl, hk, hlast⟩ := last _ ⟨_, hz, rfl⟩
    cases hw : valueAt (fun path' s => bindM x j it T path' (single s) []) path e with
    | none =>
      have := f1 ⟨e, by rw [hl]; simp, hw⟩
      rw [this] at hm'
      cases hm'
    | some w => exact ⟨w, (hmem _ _).2 (.inl ⟨pre, e, post, hl, hk, hw, hlast⟩)⟩

/-- Two entries of the request have different texts as keys. -/
theorem source_unique (j : JExt) (hj : Spec.ValidJson j) (p : P) (hm : Spec.Maps p) (name key t1 t2 : Str)
    (h1 : Spec.Source j p name key t1) (h2 : Spec.Source j p name key t2) : t1 = t2 := by
  obtain ⟨g1, g2⟩ := getFirst_given p name
  rcases h1 with ⟨s, jv, hs, hm1, rfl⟩ | ⟨hn, e, he, hk, ht⟩
  · rcases h2 with ⟨s', jv', hs', hm2, rfl⟩ | ⟨hn, _⟩
    · have : s = s' := (g2 s hs).symm.trans (g2 s' hs')
      subst this
      have hnd := hj.1 s
      have : ∀ (l : List (Str × JVal)), (l.map (fun e => e.1)).Nodup → (key, jv) ∈ l → (key, jv') ∈ l → jv = jv' := by
        intro l
        induction l with
        | nil => intro _ h; cases h
        | cons a l ih =>
          intro hnd h1 h2
          rw [List.map_cons, List.nodup_cons] at hnd
          rcases List.mem_cons.1 h1 with q1 | q1
          · rcases List.mem_cons.1 h2 with q2 | q2
            · rw [← q1] at q2; cases q2; rfl
            · rw [← q1] at hnd; exact absurd (List.mem_map.2 ⟨_, q2, rfl⟩) hnd.1
          · rcases List.mem_cons.1 h2 with q2 | q2
            · rw [← q2] at hnd; exact absurd (List.mem_map.2 ⟨_, q1, rfl⟩) hnd.1
            · exact ih hnd.2 q1 q2
      rw [this _ hnd hm1 hm2]
    · exact absurd hs (hn s)
  · rcases h2 with ⟨s', jv', hs', _⟩ | ⟨_, e', he', hk', ht'⟩
    · exact absurd hs' (hn s')
    · have h1 := lookup_of_mem p.values hm.1 e.1 e.2 he
      have h2 := lookup_of_mem p.values hm.1 e'.1 e'.2 he'
      have hkk : e.1 = e'.1 := hk.trans hk'.symm
      rw [hkk, h2] at h1
      have hee : e'.2 = e.2 := by simpa using h1
      rw [hee, ht] at ht'
      simpa using ht'

/-- Maps with string keys: exactly the entries of the request, whatever the order of the loops. -/
theorem C125_string_keys (x : Ext) (j : JExt) (it : Order) (hv : Spec.ValidOrder it) (hj : Spec.ValidJson j) (T : MTy)
    (path : List Nat) (p : P) (hm : Spec.Maps p) (name : Str) (m : List (Key × MV))
    (h : bindM x j it (.map .string T) path p name = some (.map m)) (key : Str) :
    (∀ text, Spec.Source j p name key text → ∃ w, (Key.str key, w) ∈ m ∧ Spec.Gives x j it T text w) ∧
    ((∀ text, ¬ Spec.Source j p name key text) → ∀ w, (Key.str key, w) ∉ m) := by
  obtain ⟨m', e, hnd, h1, h2⟩ := C125_contents x j it hv hj .string T path p name _ h
  cases e
  constructor
  · intro text hs
    obtain ⟨w, hw⟩ := h2 key text hs
    refine ⟨w, hw, ?_⟩
    obtain ⟨key', text', hs', hk, hg⟩ := h1 _ _ hw
    cases hk
    rw [source_unique j hj p hm name key text text' hs hs']
    exact hg
  · intro hn w hw
    obtain ⟨key', text', hs', hk, hg⟩ := h1 _ _ hw
    cases hk
    exact hn _ hs'

/-- Maps with other keys: where only one text of the request converts to a key, its value is the one of the map. -/
theorem C125_unambiguous_keys (x : Ext) (j : JExt) (it : Order) (hv : Spec.ValidOrder it) (hj : Spec.ValidJson j) (kt : KTy)
    (T : MTy) (path : List Nat) (p : P) (hm : Spec.Maps p) (name : Str) (m : List (Key × MV))
    (h : bindM x j it (.map kt T) path p name = some (.map m)) (key text : Str) (hs : Spec.Source j p name key text)
    (hu : ∀ key' text', Spec.Source j p name key' text' → bindKey kt key' = bindKey kt key → key' = key) :
    ∃ w, (bindKey kt key, w) ∈ m ∧ Spec.Gives x j it T text w := by
  obtain ⟨m', e, hnd, h1, h2⟩ := C125_contents x j it hv hj kt T path p name _ h
  cases e
  obtain ⟨w, hw⟩ := h2 key text hs
  refine ⟨w, hw, ?_⟩
  obtain ⟨key', text', hs', hk, hg⟩ := h1 _ _ hw
  have := hu key' text' hs' hk
  subst this
  rw [source_unique j hj p hm name key' text text' hs hs']
  exact hg

/-! ### Numbers of a JSON object -/

theorem not_digits_mem {s : Str} (h : (101 : UInt8) ∈ s) : ¬ Digits s := fun hd => by
  have := hd.2 101 h
  revert this
  decide

theorem sciNat_e (n : Nat) : (101 : UInt8) ∈ sciNat n := by
  unfold sciNat
  cases h : natDec n with
  | nil =>
    have : natDec n ≠ [] := natDec_ne_nil n
    exact absurd h this
  | cons d ds => simp

/-- A number of a JSON object bound to a map of integers: below a million it is that number, cut to the width of the
type, for a signed type or if not negative; otherwise it is zero. -/
theorem C125_json_numbers (x : Ext) (j : JExt) (it : Order) (k : IntKind) (i : Int) (v : MV) :
    Spec.Gives x j it (.plain (.int k)) (sprint (.num i)) v ↔
      v = .plain (.int (if i.natAbs < 1000000 ∧ (k.signed = true ∨ 0 ≤ i) then k.conv i else 0)) := by
  have e : ∀ path, bindM x j it (.plain (.int k)) path (single (sprint (.num i))) [] =
      some (.plain (.int (bindInt k (sprint (.num i))))) := fun path => rfl
  have key : bindInt k (sprint (.num i)) = if i.natAbs < 1000000 ∧ (k.signed = true ∨ 0 ≤ i) then k.conv i else 0 := by
    by_cases h : i.natAbs < 1000000
    · have hs : sprint (.num i) = fmtInt i := by simp only [sprint]; rw [if_pos h]
      rw [hs]
      by_cases hk : k.signed = true ∨ 0 ≤ i
      · rw [if_pos ⟨h, hk⟩]
        refine (C55_bind_int k _ i).1 (fmtInt_denotes _ _ hk) ?_
        unfold Fits
        rcases hk with hk | hk
        · rw [if_pos hk]; omega
        · split <;> omega
      · rw [if_neg (fun e => hk e.2)]
        refine (C55_bind_int k _ i).2 ?_
        rintro ⟨i', hd, _⟩
        have hsf : k.signed = false := by
          cases hk' : k.signed with
          | true => exact absurd (.inl hk') hk
          | false => rfl
        rw [hsf] at hd
        have hneg : i < 0 := by
          have : ¬ 0 ≤ i := fun e => hk (.inr e)
          omega
        cases i with
        | ofNat n => exact absurd hneg (by simp)
        | negSucc n =>
          have e0 : fmtInt (Int.negSucc n) = 45 :: natDec (n + 1) := rfl
          rw [e0] at hd
          rcases hd with ⟨hd, _⟩ | ⟨hd, _⟩ | ⟨hd, _⟩
          · have := hd.2 45 (by simp)
            revert this
            decide
          · cases hd
          · cases hd
    · rw [if_neg (fun e => h e.1)]
      refine (C55_bind_int k _ i).2 ?_
      rintro ⟨i', hd, _⟩
      have hs : sprint (.num i) = if i < 0 then 45 :: sciNat i.natAbs else sciNat i.natAbs := by
        simp only [sprint]; rw [if_neg h]
      have he := sciNat_e i.natAbs
      have hmem : (101 : UInt8) ∈ sprint (.num i) := by
        rw [hs]
        split
        · exact List.mem_cons_of_mem _ he
        · exact he
      rcases hd with ⟨hd, _⟩ | ⟨_, r, hr, hd, _⟩ | ⟨_, r, hr, hd, _⟩
      · exact not_digits_mem hmem hd
      · rw [hr] at hmem
        rcases List.mem_cons.1 hmem with h | h
        · cases h
        · exact not_digits_mem h hd
      · rw [hr] at hmem
        rcases List.mem_cons.1 hmem with h | h
        · cases h
        · exact not_digits_mem h hd
  unfold Spec.Gives
  simp only [e, key, Option.some.injEq, exists_const]
  exact eq_comm

/-- Strings and booleans of a JSON object: bound to strings they are the string, "true" and "false"; bound to booleans, the
boolean. A null is the text "<nil>", and false. -/
theorem C125_json_texts (x : Ext) (j : JExt) (it : Order) (s : Str) (b : Bool) (v : MV) :
    (Spec.Gives x j it (.plain .string) (sprint (.str s)) v ↔ v = .plain (.str s)) ∧
    (Spec.Gives x j it (.plain .string) (sprint (.bool true)) v ↔ v = .plain (.str b!"true")) ∧
    (Spec.Gives x j it (.plain .string) (sprint (.bool false)) v ↔ v = .plain (.str b!"false")) ∧
    (Spec.Gives x j it (.plain .bool) (sprint (.bool b)) v ↔ v = .plain (.bool b)) ∧
    (Spec.Gives x j it (.plain .string) (sprint .null) v ↔ v = .plain (.str b!"<nil>")) ∧
    (Spec.Gives x j it (.plain .bool) (sprint .null) v ↔ v = .plain (.bool false)) := by
  have str : ∀ t, Spec.Gives x j it (.plain .string) t v ↔ v = .plain (.str t) := by
    intro t
    have e : ∀ path, bindM x j it (.plain .string) path (single t) [] = some (.plain (.str t)) := fun path => rfl
    unfold Spec.Gives
    simp only [e, Option.some.injEq, exists_const]
    exact eq_comm
  have boo : ∀ t, Spec.Gives x j it (.plain .bool) t v ↔ v = .plain (.bool (bindBool t)) := by
    intro t
    have e : ∀ path, bindM x j it (.plain .bool) path (single t) [] = some (.plain (.bool (bindBool t))) := fun path => rfl
    unfold Spec.Gives
    simp only [e, Option.some.injEq, exists_const]
    exact eq_comm
  have e1 : bindBool (sprint (.bool b)) = b := by revert b; decide +kernel
  have e2 : bindBool (sprint .null) = false := by decide +kernel
  refine ⟨str _, str _, str _, ?_, str _, ?_⟩
  · rw [boo, e1]
  · rw [boo, e2]

/-! ### Examples -/

/-- a decoder that knows one text -/
def Spec.toyJson : JExt := ⟨fun s => if s = b!"J" then [(b!"a", .num 1000000), (b!"b", .num (-7)), (b!"c", .str b!"x")] else [], fun _ l => l⟩

theorem toyJson_valid : Spec.ValidJson Spec.toyJson := by
  refine ⟨fun s => ?_, fun _ _ => .refl _⟩
  unfold Spec.toyJson
  simp only
  split <;> decide

example : sprint (.num 1000000) = b!"1e+06" ∧ sprint (.num (-1234567)) = b!"-1.234567e+06" ∧ sprint (.num 999999) = b!"999999" ∧
    sprint (.num 120000000000) = b!"1.2e+11" ∧ sprint (.num 10000000000) = b!"1e+10" ∧ sprint (.num 1000000000) = b!"1e+09" := by
  decide +kernel

/-- one million in a JSON object is bound as zero -/
theorem C125_million_lost : bindM Spec.toyExt Spec.toyJson Spec.asIs (.map .string (.plain (.int .int))) [] ⟨[(b!"m", [b!"J"])], []⟩ b!"m" =
    some (.map [(.str b!"c", .plain (.int 0)), (.str b!"b", .plain (.int (-7))), (.str b!"a", .plain (.int 0))]) := by
  rfl

example : bindM Spec.toyExt Spec.toyJson Spec.asIs (.map .string (.map .string (.plain .string))) []
    ⟨[(b!"m[7]", [b!"J"]), (b!"m[8]", [[]])], []⟩ b!"m" =
    some (.map [(.str b!"8", .map []), (.str b!"7", .map [(.str b!"c", .plain (.str b!"x")), (.str b!"b", .plain (.str b!"-7")),
      (.str b!"a", .plain (.str b!"1e+06"))])]) := by
  rfl

example : bindM Spec.toyExt Spec.toyJson Spec.asIs (.map .string (.plain .string)) [] ⟨[(b!"m[7]", [])], []⟩ b!"m" = none := by rfl

/-- **C125**, keys: a key is its text for maps with string keys; otherwise it is what the text gives as a parameter of that type. -/
theorem C125_keys (x : Ext) (it : Order) (path : List Nat) (s : Str) :
    bindKey .string s = .str s ∧
    (∀ b, bindKey .bool s = .bool b ↔ bind x it .bool path (single s) [] = some (.bool b)) ∧
    (∀ k i, bindKey (.int k) s = .int i ↔ bind x it (.int k) path (single s) [] = some (.int i)) ∧
    (∃ b, bindKey .bool s = .bool b) ∧ (∀ k, ∃ i, bindKey (.int k) s = .int i) := by
  refine ⟨rfl, ?_, ?_, ⟨_, rfl⟩, fun k => ⟨_, rfl⟩⟩
  · intro b
    simp [bindKey, bind, firstValue_single]
  · intro k i
    simp [bindKey, bind, firstValue_single]

end Verif.Params
