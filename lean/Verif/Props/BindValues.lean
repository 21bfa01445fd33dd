import Verif.Proofs.Trim
import Verif.Proofs.Enc
import Verif.Props.Binder
/-!
# C77–C79: booleans, floats and structs bound from parameters; the media type that selects the form parser
-/
namespace Verif.Params
open Verif.Go Verif.Conv

/-! ## C77: booleans -/

theorem lower_cases (c : UInt8) : lowerByte c = c ∨ (97 ≤ lowerByte c ∧ lowerByte c ≤ 122) := by
  revert c; exact forall_u8 (by decide +kernel)

theorem lower_idem (c : UInt8) : lowerByte (lowerByte c) = lowerByte c := by
  revert c; exact forall_u8 (by decide +kernel)

theorem rune_no_letters {r : Str} (h : SpaceRune r) : ∀ c ∈ r, lowerByte c = c ∧ ¬ (97 ≤ c ∧ c ≤ 122) := by
  have hi : ∀ c : UInt8, 128 ≤ c.toNat → lowerByte c = c ∧ ¬ (97 ≤ c ∧ c ≤ 122) :=
    forall_u8 (by decide +kernel)
  intro c hc
  rcases (rune_cases r).1 h with ⟨a, rfl, h'⟩ | ⟨a, b, rfl, h'⟩ | ⟨a, b, d, rfl, h'⟩
  · simp only [List.mem_singleton] at hc
    subst hc
    rcases (Verif.Conf.asciiSp_iff c).2 h' with e | e | e | e | e | e <;> subst e <;> decide
  · have := Verif.Conf.sp2_hi h'
    simp only [List.mem_cons, List.not_mem_nil, or_false] at hc
    rcases hc with rfl | rfl
    · exact hi _ this.1
    · exact hi _ this.2
  · have := Verif.Conf.sp3_hi h'
    simp only [List.mem_cons, List.not_mem_nil, or_false] at hc
    rcases hc with rfl | rfl | rfl
    · exact hi _ this.1
    · exact hi _ this.2.1
    · exact hi _ this.2.2

theorem spaces_no_letters {w : Str} (h : Spaces w) : ∀ c ∈ w, lowerByte c = c ∧ ¬ (97 ≤ c ∧ c ≤ 122) := by
  obtain ⟨rs, hr, rfl⟩ := h
  intro c hc
  obtain ⟨r, h1, h2⟩ := List.mem_flatten.1 hc
  exact rune_no_letters (hr r h1) c h2

theorem spaces_lower {w : Str} (h : Spaces w) : toLower w = w := by
  have := spaces_no_letters h
  unfold toLower
  clear h
  induction w with
  | nil => rfl
  | cons c w ih =>
    rw [List.map_cons, (this c (List.mem_cons_self ..)).1, ih (fun d hd => this d (List.mem_cons_of_mem _ hd))]

theorem lower_spaces {w : Str} (h : Spaces (toLower w)) : toLower w = w := by
  have := spaces_no_letters h
  unfold toLower at this ⊢
  clear h
  induction w with
  | nil => rfl
  | cons c w ih =>
    have hc := this (lowerByte c) (by simp)
    rw [List.map_cons, ih (fun d hd => this d (by simp only [List.map_cons, List.mem_cons]; exact Or.inr hd))]
    rcases lower_cases c with e | e
    · rw [e]
    · exact absurd e hc.2

/-- The texts that mean true, in lower case. -/
def Spec.trueTexts : List Str := [b!"true", b!"on", b!"1"]

/-- **C77**: a boolean parameter is true exactly when its first value, without the white space around it and up to
the case of letters, is `true`, `on` or `1`; absent parameters are false. -/
theorem C77_bool_binding (x : Ext) (it : Order) (path : List Nat) (p : P) (name : Str) :
    (∀ s vs, lookup p.values name = some (s :: vs) →
      ∃ b, bind x it .bool path p name = some (.bool b) ∧
        (b = true ↔ ∃ w t w', Spaces w ∧ Spaces w' ∧ s = w ++ t ++ w' ∧ toLower t ∈ Spec.trueTexts)) ∧
    ((lookup p.values name = none ∨ lookup p.values name = some []) →
      bind x it .bool path p name = some (.bool false)) := by
  constructor
  · intro s vs h
    refine ⟨bindBool s, ?_, ?_⟩
    · unfold bind firstValue; rw [h]
    · have hb : bindBool s = true ↔ trimSpace (toLower s) ∈ Spec.trueTexts := by
        unfold bindBool Spec.trueTexts
        simp
      rw [hb]
      constructor
      · intro hm
        obtain ⟨w, w', h1, h2, h3, _, _⟩ := trimSpace_spec (toLower s)
        generalize ht : trimSpace (toLower s) = t at h3 hm
        have hl : s.length = w.length + t.length + w'.length := by
          have := congrArg List.length h3
          simp [toLower] at this
          omega
        have e1 : s = s.take w.length ++ (s.drop w.length).take t.length ++ (s.drop w.length).drop t.length := by
          rw [List.append_assoc, List.take_append_drop, List.take_append_drop]
        have hmap : ∀ a b c a' b' c' : Str, a ++ b ++ c = a' ++ b' ++ c' → a.length = a'.length → b.length = b'.length →
            a = a' ∧ b = b' ∧ c = c' := by
          intro a b c a' b' c' e ha hb
          have := List.append_inj e (by simp [ha, hb])
          have h' := List.append_inj this.1 ha
          exact ⟨h'.1, h'.2, this.2⟩
        have e2 := hmap (toLower (s.take w.length)) (toLower ((s.drop w.length).take t.length))
          (toLower ((s.drop w.length).drop t.length)) w t w'
          (by rw [← h3]; conv => rhs; rw [e1]
              simp only [toLower, List.map_append])
          (by simp [toLower]; omega) (by simp [toLower]; omega)
        obtain ⟨a1, a2, a3⟩ := e2
        refine ⟨_, _, _, ?_, ?_, e1, ?_⟩
        · have := lower_spaces (w := s.take w.length) (by rw [a1]; exact h1)
          rw [← this, a1]; exact h1
        · have := lower_spaces (w := (s.drop w.length).drop t.length) (by rw [a3]; exact h2)
          rw [← this, a3]; exact h2
        · rw [a2]; exact hm
      · rintro ⟨w, t, w', h1, h2, rfl, ht⟩
        have e : toLower (w ++ t ++ w') = w ++ toLower t ++ w' := by
          have : toLower (w ++ t ++ w') = toLower w ++ toLower t ++ toLower w' := by simp [toLower]
          rw [this, spaces_lower h1, spaces_lower h2]
        have hx : trimSpace (w ++ toLower t ++ w') = toLower t := by
          apply trimSpace_unique h1 h2
          · intro e'; rw [e'] at ht; revert ht; decide
          · simp only [Spec.trueTexts, List.mem_cons, List.not_mem_nil, or_false] at ht
            rcases ht with ht | ht | ht <;> rw [ht] <;>
              exact Verif.Conf.spaceLen_ascii (by decide) (by decide) _
          · simp only [Spec.trueTexts, List.mem_cons, List.not_mem_nil, or_false] at ht
            rcases ht with ht | ht | ht <;> rw [ht] <;> decide
        rw [e, hx]
        exact ht
  · intro h
    unfold bind firstValue
    rcases h with h | h <;> rw [h]

/-- with a no-break space and capitals -/
example : bindBool (b!" " ++ [0xC2, 0xA0] ++ b!"True\n") = true ∧ bindBool b!"ON" = true ∧ bindBool b!"yes" = false ∧ bindBool b!"o n" = false := by
  decide +kernel

/-! ## C78: structs -/

/-- The fields as a list: name, exported, type. -/
def Spec.fieldList : Fields → List (Str × Bool × Ty)
  | .nil => []
  | .cons f e t rest => (f, e, t) :: Spec.fieldList rest

/-- Some parameter is about the field `f` of the struct `name`: its key is `name.f`, alone or followed by a dot or
a bracket. -/
def Spec.Mentioned (p : P) (name f : Str) : Prop :=
  ∃ e ∈ p.values, ∃ rest, e.1 = name ++ [46] ++ f ++ rest ∧ (rest = [] ∨ rest.head? = some 46 ∨ rest.head? = some 91)

theorem nextKey_iff (s f : Str) (hf : 46 ∉ f ∧ 91 ∉ f) :
    nextKey s = f ↔ ∃ rest, s = f ++ rest ∧ (rest = [] ∨ rest.head? = some 46 ∨ rest.head? = some 91) := by
  have key : ∀ c : UInt8, (decide (c ≠ 46 ∧ c ≠ 91)) = true ↔ c ≠ 46 ∧ c ≠ 91 := fun c => by simp
  constructor
  · intro h
    refine ⟨s.dropWhile (fun c => c ≠ 46 ∧ c ≠ 91), ?_, ?_⟩
    · rw [← h]; exact (List.takeWhile_append_dropWhile).symm
    · cases hd : s.dropWhile (fun c => decide (c ≠ 46 ∧ c ≠ 91)) with
      | nil => exact Or.inl rfl
      | cons c r =>
        right
        have := List.head_dropWhile_not (l := s) (fun c : UInt8 => decide (c ≠ 46 ∧ c ≠ 91)) (by rw [hd]; simp)
        simp only [hd, List.head_cons] at this
        by_cases h1 : c = 46
        · left; simp [h1]
        · by_cases h2 : c = 91
          · right; simp [h2]
          · exact absurd ((key c).2 ⟨h1, h2⟩) (by rw [this]; simp)
  · rintro ⟨rest, rfl, h⟩
    unfold nextKey
    rw [List.takeWhile_append_of_pos]
    · rcases h with rfl | h | h
      · simp
      · cases rest with
        | nil => cases h
        | cons c r => simp at h; subst h; simp
      · cases rest with
        | nil => cases h
        | cons c r => simp at h; subst h; simp
    · intro c hc
      rw [key]
      exact ⟨fun e => hf.1 (e ▸ hc), fun e => hf.2 (e ▸ hc)⟩

theorem mentions_iff (p : P) (name f : Str) (hf : 46 ∉ f ∧ 91 ∉ f) :
    mentions p name f = true ↔ Spec.Mentioned p name f := by
  unfold mentions Spec.Mentioned
  simp only [List.any_eq_true, Bool.and_eq_true, decide_eq_true_eq]
  constructor
  · rintro ⟨e, he, h1, h2⟩
    obtain ⟨rest, hr, hrest⟩ := (nextKey_iff _ f hf).1 h2
    refine ⟨e, he, rest, ?_, hrest⟩
    obtain ⟨t, ht⟩ := List.isPrefixOf_iff_prefix.1 h1
    rw [← ht] at hr ⊢
    rw [List.drop_left' (by simp)] at hr
    rw [hr, List.append_assoc]
    simp
  · rintro ⟨e, he, rest, h1, h2⟩
    refine ⟨e, he, ?_, ?_⟩
    · exact List.isPrefixOf_iff_prefix.2 ⟨f ++ rest, by rw [h1]; simp⟩
    · rw [nextKey_iff _ f hf]
      refine ⟨rest, ?_, h2⟩
      rw [h1, List.append_assoc, List.drop_left' (by simp)]

/-- the field's value -/
def fieldValue (x : Ext) (it : Order) (p : P) (name : Str) (path : List Nat) (n : Nat) (e : Str × Bool × Ty) : Option V :=
  if e.2.1 && mentions p name e.1 then bind x it e.2.2 (n :: path) p (name ++ [46] ++ e.1) else some (zero e.2.2)

theorem bindFields_list (x : Ext) (it : Order) (p : P) (name : Str) (path : List Nat) : ∀ (fs : Fields) (n : Nat),
    (∀ vs, bindFields x it fs n path p name = some vs →
      vs.length = (Spec.fieldList fs).length ∧
      ∀ (i : Nat) e, (Spec.fieldList fs)[i]? = some e → vs[i]? = fieldValue x it p name path (n + i) e) ∧
    (bindFields x it fs n path p name = none ↔
      ∃ (i : Nat) (e : _), (Spec.fieldList fs)[i]? = some e ∧ fieldValue x it p name path (n + i) e = none)
  | .nil, n => by
    unfold bindFields Spec.fieldList
    exact ⟨by rintro vs h; cases h; simp, by simp⟩
  | .cons f ex t rest, n => by
    obtain ⟨i1, i2⟩ := bindFields_list x it p name path rest (n + 1)
    unfold bindFields Spec.fieldList
    have hfv : (if (ex && mentions p name f) = true then bind x it t (n :: path) p (name ++ [46] ++ f)
        else some (zero t)) = fieldValue x it p name path (n + 0) (f, ex, t) := rfl
    rw [hfv]
    constructor
    · intro vs h
      cases hv : fieldValue x it p name path (n + 0) (f, ex, t) with
      | none => rw [hv] at h; cases h
      | some v =>
        rw [hv] at h
        cases hb : bindFields x it rest (n + 1) path p name with
        | none => rw [hb] at h; cases h
        | some ws =>
          rw [hb] at h
          simp only [Option.some.injEq] at h
          subst h
          obtain ⟨j1, j2⟩ := i1 ws hb
          refine ⟨by simp [j1], ?_⟩
          intro i e he
          cases i with
          | zero =>
            simp only [List.getElem?_cons_zero, Option.some.injEq] at he ⊢
            rw [← he, hv]
          | succ i =>
            rw [List.getElem?_cons_succ] at he ⊢
            rw [j2 i e he, Nat.add_right_comm, Nat.add_assoc]
    · constructor
      · intro h
        cases hv : fieldValue x it p name path (n + 0) (f, ex, t) with
        | none => exact ⟨0, _, rfl, hv⟩
        | some v =>
          rw [hv] at h
          cases hb : bindFields x it rest (n + 1) path p name with
          | none =>
            obtain ⟨i, e, h1, h2⟩ := i2.1 hb
            exact ⟨i + 1, e, h1, by rw [← h2, Nat.add_right_comm, Nat.add_assoc]⟩
          | some ws => rw [hb] at h; cases h
      · rintro ⟨i, e, h1, h2⟩
        cases i with
        | zero =>
          simp only [List.getElem?_cons_zero, Option.some.injEq] at h1
          subst h1
          rw [h2]
        | succ i =>
          rw [List.getElem?_cons_succ] at h1
          have : bindFields x it rest (n + 1) path p name = none :=
            i2.2 ⟨i, e, h1, by rw [← h2, Nat.add_right_comm, Nat.add_assoc]⟩
          rw [this]
          cases fieldValue x it p name path (n + 0) (f, ex, t) <;> rfl

/-- **C78**: binding a struct parameter `name` gives every exported field that some parameter is about the value
bound under `name.Field`, and leaves every other field zero; it fails only if the binding of such a field fails. -/
theorem C78_struct_binding (x : Ext) (it : Order) (path : List Nat) (p : P) (name : Str) (fs : Fields)
    (hf : ∀ e ∈ Spec.fieldList fs, 46 ∉ e.1 ∧ 91 ∉ e.1) :
    (∀ v, bind x it (.struct fs) path p name = some v → ∃ vs, v = .struct vs ∧
      vs.length = (Spec.fieldList fs).length ∧
      ∀ (i : Nat) f exported t, (Spec.fieldList fs)[i]? = some (f, exported, t) →
        (exported = true ∧ Spec.Mentioned p name f → vs[i]? = bind x it t (i :: path) p (name ++ b!"." ++ f)) ∧
        (¬ (exported = true ∧ Spec.Mentioned p name f) → vs[i]? = some (zero t))) ∧
    (bind x it (.struct fs) path p name = none ↔
      ∃ (i : Nat) (f : Str) (t : Ty), (Spec.fieldList fs)[i]? = some (f, true, t) ∧ Spec.Mentioned p name f ∧
        bind x it t (i :: path) p (name ++ b!"." ++ f) = none) := by
  obtain ⟨i1, i2⟩ := bindFields_list x it p name path fs 0
  have hfv : ∀ (i : Nat) f exported t, (Spec.fieldList fs)[i]? = some (f, exported, t) →
      (exported = true ∧ Spec.Mentioned p name f →
        fieldValue x it p name path (0 + i) (f, exported, t) = bind x it t (i :: path) p (name ++ [46] ++ f)) ∧
      (¬ (exported = true ∧ Spec.Mentioned p name f) →
        fieldValue x it p name path (0 + i) (f, exported, t) = some (zero t)) := by
    intro i f exported t h
    have hm := mentions_iff p name f (hf _ (List.mem_of_getElem? h))
    unfold fieldValue
    constructor
    · rintro ⟨a, b⟩
      rw [if_pos (by simp only [Bool.and_eq_true]; exact ⟨a, hm.2 b⟩), Nat.zero_add]
    · intro hn
      rw [if_neg (by simp only [Bool.and_eq_true]; exact fun e => hn ⟨e.1, hm.1 e.2⟩)]
  constructor
  · intro v h
    unfold bind at h
    cases hb : bindFields x it fs 0 path p name with
    | none => rw [hb] at h; cases h
    | some vs =>
      rw [hb] at h
      cases h
      obtain ⟨j1, j2⟩ := i1 vs hb
      refine ⟨vs, rfl, j1, fun i f exported t he => ⟨fun hx => ?_, fun hx => ?_⟩⟩
      · rw [j2 i _ he]; exact (hfv i f exported t he).1 hx
      · rw [j2 i _ he]; exact (hfv i f exported t he).2 hx
  · rw [show bind x it (.struct fs) path p name = (bindFields x it fs 0 path p name).map .struct from by
      conv => lhs; unfold bind
      , Option.map_eq_none_iff, i2]
    constructor
    · rintro ⟨i, ⟨f, exported, t⟩, he, hn⟩
      by_cases hx : exported = true ∧ Spec.Mentioned p name f
      · obtain ⟨rfl, hm⟩ := hx
        exact ⟨i, f, t, he, hm, by rw [← (hfv i f true t he).1 ⟨rfl, hm⟩]; exact hn⟩
      · rw [(hfv i f exported t he).2 hx] at hn; cases hn
    · rintro ⟨i, f, t, he, hm, hn⟩
      exact ⟨i, (f, true, t), he, by rw [(hfv i f true t he).1 ⟨rfl, hm⟩]; exact hn⟩

/-- a nested struct with a list and an unexported field; keys of other parameters that look similar -/
example :
    bind Spec.toyExt Spec.asIs
      (.struct (.cons b!"Tags" true (.slice .string) (.cons b!"n" false .string (.cons b!"Name" true .string .nil)))) []
      ⟨[(b!"u.Tags[0]", [b!"a"]), (b!"u.n", [b!"x"]), (b!"w.Name", [b!"no"]), (b!"u.Names", [b!"no"])], []⟩ b!"u" =
      some (.struct [.slice [.str b!"a"], .str [], .str []]) := rfl

/-! ## floats -/

/-- **C79**: a float parameter is zero when absent or empty, otherwise what the standard library's parser gives for
its first value; a string parameter is its first value, a time parameter what the time formats give. -/
theorem C79_scalar_binding (x : Ext) (it : Order) (path : List Nat) (p : P) (name : Str) (bits : Nat) :
    (∀ s vs, lookup p.values name = some (s :: vs) →
      bind x it .string path p name = some (.str s) ∧
      bind x it .time path p name = some (.time (x.time s)) ∧
      (s ≠ [] → bind x it (.float bits) path p name = some (.float (x.float bits s))) ∧
      (s = [] → bind x it (.float bits) path p name = some (.float 0))) ∧
    ((lookup p.values name = none ∨ lookup p.values name = some []) →
      bind x it .string path p name = some (.str []) ∧ bind x it .time path p name = some (.time 0) ∧
      bind x it (.float bits) path p name = some (.float 0)) := by
  constructor
  · intro s vs h
    refine ⟨?_, ?_, fun hs => ?_, fun hs => ?_⟩ <;> unfold bind firstValue <;> rw [h]
    · simp only; rw [if_neg hs]
    · simp only; rw [if_pos hs]
  · intro h
    rcases h with h | h <;> (refine ⟨?_, ?_, ?_⟩ <;> unfold bind firstValue <;> rw [h])

/-- **C79**: a pointer parameter is nil when the parameter is absent; otherwise it points to the bound value. -/
theorem C79_pointer_binding (x : Ext) (it : Order) (path : List Nat) (p : P) (name : Str) (t : Ty) :
    (∀ s vs, lookup p.values name = some (s :: vs) →
      bind x it (.ptr t) path p name = (bind x it t (0 :: path) p name).map .ptr) ∧
    ((lookup p.values name = none ∨ lookup p.values name = some []) → bind x it (.ptr t) path p name = some .nil) := by
  constructor
  · intro s vs h
    rw [show bind x it (.ptr t) path p name = _ from by unfold bind; rfl]
    unfold firstValue
    rw [h]
  · intro h
    rw [show bind x it (.ptr t) path p name = _ from by unfold bind; rfl]
    unfold firstValue
    rcases h with h | h <;> rw [h]

/-! ## C53: the media type -/

theorem firstPart_before (t r : Str) (ht : 59 ∉ t) (hr : r = [] ∨ r.head? = some 59) : firstPart 59 (t ++ r) = t := by
  rcases hr with rfl | h
  · rw [List.append_nil]
    have := splitOn1_join1 59 [t] (by simp) (by simpa using ht)
    simp only [join1] at this
    unfold firstPart
    rw [this]; rfl
  · cases r with
    | nil => cases h
    | cons c r =>
      simp only [List.head?_cons, Option.some.injEq] at h
      subst h
      unfold firstPart
      induction t with
      | nil => simp [splitOn1]
      | cons c t ih =>
        have hc : c ≠ 59 := fun e => ht (by simp [e])
        have ih := ih (fun e => ht (List.mem_cons_of_mem _ e))
        rw [List.cons_append, splitOn1]
        rw [if_neg hc]
        cases hs : splitOn1 59 (t ++ 59 :: r) with
        | nil => rw [hs] at ih; simp at ih; simp [← ih]
        | cons a b => rw [hs] at ih; simp at ih; simp [ih]

theorem spaces_no_semicolon {w : Str} (h : Spaces w) : (59 : UInt8) ∉ w := by
  obtain ⟨rs, hr, rfl⟩ := h
  intro hc
  obtain ⟨r, h1, h2⟩ := List.mem_flatten.1 hc
  cases hr r h1 with
  | ascii c h => simp only [List.mem_singleton] at h2; subst h2; revert h; decide
  | latin c h =>
    simp only [List.mem_cons, List.not_mem_nil, or_false] at h2
    rcases h2 with h2 | h2
    · revert h2; decide
    · subst h2; revert h; decide
  | ogham => revert h2; decide
  | general c h =>
    simp only [List.mem_cons, List.not_mem_nil, or_false] at h2
    rcases h2 with h2 | h2 | h2
    · revert h2; decide
    · revert h2; decide
    · subst h2; revert h; decide
  | math => revert h2; decide
  | ideographic => revert h2; decide

theorem lower_not_semicolon {t : Str} (h : (59 : UInt8) ∉ toLower t) : (59 : UInt8) ∉ t := by
  intro hm
  exact h (by unfold toLower; exact List.mem_map.2 ⟨59, hm, by decide⟩)

/-- **C53**: the media type is read up to the case of letters, without white space around it and without
parameters after a semicolon. -/
theorem C53_media_type (w t w' params : Str) (hw : Spaces w) (hw' : Spaces w')
    (hp : params = [] ∨ params.head? = some 59)
    (ht : toLower t = b!"application/x-www-form-urlencoded" ∨ toLower t = b!"multipart/form-data") :
    mediaType (w ++ t ++ w' ++ params) = toLower t := by
  have hne : t ≠ [] := by rintro rfl; revert ht; decide
  have h59 : (59 : UInt8) ∉ t := lower_not_semicolon (by rcases ht with e | e <;> rw [e] <;> decide)
  unfold mediaType
  rw [if_neg (by simp [hne]), firstPart_before _ _ (by
    simp only [List.mem_append, not_or]
    exact ⟨⟨spaces_no_semicolon hw, h59⟩, spaces_no_semicolon hw'⟩) hp]
  have ends : spaceLen (t ++ w') = 0 ∧ spaceLenRev t.reverse = 0 := by
    obtain ⟨c, t', rfl⟩ := List.exists_cons_of_ne_nil hne
    have h1 : c.toNat < 128 ∧ Verif.Conf.asciiSp c = false := by
      have key : ∀ c : UInt8, (lowerByte c = 97 ∨ lowerByte c = 109) → c.toNat < 128 ∧ Verif.Conf.asciiSp c = false :=
        forall_u8 (by decide +kernel)
      apply key
      rcases ht with e | e
      · left; simp only [toLower, List.map_cons] at e; exact (List.cons.inj e).1
      · right; simp only [toLower, List.map_cons] at e; exact (List.cons.inj e).1
    refine ⟨Verif.Conf.spaceLen_ascii h1.1 h1.2 _, ?_⟩
    obtain ⟨d, u, hd⟩ := List.exists_cons_of_ne_nil (show (c :: t').reverse ≠ [] by simp)
    have h2 : d.toNat < 128 ∧ Verif.Conf.asciiSp d = false := by
      have key : ∀ c : UInt8, (lowerByte c = 100 ∨ lowerByte c = 97) → c.toNat < 128 ∧ Verif.Conf.asciiSp c = false :=
        forall_u8 (by decide +kernel)
      apply key
      have hr : (toLower (c :: t')).reverse = lowerByte d :: u.map lowerByte := by
        unfold toLower
        rw [← List.map_reverse, hd]; rfl
      rcases ht with e | e
      · left; rw [e] at hr; exact (List.cons.inj hr).1.symm
      · right; rw [e] at hr; exact (List.cons.inj hr).1.symm
    rw [hd]
    exact Verif.Conf.spaceLenRev_ascii h2.1 h2.2 _
  rw [trimSpace_unique hw hw' hne ends.1 ends.2]

/-- **C53**: so a form is recognised whatever the spelling of its content type, and its values are merged. -/
theorem C53_form_recognised (w t w' params : Str) (hw : Spaces w) (hw' : Spaces w')
    (hp : params = [] ∨ params.head? = some 59) (query route : Values) (body : Body) :
    (toLower t = b!"application/x-www-form-urlencoded" → ∀ b, body.postForm = some b →
      parseParams (w ++ t ++ w' ++ params) query route body = some (calcValues query route (httpForm b query))) ∧
    (toLower t = b!"multipart/form-data" → ∀ b, body.multipart = some b →
      parseParams (w ++ t ++ w' ++ params) query route body = some (calcValues query route b)) := by
  constructor
  · intro ht b hb
    unfold parseParams
    rw [C53_media_type w t w' params hw hw' hp (Or.inl ht), if_pos ht, hb]
  · intro ht b hb
    unfold parseParams
    rw [C53_media_type w t w' params hw hw' hp (Or.inr ht), if_neg (by rw [ht]; decide), if_pos ht, hb]

example : mediaType b!" Multipart/Form-Data ; boundary=x" = b!"multipart/form-data" := by decide +kernel

/-- The letters and their lower case, spelled out. -/
def Spec.letters : List (UInt8 × UInt8) := (b!"ABCDEFGHIJKLMNOPQRSTUVWXYZ").zip b!"abcdefghijklmnopqrstuvwxyz"

/-- `u` is `t` with every upper case letter replaced by its lower case. -/
inductive Spec.Lowered : Str → Str → Prop
  | nil : Spec.Lowered [] []
  | letter {c d : UInt8} {t u : Str} : (c, d) ∈ Spec.letters → Spec.Lowered t u → Spec.Lowered (c :: t) (d :: u)
  | other {c : UInt8} {t u : Str} : (∀ d, (c, d) ∉ Spec.letters) → Spec.Lowered t u → Spec.Lowered (c :: t) (c :: u)

theorem lower_letter (c : UInt8) :
    ((c, lowerByte c) ∈ Spec.letters) ∨ (lowerByte c = c ∧ ∀ e ∈ Spec.letters, e.1 ≠ c) := by
  refine forall_u8 (P := fun c => ((c, lowerByte c) ∈ Spec.letters) ∨ (lowerByte c = c ∧ ∀ e ∈ Spec.letters, e.1 ≠ c)) ?_ c
  decide +kernel

theorem letters_fun : ∀ e ∈ Spec.letters, lowerByte e.1 = e.2 := by decide +kernel

theorem lowered_iff (t u : Str) : Spec.Lowered t u ↔ toLower t = u := by
  constructor
  · intro h
    induction h with
    | nil => rfl
    | letter h _ ih =>
      have := letters_fun _ h
      simp only [toLower, List.map_cons] at ih ⊢
      rw [ih, this]
    | @other c t u h _ ih =>
      simp only [toLower, List.map_cons] at ih ⊢
      rcases lower_letter c with e | e
      · exact absurd e (h _)
      · rw [ih, e.1]
  · intro h
    subst h
    induction t with
    | nil => exact .nil
    | cons c t ih =>
      simp only [toLower, List.map_cons]
      rcases lower_letter c with e | e
      · exact .letter e ih
      · rw [e.1]
        exact .other (fun d hd => e.2 _ hd rfl) ih

/-- **C77**: "up to the case of letters" spelled out: the 26 letters of the alphabet and no other byte. -/
theorem C77_bool_letters (x : Ext) (it : Order) (path : List Nat) (p : P) (name s : Str) (vs : List Str)
    (h : lookup p.values name = some (s :: vs)) :
    bind x it .bool path p name = some (.bool true) ↔
      ∃ w t w' u, Spaces w ∧ Spaces w' ∧ s = w ++ t ++ w' ∧ Spec.Lowered t u ∧ u ∈ [b!"true", b!"on", b!"1"] := by
  obtain ⟨b, hb, hi⟩ := (C77_bool_binding x it path p name).1 s vs h
  rw [hb]
  constructor
  · intro e
    have : b = true := by
      cases b with
      | true => rfl
      | false => simp at e
    obtain ⟨w, t, w', h1, h2, h3, h4⟩ := hi.1 this
    exact ⟨w, t, w', _, h1, h2, h3, (lowered_iff _ _).2 rfl, h4⟩
  · rintro ⟨w, t, w', u, h1, h2, h3, h4, h5⟩
    rw [hi.2 ⟨w, t, w', h1, h2, h3, by rw [(lowered_iff _ _).1 h4]; exact h5⟩]

/-- **C53**: the spellings of the two content types that are recognised, letter by letter. -/
theorem C53_form_letters (w t w' params : Str) (hw : Spaces w) (hw' : Spaces w')
    (hp : params = [] ∨ params.head? = some 59) (query route : Values) (body : Body) :
    (Spec.Lowered t b!"application/x-www-form-urlencoded" → ∀ b, body.postForm = some b →
      parseParams (w ++ t ++ w' ++ params) query route body = some (calcValues query route (httpForm b query))) ∧
    (Spec.Lowered t b!"multipart/form-data" → ∀ b, body.multipart = some b →
      parseParams (w ++ t ++ w' ++ params) query route body = some (calcValues query route b)) :=
  ⟨fun h => (C53_form_recognised w t w' params hw hw' hp query route body).1 ((lowered_iff _ _).1 h),
   fun h => (C53_form_recognised w t w' params hw hw' hp query route body).2 ((lowered_iff _ _).1 h)⟩

example : Spec.Lowered b!"MULTIPART/FORM-DATA" b!"multipart/form-data" := (lowered_iff _ _).2 (by decide +kernel)
example : ¬ Spec.Lowered b!"[" b!"{" := fun h => absurd ((lowered_iff _ _).1 h) (by decide +kernel)

/-! ## Zero values -/

mutual
/-- The zero value of a type: false, zero, the empty text, nil, and a struct of as many zero values as it has fields. -/
def Spec.ZeroOf : Ty → V → Prop
  | .bool, v => v = .bool false
  | .int _, v => v = .int 0
  | .float _, v => v = .float 0
  | .string, v => v = .str []
  | .time, v => v = .time 0
  | .ptr _, v => v = .nil
  | .slice _, v => v = .nil
  | .other, v => v = .nil
  | .struct fs, v => ∃ vs, v = .struct vs ∧ Spec.ZerosOf fs vs
/-- Each the zero value of its field. -/
def Spec.ZerosOf : Fields → List V → Prop
  | .nil, vs => vs = []
  | .cons _ _ t rest, vs => ∃ w ws, vs = w :: ws ∧ Spec.ZeroOf t w ∧ Spec.ZerosOf rest ws
end

mutual
theorem zeroOf_iff : ∀ (t : Ty) (v : V), Spec.ZeroOf t v ↔ v = zero t
  | .bool, v => Iff.rfl
  | .int _, v => Iff.rfl
  | .float _, v => Iff.rfl
  | .string, v => Iff.rfl
  | .time, v => Iff.rfl
  | .ptr _, v => Iff.rfl
  | .slice _, v => Iff.rfl
  | .other, v => Iff.rfl
  | .struct fs, v => by
    simp only [Spec.ZeroOf, zero]
    constructor
    · rintro ⟨vs, rfl, h⟩; rw [(zerosOf_iff fs vs).1 h]
    · rintro rfl; exact ⟨_, rfl, (zerosOf_iff fs _).2 rfl⟩
theorem zerosOf_iff : ∀ (fs : Fields) (vs : List V), Spec.ZerosOf fs vs ↔ vs = zeros fs
  | .nil, vs => Iff.rfl
  | .cons _ _ t rest, vs => by
    simp only [Spec.ZerosOf, zeros]
    constructor
    · rintro ⟨w, ws, rfl, h1, h2⟩; rw [(zeroOf_iff t w).1 h1, (zerosOf_iff rest ws).1 h2]
    · rintro rfl; exact ⟨_, _, rfl, (zeroOf_iff t _).2 rfl, (zerosOf_iff rest _).2 rfl⟩
end

/-- **C78**: the value left in the fields no parameter is about is the zero value of their type, field by field. -/
theorem C78_zero_values (t : Ty) (v : V) : v = zero t ↔ Spec.ZeroOf t v := (zeroOf_iff t v).symm

mutual
theorem empty_bind (x : Ext) (it : Order) (p : P) (h1 : p.values = []) : ∀ (t : Ty) (path : List Nat) (name : Str),
    (∀ u, t ≠ .slice u) → bind x it t path p name = some (zero t)
  | .bool, path, name, _ => by simp [bind, firstValue, h1, lookup, zero]
  | .int k, path, name, _ => by simp [bind, firstValue, h1, lookup, zero]
  | .float b, path, name, _ => by simp [bind, firstValue, h1, lookup, zero]
  | .string, path, name, _ => by simp [bind, firstValue, h1, lookup, zero]
  | .time, path, name, _ => by simp [bind, firstValue, h1, lookup, zero]
  | .ptr t, path, name, _ => by simp [bind, firstValue, h1, lookup, zero]
  | .slice t, path, name, h => absurd rfl (h t)
  | .struct fs, path, name, _ => by simp only [bind, zero, empty_bindFields x it p h1 fs 0 path name, Option.map_some]
  | .other, path, name, _ => by simp [bind, zero]
theorem empty_bindFields (x : Ext) (it : Order) (p : P) (h1 : p.values = []) : ∀ (fs : Fields) (n : Nat) (path : List Nat) (name : Str),
    bindFields x it fs n path p name = some (zeros fs)
  | .nil, n, path, name => by simp [bindFields, zeros]
  | .cons f e t rest, n, path, name => by
    have hm : mentions p name f = false := by unfold mentions; rw [h1]; rfl
    simp [bindFields, zeros, hm, empty_bindFields x it p h1 rest]
end

/-- **C78**: from a request without values every parameter that is not a slice is bound to the zero value of its type. -/
theorem C78_no_values (x : Ext) (it : Order) (p : P) (h : p.values = []) (t : Ty) (ht : ∀ u, t ≠ .slice u) (path : List Nat) (name : Str) :
    ∃ v, bind x it t path p name = some v ∧ Spec.ZeroOf t v :=
  ⟨_, empty_bind x it p h t path name ht, (zeroOf_iff t _).2 rfl⟩

example : Spec.ZeroOf (.struct (.cons b!"A" true (.int .int8) (.cons b!"B" false (.struct (.cons b!"C" true .string .nil)) .nil)))
    (.struct [.int 0, .struct [.str []]]) := (C78_zero_values _ _).1 rfl

end Verif.Params
