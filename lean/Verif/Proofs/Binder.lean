import Verif.Model.Binder
import Verif.Proofs.Bytes
import Verif.Proofs.Num
/-! Lemmas about slice binding (no property theorems here). -/
namespace Verif.Params
open Verif.Go Verif.Conv

/-- `key` is `name[txt]…` with `txt` read as the index `i`; `sub` is `name[txt]`. Text that is not a number reads as
0 and one that is too large as the largest integer. -/
def Spec.Indexed (name key : Str) (i : Nat) (sub : Str) : Prop :=
  ∃ txt rest, key = name ++ 91 :: (txt ++ 93 :: rest) ∧ (93 : UInt8) ∉ txt ∧ txt ≠ [] ∧
    sub = name ++ 91 :: (txt ++ [93]) ∧ (parseInt 64 txt).1 = (i : Int)

/-- `key` is `name` itself or `name[…` without an index. -/
def Spec.Unindexed (name key : Str) : Prop :=
  key = name ∨ ((name ++ [91]) <+: key ∧ ¬ ∃ i sub, Spec.Indexed name key i sub)

theorem indexByte_eq (a b : Str) (c : UInt8) (h : c ∉ a) : indexByte (a ++ c :: b) c = some a.length := by
  unfold indexByte
  induction a with
  | nil => simp [List.findIdx?_cons]
  | cons x a ih =>
    have hx : x ≠ c := fun e => h (by simp [e])
    rw [List.cons_append, List.findIdx?_cons]
    rw [ih (fun e => h (by simp [e]))]
    simp [hx]

theorem indexByte_some (s : Str) (c : UInt8) (r : Nat) (h : indexByte s c = some r) :
    ∃ a b, s = a ++ c :: b ∧ c ∉ a ∧ a.length = r := by
  unfold indexByte at h
  induction s generalizing r with
  | nil => simp at h
  | cons x s ih =>
    rw [List.findIdx?_cons] at h
    by_cases hx : x = c
    · subst hx; simp at h; exact ⟨[], s, rfl, by simp, by simp [h]⟩
    · simp [hx] at h
      obtain ⟨r', h1, h2⟩ := h
      obtain ⟨a, b, e1, e2, e3⟩ := ih r' (by simpa using h1)
      exact ⟨x :: a, b, by simp [e1], by simp [e2, Ne.symm hx], by simp [e3, h2]⟩

theorem keyIndex_iff (name key : Str) (i : Nat) (sub : Str) (hp : (name ++ [91]) <+: key) :
    keyIndex name key = some (i, sub) ↔ Spec.Indexed name key i sub := by
  obtain ⟨tail, rfl⟩ := hp
  have hd : (name ++ [91] ++ tail).drop name.length = 91 :: tail := by
    rw [List.append_assoc, List.drop_left' rfl]; rfl
  unfold keyIndex
  rw [hd]
  constructor
  · intro h
    cases hi : indexByte (91 :: tail) 93 with
    | none => rw [hi] at h; cases h
    | some r =>
      rw [hi] at h
      simp only at h
      obtain ⟨a, b, e1, e2, e3⟩ := indexByte_some _ _ _ hi
      by_cases hr : r > 1
      · rw [if_pos hr] at h
        cases a with
        | nil => simp at e3; omega
        | cons y txt =>
          simp only [List.cons_append, List.cons.injEq] at e1
          obtain ⟨rfl, e1⟩ := e1
          have ht : ((91 :: tail).take r).drop 1 = txt := by
            rw [e1, ← e3]
            simp
          rw [ht] at h
          by_cases hn : (parseInt 64 txt).1 > -1
          · rw [if_pos hn] at h
            simp only [Option.some.injEq, Prod.mk.injEq] at h
            refine ⟨txt, b, by rw [e1]; simp, fun e => e2 (by simp [e]), ?_, ?_, ?_⟩
            · rintro rfl; simp at e3; omega
            · rw [← h.2, e1, ← e3]
              have : name ++ [91] ++ (txt ++ 93 :: b) = (name ++ 91 :: (txt ++ [93])) ++ b := by simp
              rw [this]
              exact List.take_left' (by simp; omega)
            · rw [← h.1]; omega
          · rw [if_neg hn] at h; cases h
      · rw [if_neg hr] at h; cases h
  · rintro ⟨txt, rest, e1, e2, e3, e4, e5⟩
    have et : tail = txt ++ 93 :: rest := by
      have : name ++ 91 :: tail = name ++ 91 :: (txt ++ 93 :: rest) := by rw [← e1]; simp
      simpa using this
    have hi : indexByte (91 :: tail) 93 = some (txt.length + 1) := by
      rw [et]
      exact indexByte_eq (91 :: txt) rest 93 (by simp [e2])
    rw [hi]
    simp only
    have hl : txt.length ≠ 0 := fun e => e3 (List.length_eq_zero_iff.1 e)
    rw [if_pos (by omega)]
    have ht : ((91 :: tail).take (txt.length + 1)).drop 1 = txt := by rw [et]; simp
    rw [ht, if_pos (by omega), e5, e4]
    congr 2
    rw [et]
    have : name ++ [91] ++ (txt ++ 93 :: rest) = (name ++ 91 :: (txt ++ [93])) ++ rest := by simp
    rw [this]
    exact List.take_left' (by simp; omega)

theorem indexed_prefix {name key : Str} {i : Nat} {sub : Str} (h : Spec.Indexed name key i sub) :
    (name ++ [91]) <+: key := by
  obtain ⟨txt, rest, e, _⟩ := h
  exact ⟨txt ++ 93 :: rest, by rw [e]; simp⟩

theorem trimPrefix_nil (key name : Str) : trimPrefix key name = [] ↔ key = name ∨ key = [] := by
  unfold trimPrefix
  by_cases h : hasPrefix key name = true
  · rw [if_pos h]
    unfold hasPrefix at h
    rw [List.isPrefixOf_iff_prefix] at h
    obtain ⟨t, rfl⟩ := h
    rw [List.drop_left' rfl]
    constructor
    · rintro rfl; left; simp
    · rintro (e | e)
      · simpa using e
      · simp at e; exact e.2
  · rw [if_neg h]
    constructor
    · intro e; exact Or.inr e
    · rintro (e | e)
      · subst e; exact absurd (by unfold hasPrefix; rw [List.isPrefixOf_iff_prefix]; exact List.prefix_rfl) h
      · exact e

/-- one key: an indexed element, unindexed elements, or nothing -/
theorem process_indexed (bindE : List Nat → P → Str → Option V) (p : P) (name : Str) (path : List Nat) (key : Str)
    (vals : List Str) (nf i : Nat) (sub : Str) (h : Spec.Indexed name key i sub) :
    processElement bindE p name path (normalizeKey name key) vals nf = [⟨some i, bindE (0 :: path) p sub⟩] := by
  have hp := indexed_prefix h
  have hn : normalizeKey name key = key := by
    unfold normalizeKey
    rw [if_neg]
    rw [trimPrefix_nil]
    obtain ⟨t, e⟩ := hp
    rintro (e' | e')
    · rw [e', List.append_assoc] at e
      have := congrArg List.length e
      simp at this
    · rw [e'] at e; simp at e
  rw [hn]
  unfold processElement
  rw [if_pos (by unfold hasPrefix; rw [List.isPrefixOf_iff_prefix]; exact hp), (keyIndex_iff name key i sub hp).2 h]

theorem process_unindexed (bindE : List Nat → P → Str → Option V) (p : P) (name : Str) (path : List Nat) (key : Str)
    (vals : List Str) (nf : Nat) (h : Spec.Unindexed name key) :
    processElement bindE p name path (normalizeKey name key) vals nf =
      vals.map (fun v => ⟨none, bindE (1 :: path) (single v) []⟩) ++
        (List.range nf).map (fun j => ⟨none, bindE (j :: 2 :: path) singleFile []⟩) := by
  have key2 : ∀ k, (name ++ [91]) <+: k → (¬ ∃ i sub, Spec.Indexed name k i sub) →
      processElement bindE p name path k vals nf =
      vals.map (fun v => ⟨none, bindE (1 :: path) (single v) []⟩) ++
        (List.range nf).map (fun j => ⟨none, bindE (j :: 2 :: path) singleFile []⟩) := by
    intro k hp hk
    unfold processElement
    rw [if_pos (by unfold hasPrefix; rw [List.isPrefixOf_iff_prefix]; exact hp)]
    cases hki : keyIndex name k with
    | none => rfl
    | some r => exact absurd ⟨r.1, r.2, (keyIndex_iff name k r.1 r.2 hp).1 hki⟩ hk
  rcases h with rfl | ⟨hp, hk⟩
  · have : normalizeKey key key = key ++ b!"[]" := by
      unfold normalizeKey
      rw [if_pos ((trimPrefix_nil _ _).2 (Or.inl rfl))]
    rw [this]
    refine key2 _ ⟨[93], by simp⟩ ?_
    rintro ⟨i, sub, txt, rest, e1, e2, e3, _⟩
    simp only [List.append_cancel_left_eq, List.cons.injEq, true_and] at e1
    cases txt with
    | nil => exact e3 rfl
    | cons c txt => simp at e1
  · have : normalizeKey name key = key := by
      unfold normalizeKey
      rw [if_neg]
      rw [trimPrefix_nil]
      obtain ⟨t, e⟩ := hp
      rintro (e' | e')
      · rw [e', List.append_assoc] at e
        have := congrArg List.length e
        simp at this
      · rw [e'] at e; simp at e
    rw [this]
    exact key2 _ hp hk

theorem process_other (bindE : List Nat → P → Str → Option V) (p : P) (name : Str) (path : List Nat) (key : Str)
    (vals : List Str) (nf : Nat) (h1 : ¬ Spec.Unindexed name key) (h2 : ¬ ∃ i sub, Spec.Indexed name key i sub) :
    processElement bindE p name path (normalizeKey name key) vals nf = [] := by
  unfold processElement
  rw [if_neg]
  unfold hasPrefix
  rw [List.isPrefixOf_iff_prefix]
  unfold normalizeKey
  intro hp
  by_cases ht : trimPrefix key name = []
  · rw [if_pos ht] at hp
    rcases (trimPrefix_nil _ _).1 ht with e | e
    · exact h1 (Or.inl e)
    · subst e
      obtain ⟨t, ht⟩ := hp
      cases name with
      | nil => exact h1 (Or.inl rfl)
      | cons a n =>
        cases n with
        | nil => simp at ht
        | cons b n =>
          have := congrArg List.length ht
          simp at this
  · rw [if_neg ht] at hp
    exact h1 (Or.inr ⟨hp, h2⟩)

/-! ### building the slice -/

/-- one indexed element -/
def placeIdx (acc : List V) (e : SV) : List V :=
  match e.idx, e.val with
  | some i, some v => acc.set i v
  | _, _ => acc

/-- the appended values -/
def appended (l : List SV) : List V := l.filterMap (fun e => match e.idx with | none => e.val | some _ => none)

theorem placeIdx_length (acc : List V) (e : SV) : (placeIdx acc e).length = acc.length := by
  unfold placeIdx; split <;> simp

theorem foldl_place (l : List SV) (acc tail : List V) (h : ∀ e ∈ l, ∀ i, e.idx = some i → i < acc.length) :
    l.foldl place (acc ++ tail) = l.foldl placeIdx acc ++ (tail ++ appended l) := by
  induction l generalizing acc tail with
  | nil => simp [appended]
  | cons e l ih =>
    obtain ⟨idx, val⟩ := e
    simp only [List.foldl_cons]
    cases idx with
    | none =>
      cases val with
      | none =>
        have := ih acc tail (fun e he => h e (by simp [he]))
        simpa [place, placeIdx, appended] using this
      | some v =>
        have := ih acc (tail ++ [v]) (fun e he => h e (by simp [he]))
        simpa [place, placeIdx, appended] using this
    | some i =>
      have hi := h ⟨some i, val⟩ (by simp) i rfl
      cases val with
      | none =>
        have := ih acc tail (fun e he => h e (by simp [he]))
        simpa [place, placeIdx, appended] using this
      | some v =>
        have := ih (acc.set i v) tail (fun e he j hj => by rw [List.length_set]; exact h e (by simp [he]) j hj)
        simp only [place, placeIdx]
        rw [List.set_append_left _ _ hi, this]
        simp [appended]

theorem foldl_placeIdx_length (l : List SV) (acc : List V) : (l.foldl placeIdx acc).length = acc.length := by
  induction l generalizing acc with
  | nil => rfl
  | cons e l ih => rw [List.foldl_cons, ih, placeIdx_length]

theorem foldl_placeIdx_get (l : List SV) (acc : List V) (j : Nat) (hs : ∀ e ∈ l, e.val ≠ none)
    (hu : ∀ e ∈ l, ∀ e' ∈ l, e.idx = some j → e'.idx = some j → e.val = e'.val) :
    (∀ e ∈ l, e.idx = some j → j < acc.length → (l.foldl placeIdx acc)[j]? = e.val) ∧
    ((∀ e ∈ l, e.idx ≠ some j) → (l.foldl placeIdx acc)[j]? = acc[j]?) := by
  induction l generalizing acc with
  | nil => simp
  | cons a l ih =>
    have hs' : ∀ e ∈ l, e.val ≠ none := fun e he => hs e (by simp [he])
    have hu' : ∀ e ∈ l, ∀ e' ∈ l, e.idx = some j → e'.idx = some j → e.val = e'.val :=
      fun e he e' he' => hu e (by simp [he]) e' (by simp [he'])
    obtain ⟨ih1, ih2⟩ := ih (placeIdx acc a) hs' hu'
    rw [List.foldl_cons]
    constructor
    · intro e he hj hlt
      by_cases hl : ∃ e' ∈ l, e'.idx = some j
      · obtain ⟨e', he', hj'⟩ := hl
        rw [ih1 e' he' hj' (by rw [placeIdx_length]; exact hlt)]
        exact hu e' (by simp [he']) e he hj' hj
      · have hno : ∀ e' ∈ l, e'.idx ≠ some j := fun e' h1 h2 => hl ⟨e', h1, h2⟩
        rw [ih2 hno]
        rcases List.mem_cons.1 he with rfl | he
        · obtain ⟨idx, val⟩ := e
          simp only at hj
          subst hj
          cases val with
          | none => exact absurd rfl (hs ⟨some j, none⟩ (by simp))
          | some v => simp [placeIdx, hlt]
        · exact absurd hj (hno e he)
    · intro hno
      rw [ih2 (fun e he => hno e (by simp [he]))]
      have := hno a (by simp)
      unfold placeIdx
      split
      · rename_i i v h1 h2
        rw [List.getElem?_set_ne]
        rintro rfl
        exact this h1
      · rfl

theorem size_le (l : List SV) (n : Nat) : size l ≤ n ↔ ∀ e ∈ l, ∀ i, e.idx = some i → i + 1 ≤ n := by
  have key : ∀ (l : List SV) (a : Nat),
      l.foldl sizeStep a ≤ n ↔
        a ≤ n ∧ ∀ e ∈ l, ∀ i, e.idx = some i → i + 1 ≤ n := by
    intro l
    induction l with
    | nil => simp
    | cons e l ih =>
      intro a
      rw [List.foldl_cons, ih]
      obtain ⟨idx, val⟩ := e
      cases idx with
      | none => simp [sizeStep]
      | some i =>
        simp only [sizeStep, List.mem_cons, forall_eq_or_imp, Option.some.injEq]
        constructor
        · rintro ⟨h1, h2⟩
          exact ⟨by omega, fun j hj => by omega, h2⟩
        · rintro ⟨h1, h2, h3⟩
          have := h2 i rfl
          exact ⟨by omega, h3⟩
  unfold size
  rw [key]
  simp

theorem size_lt (l : List SV) (e : SV) (he : e ∈ l) (i : Nat) (h : e.idx = some i) : i < size l :=
  (size_le l (size l)).1 (Nat.le_refl _) e he i h

/-- the finished slice, described -/
theorem build_eq_some (m : Nat) (z : V) (l : List SV) (hs : ∀ e ∈ l, e.val ≠ none) (hm : size l ≤ m) :
    build m z l = some (.slice (l.foldl placeIdx (List.replicate (size l) z) ++ appended l)) := by
  unfold build
  rw [if_neg, if_neg (by omega)]
  · have := foldl_place l (List.replicate (size l) z) [] (fun e he i hi => by
      rw [List.length_replicate]; exact size_lt l e he i hi)
    simp only [List.append_nil, List.nil_append] at this
    rw [this]
  · intro e
    obtain ⟨x, hx, hn⟩ := List.any_eq_true.1 e
    exact hs x hx (by simpa using hn)

/-- Same elements in another order, no two different values for an index, same appended values: same slice. -/
theorem build_perm (m : Nat) (z : V) (l l' : List SV) (hp : ∀ e, e ∈ l ↔ e ∈ l')
    (hu : ∀ e ∈ l, ∀ e' ∈ l, ∀ j, e.idx = some j → e'.idx = some j → e.val = e'.val)
    (ha : appended l = appended l') : build m z l = build m z l' := by
  have hu' : ∀ e ∈ l', ∀ e' ∈ l', ∀ j, e.idx = some j → e'.idx = some j → e.val = e'.val :=
    fun e he e' he' => hu e ((hp e).2 he) e' ((hp e').2 he')
  have hsz : size l = size l' := by
    apply Nat.le_antisymm
    · rw [size_le]
      intro e he i hi
      exact size_lt l' e ((hp e).1 he) i hi
    · rw [size_le]
      intro e he i hi
      exact size_lt l e ((hp e).2 he) i hi
  by_cases hs : ∀ e ∈ l, e.val ≠ none
  · have hs' : ∀ e ∈ l', e.val ≠ none := fun e he => hs e ((hp e).2 he)
    by_cases hm : size l ≤ m
    · rw [build_eq_some m z l hs hm, build_eq_some m z l' hs' (by omega), ha]
      congr 3
      apply List.ext_getElem?
      intro j
      obtain ⟨a1, a2⟩ := foldl_placeIdx_get l (List.replicate (size l) z) j hs (fun e he e' he' => hu e he e' he' j)
      obtain ⟨b1, b2⟩ := foldl_placeIdx_get l' (List.replicate (size l') z) j hs' (fun e he e' he' => hu' e he e' he' j)
      by_cases hj : ∃ e ∈ l, e.idx = some j
      · obtain ⟨e, he, hj⟩ := hj
        have hlt := size_lt l e he j hj
        rw [a1 e he hj (by rw [List.length_replicate]; exact hlt),
          b1 e ((hp e).1 he) hj (by rw [List.length_replicate]; omega)]
      · have hno : ∀ e ∈ l, e.idx ≠ some j := fun e h1 h2 => hj ⟨e, h1, h2⟩
        rw [a2 hno, b2 (fun e he => hno e ((hp e).2 he)), hsz]
    · unfold build
      rw [if_neg, if_pos (by omega), if_neg, if_pos (by omega)]
      · intro e
        obtain ⟨x, hx, hn⟩ := List.any_eq_true.1 e
        exact hs' x hx (by simpa using hn)
      · intro e
        obtain ⟨x, hx, hn⟩ := List.any_eq_true.1 e
        exact hs x hx (by simpa using hn)
  · have : ∃ e ∈ l, e.val = none := by
      apply Classical.byContradiction
      intro h
      exact hs fun e he hn => h ⟨e, he, hn⟩
    obtain ⟨e, he, hn⟩ := this
    unfold build
    rw [if_pos (List.any_eq_true.2 ⟨e, he, by simp [hn]⟩), if_pos (List.any_eq_true.2 ⟨e, (hp e).1 he, by simp [hn]⟩)]

theorem flatMap_perm_single {α β : Type} (g : α → List β) (l l' : List α) (hp : l.Perm l')
    (h : l.Pairwise (fun a b => g a = [] ∨ g b = [])) : l.flatMap g = l'.flatMap g := by
  induction hp with
  | nil => rfl
  | cons x _ ih =>
    rw [List.pairwise_cons] at h
    rw [List.flatMap_cons, List.flatMap_cons, ih h.2]
  | swap x y l =>
    rw [List.pairwise_cons] at h
    have := h.1 x (by simp)
    simp only [List.flatMap_cons]
    rcases this with e | e <;> simp [e]
  | trans h1 _ ih1 ih2 =>
    rw [ih1 h, ih2 (h1.pairwise h (by rintro a b (e | e); exact Or.inr e; exact Or.inl e))]

theorem zipIdx_flatMap {α β : Type} (l : List α) (n : Nat) (g : α → List β) :
    (l.zipIdx n).flatMap (fun e => g e.1) = l.flatMap g := by
  induction l generalizing n with
  | nil => rfl
  | cons a l ih => simp [List.zipIdx_cons, ih]

theorem flatMap_congr' {α β : Type} (l : List α) (f g : α → List β) (h : ∀ a ∈ l, f a = g a) :
    l.flatMap f = l.flatMap g := by
  induction l with
  | nil => rfl
  | cons a l ih => rw [List.flatMap_cons, List.flatMap_cons, h a (by simp), ih (fun b hb => h b (by simp [hb]))]

end Verif.Params
