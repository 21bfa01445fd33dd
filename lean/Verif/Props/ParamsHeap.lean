import Verif.Model.ParamsHeap
/-!
# C189: the unified values and their sources do not disturb each other
-/
namespace Verif.ParamsHeap
open Verif.Go

/-! ## Specification -/

/-- What is found under a key of a map. -/
def Spec.view (w : W) (m : Which) (k : Str) : Option (List Str) := (w.slots (m, k)).map w.heap.read

/-- What a statement does to one map, as if lists were values. -/
def Spec.effect (v : Str → Option (List Str)) : VOp → Str → Option (List Str)
  | .add k xs, k' => if k' = k then some ((v k).getD [] ++ xs) else v k'
  | .put k i x, k' => if k' = k then (v k).map (fun l => l.set i x) else v k'
  | .set k x, k' => if k' = k then some [x] else v k'
  | .del k, k' => if k' = k then none else v k'

/-- Memory as net/http and the router leave it: the slices are valid and no two entries share an array. -/
def Spec.Apart (w : W) : Prop :=
  (∀ k s, w.slots k = some s → Heap.Valid w.heap s) ∧
  (∀ k1 k2 s1 s2, k1 ≠ k2 → w.slots k1 = some s1 → w.slots k2 = some s2 → s1.cap = 0 ∨ s2.cap = 0 ∨ s1.arr ≠ s2.arr)

/-- The lists of several maps put together; absent where all are. -/
def Spec.together : List (Option (List Str)) → Option (List Str)
  | [] => none
  | none :: r => Spec.together r
  | some l :: r => some (l ++ (Spec.together r).getD [])

/-! ## Memory -/

/-- Nothing changes but new arrays and the free end of the array of `s`. -/
def Only (s : Slice) (h h' : Heap Str) : Prop :=
  h.next ≤ h'.next ∧ ∀ b, b < h.next → ∀ i, (b = s.arr → 0 < s.cap → i < s.len) → h'.cell b i = h.cell b i

theorem append1_only (g : Nat → Nat) (h : Heap Str) (s : Slice) (x : Str) : Only s h (h.append1 g s x).1 := by
  unfold Heap.append1
  split
  · rename_i hlt
    refine ⟨Nat.le_refl _, fun b hb i hi => ?_⟩
    simp only [Heap.write]
    split
    · rename_i he
      have := hi he.1 (by omega)
      omega
    · rfl
  · refine ⟨by simp, fun b hb i _ => ?_⟩
    have : b ≠ h.next := by omega
    simp [this]

theorem appendMany_spec {g : Nat → Nat} (hg : ∀ n, n ≤ g n) : ∀ (xs : List Str) (h : Heap Str) (s : Slice), Heap.Valid h s →
    (appendMany g h s xs).1.read (appendMany g h s xs).2 = h.read s ++ xs ∧
    Heap.Valid (appendMany g h s xs).1 (appendMany g h s xs).2 ∧
    Only s h (appendMany g h s xs).1 ∧
    ((appendMany g h s xs).2 = s ∨ ((appendMany g h s xs).2.arr = s.arr ∧ 0 < s.cap) ∨ h.next ≤ (appendMany g h s xs).2.arr)
  | [], h, s, hv => by
    refine ⟨by simp [appendMany], hv, ⟨Nat.le_refl _, fun _ _ _ _ => rfl⟩, Or.inl rfl⟩
  | x :: xs, h, s, hv => by
    have h1 := Heap.append1_spec hg hv x
    have ho := append1_only g h s x
    have ih := appendMany_spec hg xs (h.append1 g s x).1 (h.append1 g s x).2 h1.2.1
    unfold appendMany
    generalize h.append1 g s x = r at *
    obtain ⟨r1, r2, _, _, r5, r6⟩ := h1
    obtain ⟨i1, i2, i3, i4⟩ := ih
    refine ⟨by rw [i1, r1]; simp, i2, ⟨Nat.le_trans ho.1 i3.1, fun b hb i hi => ?_⟩, ?_⟩
    · rw [i3.2 b (Nat.lt_of_lt_of_le hb ho.1) i ?_, ho.2 b hb i hi]
      intro hb2 _
      rcases r6 with ⟨ha, hc⟩ | ha
      · have := hi (hb2.trans ha) hc
        omega
      · omega
    · right
      rcases i4 with e | ⟨e, _⟩ | e
      · rw [e]; exact r6
      · rw [e]; exact r6
      · exact Or.inr (Nat.le_trans ho.1 e)

theorem Only.read {s t : Slice} {h h' : Heap Str} (o : Only s h h') (hs : Heap.Valid h s) (ht : Heap.Valid h t)
    (hd : s.cap = 0 ∨ t.cap = 0 ∨ s.arr ≠ t.arr) : h'.read t = h.read t ∧ Heap.Valid h' t := by
  have hc : ∀ i < t.len, h'.cell t.arr i = h.cell t.arr i := by
    intro i hi
    have htc : t.cap ≠ 0 := by have := ht.1; omega
    refine o.2 t.arr (ht.2.1.resolve_left htc) i (fun e hp => ?_)
    rcases hd with hd | hd | hd
    · omega
    · exact absurd hd htc
    · exact absurd e.symm hd
  refine ⟨Heap.read_eq_of hc, ht.1, ?_, fun i hi => by rw [hc i hi]; exact ht.2.2 i hi⟩
  rcases ht.2.1 with h0 | h0
  · exact Or.inl h0
  · exact Or.inr (Nat.lt_of_lt_of_le h0 o.1)

theorem filterMap_get (c : Nat → Option Str) (i : Nat) : ∀ n, (∀ j < n, (c j).isSome) →
    ((List.range n).filterMap c)[i]? = (if i < n then c i else none) ∧ ((List.range n).filterMap c).length = n
  | 0, _ => by simp
  | n + 1, hs => by
    have ih := filterMap_get c i n (fun j hj => hs j (by omega))
    obtain ⟨y, hy⟩ := Option.isSome_iff_exists.1 (hs n (by omega))
    rw [List.range_succ, List.filterMap_append]
    have hl : List.filterMap c [n] = [y] := by simp [hy]
    rw [hl]
    refine ⟨?_, by rw [List.length_append, ih.2]; rfl⟩
    by_cases h1 : i < n
    · rw [List.getElem?_append_left (by rw [ih.2]; exact h1), ih.1, if_pos h1, if_pos (by omega)]
    · rw [List.getElem?_append_right (by rw [ih.2]; omega), ih.2]
      by_cases h2 : i = n
      · subst h2
        simp [hy]
      · rw [if_neg (by omega), List.getElem?_eq_none (by simp; omega)]

theorem read_get {h : Heap Str} {s : Slice} (hv : Heap.Valid h s) (i : Nat) :
    (h.read s)[i]? = if i < s.len then h.cell s.arr i else none := (filterMap_get _ i s.len hv.2.2).1

theorem write_valid {h : Heap Str} {t : Slice} (a i : Nat) (x : Str) (ht : Heap.Valid h t) : Heap.Valid (h.write a i x) t := by
  refine ⟨ht.1, ht.2.1, fun j hj => ?_⟩
  simp only [Heap.write]
  split
  · rfl
  · exact ht.2.2 j hj

theorem write_read_same {h : Heap Str} {s : Slice} (i : Nat) (x : Str) (hs : Heap.Valid h s) :
    (h.write s.arr i x).read s = (h.read s).set i x := by
  apply List.ext_getElem?
  intro j
  rw [read_get (write_valid s.arr i x hs), List.getElem?_set, read_get hs, Heap.read_length hs]
  simp only [Heap.write, true_and]
  by_cases hj : i = j
  · subst hj
    simp
  · have hj' : ¬ j = i := fun h => hj h.symm
    simp [hj, hj']

theorem write_read_other {h : Heap Str} {s t : Slice} {i : Nat} (x : Str) (hs : Heap.Valid h s) (ht : Heap.Valid h t) (hi : i < s.len)
    (hd : s.cap = 0 ∨ t.cap = 0 ∨ s.arr ≠ t.arr) : (h.write s.arr i x).read t = h.read t := by
  apply Heap.read_eq_of
  intro j hj
  simp only [Heap.write]
  split
  · rename_i he
    rcases hd with hd | hd | hd
    · have := hs.1; omega
    · have := ht.1; omega
    · exact absurd he.1.symm hd
  · rfl

theorem nil_valid (h : Heap Str) : Heap.Valid h Heap.nilSlice := ⟨Nat.le_refl _, Or.inl rfl, fun i hi => absurd hi (Nat.not_lt_zero i)⟩

/-- storing the result of an `append` to the entry's own slice, or to nil -/
theorem store_append {g : Nat → Nat} (hg : ∀ n, n ≤ g n) {w : W} (ha : Spec.Apart w) (k : Which × Str) (s : Slice) (xs : List Str)
    (hs : s = Heap.nilSlice ∨ w.slots k = some s) :
    Spec.Apart (store w (appendMany g w.heap s xs).1 k (appendMany g w.heap s xs).2) ∧
    ∀ k', ((store w (appendMany g w.heap s xs).1 k (appendMany g w.heap s xs).2).slots k').map (appendMany g w.heap s xs).1.read =
      if k' = k then some (w.heap.read s ++ xs) else (w.slots k').map w.heap.read := by
  have hv : Heap.Valid w.heap s := by
    rcases hs with rfl | hs
    · exact nil_valid _
    · exact ha.1 k s hs
  have hd : ∀ k' t, k' ≠ k → w.slots k' = some t → s.cap = 0 ∨ t.cap = 0 ∨ s.arr ≠ t.arr := by
    intro k' t hk ht
    rcases hs with rfl | hs
    · exact Or.inl rfl
    · exact ha.2 k k' s t (Ne.symm hk) hs ht
  obtain ⟨a1, a2, a3, a4⟩ := appendMany_spec hg xs w.heap s hv
  generalize appendMany g w.heap s xs = r at *
  have hd' : ∀ k' t, k' ≠ k → w.slots k' = some t → r.2.cap = 0 ∨ t.cap = 0 ∨ r.2.arr ≠ t.arr := by
    intro k' t hk ht
    rcases a4 with e | ⟨e, hc⟩ | e
    · rw [e]; exact hd k' t hk ht
    · rcases hd k' t hk ht with h | h | h
      · omega
      · exact Or.inr (Or.inl h)
      · exact Or.inr (Or.inr (by rw [e]; exact h))
    · rcases (ha.1 k' t ht).2.1 with h | h
      · exact Or.inr (Or.inl h)
      · exact Or.inr (Or.inr (by omega))
  refine ⟨⟨fun k' t ht => ?_, fun k1 k2 s1 s2 hne h1 h2 => ?_⟩, fun k' => ?_⟩
  · simp only [store] at ht ⊢
    by_cases hk : k' = k
    · rw [if_pos hk] at ht
      cases ht
      exact a2
    · rw [if_neg hk] at ht
      exact (a3.read hv (ha.1 k' t ht) (hd k' t hk ht)).2
  · simp only [store] at h1 h2
    by_cases e1 : k1 = k
    · have e2 : k2 ≠ k := fun e => hne (e1.trans e.symm)
      rw [if_pos e1] at h1
      rw [if_neg e2] at h2
      cases h1
      exact hd' k2 s2 e2 h2
    · rw [if_neg e1] at h1
      by_cases e2 : k2 = k
      · rw [if_pos e2] at h2
        cases h2
        rcases hd' k1 s1 e1 h1 with h | h | h
        · exact Or.inr (Or.inl h)
        · exact Or.inl h
        · exact Or.inr (Or.inr (Ne.symm h))
      · rw [if_neg e2] at h2
        exact ha.2 k1 k2 s1 s2 hne h1 h2
  · simp only [store]
    by_cases hk : k' = k
    · rw [if_pos hk, if_pos hk]
      simp [a1]
    · rw [if_neg hk, if_neg hk]
      cases ht : w.slots k' with
      | none => rfl
      | some t => simp [(a3.read hv (ha.1 k' t ht) (hd k' t hk ht)).1]

theorem slot_or (w : W) (k : Which × Str) : w.slot k = Heap.nilSlice ∨ w.slots k = some (w.slot k) := by
  unfold W.slot
  cases w.slots k with
  | none => exact Or.inl rfl
  | some s => exact Or.inr rfl

theorem slot_read (w : W) (m : Which) (k : Str) : w.heap.read (w.slot (m, k)) = (Spec.view w m k).getD [] := by
  unfold W.slot Spec.view
  cases w.slots (m, k) with
  | none => exact Heap.read_nil _ rfl
  | some s => rfl

/-- **C189**: a statement on one of the maps changes this map as it would change a value, and no other map; memory stays apart. -/
theorem C189_step {g : Nat → Nat} (hg : ∀ n, n ≤ g n) {w : W} (ha : Spec.Apart w) (m : Which) (o : VOp) :
    Spec.Apart (step g w m o) ∧
    ∀ m' k, Spec.view (step g w m o) m' k = if m' = m then Spec.effect (Spec.view w m) o k else Spec.view w m' k := by
  cases o with
  | add k xs =>
    have h := store_append hg ha (m, k) (w.slot (m, k)) xs (slot_or w (m, k))
    refine ⟨h.1, fun m' k' => (h.2 (m', k')).trans ?_⟩
    rw [slot_read]
    by_cases e : m' = m <;> by_cases e2 : k' = k <;> simp [e, e2, Spec.effect, Spec.view]
  | set k x =>
    have h := store_append (g := fun n => n) (fun n => Nat.le_refl n) ha (m, k) Heap.nilSlice [x] (Or.inl rfl)
    refine ⟨h.1, fun m' k' => (h.2 (m', k')).trans ?_⟩
    rw [Heap.read_nil _ rfl]
    by_cases e : m' = m <;> by_cases e2 : k' = k <;> simp [e, e2, Spec.effect, Spec.view]
  | del k =>
    refine ⟨⟨fun k' s hs => ?_, fun k1 k2 s1 s2 hne h1 h2 => ?_⟩, fun m' k' => ?_⟩
    · simp only [step] at hs ⊢
      split at hs
      · cases hs
      · exact ha.1 k' s hs
    · simp only [step] at h1 h2
      split at h1
      · cases h1
      · split at h2
        · cases h2
        · exact ha.2 k1 k2 s1 s2 hne h1 h2
    · by_cases e : m' = m <;> by_cases e2 : k' = k <;> simp [e, e2, Spec.effect, Spec.view, step]
  | put k i x =>
    rw [show step g w m (.put k i x) = if i < (w.slot (m, k)).len then { w with heap := w.heap.write (w.slot (m, k)).arr i x } else w from rfl]
    by_cases hi : i < (w.slot (m, k)).len
    · rw [if_pos hi]
      have hs : w.slots (m, k) = some (w.slot (m, k)) := by
        rcases slot_or w (m, k) with h | h
        · rw [h] at hi
          exact absurd hi (Nat.not_lt_zero i)
        · exact h
      have hv := ha.1 _ _ hs
      refine ⟨⟨fun k' s h => write_valid _ i x (ha.1 k' s h), ha.2⟩, fun m' k' => ?_⟩
      by_cases e : (m', k') = (m, k)
      · obtain ⟨rfl, rfl⟩ := Prod.mk.injEq _ _ _ _ ▸ e
        simp only [Spec.view, Spec.effect, if_true, hs, Option.map_some]
        rw [write_read_same i x hv]
      · have h1 : Spec.view { w with heap := w.heap.write (w.slot (m, k)).arr i x } m' k' = Spec.view w m' k' := by
          unfold Spec.view
          cases ht : w.slots (m', k') with
          | none => rfl
          | some t =>
            show some _ = some _
            rw [write_read_other x hv (ha.1 _ _ ht) hi (ha.2 _ _ _ _ (Ne.symm e) hs ht)]
        rw [h1]
        by_cases e1 : m' = m
        · subst e1
          have e2 : k' ≠ k := fun h => e (by rw [h])
          simp [Spec.effect, e2]
        · rw [if_neg e1]
    · rw [if_neg hi]
      refine ⟨ha, fun m' k' => ?_⟩
      by_cases e1 : m' = m
      · subst e1
        rw [if_pos rfl]
        simp only [Spec.effect]
        by_cases e2 : k' = k
        · subst e2
          rw [if_pos rfl]
          unfold W.slot at hi
          simp only [Spec.view]
          cases hs : w.slots (m', k') with
          | none => rfl
          | some s =>
            rw [hs] at hi
            simp only [Option.getD_some] at hi
            simp only [Option.map_some]
            rw [List.set_eq_of_length_le (by rw [Heap.read_length (ha.1 _ _ hs)]; omega)]
        · rw [if_neg e2]
      · rw [if_neg e1]

/-- **C189**: any sequence of statements on the maps: each map goes through its own statements only. -/
theorem C189_separate {g : Nat → Nat} (hg : ∀ n, n ≤ g n) (m : Which) : ∀ (os : List (Which × VOp)) (w : W), Spec.Apart w →
    Spec.view (os.foldl (fun w o => step g w o.1 o.2) w) m =
      ((os.filter (fun o => o.1 = m)).map Prod.snd).foldl Spec.effect (Spec.view w m)
  | [], w, _ => rfl
  | o :: os, w, ha => by
    have h := C189_step hg ha o.1 o.2
    rw [List.foldl_cons, C189_separate hg m os _ h.1]
    have he : Spec.view (step g w o.1 o.2) m = if m = o.1 then Spec.effect (Spec.view w o.1) o.2 else Spec.view w m := by
      funext k
      rw [h.2 m k]
      split <;> rfl
    rw [he]
    by_cases e : o.1 = m
    · rw [if_pos e.symm, List.filter_cons_of_pos (by simp [e])]
      rw [e]
      rfl
    · rw [if_neg (Ne.symm e), List.filter_cons_of_neg (by simp [e])]

theorem mergeFrom_spec {g : Nat → Nat} (hg : ∀ n, n ≤ g n) (src : Which) (hsrc : src ≠ .own) : ∀ (ks : List Str), ks.Nodup → ∀ (w : W), Spec.Apart w →
    Spec.Apart (mergeFrom g src ks w) ∧
    (∀ m k, m ≠ .own → Spec.view (mergeFrom g src ks w) m k = Spec.view w m k) ∧
    (∀ k, Spec.view (mergeFrom g src ks w) .own k =
      if k ∈ ks then some ((Spec.view w .own k).getD [] ++ (Spec.view w src k).getD []) else Spec.view w .own k)
  | [], _, w, ha => ⟨ha, fun _ _ _ => rfl, fun k => by simp [mergeFrom]⟩
  | k0 :: ks, hn, w, ha => by
    have h := C189_step hg ha .own (.add k0 (w.heap.read (w.slot (src, k0))))
    have ih := mergeFrom_spec hg src hsrc ks (List.nodup_cons.mp hn).2 _ h.1
    have hk0 := (List.nodup_cons.mp hn).1
    refine ⟨ih.1, fun m k hm => (ih.2.1 m k hm).trans ?_, fun k => (ih.2.2 k).trans ?_⟩
    · rw [h.2 m k, if_neg hm]
    · rw [h.2 .own k, h.2 src k, if_pos rfl, if_neg hsrc, slot_read]
      by_cases e : k = k0
      · subst e
        rw [if_neg hk0]
        simp [Spec.effect]
      · simp [Spec.effect, e]

/-- **C189**: when more than one map has keys, `Values` is a map of its own: under each key the values of the query, the route and the form; the
three maps are as before, and memory is apart, so that C189_separate holds from then on. -/
theorem C189_merged {g : Nat → Nat} (hg : ∀ n, n ≤ g n) (q r f : List Str) (w : W) (ha : Spec.Apart w)
    (hq : q.Nodup ∧ ∀ k, k ∈ q ↔ Spec.view w .query k ≠ none) (hr : r.Nodup ∧ ∀ k, k ∈ r ↔ Spec.view w .route k ≠ none)
    (hf : f.Nodup ∧ ∀ k, k ∈ f ↔ Spec.view w .form k ≠ none) (ho : ∀ k, Spec.view w .own k = none)
    (h2 : (q ≠ [] ∧ r ≠ []) ∨ (q ≠ [] ∧ f ≠ []) ∨ (r ≠ [] ∧ f ≠ [])) :
    (unify g q r f w).values = .own ∧ Spec.Apart (unify g q r f w) ∧
    (∀ m k, m ≠ .own → Spec.view (unify g q r f w) m k = Spec.view w m k) ∧
    (∀ k, Spec.view (unify g q r f w) .own k = Spec.together [Spec.view w .query k, Spec.view w .route k, Spec.view w .form k]) := by
  have hlen : ∀ l : List Str, l ≠ [] → 0 < l.length := fun l h => List.length_pos_iff.mpr h
  have e : unify g q r f w = { mergeFrom g .form f (mergeFrom g .route r (mergeFrom g .query q w)) with values := .own } := by
    unfold unify
    rcases h2 with ⟨a, b⟩ | ⟨a, b⟩ | ⟨a, b⟩ <;>
      (have := hlen _ a; have := hlen _ b
       rw [if_neg (by omega), if_neg (by omega), if_neg (by omega), if_neg (by omega)])
  obtain ⟨a1, b1, c1⟩ := mergeFrom_spec hg .query (by decide) q hq.1 w ha
  obtain ⟨a2, b2, c2⟩ := mergeFrom_spec hg .route (by decide) r hr.1 _ a1
  obtain ⟨a3, b3, c3⟩ := mergeFrom_spec hg .form (by decide) f hf.1 _ a2
  rw [e]
  refine ⟨rfl, a3, fun m k hm => ((b3 m k hm).trans (b2 m k hm)).trans (b1 m k hm), fun k => (c3 k).trans ?_⟩
  rw [c2 k, c1 k, b2 .form k (by decide), b1 .form k (by decide), b1 .route k (by decide), ho k]
  simp only [hq.2 k, hr.2 k, hf.2 k]
  cases Spec.view w .query k <;> cases Spec.view w .route k <;> cases Spec.view w .form k <;> simp [Spec.together]

/-- **C189**: when only one map has keys, `Values` is that map: what is done to the one is done to the other. -/
theorem C189_single (g : Nat → Nat) (w : W) (ks : List Str) (h : ks ≠ []) :
    unify g ks [] [] w = { w with values := .query } ∧ unify g [] ks [] w = { w with values := .route } ∧
    unify g [] [] ks w = { w with values := .form } := by
  have hl : 0 < ks.length := List.length_pos_iff.mpr h
  unfold unify
  refine ⟨?_, ?_, ?_⟩
  · rw [if_neg (by simp; omega), if_pos (by simp)]
  · rw [if_neg (by simp; omega), if_neg (by simp; omega), if_pos (by simp)]
  · rw [if_neg (by simp; omega), if_neg (by simp; omega), if_neg (by simp; omega), if_pos (by simp)]

/-- **C189**: without any parameter `Values` is an empty map of its own. -/
theorem C189_none (g : Nat → Nat) (w : W) : unify g [] [] [] w = { w with values := .own } := rfl

/-- **C189**: so with a query only, `params.Values.Set` rewrites `params.Query`. -/
theorem C189_query_rewritten {g : Nat → Nat} (hg : ∀ n, n ≤ g n) (w : W) (ha : Spec.Apart w) (ks : List Str) (h : ks ≠ []) (k x : Str) :
    Spec.view (step g (unify g ks [] [] w) (unify g ks [] [] w).values (.set k x)) .query k = some [x] := by
  have e := (C189_single g w ks h).1
  rw [e]
  have hs := (C189_step hg (w := { w with values := .query }) ha .query (.set k x)).2 .query k
  rw [hs]
  simp [Spec.effect]

/-- A query `a=1&b=2` and a form `a=3`, in memory with spare capacity. -/
def exW : W :=
  ⟨⟨3, fun a i => if a = 0 ∧ i = 0 then some b!"1" else if a = 1 ∧ i = 0 then some b!"2" else if a = 2 ∧ i = 0 then some b!"3" else none⟩,
   fun k => if k = (.query, b!"a") then some ⟨0, 1, 4⟩ else if k = (.query, b!"b") then some ⟨1, 1, 1⟩ else if k = (.form, b!"a") then some ⟨2, 1, 2⟩ else none,
   .own⟩

theorem exW_apart : Spec.Apart exW := by
  have hk : ∀ k s, exW.slots k = some s → (k = (.query, b!"a") ∧ s = ⟨0, 1, 4⟩) ∨ (k = (.query, b!"b") ∧ s = ⟨1, 1, 1⟩) ∨ (k = (.form, b!"a") ∧ s = ⟨2, 1, 2⟩) := by
    intro k s h
    simp only [exW] at h
    split at h
    · rename_i e; cases h; exact Or.inl ⟨e, rfl⟩
    · split at h
      · rename_i e; cases h; exact Or.inr (Or.inl ⟨e, rfl⟩)
      · split at h
        · rename_i e; cases h; exact Or.inr (Or.inr ⟨e, rfl⟩)
        · cases h
  refine ⟨fun k s h => ?_, fun k1 k2 s1 s2 hne h1 h2 => ?_⟩
  · rcases hk k s h with ⟨_, rfl⟩ | ⟨_, rfl⟩ | ⟨_, rfl⟩ <;>
      exact ⟨by decide, Or.inr (by decide), fun i hi => by
        have : i = 0 := by simp at hi; omega
        subst this
        decide +kernel⟩
  · rcases hk k1 s1 h1 with ⟨e1, rfl⟩ | ⟨e1, rfl⟩ | ⟨e1, rfl⟩ <;> rcases hk k2 s2 h2 with ⟨e2, rfl⟩ | ⟨e2, rfl⟩ | ⟨e2, rfl⟩ <;>
      first
      | exact absurd (e1.trans e2.symm) hne
      | exact Or.inr (Or.inr (by decide))

theorem C189_example :
    Spec.view (unify (fun n => n) [b!"a", b!"b"] [] [b!"a"] exW) .own b!"a" = some [b!"1", b!"3"] ∧
    Spec.view (step (fun n => n) (unify (fun n => n) [b!"a", b!"b"] [] [b!"a"] exW) .own (.put b!"a" 0 b!"9")) .query b!"a" = some [b!"1"] ∧
    Spec.view (step (fun n => n) (unify (fun n => n) [b!"a", b!"b"] [] [b!"a"] exW) .query (.add b!"a" [b!"9"])) .own b!"a" = some [b!"1", b!"3"] := by
  decide +kernel

end Verif.ParamsHeap
