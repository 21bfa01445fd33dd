/-!
# Go slices with shared backing arrays

A slice is a view `(array, len, cap)` (all slices of the modelled code start at offset 0).  `append`
writes in place when there is spare capacity and otherwise copies into a new array whose capacity is
chosen by the runtime: `grow n` is the capacity chosen for `n` elements, any function with
`n ≤ grow n`.
-/
namespace Verif.Go

/-- The memory holding backing arrays: `cell a i` is cell `i` of array `a`; arrays `≥ next` are not
allocated. -/
structure Heap (α : Type) where
  next : Nat
  cell : Nat → Nat → Option α

structure Slice where
  arr : Nat
  len : Nat
  cap : Nat
deriving DecidableEq, Repr

namespace Heap
variable {α : Type}

def empty : Heap α := ⟨0, fun _ _ => none⟩

/-- The elements of a slice. -/
def read (h : Heap α) (s : Slice) : List α := (List.range s.len).filterMap (h.cell s.arr)

/-- `make([]T, 0, c)`. -/
def make (h : Heap α) (c : Nat) : Heap α × Slice := (⟨h.next + 1, h.cell⟩, ⟨h.next, 0, c⟩)

def write (h : Heap α) (a i : Nat) (x : α) : Heap α :=
  ⟨h.next, fun a' i' => if a' = a ∧ i' = i then some x else h.cell a' i'⟩

/-- `append(s, x)`. -/
def append1 (grow : Nat → Nat) (h : Heap α) (s : Slice) (x : α) : Heap α × Slice :=
  if s.len < s.cap then (h.write s.arr s.len x, { s with len := s.len + 1 })
  else
    let a := h.next
    (⟨h.next + 1, fun a' i' =>
        if a' = a then (if i' < s.len then h.cell s.arr i' else if i' = s.len then some x else none)
        else h.cell a' i'⟩,
     ⟨a, s.len + 1, grow (s.len + 1)⟩)

/-- The nil slice: no array is ever accessed through it. -/
def nilSlice : Slice := ⟨0, 0, 0⟩

/-- A slice is valid: its array is allocated (or it is empty without capacity) and its cells are
initialised. -/
def Valid (h : Heap α) (s : Slice) : Prop :=
  s.len ≤ s.cap ∧ (s.cap = 0 ∨ s.arr < h.next) ∧ ∀ i < s.len, (h.cell s.arr i).isSome

/-- `h'` differs from `h` only in arrays that are new or in cells `≥ from` of array `a`. -/
def Ext (a from_ : Nat) (h h' : Heap α) : Prop :=
  h.next ≤ h'.next ∧ ∀ b, b < h.next → ∀ i, (b = a → i < from_) → h'.cell b i = h.cell b i

/-- `h'` agrees with `h` on everything allocated in `h`. -/
def Pres (h h' : Heap α) : Prop :=
  h.next ≤ h'.next ∧ ∀ b, b < h.next → ∀ i, h'.cell b i = h.cell b i

theorem Pres.refl (h : Heap α) : Pres h h := ⟨Nat.le_refl _, fun _ _ _ => rfl⟩
theorem Pres.trans {h1 h2 h3 : Heap α} (a : Pres h1 h2) (b : Pres h2 h3) : Pres h1 h3 :=
  ⟨Nat.le_trans a.1 b.1, fun c hc i => by rw [b.2 c (Nat.lt_of_lt_of_le hc a.1) i, a.2 c hc i]⟩

theorem Pres.ext {h h' : Heap α} (p : Pres h h') (a f : Nat) : Ext a f h h' :=
  ⟨p.1, fun b hb i _ => p.2 b hb i⟩

theorem Ext.refl (a f : Nat) (h : Heap α) : Ext a f h h := ⟨Nat.le_refl _, fun _ _ _ _ => rfl⟩

theorem Ext.trans {a f : Nat} {h1 h2 h3 : Heap α} (p : Ext a f h1 h2) (q : Ext a f h2 h3) :
    Ext a f h1 h3 :=
  ⟨Nat.le_trans p.1 q.1, fun b hb i hi => by
    rw [q.2 b (Nat.lt_of_lt_of_le hb p.1) i hi, p.2 b hb i hi]⟩

theorem filterMap_congr' {β γ : Type} {f g : β → Option γ} {l : List β} (h : ∀ x ∈ l, f x = g x) :
    l.filterMap f = l.filterMap g := by
  induction l with
  | nil => rfl
  | cons a l ih =>
    rw [List.filterMap_cons, List.filterMap_cons, h a (by simp), ih (fun x hx => h x (by simp [hx]))]

theorem read_eq_of {h h' : Heap α} {s : Slice} (hc : ∀ i < s.len, h'.cell s.arr i = h.cell s.arr i) :
    h'.read s = h.read s := by
  unfold read
  apply filterMap_congr'
  intro i hi
  exact hc i (by simpa using hi)

theorem read_nil (h : Heap α) {s : Slice} (hs : s.len = 0) : h.read s = [] := by
  unfold read; simp [hs]

theorem Ext.read {a f : Nat} {h h' : Heap α} (p : Ext a f h h') {s : Slice} (hv : Valid h s)
    (hs : s.arr = a → s.len ≤ f) : h'.read s = h.read s ∧ Valid h' s := by
  have hc : ∀ i < s.len, h'.cell s.arr i = h.cell s.arr i := by
    intro i hi
    refine p.2 s.arr ?_ i (fun e => Nat.lt_of_lt_of_le hi (hs e))
    rcases hv.2.1 with h0 | h0
    · have := hv.1; omega
    · exact h0
  refine ⟨read_eq_of hc, hv.1, ?_, fun i hi => by rw [hc i hi]; exact hv.2.2 i hi⟩
  rcases hv.2.1 with h0 | h0
  · exact Or.inl h0
  · exact Or.inr (Nat.lt_of_lt_of_le h0 p.1)

theorem Pres.read {h h' : Heap α} (p : Pres h h') {s : Slice} (hv : Valid h s) :
    h'.read s = h.read s ∧ Valid h' s := (p.ext s.arr s.len).read hv (fun _ => Nat.le_refl _)

theorem read_length {h : Heap α} {s : Slice} (hv : Valid h s) : (h.read s).length = s.len := by
  unfold Heap.read
  have : ∀ n, n ≤ s.len → ((List.range n).filterMap (h.cell s.arr)).length = n := by
    intro n
    induction n with
    | zero => intro _; rfl
    | succ n ih =>
      intro hn
      have hs := hv.2.2 n (by omega)
      obtain ⟨x, hx⟩ := Option.isSome_iff_exists.1 hs
      rw [List.range_succ, List.filterMap_append, List.length_append, ih (by omega)]
      simp [hx]
  exact this _ (Nat.le_refl _)

/-- `append` returns the old elements and the new one, is valid, and touches only cells at or beyond
the length of its argument. -/
theorem append1_spec {grow : Nat → Nat} (hg : ∀ n, n ≤ grow n) {h : Heap α} {s : Slice}
    (hv : Valid h s) (x : α) :
    let r := append1 grow h s x
    r.1.read r.2 = h.read s ++ [x] ∧ Valid r.1 r.2 ∧ Ext s.arr s.len h r.1 ∧
      (r.2.arr = s.arr ∨ (h.next ≤ r.2.arr ∧ Pres h r.1)) ∧ r.2.len = s.len + 1 ∧
      (r.2.arr = s.arr ∧ 0 < s.cap ∨ h.next ≤ r.2.arr) := by
  unfold append1
  split
  · rename_i hlt
    have harr : s.arr < h.next := by
      rcases hv.2.1 with h0 | h0
      · omega
      · exact h0
    refine ⟨?_, ⟨by simp; omega, Or.inr harr, ?_⟩, ⟨Nat.le_refl _, ?_⟩, Or.inl rfl, rfl,
      Or.inl ⟨rfl, by omega⟩⟩
    · simp only [read, List.range_succ, List.filterMap_append]
      congr 1
      · apply filterMap_congr'
        intro i hi
        have : i < s.len := by simpa using hi
        simp [write]; omega
      · simp [write]
    · intro i hi
      simp only [write]
      split
      · rfl
      · rename_i hne
        have h1 : i < s.len + 1 := hi
        have h2 : i ≠ s.len := fun e => hne (by simp [e])
        exact hv.2.2 i (by omega)
    · intro b hb i hi
      simp only [write]
      split
      · rename_i he
        have := hi he.1
        omega
      · rfl
  · rename_i hlt
    refine ⟨?_, ⟨by simpa using hg _, Or.inr (by simp), ?_⟩, ?_, Or.inr ⟨Nat.le_refl _, ?_⟩, rfl,
      Or.inr (Nat.le_refl _)⟩
    · simp only [read, List.range_succ, List.filterMap_append]
      congr 1
      · apply filterMap_congr'
        intro i hi
        have : i < s.len := by simpa using hi
        simp [this]
      · simp
    · intro i hi
      simp at hi
      simp only [if_true]
      split
      · exact hv.2.2 i (by omega)
      · have : i = s.len := by omega
        simp [this]
    · refine ⟨by simp, ?_⟩
      intro b hb i _
      have : b ≠ h.next := by omega
      simp [this]
    · refine ⟨by simp, ?_⟩
      intro b hb i
      have : b ≠ h.next := by omega
      simp [this]

end Heap
end Verif.Go
