import Verif.Go.Bytes
import Verif.Go.Path
/-! Helper lemmas about byte strings (no property theorems here). -/
namespace Verif.Go

theorem splitOn1_ne_nil (sep : UInt8) (s : Str) : splitOn1 sep s ≠ [] := by
  cases s with
  | nil => simp [splitOn1]
  | cons c cs => unfold splitOn1; split <;> (try split) <;> simp_all

theorem join1_splitOn1 (sep : UInt8) (s : Str) : join1 sep (splitOn1 sep s) = s := by
  induction s with
  | nil => rfl
  | cons c cs ih =>
    unfold splitOn1
    have hne := splitOn1_ne_nil sep cs
    split
    · rename_i h
      cases hs : splitOn1 sep cs with
      | nil => exact absurd hs hne
      | cons h t => rw [hs] at ih; simp [join1, ih, *]
    · cases hs : splitOn1 sep cs with
      | nil => exact absurd hs hne
      | cons h t =>
        rw [hs] at ih
        cases t with
        | nil => simp [join1] at ih ⊢; exact ih
        | cons y ys => simp [join1] at ih ⊢; exact ih

theorem sep_not_mem_splitOn1 (sep : UInt8) (s : Str) : ∀ x ∈ splitOn1 sep s, sep ∉ x := by
  induction s with
  | nil => simp [splitOn1]
  | cons c cs ih =>
    unfold splitOn1
    split
    · simpa using ih
    · rename_i hc
      cases hs : splitOn1 sep cs with
      | nil => simp; exact fun h => hc h.symm
      | cons h t =>
        rw [hs] at ih
        intro x hx
        simp at hx ih
        rcases hx with rfl | hx
        · simp; exact ⟨fun h => hc h.symm, ih.1⟩
        · exact ih.2 x hx

theorem splitOn1_of_not_mem (sep : UInt8) (s : Str) (h : sep ∉ s) : splitOn1 sep s = [s] := by
  induction s with
  | nil => rfl
  | cons c cs ih =>
    simp at h
    unfold splitOn1
    rw [if_neg (fun e => h.1 e.symm), ih h.2]

theorem splitOn1_append_sep (sep : UInt8) (a b : Str) (h : sep ∉ a) :
    splitOn1 sep (a ++ sep :: b) = a :: splitOn1 sep b := by
  induction a with
  | nil => simp [splitOn1]
  | cons c cs ih =>
    simp at h
    rw [List.cons_append]
    conv => lhs; unfold splitOn1
    rw [if_neg (fun e => h.1 e.symm), ih h.2]

theorem splitOn1_join1 (sep : UInt8) (xs : List Str) (hne : xs ≠ [])
    (h : ∀ x ∈ xs, sep ∉ x) : splitOn1 sep (join1 sep xs) = xs := by
  induction xs with
  | nil => exact absurd rfl hne
  | cons x xs ih =>
    cases xs with
    | nil => simp [join1]; exact splitOn1_of_not_mem _ _ (h x (by simp))
    | cons y ys =>
      simp only [join1]
      rw [splitOn1_append_sep _ _ _ (h x (by simp)), ih (by simp) (fun z hz => h z (by simp_all))]

end Verif.Go
