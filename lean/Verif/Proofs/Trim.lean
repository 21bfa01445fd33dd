import Verif.Proofs.Config
/-!
# What `strings.TrimSpace` does

The white-space runes written out as bytes (unicode.IsSpace), and the characterisation of the model's `trimSpace`:
the text without the white space around it.
-/
namespace Verif.Go
open Verif.Conf

/-- The UTF-8 encodings of the runes for which `unicode.IsSpace` holds. -/
inductive SpaceRune : Str → Prop where
  | ascii (c : UInt8) (h : c = 9 ∨ c = 10 ∨ c = 11 ∨ c = 12 ∨ c = 13 ∨ c = 32) : SpaceRune [c]
  /-- U+0085, U+00A0 -/
  | latin (c : UInt8) (h : c = 0x85 ∨ c = 0xA0) : SpaceRune [0xC2, c]
  /-- U+1680 -/
  | ogham : SpaceRune [0xE1, 0x9A, 0x80]
  /-- U+2000 to U+200A, U+2028, U+2029, U+202F -/
  | general (c : UInt8) (h : (0x80 ≤ c ∧ c ≤ 0x8A) ∨ c = 0xA8 ∨ c = 0xA9 ∨ c = 0xAF) : SpaceRune [0xE2, 0x80, c]
  /-- U+205F -/
  | math : SpaceRune [0xE2, 0x81, 0x9F]
  /-- U+3000 -/
  | ideographic : SpaceRune [0xE3, 0x80, 0x80]

/-- White space only: a sequence of white-space runes. -/
def Spaces (w : Str) : Prop := ∃ rs : List Str, (∀ r ∈ rs, SpaceRune r) ∧ w = rs.flatten

theorem spaces_nil : Spaces [] := ⟨[], by simp, rfl⟩

theorem spaces_append {a b : Str} (ha : Spaces a) (hb : Spaces b) : Spaces (a ++ b) := by
  obtain ⟨ra, h1, rfl⟩ := ha
  obtain ⟨rb, h2, rfl⟩ := hb
  exact ⟨ra ++ rb, fun r hr => (List.mem_append.1 hr).elim (h1 r) (h2 r), by simp⟩

theorem spaces_rune {r : Str} (h : SpaceRune r) : Spaces r := ⟨[r], by simpa using h, by simp⟩

theorem rune_cases (r : Str) : SpaceRune r ↔
    (∃ c, r = [c] ∧ asciiSp c = true) ∨ (∃ a b, r = [a, b] ∧ sp2 a b = true) ∨
    (∃ a b c, r = [a, b, c] ∧ sp3 a b c = true) := by
  constructor
  · intro h
    cases h with
    | ascii c h => exact Or.inl ⟨c, rfl, (asciiSp_iff c).1 h⟩
    | latin c h => exact Or.inr (Or.inl ⟨_, _, rfl, by simpa [sp2] using h⟩)
    | ogham => exact Or.inr (Or.inr ⟨_, _, _, rfl, by decide⟩)
    | general c h => exact Or.inr (Or.inr ⟨_, _, _, rfl, by simp [sp3]; simpa [or_assoc] using h⟩)
    | math => exact Or.inr (Or.inr ⟨_, _, _, rfl, by decide⟩)
    | ideographic => exact Or.inr (Or.inr ⟨_, _, _, rfl, by decide⟩)
  · rintro (⟨c, rfl, h⟩ | ⟨a, b, rfl, h⟩ | ⟨a, b, c, rfl, h⟩)
    · exact .ascii c ((asciiSp_iff c).2 h)
    · simp only [sp2, Bool.and_eq_true, Bool.or_eq_true, beq_iff_eq] at h
      obtain ⟨rfl, h⟩ := h
      exact .latin b h
    · simp only [sp3, Bool.or_eq_true, Bool.and_eq_true, beq_iff_eq, decide_eq_true_eq] at h
      rcases h with ((⟨⟨rfl, rfl⟩, rfl⟩ | ⟨⟨rfl, rfl⟩, e3⟩) | ⟨⟨rfl, rfl⟩, rfl⟩) | ⟨⟨rfl, rfl⟩, rfl⟩
      · exact .ogham
      · exact .general c (by rcases e3 with ((e | e) | e) | e <;> simp [e])
      · exact .math
      · exact .ideographic

theorem asciiSp_lt {c : UInt8} (h : asciiSp c = true) : c.toNat < 128 := by
  rcases (asciiSp_iff c).2 h with h | h | h | h | h | h <;> subst h <;> decide

theorem rune_len {r : Str} (h : SpaceRune r) : 0 < r.length := by
  rcases (rune_cases r).1 h with ⟨c, rfl, _⟩ | ⟨a, b, rfl, _⟩ | ⟨a, b, c, rfl, _⟩ <;> simp

/-- a rune in front is seen -/
theorem spaceLen_rune {r : Str} (h : SpaceRune r) (s : Str) : spaceLen (r ++ s) = r.length := by
  rcases (rune_cases r).1 h with ⟨c, rfl, h'⟩ | ⟨a, b, rfl, h'⟩ | ⟨a, b, c, rfl, h'⟩
  · rcases s with _ | ⟨x, _ | ⟨y, s⟩⟩
    · simp [spaceLen1, h']
    · simp [spaceLen2, h']
    · simp [spaceLen3, h']
  · have ha : asciiSp a = false := by
      cases e : asciiSp a with
      | false => rfl
      | true => have := asciiSp_lt e; have := sp2_hi h'; omega
    rcases s with _ | ⟨x, s⟩
    · simp [spaceLen2, h', ha]
    · simp [spaceLen3, h', ha]
  · obtain ⟨h1, h2⟩ := sp3_asciiSp h'
    simp [spaceLen3, h', h1, h2]

/-- a rune at the end is seen -/
theorem spaceLenRev_rune {r : Str} (h : SpaceRune r) (s : Str) : spaceLenRev (r.reverse ++ s) = r.length := by
  rcases (rune_cases r).1 h with ⟨c, rfl, h'⟩ | ⟨a, b, rfl, h'⟩ | ⟨a, b, c, rfl, h'⟩
  · rcases s with _ | ⟨x, _ | ⟨y, s⟩⟩
    · simp [spaceLenRev1, h']
    · simp [spaceLenRev2, h']
    · simp [spaceLenRev3, h']
  · have ha : asciiSp b = false := by
      cases e : asciiSp b with
      | false => rfl
      | true => have := asciiSp_lt e; have := sp2_hi h'; omega
    have hC : a = 0xC2 := by simp only [sp2, Bool.and_eq_true, beq_iff_eq] at h'; exact h'.1
    rcases s with _ | ⟨x, s⟩
    · simp [spaceLenRev2, h', ha]
    · simp only [List.reverse_cons, List.reverse_nil, List.nil_append, List.cons_append, spaceLenRev3]
      rw [if_neg (by simp [ha]), if_pos hC, if_pos h']; rfl
  · have ha : asciiSp c = false := by
      cases e : asciiSp c with
      | false => rfl
      | true => have := asciiSp_lt e; have := sp3_hi h'; omega
    have hb : b ≠ 0xC2 := by
      simp only [sp3, Bool.or_eq_true, Bool.and_eq_true, beq_iff_eq] at h'
      rcases h' with ((⟨⟨_, e⟩, _⟩ | ⟨⟨_, e⟩, _⟩) | ⟨⟨_, e⟩, _⟩) | ⟨⟨_, e⟩, _⟩ <;> rw [e] <;> decide
    simp only [List.reverse_cons, List.reverse_nil, List.nil_append, List.cons_append, spaceLenRev3]
    rw [if_neg (by simp [ha]), if_neg hb, if_pos h']; rfl

/-- what is seen in front is a rune -/
theorem rune_of_spaceLen {s : Str} (h : spaceLen s ≠ 0) : SpaceRune (s.take (spaceLen s)) := by
  rcases s with _ | ⟨a, _ | ⟨b, _ | ⟨c, s⟩⟩⟩
  · simp [spaceLen] at h
  · rw [spaceLen1] at h ⊢
    by_cases e : asciiSp a = true
    · rw [if_pos e]; exact (rune_cases _).2 (Or.inl ⟨a, rfl, e⟩)
    · rw [if_neg e] at h; exact absurd rfl h
  · rw [spaceLen2] at h ⊢
    by_cases e : asciiSp a = true
    · rw [if_pos e]; exact (rune_cases _).2 (Or.inl ⟨a, rfl, e⟩)
    · rw [if_neg e] at h ⊢
      by_cases e2 : sp2 a b = true
      · rw [if_pos e2]; exact (rune_cases _).2 (Or.inr (Or.inl ⟨a, b, rfl, e2⟩))
      · rw [if_neg e2] at h; exact absurd rfl h
  · rw [spaceLen3] at h ⊢
    by_cases e : asciiSp a = true
    · rw [if_pos e]; exact (rune_cases _).2 (Or.inl ⟨a, rfl, e⟩)
    · rw [if_neg e] at h ⊢
      by_cases e2 : sp2 a b = true
      · rw [if_pos e2]; exact (rune_cases _).2 (Or.inr (Or.inl ⟨a, b, rfl, e2⟩))
      · rw [if_neg e2] at h ⊢
        by_cases e3 : sp3 a b c = true
        · rw [if_pos e3]; exact (rune_cases _).2 (Or.inr (Or.inr ⟨a, b, c, rfl, e3⟩))
        · rw [if_neg e3] at h; exact absurd rfl h

/-- what is seen at the end is a rune -/
theorem rune_of_spaceLenRev {s : Str} (h : spaceLenRev s ≠ 0) : SpaceRune (s.take (spaceLenRev s)).reverse := by
  rcases s with _ | ⟨c, _ | ⟨b, _ | ⟨a, s⟩⟩⟩
  · simp [spaceLenRev] at h
  · rw [spaceLenRev1] at h ⊢
    by_cases e : asciiSp c = true
    · rw [if_pos e]; exact (rune_cases _).2 (Or.inl ⟨c, rfl, e⟩)
    · rw [if_neg e] at h; exact absurd rfl h
  · rw [spaceLenRev2] at h ⊢
    by_cases e : asciiSp c = true
    · rw [if_pos e]; exact (rune_cases _).2 (Or.inl ⟨c, rfl, e⟩)
    · rw [if_neg e] at h ⊢
      by_cases e2 : sp2 b c = true
      · rw [if_pos e2]; exact (rune_cases _).2 (Or.inr (Or.inl ⟨b, c, rfl, e2⟩))
      · rw [if_neg e2] at h; exact absurd rfl h
  · rw [spaceLenRev3] at h ⊢
    by_cases e : asciiSp c = true
    · rw [if_pos e]; exact (rune_cases _).2 (Or.inl ⟨c, rfl, e⟩)
    · rw [if_neg e] at h ⊢
      by_cases hb : b = 0xC2
      · rw [if_pos hb] at h ⊢
        by_cases e2 : sp2 b c = true
        · rw [if_pos e2]; exact (rune_cases _).2 (Or.inr (Or.inl ⟨b, c, rfl, e2⟩))
        · rw [if_neg e2] at h; exact absurd rfl h
      · rw [if_neg hb] at h ⊢
        by_cases e3 : sp3 a b c = true
        · rw [if_pos e3]; exact (rune_cases _).2 (Or.inr (Or.inr ⟨a, b, c, rfl, e3⟩))
        · rw [if_neg e3] at h; exact absurd rfl h

theorem spaceLen_le (s : Str) : spaceLen s ≤ s.length := by
  rcases s with _ | ⟨a, _ | ⟨b, _ | ⟨c, s⟩⟩⟩
  · simp [spaceLen]
  · rw [spaceLen1]; split <;> simp
  · rw [spaceLen2]; split <;> (try split) <;> simp
  · rw [spaceLen3]; split <;> (try split) <;> (try split) <;> simp <;> omega

theorem spaceLenRev_le' (s : Str) : spaceLenRev s ≤ s.length := by
  rcases s with _ | ⟨a, _ | ⟨b, _ | ⟨c, s⟩⟩⟩
  · simp [spaceLenRev]
  · rw [spaceLenRev1]; split <;> simp
  · rw [spaceLenRev2]; split <;> (try split) <;> simp
  · rw [spaceLenRev3]; split <;> (try split) <;> (try split) <;> simp <;> omega

theorem trimLeftF_spec : ∀ (n : Nat) (s : Str), s.length ≤ n →
    ∃ w, Spaces w ∧ s = w ++ trimLeftF n s ∧ spaceLen (trimLeftF n s) = 0 := by
  intro n
  induction n with
  | zero =>
    intro s h
    obtain rfl : s = [] := List.length_eq_zero_iff.1 (by omega)
    exact ⟨[], spaces_nil, rfl, rfl⟩
  | succ n ih =>
    intro s h
    rw [trimLeftF]
    by_cases e : spaceLen s = 0
    · rw [if_pos e]; exact ⟨[], spaces_nil, rfl, e⟩
    · rw [if_neg e]
      obtain ⟨w, h1, h2, h3⟩ := ih (s.drop (spaceLen s)) (by simp; omega)
      refine ⟨s.take (spaceLen s) ++ w, spaces_append (spaces_rune (rune_of_spaceLen e)) h1, ?_, h3⟩
      rw [List.append_assoc, ← h2, List.take_append_drop]

theorem trimLeftRevF_spec : ∀ (n : Nat) (s : Str), s.length ≤ n →
    ∃ w, Spaces w ∧ s = w.reverse ++ trimLeftRevF n s ∧ spaceLenRev (trimLeftRevF n s) = 0 := by
  intro n
  induction n with
  | zero =>
    intro s h
    obtain rfl : s = [] := List.length_eq_zero_iff.1 (by omega)
    exact ⟨[], spaces_nil, rfl, rfl⟩
  | succ n ih =>
    intro s h
    rw [trimLeftRevF]
    by_cases e : spaceLenRev s = 0
    · rw [if_pos e]; exact ⟨[], spaces_nil, rfl, e⟩
    · rw [if_neg e]
      obtain ⟨w, h1, h2, h3⟩ := ih (s.drop (spaceLenRev s)) (by simp; omega)
      refine ⟨w ++ (s.take (spaceLenRev s)).reverse, spaces_append h1 (spaces_rune (rune_of_spaceLenRev e)), ?_, h3⟩
      rw [List.reverse_append, List.reverse_reverse, List.append_assoc, ← h2, List.take_append_drop]

theorem spaceLen_prefix {s t : Str} (h : spaceLen (s ++ t) = 0) : spaceLen s = 0 := by
  apply Classical.byContradiction
  intro e
  have hr := rune_of_spaceLen e
  have := spaceLen_rune hr (s.drop (spaceLen s) ++ t)
  rw [← List.append_assoc, List.take_append_drop, h] at this
  have := rune_len hr
  omega

/-- **What `TrimSpace` does**: the text is white space, the result, white space; and the result neither starts nor
ends with a white-space rune. -/
theorem trimSpace_spec (s : Str) : ∃ w w', Spaces w ∧ Spaces w' ∧ s = w ++ trimSpace s ++ w' ∧
    (∀ r, SpaceRune r → ¬ r <+: trimSpace s) ∧ ∀ r, SpaceRune r → ¬ r <:+ trimSpace s := by
  obtain ⟨w, h1, h2, h3⟩ := trimLeftF_spec s.length s (Nat.le_refl _)
  obtain ⟨w', g1, g2, g3⟩ := trimLeftRevF_spec (trimLeft s).length (trimLeft s).reverse (by simp)
  have e : trimLeft s = trimSpace s ++ w' := by
    have := congrArg List.reverse g2
    rw [List.reverse_reverse, List.reverse_append, List.reverse_reverse] at this
    exact this
  have h0 : spaceLen (trimSpace s) = 0 := spaceLen_prefix (t := w') (by rw [← e]; exact h3)
  have hR : spaceLenRev (trimSpace s).reverse = 0 := by
    show spaceLenRev ((trimLeftRevF (trimLeft s).length (trimLeft s).reverse).reverse).reverse = 0
    rw [List.reverse_reverse]; exact g3
  refine ⟨w, w', h1, g1, ?_, ?_, ?_⟩
  · rw [List.append_assoc, ← e]; exact h2
  · rintro r hr ⟨t, ht⟩
    have := spaceLen_rune hr t
    rw [ht, h0] at this
    have := rune_len hr
    omega
  · rintro r hr ⟨t, ht⟩
    have := spaceLenRev_rune hr t.reverse
    rw [← List.reverse_append, ht, hR] at this
    have := rune_len hr
    omega

theorem trimLeftF_spaces (s : Str) (hs : spaceLen s = 0) (rs : List Str) (hr : ∀ r ∈ rs, SpaceRune r) :
    ∀ n, rs.flatten.length ≤ n → trimLeftF n (rs.flatten ++ s) = s := by
  induction rs with
  | nil =>
    intro n _
    cases n with
    | zero => rfl
    | succ n => rw [trimLeftF]; simp [hs]
  | cons r rs ih =>
    intro n hn
    have h1 := hr r (List.mem_cons_self ..)
    have := rune_len h1
    simp only [List.flatten_cons, List.length_append] at hn
    cases n with
    | zero => omega
    | succ n =>
      rw [trimLeftF, List.flatten_cons, List.append_assoc, spaceLen_rune h1, if_neg (by omega),
        List.drop_left' rfl]
      exact ih (fun x hx => hr x (List.mem_cons_of_mem _ hx)) n (by omega)

theorem trimLeftRevF_spaces (s : Str) (hs : spaceLenRev s = 0) (rs : List Str) (hr : ∀ r ∈ rs, SpaceRune r) :
    ∀ n, rs.flatten.length ≤ n → trimLeftRevF n ((rs.map List.reverse).flatten ++ s) = s := by
  induction rs with
  | nil =>
    intro n _
    cases n with
    | zero => rfl
    | succ n => rw [trimLeftRevF]; simp [hs]
  | cons r rs ih =>
    intro n hn
    have h1 := hr r (List.mem_cons_self ..)
    have := rune_len h1
    simp only [List.flatten_cons, List.length_append] at hn
    cases n with
    | zero => omega
    | succ n =>
      rw [trimLeftRevF, List.map_cons, List.flatten_cons, List.append_assoc, spaceLenRev_rune h1, if_neg (by omega),
        List.drop_left' (by simp)]
      exact ih (fun x hx => hr x (List.mem_cons_of_mem _ hx)) n (by omega)

theorem reverse_flatten' (rs : List Str) : rs.flatten.reverse = (rs.reverse.map List.reverse).flatten := by
  induction rs with
  | nil => rfl
  | cons r rs ih => simp [ih]

/-- A text that neither starts nor ends with white space comes back from `TrimSpace` whatever white space is put
around it (provided joining it to the white space in front makes no new rune at its start: white space is whole
runes, so this is about `t` alone). -/
theorem trimSpace_unique {w t w' : Str} (hw : Spaces w) (hw' : Spaces w') (h0 : t ≠ [])
    (h1 : spaceLen (t ++ w') = 0) (h2 : spaceLenRev t.reverse = 0) : trimSpace (w ++ t ++ w') = t := by
  obtain ⟨rs, hr, rfl⟩ := hw
  obtain ⟨rs', hr', rfl⟩ := hw'
  have hl : trimLeft (rs.flatten ++ t ++ rs'.flatten) = t ++ rs'.flatten := by
    unfold trimLeft
    rw [List.append_assoc]
    exact trimLeftF_spaces _ h1 rs hr _ (by simp)
  unfold trimSpace
  rw [hl]
  unfold trimRight
  rw [List.reverse_append, reverse_flatten',
    trimLeftRevF_spaces _ h2 rs'.reverse (fun r h => hr' r (List.mem_reverse.1 h)) _ (by
      rw [List.length_append]
      have : rs'.reverse.flatten.length = rs'.flatten.length := by
        clear hl h1 hr'
        induction rs' with
        | nil => rfl
        | cons a b ih => simp [ih]; omega
      rw [this]; omega), List.reverse_reverse]

theorem spaceLen_zero {s : Str} (h : ∀ x a, SpaceRune x → s ≠ x ++ a) : spaceLen s = 0 := by
  by_cases h0 : spaceLen s = 0
  · exact h0
  · exact absurd (List.take_append_drop (spaceLen s) s).symm (h _ _ (rune_of_spaceLen h0))

theorem spaceLenRev_zero {s : Str} (h : ∀ x a, SpaceRune x → s ≠ a ++ x) : spaceLenRev s.reverse = 0 := by
  by_cases h0 : spaceLenRev s.reverse = 0
  · exact h0
  · have e := congrArg List.reverse (List.take_append_drop (spaceLenRev s.reverse) s.reverse)
    rw [List.reverse_append, List.reverse_reverse] at e
    exact absurd e.symm (h _ _ (rune_of_spaceLenRev h0))

end Verif.Go
