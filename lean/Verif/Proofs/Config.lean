import Verif.Model.Config
import Verif.Proofs.Bytes
/-! Lemmas about the INI parser (no property theorems here). -/
namespace Verif.Conf
open Verif.Go

/-- not a panic -/
def Safe {α : Type} : Res α → Prop
  | .panic => False
  | _ => True

theorem Safe.bind {α β : Type} {x : Res α} {f : α → Res β} (h : Safe x) (hf : ∀ a, x = .ok a → Safe (f a)) :
    Safe (x.bind f) := by
  cases x with
  | ok a => exact hf a rfl
  | err e => trivial
  | panic => exact h

theorem at1_safe {s : Str} {i : Int} (h0 : 0 ≤ i) (h : i < s.length) : Safe (at1 s i) := by
  unfold at1
  rw [if_pos ⟨h0, h⟩]
  have : i.toNat < s.length := by omega
  rw [List.getElem?_eq_getElem this]
  trivial

theorem slice_ok {s : Str} {a b : Int} (h0 : 0 ≤ a) (h1 : a ≤ b) (h2 : b ≤ s.length) :
    slice s a b = .ok ((s.take b.toNat).drop a.toNat) := by
  unfold slice
  rw [if_pos ⟨h0, h1, h2⟩]

theorem slice_safe {s : Str} {a b : Int} (h0 : 0 ≤ a) (h1 : a ≤ b) (h2 : b ≤ s.length) : Safe (slice s a b) := by
  rw [slice_ok h0 h1 h2]; trivial

theorem slice_to_end {s : Str} {a : Nat} (h : a ≤ s.length) : slice s a s.length = .ok (s.drop a) := by
  rw [slice_ok (by omega) (by omega) (by omega)]
  simp

theorem slice_from_start {s : Str} {b : Nat} (h : b ≤ s.length) : slice s 0 b = .ok (s.take b) := by
  rw [slice_ok (by omega) (by omega) (by omega)]
  simp

theorem slice_mid {s : Str} {a b : Nat} (h1 : a ≤ b) (h2 : b ≤ s.length) :
    slice s a b = .ok ((s.take b).drop a) := by
  rw [slice_ok (by omega) (by omega) (by omega)]
  simp

theorem index_bounds (sub s : Str) :
    index sub s = -1 ∨ (0 ≤ index sub s ∧ index sub s + sub.length ≤ s.length) := by
  induction s with
  | nil =>
    unfold index
    by_cases h : sub = []
    · right; simp [h]
    · left; simp [h]
  | cons c cs ih =>
    unfold index
    split
    · right
      rename_i h
      have := h.length_le
      simp only [List.length_cons] at this ⊢
      omega
    · simp only
      rcases ih with e | ⟨e1, e2⟩
      · left; rw [e]; rfl
      · right
        rw [if_neg (by omega)]
        simp only [List.length_cons]
        omega

theorem lastIndex_bounds (sub s : Str) :
    lastIndex sub s = -1 ∨ (0 ≤ lastIndex sub s ∧ lastIndex sub s + sub.length ≤ s.length) := by
  induction s with
  | nil =>
    unfold lastIndex
    by_cases h : sub = []
    · right; simp [h]
    · left; simp [h]
  | cons c cs ih =>
    unfold lastIndex
    simp only
    rcases ih with e | ⟨e1, e2⟩
    · rw [e, if_pos (by omega)]
      split
      · right
        rename_i h
        have := h.length_le
        simp only [List.length_cons] at this ⊢
        omega
      · left; rfl
    · right
      rw [if_neg (by omega)]
      simp only [List.length_cons]
      omega

theorem indexSep_bounds (s : Str) : indexSep s = -1 ∨ (0 ≤ indexSep s ∧ indexSep s < s.length) := by
  induction s with
  | nil => left; rfl
  | cons c cs ih =>
    unfold indexSep
    split
    · right; simp only [List.length_cons]; omega
    · simp only
      rcases ih with e | ⟨e1, e2⟩
      · left; rw [e]; rfl
      · right
        rw [if_neg (by omega)]
        simp only [List.length_cons]
        omega

theorem keyQuote_spec {line : Str} (h : line ≠ []) :
    ∃ q, keyQuote line = .ok q ∧ (q : List UInt8).length ≤ line.length := by
  obtain ⟨c, cs, rfl⟩ := List.exists_cons_of_ne_nil h
  unfold keyQuote at1
  rw [if_pos ⟨by omega, by simp only [List.length_cons]; omega⟩]
  simp only [Int.toNat_zero, List.getElem?_cons_zero, Res.bind]
  split
  · split
    · rename_i h6
      rw [slice_ok (by omega) (by omega) (by omega)]
      refine ⟨_, rfl, ?_⟩
      split <;> simp at h6 ⊢ <;> omega
    · exact ⟨_, rfl, by simp⟩
  · split
    · exact ⟨_, rfl, by simp⟩
    · exact ⟨_, rfl, by simp⟩

theorem keyPart_spec {line : Str} (h : line ≠ []) :
    Safe (keyPart line) ∧ ∀ ki, keyPart line = .ok ki → 0 ≤ ki.2 ∧ ki.2 < line.length := by
  unfold keyPart
  obtain ⟨q, e, hq⟩ := keyQuote_spec h
  rw [e]
  simp only [Res.bind]
  by_cases hne : q = []
  · rw [if_neg (by simp [hne])]
    by_cases hs : indexSep line ≤ 0
    · rw [if_pos hs]
      exact ⟨trivial, fun ki hk => by cases hk⟩
    · rw [if_neg hs]
      have hb : 0 ≤ indexSep line ∧ indexSep line < line.length := by
        rcases indexSep_bounds line with e | e
        · omega
        · exact e
      rw [slice_ok (by omega) (by omega) (by omega)]
      refine ⟨trivial, fun ki hk => ?_⟩
      cases hk
      exact hb
  · rw [if_pos hne, slice_to_end hq]
    simp only
    by_cases hi : index q (line.drop q.length) = -1
    · rw [if_pos hi]
      exact ⟨trivial, fun ki hk => by cases hk⟩
    · rw [if_neg hi]
      have hb : 0 ≤ index q (line.drop q.length) ∧
          index q (line.drop q.length) + q.length ≤ (line.drop q.length).length := by
        rcases index_bounds q (line.drop q.length) with e | e
        · exact absurd e hi
        · exact e
      rw [List.length_drop] at hb
      rw [slice_ok (s := line) (a := index q (line.drop q.length) + q.length) (by omega) (by omega) (by omega)]
      simp only
      generalize ht : List.drop _ (List.take _ line) = tail
      by_cases hs : indexSep tail ≤ 0
      · rw [if_pos hs]
        exact ⟨trivial, fun ki hk => by cases hk⟩
      · rw [if_neg hs]
        have hb' : 0 ≤ indexSep tail ∧ indexSep tail < tail.length := by
          rcases indexSep_bounds tail with e | e
          · omega
          · exact e
        have hl : tail.length ≤ line.length - (index q (line.drop q.length) + q.length).toNat := by
          rw [← ht, List.length_drop, List.length_take]; omega
        rw [slice_ok (s := line) (a := q.length) (by omega) (by omega) (by omega)]
        refine ⟨trivial, fun ki hk => ?_⟩
        cases hk
        simp only
        omega

theorem valQuote_spec (r : Str) : ∃ q, valQuote r = .ok q ∧ (q : List UInt8).length ≤ r.length := by
  unfold valQuote
  have h1 : ∃ f, (if r.length ≥ 2 then slice r 0 1 else .ok []) = Res.ok f := by
    split
    · rw [slice_ok (by omega) (by omega) (by omega)]; exact ⟨_, rfl⟩
    · exact ⟨_, rfl⟩
  by_cases h2 : r.length ≥ 2
  · rw [if_pos h2, slice_ok (by omega) (by omega) (by omega)]
    simp only [Res.bind]
    split
    · exact ⟨_, rfl, by simp; omega⟩
    · split
      · rw [slice_ok (by omega) (by omega) (by omega)]
        refine ⟨_, rfl, ?_⟩
        split <;> simp <;> omega
      · exact ⟨_, rfl, by simp⟩
  · rw [if_neg h2]
    simp only [Res.bind]
    rw [if_neg (by simp), if_neg (by omega)]
    exact ⟨_, rfl, by simp⟩

theorem valPart_safe (line r : Str) : Safe (valPart line r) := by
  unfold valPart
  obtain ⟨q, e, hq⟩ := valQuote_spec r
  rw [e]
  simp only [Res.bind]
  split
  · rw [slice_to_end hq]
    simp only
    split
    · trivial
    · rename_i hi
      have hb : 0 ≤ lastIndex q (r.drop q.length) ∧
          lastIndex q (r.drop q.length) + q.length ≤ (r.drop q.length).length := by
        rcases lastIndex_bounds q (r.drop q.length) with e | e
        · exact absurd e hi
        · exact e
      rw [List.length_drop] at hb
      exact slice_safe (by omega) (by omega) (by omega)
  · trivial

theorem entryLine_safe (st : PState) {line : Str} (h : line ≠ []) : Safe (entryLine st line) := by
  unfold entryLine
  obtain ⟨h1, h2⟩ := keyPart_spec h
  refine h1.bind fun ki e => ?_
  obtain ⟨i1, i2⟩ := h2 ki e
  refine (slice_safe (by omega) (by omega) (by omega)).bind fun right _ => ?_
  refine (valPart_safe _ _).bind fun v _ => ?_
  split <;> trivial

theorem at1_ok {s : Str} {i : Int} {c : UInt8} (h : at1 s i = .ok c) : s[i.toNat]? = some c ∧ 0 ≤ i ∧ i < s.length := by
  unfold at1 at h
  split at h
  · rename_i hb
    split at h
    · cases h; exact ⟨by assumption, hb⟩
    · cases h
  · cases h

theorem parseLine_safe (st : PState) (line : Str) : Safe (parseLine st line) := by
  unfold parseLine
  split
  · trivial
  · rename_i hl
    have hne : line ≠ [] := by intro e; subst e; exact hl rfl
    refine (at1_safe (by omega) (by omega)).bind fun c hc => ?_
    split
    · trivial
    · refine (at1_safe (by omega) (by omega)).bind fun e he => ?_
      split
      · rename_i hce
        have h2 : 2 ≤ line.length := by
          by_cases h1 : line.length = 1
          · exfalso
            have a := (at1_ok hc).1
            have b := (at1_ok he).1
            rw [h1] at b
            rw [hce.1] at a
            rw [hce.2] at b
            have : (some (91 : UInt8)) = some 93 := by
              rw [← a, ← b]; rfl
            revert this; decide
          · omega
        refine (slice_safe (by omega) (by omega) (by omega)).bind fun inner _ => ?_
        split <;> trivial
      · exact entryLine_safe st hne

theorem parseLines_safe (st : PState) (ls : List Str) : Safe (parseLines st ls) := by
  induction ls generalizing st with
  | nil => trivial
  | cons l ls ih => exact (parseLine_safe st _).bind fun st' _ => ih st'

theorem load_safe (d : Data) (s : Str) (fail : Bool) : Safe (loadFromReader d s fail) := by
  unfold loadFromReader
  simp only
  refine (parseLines_safe _ _).bind fun st _ => ?_
  cases fail <;> trivial

/-! ## trimming -/

/-- an ASCII blank: space, tab, carriage return, vertical tab, form feed -/
def blankB (c : UInt8) : Bool := c == 32 || c == 9 || c == 13 || c == 11 || c == 12


theorem blankB_or {c : UInt8} (h : blankB c = true) : c = 9 ∨ c = 10 ∨ c = 11 ∨ c = 12 ∨ c = 13 ∨ c = 32 := by
  simp only [blankB, Bool.or_eq_true, beq_iff_eq] at h
  rcases h with (((h | h) | h) | h) | h <;> simp [h]


/-- ASCII white space -/
def asciiSp (c : UInt8) : Bool := c == 9 || c == 10 || c == 11 || c == 12 || c == 13 || c == 32

/-- a two-byte white-space rune -/
def sp2 (a b : UInt8) : Bool := a == 0xC2 && (b == 0x85 || b == 0xA0)

/-- a three-byte white-space rune -/
def sp3 (a b c : UInt8) : Bool :=
  (a == 0xE1 && b == 0x9A && c == 0x80) ||
  (a == 0xE2 && b == 0x80 && ((0x80 ≤ c && c ≤ 0x8A) || c == 0xA8 || c == 0xA9 || c == 0xAF)) ||
  (a == 0xE2 && b == 0x81 && c == 0x9F) || (a == 0xE3 && b == 0x80 && c == 0x80)

theorem asciiSp_iff (c : UInt8) :
    (c = 9 ∨ c = 10 ∨ c = 11 ∨ c = 12 ∨ c = 13 ∨ c = 32) ↔ asciiSp c = true := by
  simp [asciiSp, or_assoc]

theorem spaceLen1 (a : UInt8) : spaceLen [a] = if asciiSp a then 1 else 0 := by
  simp only [spaceLen, asciiSp_iff]

theorem spaceLen2 (a b : UInt8) : spaceLen [a, b] = if asciiSp a then 1 else if sp2 a b then 2 else 0 := by
  simp only [spaceLen, asciiSp_iff]
  by_cases ha : asciiSp a = true
  · rw [if_pos ha, if_pos ha]
  · rw [if_neg ha, if_neg ha]
    clear ha
    split
    · rename_i heq
      simp only [List.cons.injEq] at heq
      obtain ⟨rfl, _⟩ := heq
      simp [sp2]
    · rename_i heq; simp at heq
    · rename_i heq; simp at heq
    · rename_i heq; simp at heq
    · rename_i heq; simp at heq
    · rename_i a _ _ h1 _ _ _ _
      have : a ≠ 0xC2 := fun e => h1 b [] e rfl
      simp [sp2, this]

theorem spaceLen3 (a b c : UInt8) (r : Str) : spaceLen (a :: b :: c :: r) =
    if asciiSp a then 1 else if sp2 a b then 2 else if sp3 a b c then 3 else 0 := by
  simp only [spaceLen, asciiSp_iff]
  by_cases ha : asciiSp a = true
  · rw [if_pos ha, if_pos ha]
  · rw [if_neg ha, if_neg ha]
    clear ha
    split
    · rename_i heq
      simp only [List.cons.injEq] at heq
      obtain ⟨rfl, rfl⟩ := heq
      simp [sp2, sp3]
    · rename_i heq
      simp only [List.cons.injEq] at heq
      obtain ⟨rfl, rfl, rfl⟩ := heq
      simp [sp2, sp3]
    · rename_i heq
      simp only [List.cons.injEq] at heq
      obtain ⟨rfl, rfl, rfl⟩ := heq
      simp [sp2, sp3, or_assoc]
    · rename_i heq
      simp only [List.cons.injEq] at heq
      obtain ⟨rfl, rfl, rfl⟩ := heq
      simp [sp2, sp3]
    · rename_i heq
      simp only [List.cons.injEq] at heq
      obtain ⟨rfl, rfl, rfl⟩ := heq
      simp [sp2, sp3]
    · rename_i a _ _ h1 h2 h3 h4 h5
      have e1 : sp2 a b = false := by
        have : a ≠ 0xC2 := fun e => h1 b _ e rfl
        simp [sp2, this]
      have e2 : sp3 a b c = false := by
        by_cases e : sp3 a b c = true
        · exfalso
          simp only [sp3, Bool.or_eq_true, Bool.and_eq_true, beq_iff_eq] at e
          rcases e with ((⟨⟨e1, e2⟩, e3⟩ | ⟨⟨e1, e2⟩, e3⟩) | ⟨⟨e1, e2⟩, e3⟩) | ⟨⟨e1, e2⟩, e3⟩
          · exact h2 r e1 (by rw [e2, e3])
          · exact h3 c r e1 (by rw [e2])
          · exact h4 r e1 (by rw [e2, e3])
          · exact h5 r e1 (by rw [e2, e3])
        · simpa using e
      simp [e1, e2]

theorem spaceLenRev1 (c : UInt8) : spaceLenRev [c] = if asciiSp c then 1 else 0 := by
  simp only [spaceLenRev, asciiSp_iff]

theorem spaceLenRev2 (c b : UInt8) : spaceLenRev [c, b] = if asciiSp c then 1 else if sp2 b c then 2 else 0 := by
  simp only [spaceLenRev, asciiSp_iff]
  by_cases ha : asciiSp c = true
  · rw [if_pos ha, if_pos ha]
  · rw [if_neg ha, if_neg ha]
    clear ha
    split
    · rename_i heq
      simp only [List.cons.injEq] at heq
      obtain ⟨rfl, _⟩ := heq
      simp [sp2]
    · rename_i heq; simp at heq
    · rename_i h1 h2
      have : b ≠ 0xC2 := fun e => h1 [] (by rw [e])
      simp [sp2, this]

theorem sp3_asciiSp {a b c : UInt8} (h : sp3 a b c = true) : asciiSp a = false ∧ sp2 a b = false := by
  simp only [sp3, Bool.or_eq_true, Bool.and_eq_true, beq_iff_eq] at h
  rcases h with ((⟨⟨e1, e2⟩, e3⟩ | ⟨⟨e1, e2⟩, e3⟩) | ⟨⟨e1, e2⟩, e3⟩) | ⟨⟨e1, e2⟩, e3⟩ <;>
    simp [e1, asciiSp, sp2]

theorem spaceLenRev3 (c b a : UInt8) (r : Str) : spaceLenRev (c :: b :: a :: r) =
    if asciiSp c then 1 else if b = 0xC2 then (if sp2 b c then 2 else 0) else if sp3 a b c then 3 else 0 := by
  simp only [spaceLenRev, asciiSp_iff]
  by_cases ha : asciiSp c = true
  · rw [if_pos ha, if_pos ha]
  · rw [if_neg ha, if_neg ha]
    clear ha
    split
    · rename_i heq
      simp only [List.cons.injEq] at heq
      obtain ⟨rfl, _⟩ := heq
      simp [sp2]
    · rename_i h1 heq
      simp only [List.cons.injEq] at heq
      obtain ⟨rfl, rfl, _⟩ := heq
      have : b ≠ 0xC2 := fun e => h1 e
      rw [if_neg this, spaceLen3]
      by_cases h3 : sp3 a b c = true
      · obtain ⟨x, y⟩ := sp3_asciiSp h3
        simp [x, y, h3]
      · have : ¬ (if asciiSp a = true then 1 else if sp2 a b = true then 2 else if sp3 a b c = true then 3 else 0) = 3 := by
          rw [if_neg h3]; split
          · decide
          · split <;> decide
        rw [if_neg this, if_neg h3]
    · rename_i h1 h2
      exact absurd rfl (h2 b a r)

theorem blankB_asciiSp {c : UInt8} (h : blankB c = true) : asciiSp c = true := (asciiSp_iff c).1 (blankB_or h)

theorem blankB_space {c : UInt8} (h : blankB c = true) (r : Str) : spaceLen (c :: r) = 1 := by
  have h' := blankB_asciiSp h
  rcases r with _ | ⟨b, _ | ⟨a, r⟩⟩
  · simp [spaceLen1, h']
  · simp [spaceLen2, h']
  · simp [spaceLen3, h']

theorem blankB_spaceRev {c : UInt8} (h : blankB c = true) (r : Str) : spaceLenRev (c :: r) = 1 := by
  have h' := blankB_asciiSp h
  rcases r with _ | ⟨b, _ | ⟨a, r⟩⟩
  · simp [spaceLenRev1, h']
  · simp [spaceLenRev2, h']
  · simp [spaceLenRev3, h']

/-- every byte of a multi-byte white-space rune is at least 128 -/
theorem sp2_hi {a b : UInt8} (h : sp2 a b = true) : 128 ≤ a.toNat ∧ 128 ≤ b.toNat := by
  simp only [sp2, Bool.and_eq_true, Bool.or_eq_true, beq_iff_eq] at h
  obtain ⟨rfl, rfl | rfl⟩ := h <;> decide

theorem sp3_hi {a b c : UInt8} (h : sp3 a b c = true) : 128 ≤ a.toNat ∧ 128 ≤ b.toNat ∧ 128 ≤ c.toNat := by
  simp only [sp3, Bool.or_eq_true, Bool.and_eq_true, beq_iff_eq, decide_eq_true_eq] at h
  rcases h with ((⟨⟨rfl, rfl⟩, rfl⟩ | ⟨⟨rfl, rfl⟩, e3⟩) | ⟨⟨rfl, rfl⟩, rfl⟩) | ⟨⟨rfl, rfl⟩, rfl⟩
  · decide
  · refine ⟨by decide, by decide, ?_⟩
    rcases e3 with ((e3 | rfl) | rfl) | rfl
    · exact UInt8.le_iff_toNat_le.1 e3.1
    all_goals decide
  · decide
  · decide

theorem blankB_lt {c : UInt8} (h : blankB c = true) : c.toNat < 128 := by
  rcases blankB_or h with h | h | h | h | h | h <;> subst h <;> decide

/-- ASCII after a nonempty string does not change how it starts -/
theorem spaceLen_append {s w : Str} (h : s ≠ []) (hw : ∀ c, w.head? = some c → c.toNat < 128) :
    spaceLen (s ++ w) = spaceLen s := by
  rcases w with _ | ⟨d, w⟩
  · simp
  have hd := hw d rfl
  rcases s with _ | ⟨a, _ | ⟨b, _ | ⟨c, r⟩⟩⟩
  · exact absurd rfl h
  · have h2 : sp2 a d = false := by
      cases e : sp2 a d with
      | false => rfl
      | true => have := sp2_hi e; omega
    rcases w with _ | ⟨e, w⟩
    · simp [spaceLen1, spaceLen2, h2]
    · have h3 : sp3 a d e = false := by
        cases x : sp3 a d e with
        | false => rfl
        | true => have := sp3_hi x; omega
      simp [spaceLen1, spaceLen3, h2, h3]
  · have h3 : sp3 a b d = false := by
      cases x : sp3 a b d with
      | false => rfl
      | true => have := sp3_hi x; omega
    simp [spaceLen2, spaceLen3, h3]
  · simp [spaceLen3]

/-- ASCII before a nonempty string does not change how it ends -/
theorem spaceLenRev_append {s w : Str} (h : s ≠ []) (hw : ∀ c, w.head? = some c → c.toNat < 128) :
    spaceLenRev (s ++ w) = spaceLenRev s := by
  rcases w with _ | ⟨d, w⟩
  · simp
  have hd := hw d rfl
  have hdC : d ≠ 0xC2 := by intro e; subst e; revert hd; decide
  rcases s with _ | ⟨a, _ | ⟨b, _ | ⟨c, r⟩⟩⟩
  · exact absurd rfl h
  · have h2 : sp2 d a = false := by
      cases e : sp2 d a with
      | false => rfl
      | true => have := sp2_hi e; omega
    rcases w with _ | ⟨e, w⟩
    · simp [spaceLenRev1, spaceLenRev2, h2]
    · have h3 : sp3 e d a = false := by
        cases x : sp3 e d a with
        | false => rfl
        | true => have := sp3_hi x; omega
      simp [spaceLenRev1, spaceLenRev3, h2, h3]
  · have h3 : sp3 d b a = false := by
      cases x : sp3 d b a with
      | false => rfl
      | true => have := sp3_hi x; omega
    by_cases hb : b = 0xC2
    · simp [spaceLenRev2, spaceLenRev3, h3, hb]
    · have : sp2 b a = false := by simp [sp2, hb]
      simp [spaceLenRev2, spaceLenRev3, h3, this]
  · simp [spaceLenRev3]

/-- no white space at either end, and not empty -/
def Clean (s : Str) : Prop := s ≠ [] ∧ spaceLen s = 0 ∧ spaceLenRev s.reverse = 0

theorem trimLeftF_blanks (w s : Str) (hw : ∀ c ∈ w, blankB c = true) (hs : spaceLen s = 0) :
    ∀ n, w.length ≤ n → trimLeftF n (w ++ s) = s := by
  induction w with
  | nil =>
    intro n _
    cases n with
    | zero => rfl
    | succ n => simp [trimLeftF, hs]
  | cons c w ih =>
    intro n hn
    cases n with
    | zero => simp at hn
    | succ n =>
      simp only [List.cons_append, trimLeftF]
      rw [blankB_space (hw c (List.mem_cons_self ..))]
      simp only [Nat.one_ne_zero, if_false, List.drop_succ_cons, List.drop_zero]
      exact ih (fun c h => hw c (List.mem_cons_of_mem _ h)) n (by simpa using hn)

theorem trimLeftRevF_blanks (w s : Str) (hw : ∀ c ∈ w, blankB c = true) (hs : spaceLenRev s = 0) :
    ∀ n, w.length ≤ n → trimLeftRevF n (w ++ s) = s := by
  induction w with
  | nil =>
    intro n _
    cases n with
    | zero => rfl
    | succ n => simp [trimLeftRevF, hs]
  | cons c w ih =>
    intro n hn
    cases n with
    | zero => simp at hn
    | succ n =>
      simp only [List.cons_append, trimLeftRevF]
      rw [blankB_spaceRev (hw c (List.mem_cons_self ..))]
      simp only [Nat.one_ne_zero, if_false, List.drop_succ_cons, List.drop_zero]
      exact ih (fun c h => hw c (List.mem_cons_of_mem _ h)) n (by simpa using hn)

theorem head_blank {w : Str} (hw : ∀ c ∈ w, blankB c = true) : ∀ c, w.head? = some c → c.toNat < 128 := by
  intro c h
  exact blankB_lt (hw c (List.mem_of_mem_head? h))

/-- Blanks around something clean are trimmed, and only they. -/
theorem trimSpace_pad {w s w' : Str} (hw : ∀ c ∈ w, blankB c = true) (hw' : ∀ c ∈ w', blankB c = true)
    (hs : Clean s) : trimSpace (w ++ s ++ w') = s := by
  obtain ⟨h0, h1, h2⟩ := hs
  unfold trimSpace trimLeft trimRight
  rw [List.append_assoc, trimLeftF_blanks w (s ++ w') hw
    (by rw [spaceLen_append h0 (head_blank hw')]; exact h1) _ (by simp)]
  rw [List.reverse_append, trimLeftRevF_blanks w'.reverse s.reverse (fun c h => hw' c (List.mem_reverse.1 h)) h2 _
    (by simp)]
  simp

theorem trimSpace_clean {s : Str} (hs : Clean s) : trimSpace s = s := by
  have := trimSpace_pad (w := []) (w' := []) (by simp) (by simp) hs
  simpa using this

theorem trimSpace_blank {w : Str} (hw : ∀ c ∈ w, blankB c = true) : trimSpace w = [] := by
  unfold trimSpace trimLeft trimRight
  have := trimLeftF_blanks w [] hw rfl w.length (Nat.le_refl _)
  rw [List.append_nil] at this
  rw [this]
  rfl

/-- a byte that is neither white space nor part of a multi-byte rune -/
theorem spaceLen_ascii {c : UInt8} (h : c.toNat < 128) (hs : asciiSp c = false) (r : Str) : spaceLen (c :: r) = 0 := by
  rcases r with _ | ⟨b, _ | ⟨a, r⟩⟩
  · simp [spaceLen1, hs]
  · have : sp2 c b = false := by
      cases e : sp2 c b with
      | false => rfl
      | true => have := sp2_hi e; omega
    simp [spaceLen2, hs, this]
  · have h2 : sp2 c b = false := by
      cases e : sp2 c b with
      | false => rfl
      | true => have := sp2_hi e; omega
    have h3 : sp3 c b a = false := by
      cases e : sp3 c b a with
      | false => rfl
      | true => have := sp3_hi e; omega
    simp [spaceLen3, hs, h2, h3]

theorem spaceLenRev_ascii {c : UInt8} (h : c.toNat < 128) (hs : asciiSp c = false) (r : Str) :
    spaceLenRev (c :: r) = 0 := by
  rcases r with _ | ⟨b, _ | ⟨a, r⟩⟩
  · simp [spaceLenRev1, hs]
  · have : sp2 b c = false := by
      cases e : sp2 b c with
      | false => rfl
      | true => have := sp2_hi e; omega
    simp [spaceLenRev2, hs, this]
  · have h2 : sp2 b c = false := by
      cases e : sp2 b c with
      | false => rfl
      | true => have := sp2_hi e; omega
    have h3 : sp3 a b c = false := by
      cases e : sp3 a b c with
      | false => rfl
      | true => have := sp3_hi e; omega
    simp [spaceLenRev3, hs, h2, h3]

/-- trimming the right end never removes a leading ASCII non-blank -/
theorem spaceLenRev_le {c : UInt8} (h : c.toNat < 128) (hs : asciiSp c = false) (r : Str) :
    spaceLenRev (r ++ [c]) ≤ r.length := by
  have hC : c ≠ 0xC2 := by intro e; subst e; revert h; decide
  rcases r with _ | ⟨x, _ | ⟨y, _ | ⟨z, r⟩⟩⟩
  · simp [spaceLenRev1, hs]
  · have h2 : sp2 c x = false := by simp [sp2, hC]
    simp only [List.cons_append, List.nil_append, spaceLenRev2, h2]
    split <;> simp
  · have h3 : sp3 c y x = false := by
      cases e : sp3 c y x with
      | false => rfl
      | true => have := sp3_hi e; omega
    simp only [List.cons_append, List.nil_append, spaceLenRev3, h3]
    split
    · simp
    · split
      · split <;> simp
      · simp
  · simp only [List.cons_append, spaceLenRev3]
    split
    · simp
    · split
      · split <;> simp
      · split <;> simp

theorem trimLeftRevF_keep {c : UInt8} (h : c.toNat < 128) (hs : asciiSp c = false) :
    ∀ n (r : Str), ∃ r', trimLeftRevF n (r ++ [c]) = r' ++ [c]
  | 0, r => ⟨r, rfl⟩
  | n + 1, r => by
    unfold trimLeftRevF
    split
    · exact ⟨r, rfl⟩
    · have := spaceLenRev_le h hs r
      rw [List.drop_append_of_le_length this]
      exact trimLeftRevF_keep h hs n _

/-- what starts (after blanks) with an ASCII non-blank still does after trimming -/
theorem trimSpace_head {w s : Str} {c : UInt8} (hw : ∀ c ∈ w, blankB c = true) (h : c.toNat < 128)
    (hs : asciiSp c = false) : ∃ s', trimSpace (w ++ c :: s) = c :: s' := by
  unfold trimSpace trimLeft trimRight
  rw [trimLeftF_blanks w (c :: s) hw (spaceLen_ascii h hs s) _ (by simp), List.reverse_cons]
  obtain ⟨r', e⟩ := trimLeftRevF_keep h hs (c :: s).length s.reverse
  rw [e]
  exact ⟨r'.reverse, by simp⟩

end Verif.Conf
