import Verif.Model.TimeParam
import Verif.Proofs.Num
/-!
# Time parameters (C148)
-/
namespace Verif.Params
open Verif.Go Verif.Go.NumSpec

namespace Spec

/-- `s` is the number `n` in `w` digits. -/
def Num (w n : Nat) (s : Str) : Prop := s.length = w ∧ (∀ c ∈ s, 48 ≤ c.toNat ∧ c.toNat ≤ 57) ∧ decimal s = n

/-- The years with a 29th of February. -/
def Leap (y : Nat) : Prop := (4 ∣ y ∧ ¬ 100 ∣ y) ∨ 400 ∣ y

/-- The days of the calendar. -/
def Calendar (y m d : Nat) : Prop :=
  1 ≤ d ∧ ((m ∈ [1, 3, 5, 7, 8, 10, 12] ∧ d ≤ 31) ∨ (m ∈ [4, 6, 9, 11] ∧ d ≤ 30) ∨ (m = 2 ∧ (d ≤ 28 ∨ (d = 29 ∧ Leap y))))

/-- `s` is the date `YYYY-MM-DD`, a day of the calendar. -/
def Day (y m d : Nat) (s : Str) : Prop :=
  ∃ a b c, Num 4 y a ∧ Num 2 m b ∧ Num 2 d c ∧ s = a ++ b!"-" ++ b ++ b!"-" ++ c ∧ Calendar y m d

/-- An hour, with or without its leading zero. -/
def Hour (h : Nat) (s : Str) : Prop := h < 24 ∧ (Num 2 h s ∨ Num 1 h s)

/-- Minutes or seconds. -/
def Sixty (n : Nat) (s : Str) : Prop := n < 60 ∧ Num 2 n s

/-- A fraction of a second: none, or a period (or comma, from Go 1.17 on) with digits. -/
def Fraction (x : TimeExt) (ns : Nat) (s : Str) : Prop :=
  (ns = 0 ∧ s = []) ∨
  ∃ c ds, (c = 46 ∨ (x.comma = true ∧ c = 44)) ∧ ds ≠ [] ∧ (∀ c ∈ ds, 48 ≤ c.toNat ∧ c.toNat ≤ 57) ∧ s = c :: ds ∧ x.fraction ds = some ns

/-- A zone: `Z` or a sign, hours and minutes. -/
def ZoneText (x : TimeExt) (off : Int) (s : Str) : Prop :=
  (s = b!"Z" ∧ off = 0) ∨
  ∃ h m hh mm, hh.length = 2 ∧ mm.length = 2 ∧ x.zoneHour hh = some h ∧ x.zoneMin mm = some m ∧
    ((s = b!"+" ++ hh ++ b!":" ++ mm ∧ off = (h * 60 + m) * 60) ∨ (s = b!"-" ++ hh ++ b!":" ++ mm ∧ off = -((h * 60 + m) * 60)))

/-- What the text of a time parameter means. -/
inductive TimeMeans (x : TimeExt) : Str → TimeV → Prop
  /-- a date: its first moment, in the local zone -/
  | date {s y m d} : Day y m d s → TimeMeans x s (.date y m d 0 0 0 0 .local)
  /-- a date and an hour followed by `:0` -/
  | short {a b c y m d h} : Day y m d a → b ≠ [] → (∀ e ∈ b, e = 32) → Hour h c →
      TimeMeans x (a ++ b ++ c ++ b!":0") (.date y m d h 0 0 0 .local)
  /-- a date and a clock, in the local zone -/
  | full {a b c e f g y m d h mi se ns} : Day y m d a → b ≠ [] → (∀ e ∈ b, e = 32) → Hour h c → Sixty mi e → Sixty se f → Fraction x ns g →
      TimeMeans x (a ++ b ++ c ++ b!":" ++ e ++ b!":" ++ f ++ g) (.date y m d h mi se ns .local)
  /-- RFC 3339 -/
  | rfc {a c e f g z y m d h mi se ns off} : Day y m d a → Hour h c → Sixty mi e → Sixty se f → Fraction x ns g → ZoneText x off z →
      TimeMeans x (a ++ b!"T" ++ c ++ b!":" ++ e ++ b!":" ++ f ++ g ++ z) (.date y m d h mi se ns (.offset off))
  /-- seconds since 1970 -/
  | unix {s n} : Denotes true s n → Fits true 64 n → TimeMeans x s (.unix n)

end Spec

open Spec

/-! ## Pieces -/

theorem dig_iff (c : UInt8) : (48 ≤ c && c ≤ 57) = true ↔ 48 ≤ c.toNat ∧ c.toNat ≤ 57 := by
  simp [UInt8.le_iff_toNat_le]

theorem digit0_cons (c : UInt8) (s : Str) : digit0 (c :: s) = (48 ≤ c && c ≤ 57) := rfl

theorem digit0_iff (s : Str) : digit0 s = true ↔ ∃ c r, s = c :: r ∧ 48 ≤ c.toNat ∧ c.toNat ≤ 57 := by
  cases s with
  | nil => simp [digit0]
  | cons c r =>
    rw [digit0_cons, dig_iff]
    constructor
    · intro h; exact ⟨c, r, rfl, h⟩
    · rintro ⟨c', r', h, h'⟩
      injection h with h1 h2
      subst h1; exact h'

theorem num_two (a b : UInt8) (ha : 48 ≤ a.toNat ∧ a.toNat ≤ 57) (hb : 48 ≤ b.toNat ∧ b.toNat ≤ 57) :
    Num 2 (dig a * 10 + dig b) [a, b] := by
  refine ⟨rfl, ?_, ?_⟩
  · intro c hc; simp at hc; rcases hc with rfl | rfl <;> assumption
  · simp [decimal, dig]

theorem num_one (a : UInt8) (ha : 48 ≤ a.toNat ∧ a.toNat ≤ 57) : Num 1 (dig a) [a] := by
  refine ⟨rfl, ?_, ?_⟩
  · intro c hc; simp at hc; subst hc; assumption
  · simp [decimal, dig]

theorem num_two_inv {n : Nat} {s : Str} (h : Num 2 n s) :
    ∃ a b, s = [a, b] ∧ (48 ≤ a.toNat ∧ a.toNat ≤ 57) ∧ (48 ≤ b.toNat ∧ b.toNat ≤ 57) ∧ n = dig a * 10 + dig b := by
  obtain ⟨h1, h2, h3⟩ := h
  match s, h1 with
  | [a, b], _ => exact ⟨a, b, rfl, h2 a (by simp), h2 b (by simp), by rw [← h3]; simp [decimal, dig]⟩

theorem num_one_inv {n : Nat} {s : Str} (h : Num 1 n s) : ∃ a, s = [a] ∧ (48 ≤ a.toNat ∧ a.toNat ≤ 57) ∧ n = dig a := by
  obtain ⟨h1, h2, h3⟩ := h
  match s, h1 with
  | [a], _ => exact ⟨a, rfl, h2 a (by simp), by rw [← h3]; simp [decimal, dig]⟩

theorem getnum_true (v v' : Str) (n : Nat) : getnum true v = some (n, v') ↔ ∃ ds, Num 2 n ds ∧ v = ds ++ v' := by
  constructor
  · intro h
    unfold getnum at h
    by_cases h0 : digit0 v = false
    · rw [if_pos h0] at h; cases h
    · rw [if_neg h0] at h
      by_cases h1 : digit0 (v.drop 1) = false
      · rw [if_pos h1] at h; simp at h
      · rw [if_neg h1] at h
        obtain ⟨a, r, rfl, ha⟩ := (digit0_iff v).1 (by simpa using h0)
        obtain ⟨b, r', hr, hb⟩ := (digit0_iff _).1 (by simpa using h1)
        have hr : r = b :: r' := hr
        subst hr
        simp at h
        exact ⟨[a, b], by rw [← h.1]; exact num_two a b ha hb, by rw [← h.2]; rfl⟩
  · rintro ⟨ds, hn, rfl⟩
    obtain ⟨a, b, rfl, ha, hb, rfl⟩ := num_two_inv hn
    unfold getnum
    rw [if_neg (by rw [Bool.not_eq_false, digit0_iff]; exact ⟨a, _, rfl, ha⟩),
      if_neg (by rw [Bool.not_eq_false, digit0_iff]; exact ⟨b, _, rfl, hb⟩)]
    rfl

theorem getnum_false (v v' : Str) (n : Nat) : getnum false v = some (n, v') ↔
    (∃ ds, Num 2 n ds ∧ v = ds ++ v') ∨ (∃ ds, Num 1 n ds ∧ v = ds ++ v' ∧ digit0 v' = false) := by
  constructor
  · intro h
    unfold getnum at h
    by_cases h0 : digit0 v = false
    · rw [if_pos h0] at h; cases h
    · rw [if_neg h0] at h
      obtain ⟨a, r, rfl, ha⟩ := (digit0_iff v).1 (by simpa using h0)
      by_cases h1 : digit0 ((a :: r).drop 1) = false
      · rw [if_pos h1] at h
        simp at h h1
        exact Or.inr ⟨[a], by rw [← h.1]; exact num_one a ha, by rw [← h.2]; rfl, by rw [← h.2]; exact h1⟩
      · rw [if_neg h1] at h
        obtain ⟨b, r', hr, hb⟩ := (digit0_iff _).1 (by simpa using h1)
        have hr : r = b :: r' := hr
        subst hr
        simp at h
        exact Or.inl ⟨[a, b], by rw [← h.1]; exact num_two a b ha hb, by rw [← h.2]; rfl⟩
  · rintro (⟨ds, hn, rfl⟩ | ⟨ds, hn, rfl, hd⟩)
    · obtain ⟨a, b, rfl, ha, hb, rfl⟩ := num_two_inv hn
      unfold getnum
      rw [if_neg (by rw [Bool.not_eq_false, digit0_iff]; exact ⟨a, _, rfl, ha⟩),
        if_neg (by rw [Bool.not_eq_false, digit0_iff]; exact ⟨b, _, rfl, hb⟩)]
      rfl
    · obtain ⟨a, rfl, ha, rfl⟩ := num_one_inv hn
      unfold getnum
      rw [if_neg (by rw [Bool.not_eq_false, digit0_iff]; exact ⟨a, _, rfl, ha⟩), if_pos (by simpa using hd)]
      rfl

theorem readYear_iff (v v' : Str) (k k' : Clock) : readYear v k = some (v', k') ↔
    ∃ y ds, Num 4 y ds ∧ v = ds ++ v' ∧ k' = { k with year := y } := by
  constructor
  · intro h
    unfold readYear at h
    by_cases hc : v.length < 4 ∨ (v.take 4).all (fun c => 48 ≤ c && c ≤ 57) = false
    · rw [if_pos hc] at h; cases h
    · rw [if_neg hc] at h
      simp only [not_or, Nat.not_lt, Bool.not_eq_false, List.all_eq_true] at hc
      simp at h
      refine ⟨_, v.take 4, ⟨by simp; omega, fun c hm => (dig_iff c).1 (hc.2 c hm), rfl⟩, by rw [← h.1, List.take_append_drop], ?_⟩
      rw [← h.2]; rfl
  · rintro ⟨y, ds, ⟨h1, h2, h3⟩, rfl, rfl⟩
    unfold readYear
    have ht : (ds ++ v').take 4 = ds := by rw [← h1]; simp
    have hd : (ds ++ v').drop 4 = v' := by rw [← h1]; simp
    rw [ht, hd, if_neg (by
      simp only [not_or, Nat.not_lt, Bool.not_eq_false, List.all_eq_true]
      exact ⟨by simp; omega, fun c hm => (dig_iff c).2 (h2 c hm)⟩)]
    rw [← h3]; rfl

theorem skip_nil (n : Nat) (v : Str) : skipText (n + 1) [] v = some v := rfl

theorem skip_char (n : Nat) (c : UInt8) (p v v' : Str) (hc : c ≠ 32) :
    skipText (n + 1) (c :: p) v = some v' ↔ ∃ r, v = c :: r ∧ skipText n p r = some v' := by
  have e : skipText (n + 1) (c :: p) v = if v.head? = some c then skipText n p (v.drop 1) else none := by
    show (if c = 32 then _ else if v.head? = some c then skipText n p (v.drop 1) else none) = _
    rw [if_neg hc]
  rw [e]
  cases v with
  | nil => simp
  | cons d r =>
    by_cases hd : d = c
    · subst hd; simp
    · simp [hd]

theorem skip_blank (n : Nat) (v v' : Str) : skipText (n + 2) [32] v = some v' ↔
    (v = [] ∧ v' = []) ∨ ∃ b, b ≠ [] ∧ (∀ e ∈ b, e = 32) ∧ v = b ++ v' ∧ v'.head? ≠ some 32 := by
  have e : skipText (n + 2) [32] v = if v ≠ [] ∧ v.head? ≠ some 32 then none else some (v.dropWhile (· = 32)) := rfl
  rw [e]
  cases v with
  | nil =>
    rw [if_neg (by simp)]
    constructor
    · intro h; exact Or.inl ⟨rfl, (Option.some.inj h).symm⟩
    · rintro (h | ⟨b, h1, h2, h3, h4⟩)
      · rw [h.2]; rfl
      · exact absurd (List.append_eq_nil_iff.1 h3.symm).1 h1
  | cons d r =>
    by_cases hd : d = 32
    · subst hd
      rw [if_neg (by simp)]
      constructor
      · intro h
        have h := Option.some.inj h
        refine Or.inr ⟨(32 :: r).takeWhile (· = 32), by simp, ?_, ?_, ?_⟩
        · intro e he
          have := List.all_takeWhile (l := (32 :: r : Str)) (p := (· = 32))
          rw [List.all_eq_true] at this
          simpa using this e he
        · rw [← h]; exact (List.takeWhile_append_dropWhile).symm
        · rw [← h]
          intro hh
          have := List.head?_dropWhile_not (p := fun c : UInt8 => decide (c = 32)) (l := (32 :: r : Str))
          rw [hh] at this
          simp at this
      · rintro (h | ⟨b, h1, h2, h3, h4⟩)
        · simp at h
        · rw [h3]
          have : (b ++ v').dropWhile (· = 32) = v' := by
            rw [List.dropWhile_append_of_pos (by intro a ha; simpa using h2 a ha)]
            cases v' with
            | nil => rfl
            | cons c t =>
              rw [List.dropWhile_cons_of_neg]
              intro hc; apply h4; simpa using hc
          rw [this]
    · rw [if_pos (by simp [hd])]
      constructor
      · intro h; cases h
      · rintro (h | ⟨b, h1, h2, h3, h4⟩)
        · simp at h
        · cases b with
          | nil => exact absurd rfl h1
          | cons e b =>
            simp at h3
            exact absurd (h3.1.trans (h2 e (by simp))) hd


/-! ## The loop -/

theorem loop_eq (x : TimeExt) (n : Nat) (L v : Str) (k : Clock) :
    parseLoop x (n + 1) L v k =
      (match skipText (L.length + 1) (nextChunk L).1 v, (nextChunk L).2 with
      | some v, some (c, rest) => (readChunk x c v k).bind fun e => parseLoop x n rest e.1 e.2
      | some v, none => if v = [] then some k else none
      | none, _ => none) := rfl

theorem loop_step (x : TimeExt) (n : Nat) (L pre rest v : Str) (c : Chunk) (k k' : Clock) (hL : nextChunk L = (pre, some (c, rest))) :
    parseLoop x (n + 1) L v k = some k' ↔
      ∃ v1, skipText (L.length + 1) pre v = some v1 ∧ ∃ v2 k2, readChunk x c v1 k = some (v2, k2) ∧ parseLoop x n rest v2 k2 = some k' := by
  rw [loop_eq, hL]
  cases h : skipText (L.length + 1) pre v with
  | none => simp
  | some v1 =>
    cases h2 : readChunk x c v1 k with
    | none => simp [h2]
    | some e =>
      obtain ⟨v2, k2⟩ := e
      simp [h2]
      constructor
      · intro h; exact ⟨v2, k2, ⟨rfl, rfl⟩, h⟩
      · rintro ⟨_, _, ⟨rfl, rfl⟩, h⟩; exact h

theorem loop_end (x : TimeExt) (n : Nat) (L pre v : Str) (k k' : Clock) (hL : nextChunk L = (pre, none)) :
    parseLoop x (n + 1) L v k = some k' ↔ skipText (L.length + 1) pre v = some [] ∧ k' = k := by
  rw [loop_eq, hL]
  cases h : skipText (L.length + 1) pre v with
  | none => simp
  | some v1 =>
    by_cases hv : v1 = []
    · simp [hv]; exact eq_comm
    · simp [hv]

theorem read_month (x : TimeExt) (v v' : Str) (k k' : Clock) : readChunk x .month v k = some (v', k') ↔
    ∃ m ds, Num 2 m ds ∧ 1 ≤ m ∧ m ≤ 12 ∧ v = ds ++ v' ∧ k' = { k with month := m } := by
  show ((getnum true v).bind fun e => if e.1 = 0 ∨ 12 < e.1 then none else some (e.2, ({ k with month := e.1 } : Clock))) = _ ↔ _
  constructor
  · intro h
    obtain ⟨⟨m, r⟩, h1, h2⟩ := Option.bind_eq_some_iff.1 h
    obtain ⟨ds, hn, hv⟩ := (getnum_true v r m).1 h1
    by_cases hm : m = 0 ∨ 12 < m
    · simp [hm] at h2
    · simp only [hm, if_false] at h2
      simp at h2
      exact ⟨m, ds, hn, by omega, by omega, by rw [hv, h2.1], h2.2.symm⟩
  · rintro ⟨m, ds, hn, h1, h2, hv, rfl⟩
    rw [(getnum_true v v' m).2 ⟨ds, hn, hv⟩]
    have : ¬ (m = 0 ∨ 12 < m) := by omega
    simp [this]

theorem read_day (x : TimeExt) (v v' : Str) (k k' : Clock) : readChunk x .day v k = some (v', k') ↔
    ∃ d ds, Num 2 d ds ∧ v = ds ++ v' ∧ k' = { k with day := d } := by
  show ((getnum true v).bind fun e => some (e.2, ({ k with day := e.1 } : Clock))) = _ ↔ _
  constructor
  · intro h
    obtain ⟨⟨m, r⟩, h1, h2⟩ := Option.bind_eq_some_iff.1 h
    obtain ⟨ds, hn, hv⟩ := (getnum_true v r m).1 h1
    simp at h2
    exact ⟨m, ds, hn, by rw [hv, h2.1], h2.2.symm⟩
  · rintro ⟨m, ds, hn, hv, rfl⟩
    rw [(getnum_true v v' m).2 ⟨ds, hn, hv⟩]
    rfl

theorem read_hour (x : TimeExt) (v v' : Str) (k k' : Clock) : readChunk x .hour v k = some (v', k') ↔
    ∃ h ds, h < 24 ∧ (Num 2 h ds ∨ (Num 1 h ds ∧ digit0 v' = false)) ∧ v = ds ++ v' ∧ k' = { k with hour := h } := by
  show ((getnum false v).bind fun e => if 24 ≤ e.1 then none else some (e.2, ({ k with hour := e.1 } : Clock))) = _ ↔ _
  constructor
  · intro h
    obtain ⟨⟨m, r⟩, h1, h2⟩ := Option.bind_eq_some_iff.1 h
    by_cases hm : 24 ≤ m
    · simp [hm] at h2
    · simp only [hm, if_false] at h2
      simp at h2
      obtain ⟨rfl, rfl⟩ := h2
      rcases (getnum_false v r m).1 h1 with ⟨ds, hn, hv⟩ | ⟨ds, hn, hv, hd⟩
      · exact ⟨m, ds, by omega, Or.inl hn, hv, rfl⟩
      · exact ⟨m, ds, by omega, Or.inr ⟨hn, hd⟩, hv, rfl⟩
  · rintro ⟨m, ds, hm, hn, hv, rfl⟩
    rw [(getnum_false v v' m).2 (hn.elim (fun h => Or.inl ⟨ds, h, hv⟩) (fun h => Or.inr ⟨ds, h.1, hv, h.2⟩))]
    have : ¬ 24 ≤ m := by omega
    simp [this]

theorem read_minute (x : TimeExt) (v v' : Str) (k k' : Clock) : readChunk x .minute v k = some (v', k') ↔
    ∃ m ds, Sixty m ds ∧ v = ds ++ v' ∧ k' = { k with min := m } := by
  show ((getnum true v).bind fun e => if 60 ≤ e.1 then none else some (e.2, ({ k with min := e.1 } : Clock))) = _ ↔ _
  constructor
  · intro h
    obtain ⟨⟨m, r⟩, h1, h2⟩ := Option.bind_eq_some_iff.1 h
    obtain ⟨ds, hn, hv⟩ := (getnum_true v r m).1 h1
    by_cases hm : 60 ≤ m
    · simp [hm] at h2
    · simp only [hm, if_false] at h2
      simp at h2
      exact ⟨m, ds, ⟨by omega, hn⟩, by rw [hv, h2.1], h2.2.symm⟩
  · rintro ⟨m, ds, ⟨hm, hn⟩, hv, rfl⟩
    rw [(getnum_true v v' m).2 ⟨ds, hn, hv⟩]
    have : ¬ 60 ≤ m := by omega
    simp [this]

theorem span_digits (v : Str) : ∃ ds r, (∀ c ∈ ds, 48 ≤ c.toNat ∧ c.toNat ≤ 57) ∧ v = ds ++ r ∧ digit0 r = false ∧
    (v.takeWhile fun c => 48 ≤ c && c ≤ 57) = ds ∧ (v.dropWhile fun c => 48 ≤ c && c ≤ 57) = r := by
  induction v with
  | nil => exact ⟨[], [], by simp, rfl, rfl, rfl, rfl⟩
  | cons c v ih =>
    by_cases hc : (48 ≤ c && c ≤ 57) = true
    · obtain ⟨ds, r, h1, h2, h3, h4, h5⟩ := ih
      refine ⟨c :: ds, r, ?_, by rw [h2]; rfl, h3, ?_, ?_⟩
      · intro e he
        rcases List.mem_cons.1 he with rfl | he
        · exact (dig_iff e).1 hc
        · exact h1 e he
      · rw [List.takeWhile_cons_of_pos (p := fun c : UInt8 => 48 ≤ c && c ≤ 57) hc, h4]
      · rw [List.dropWhile_cons_of_pos (p := fun c : UInt8 => 48 ≤ c && c ≤ 57) hc, h5]
    · exact ⟨[], c :: v, by simp, rfl, by rw [digit0_cons]; simpa using hc, List.takeWhile_cons_of_neg (p := fun c : UInt8 => 48 ≤ c && c ≤ 57) hc, List.dropWhile_cons_of_neg (p := fun c : UInt8 => 48 ≤ c && c ≤ 57) hc⟩

theorem span_unique (ds r : Str) (h1 : ∀ c ∈ ds, 48 ≤ c.toNat ∧ c.toNat ≤ 57) (h2 : digit0 r = false) :
    ((ds ++ r).takeWhile fun c => 48 ≤ c && c ≤ 57) = ds ∧ ((ds ++ r).dropWhile fun c => 48 ≤ c && c ≤ 57) = r := by
  induction ds with
  | nil =>
    cases r with
    | nil => exact ⟨rfl, rfl⟩
    | cons c r =>
      have hc : ¬ (48 ≤ c && c ≤ 57) = true := by rw [digit0_cons] at h2; rw [h2]; simp
      exact ⟨List.takeWhile_cons_of_neg (p := fun c : UInt8 => 48 ≤ c && c ≤ 57) hc, List.dropWhile_cons_of_neg (p := fun c : UInt8 => 48 ≤ c && c ≤ 57) hc⟩
  | cons c ds ih =>
    have hc : (48 ≤ c && c ≤ 57) = true := (dig_iff c).2 (h1 c (by simp))
    obtain ⟨i1, i2⟩ := ih (fun e he => h1 e (by simp [he]))
    exact ⟨by rw [List.cons_append, List.takeWhile_cons_of_pos (p := fun c : UInt8 => 48 ≤ c && c ≤ 57) hc, i1], by rw [List.cons_append, List.dropWhile_cons_of_pos (p := fun c : UInt8 => 48 ≤ c && c ≤ 57) hc, i2]⟩

theorem readFraction_iff (x : TimeExt) (v v' : Str) (k k' : Clock) (hk : k.nsec = 0) : readFraction x v k = some (v', k') ↔
    ∃ ns g, Fraction x ns g ∧ v = g ++ v' ∧ k' = { k with nsec := ns } ∧
      (g = [] → ¬ ((v'.head? = some 46 ∨ (x.comma = true ∧ v'.head? = some 44)) ∧ digit0 (v'.drop 1) = true)) ∧
      (g ≠ [] → digit0 v' = false) := by
  unfold readFraction
  by_cases hc : (v.head? = some 46 ∨ (x.comma = true ∧ v.head? = some 44)) ∧ digit0 (v.drop 1) = true
  · rw [if_pos hc]
    obtain ⟨c, w, rfl⟩ : ∃ c w, v = c :: w := by
      cases v with
      | nil => simp at hc
      | cons c w => exact ⟨c, w, rfl⟩
    have hcc : c = 46 ∨ (x.comma = true ∧ c = 44) := by simpa using hc.1
    have hw : digit0 w = true := hc.2
    obtain ⟨ds, r, h1, h2, h3, h4, h5⟩ := span_digits w
    have hds : ds ≠ [] := by
      rintro rfl
      rw [List.nil_append] at h2
      rw [h2, h3] at hw; cases hw
    simp only [List.drop_succ_cons, List.drop_zero]
    rw [h4, h5]
    constructor
    · intro h
      obtain ⟨ns, hn, h⟩ := Option.map_eq_some_iff.1 h
      simp at h
      obtain ⟨rfl, rfl⟩ := h
      exact ⟨ns, c :: ds, Or.inr ⟨c, ds, hcc, hds, h1, rfl, hn⟩, by rw [h2]; rfl, rfl, by simp, fun _ => h3⟩
    · rintro ⟨ns, g, hg, hv, rfl, hg1, hg2⟩
      rcases hg with ⟨rfl, rfl⟩ | ⟨c', ds', hc', hd', hdd, rfl, hn⟩
      · rw [List.nil_append] at hv
        exact absurd (hv ▸ hc) (hg1 rfl)
      · rw [List.cons_append] at hv
        injection hv with e1 e2
        have hv' := hg2 (by simp)
        have hu := span_unique ds' v' hdd hv'
        rw [← e2, h4, h5] at hu
        rw [hu.1, hu.2, hn]
        rfl
  · rw [if_neg hc]
    constructor
    · intro h
      simp at h
      obtain ⟨rfl, rfl⟩ := h
      refine ⟨0, [], Or.inl ⟨rfl, rfl⟩, rfl, ?_, fun _ => hc, by simp⟩
      rw [← hk]
    · rintro ⟨ns, g, hg, hv, rfl, hg1, hg2⟩
      rcases hg with ⟨rfl, rfl⟩ | ⟨c', ds', hc', hd', hdd, rfl, hn⟩
      · rw [List.nil_append] at hv
        rw [hv, ← hk]
      · exfalso; apply hc
        rw [hv]
        refine ⟨by simpa using hc', ?_⟩
        obtain ⟨e, ds', rfl⟩ := List.exists_cons_of_ne_nil hd'
        exact (digit0_iff _).2 ⟨e, _, rfl, hdd e (by simp)⟩

theorem read_second (x : TimeExt) (v v' : Str) (k k' : Clock) (hk : k.nsec = 0) : readChunk x .second v k = some (v', k') ↔
    ∃ s ds ns g, Sixty s ds ∧ Fraction x ns g ∧ v = ds ++ (g ++ v') ∧ k' = { k with sec := s, nsec := ns } ∧
      (g = [] → ¬ ((v'.head? = some 46 ∨ (x.comma = true ∧ v'.head? = some 44)) ∧ digit0 (v'.drop 1) = true)) ∧
      (g ≠ [] → digit0 v' = false) := by
  show ((getnum true v).bind fun e => if 60 ≤ e.1 then none else readFraction x e.2 { k with sec := e.1 }) = _ ↔ _
  constructor
  · intro h
    obtain ⟨⟨m, r⟩, h1, h2⟩ := Option.bind_eq_some_iff.1 h
    obtain ⟨ds, hn, hv⟩ := (getnum_true v r m).1 h1
    by_cases hm : 60 ≤ m
    · simp [hm] at h2
    · simp only [hm, if_false] at h2
      obtain ⟨ns, g, hg, hr, e, h3, h4⟩ := (readFraction_iff x r v' ⟨k.year, k.month, k.day, k.hour, k.min, m, k.nsec, k.zone⟩ k' hk).1 h2
      exact ⟨m, ds, ns, g, ⟨by omega, hn⟩, hg, by rw [hv, hr], e, h3, h4⟩
  · rintro ⟨m, ds, ns, g, ⟨hm, hn⟩, hg, hv, e, h3, h4⟩
    rw [(getnum_true v (g ++ v') m).2 ⟨ds, hn, hv⟩]
    have : ¬ 60 ≤ m := by omega
    simp only [Option.bind_some, this, if_false]
    exact (readFraction_iff x (g ++ v') v' ⟨k.year, k.month, k.day, k.hour, k.min, m, k.nsec, k.zone⟩ k' hk).2 ⟨ns, g, hg, rfl, e, h3, h4⟩

theorem read_zone (x : TimeExt) (v v' : Str) (k k' : Clock) : readChunk x .zone v k = some (v', k') ↔
    ∃ off z, ZoneText x off z ∧ v = z ++ v' ∧ k' = { k with zone := some off } := by
  show readZone x v k = _ ↔ _
  unfold readZone
  by_cases h0 : v.head? = some 90
  · rw [if_pos h0]
    obtain ⟨w, rfl⟩ : ∃ w, v = 90 :: w := by
      cases v with
      | nil => simp at h0
      | cons c w => simp at h0; exact ⟨w, by rw [h0]⟩
    constructor
    · intro h
      simp at h
      exact ⟨0, b!"Z", Or.inl ⟨rfl, rfl⟩, by rw [← h.1]; rfl, h.2.symm⟩
    · rintro ⟨off, z, hz, hv, rfl⟩
      rcases hz with ⟨rfl, rfl⟩ | ⟨h, m, hh, mm, _, _, _, _, ⟨rfl, _⟩ | ⟨rfl, _⟩⟩
      · have : w = v' := (List.cons.inj hv).2
        rw [this]; rfl
      · exact absurd (List.cons.inj hv).1 (by decide)
      · exact absurd (List.cons.inj hv).1 (by decide)
  · rw [if_neg h0]
    by_cases h1 : v.length < 6 ∨ (v.drop 3).head? ≠ some 58
    · rw [if_pos h1]
      constructor
      · intro h; cases h
      · rintro ⟨off, z, hz, rfl, rfl⟩
        exfalso
        rcases hz with ⟨rfl, rfl⟩ | ⟨h, m, hh, mm, e1, e2, _, _, hz⟩
        · exact h0 rfl
        · match hh, e1, mm, e2 with
          | [a, b], _, [c, d], _ => rcases hz with ⟨rfl, _⟩ | ⟨rfl, _⟩ <;> (simp at h1; omega)
    · rw [if_neg h1]
      by_cases h2 : v.head? ≠ some 43 ∧ v.head? ≠ some 45
      · rw [if_pos h2]
        constructor
        · intro h; cases h
        · rintro ⟨off, z, hz, rfl, rfl⟩
          exfalso
          rcases hz with ⟨rfl, rfl⟩ | ⟨h, m, hh, mm, e1, e2, _, _, ⟨rfl, _⟩ | ⟨rfl, _⟩⟩
          · exact h0 rfl
          · exact h2.1 rfl
          · exact h2.2 rfl
      · rw [if_neg h2]
        obtain ⟨s, a, b, c, d, w, rfl⟩ : ∃ s a b c d w, v = s :: a :: b :: 58 :: c :: d :: w := by
          match v, h1 with
          | [], h1 => simp at h1
          | [_], h1 => simp at h1
          | [_, _], h1 => simp at h1
          | [_, _, _], h1 => simp at h1
          | [_, _, _, _], h1 => simp at h1
          | [_, _, _, _, _], h1 => simp at h1
          | s :: a :: b :: e :: c :: d :: w, h1 => 
            simp at h1
            exact ⟨s, a, b, c, d, w, by rw [h1]⟩
        have hs : s = 43 ∨ s = 45 := by
          simp only [List.head?_cons, Option.some.injEq] at h2
          by_cases h : s = 43
          · exact Or.inl h
          · right
            by_cases h' : s = 45
            · exact h'
            · exact absurd ⟨fun e => h (Option.some.inj e), fun e => h' (Option.some.inj e)⟩ h2
        show (match x.zoneHour [a, b], x.zoneMin [c, d] with
          | some h, some m => some (w, ({ k with zone := some (if some s = some 45 then -((h * 60 + m) * 60) else (h * 60 + m) * 60) } : Clock))
          | _, _ => none) = _ ↔ _
        constructor
        · intro h
          cases hh : x.zoneHour [a, b] with
          | none => simp [hh] at h
          | some hv =>
            cases hm : x.zoneMin [c, d] with
            | none => simp [hh, hm] at h
            | some mv =>
              simp only [hh, hm] at h
              simp at h
              obtain ⟨rfl, rfl⟩ := h
              refine ⟨_, [s, a, b, 58, c, d], Or.inr ⟨hv, mv, [a, b], [c, d], rfl, rfl, hh, hm, ?_⟩, rfl, rfl⟩
              rcases hs with rfl | rfl
              · exact Or.inl ⟨rfl, rfl⟩
              · exact Or.inr ⟨rfl, rfl⟩
        · rintro ⟨off, z, hz, hv, rfl⟩
          rcases hz with ⟨rfl, rfl⟩ | ⟨h, m, hh, mm, e1, e2, hh', hm', hz⟩
          · exact absurd (List.cons.inj hv).1 (by rcases hs with rfl | rfl <;> decide)
          · match hh, e1, mm, e2, hh', hm', hz with
            | [a', b'], _, [c', d'], _, hh', hm', hz =>
              rcases hz with ⟨rfl, rfl⟩ | ⟨rfl, rfl⟩
              · simp at hv
                obtain ⟨rfl, rfl, rfl, rfl, rfl, rfl⟩ := hv
                rw [hh', hm']; rfl
              · simp at hv
                obtain ⟨rfl, rfl, rfl, rfl, rfl, rfl⟩ := hv
                rw [hh', hm']; rfl

theorem hour_colon (x : TimeExt) (v r : Str) (k k' : Clock) : readChunk x .hour v k = some (58 :: r, k') ↔
    ∃ h ds, Hour h ds ∧ v = ds ++ 58 :: r ∧ k' = { k with hour := h } := by
  rw [read_hour]
  constructor
  · rintro ⟨h, ds, h1, h2, h3, h4⟩
    exact ⟨h, ds, ⟨h1, h2.imp id And.left⟩, h3, h4⟩
  · rintro ⟨h, ds, ⟨h1, h2⟩, h3, h4⟩
    exact ⟨h, ds, h1, h2.imp id (fun h => ⟨h, rfl⟩), h3, h4⟩

theorem loop_day (x : TimeExt) (n : Nat) (rest v : Str) (k' : Clock) :
    parseLoop x (n + 3) (b!"2006-01-02" ++ rest) v {} = some k' ↔
      ∃ y m d a b c r, Num 4 y a ∧ Num 2 m b ∧ Num 2 d c ∧ 1 ≤ m ∧ m ≤ 12 ∧ v = a ++ b!"-" ++ b ++ b!"-" ++ c ++ r ∧
        parseLoop x n rest r { year := y, month := m, day := d } = some k' := by
  rw [loop_step x (n + 2) _ [] (b!"-01-02" ++ rest) v .year _ _ rfl]
  constructor
  · rintro ⟨v1, h1, v2, k2, h2, h3⟩
    have h1 := Option.some.inj h1
    subst h1
    obtain ⟨y, a, ha, rfl, rfl⟩ := (readYear_iff _ _ _ _).1 h2
    obtain ⟨v3, h4, v4, k4, h5, h6⟩ := (loop_step x (n + 1) _ b!"-" (b!"-02" ++ rest) v2 .month _ _ rfl).1 h3
    obtain ⟨r1, rfl, h4⟩ := (skip_char _ 45 [] v2 v3 (by decide)).1 h4
    have h4 := Option.some.inj h4
    subst h4
    obtain ⟨m, b, hb, hm1, hm2, rfl, rfl⟩ := (read_month _ _ _ _ _).1 h5
    obtain ⟨v5, h7, v6, k6, h8, h9⟩ := (loop_step x n _ b!"-" rest v4 .day _ _ rfl).1 h6
    obtain ⟨r2, rfl, h7⟩ := (skip_char _ 45 [] v4 v5 (by decide)).1 h7
    have h7 := Option.some.inj h7
    subst h7
    obtain ⟨d, c, hc, rfl, rfl⟩ := (read_day _ _ _ _ _).1 h8
    exact ⟨y, m, d, a, b, c, v6, ha, hb, hc, hm1, hm2, by simp, h9⟩
  · rintro ⟨y, m, d, a, b, c, r, ha, hb, hc, hm1, hm2, rfl, h⟩
    refine ⟨_, rfl, 45 :: (b ++ 45 :: (c ++ r)), { year := y }, (readYear_iff _ _ _ _).2 ⟨y, a, ha, by simp, rfl⟩, ?_⟩
    refine (loop_step x (n + 1) _ b!"-" (b!"-02" ++ rest) _ .month _ _ rfl).2 ⟨b ++ 45 :: (c ++ r), ?_, 45 :: (c ++ r), { year := y, month := m }, ?_, ?_⟩
    · exact (skip_char _ 45 [] _ _ (by decide)).2 ⟨_, rfl, rfl⟩
    · exact (read_month _ _ _ _ _).2 ⟨m, b, hb, hm1, hm2, rfl, rfl⟩
    refine (loop_step x n _ b!"-" rest _ .day _ _ rfl).2 ⟨c ++ r, ?_, r, { year := y, month := m, day := d }, ?_, h⟩
    · exact (skip_char _ 45 [] _ _ (by decide)).2 ⟨_, rfl, rfl⟩
    · exact (read_day _ _ _ _ _).2 ⟨d, c, hc, rfl, rfl⟩

theorem leap_iff (y : Nat) : (y % 4 = 0 ∧ (y % 100 ≠ 0 ∨ y % 400 = 0)) ↔ Leap y := by
  unfold Leap; omega

theorem calendar_iff (y m d : Nat) (h1 : 1 ≤ m) (h2 : m ≤ 12) : (¬ (d < 1 ∨ daysIn m y < d)) ↔ Calendar y m d := by
  unfold daysIn Calendar
  have hy := leap_iff y
  have hm : m = 1 ∨ m = 2 ∨ m = 3 ∨ m = 4 ∨ m = 5 ∨ m = 6 ∨ m = 7 ∨ m = 8 ∨ m = 9 ∨ m = 10 ∨ m = 11 ∨ m = 12 := by omega
  rcases hm with rfl | rfl | rfl | rfl | rfl | rfl | rfl | rfl | rfl | rfl | rfl | rfl
  all_goals simp
  all_goals try omega
  by_cases hl : Leap y
  · have h := hy.2 hl
    simp [h.1, h.2, hl]; omega
  · have h : ¬ (y % 4 = 0 ∧ (¬ y % 100 = 0 ∨ y % 400 = 0)) := fun h => hl (hy.1 h)
    simp [h, hl]; omega

theorem parse_day (x : TimeExt) (rest v : Str) (t : TimeV)
    (hrest : ∀ (r : Str) (k k' : Clock), k.nsec = 0 → parseLoop x (rest.length + 8) rest r k = some k' → k'.year = k.year ∧ k'.month = k.month ∧ k'.day = k.day) :
    parseTime x (b!"2006-01-02" ++ rest) v = some t ↔
      ∃ y m d a r k', Day y m d a ∧ v = a ++ r ∧ parseLoop x (rest.length + 8) rest r { year := y, month := m, day := d } = some k' ∧
        t = .date y m d k'.hour k'.min k'.sec k'.nsec (zoneOf (b!"2006-01-02" ++ rest) k'.zone) := by
  have hl : (b!"2006-01-02" ++ rest).length + 1 = (rest.length + 8) + 3 := by simp
  unfold parseTime
  rw [hl]
  constructor
  · intro h
    cases hp : parseLoop x ((rest.length + 8) + 3) (b!"2006-01-02" ++ rest) v {} with
    | none => rw [hp] at h; cases h
    | some k' =>
      rw [hp] at h
      obtain ⟨y, m, d, a, b, c, r, ha, hb, hc, hm1, hm2, rfl, hr⟩ := (loop_day x _ rest v k').1 hp
      obtain ⟨e1, e2, e3⟩ := hrest _ _ _ rfl hr
      simp only at e1 e2 e3
      by_cases hd : k'.day < 1 ∨ daysIn k'.month k'.year < k'.day
      · simp only [hd, if_true] at h; cases h
      · simp only [hd, if_false] at h
        rw [e1, e2, e3] at hd h
        exact ⟨y, m, d, _, r, k', ⟨a, b, c, ha, hb, hc, rfl, (calendar_iff y m d hm1 hm2).1 hd⟩, rfl, hr, (Option.some.inj h).symm⟩
  · rintro ⟨y, m, d, _, r, k', ⟨a, b, c, ha, hb, hc, rfl, hcal⟩, rfl, hr, rfl⟩
    have hm : 1 ≤ m ∧ m ≤ 12 := by
      rcases hcal.2 with ⟨h, _⟩ | ⟨h, _⟩ | ⟨h, _⟩
      · simp at h; omega
      · simp at h; omega
      · omega
    have := (loop_day x (rest.length + 8) rest _ k').2 ⟨y, m, d, a, b, c, r, ha, hb, hc, hm.1, hm.2, rfl, hr⟩
    rw [this]
    obtain ⟨e1, e2, e3⟩ := hrest _ _ _ rfl hr
    simp only at e1 e2 e3
    simp only
    rw [e1, e2, e3, if_neg ((calendar_iff y m d hm.1 hm.2).2 hcal)]

/-! ## The rests of the formats -/

theorem rest_date (x : TimeExt) (n : Nat) (r : Str) (k k' : Clock) : parseLoop x (n + 1) [] r k = some k' ↔ r = [] ∧ k' = k := by
  rw [loop_end x n [] [] r k k' rfl]
  show some r = some [] ∧ _ ↔ _
  simp

theorem hour_head {h : Nat} {c : Str} (hh : Hour h c) : ∃ a c', c = a :: c' ∧ a ≠ 32 := by
  rcases hh.2 with hn | hn
  · obtain ⟨a, b, rfl, ha, _⟩ := num_two_inv hn
    exact ⟨a, [b], rfl, by rintro rfl; revert ha; decide⟩
  · obtain ⟨a, rfl, ha, _⟩ := num_one_inv hn
    exact ⟨a, [], rfl, by rintro rfl; revert ha; decide⟩

theorem rest_blank_hour (x : TimeExt) (n : Nat) (rest r : Str) (k k' : Clock)
    (hL : nextChunk (b!" 15:" ++ rest) = (b!" ", some (.hour, b!":" ++ rest)))
    (hr : ∀ v k, parseLoop x n (b!":" ++ rest) v k = some k' → ∃ w, v = 58 :: w) :
    parseLoop x (n + 1) (b!" 15:" ++ rest) r k = some k' ↔
      ∃ b c h w, b ≠ [] ∧ (∀ e ∈ b, e = 32) ∧ Hour h c ∧ r = b ++ c ++ 58 :: w ∧
        parseLoop x n (b!":" ++ rest) (58 :: w) { k with hour := h } = some k' := by
  rw [loop_step x n _ _ _ r .hour k k' hL]
  constructor
  · rintro ⟨v1, h1, v2, k2, h2, h3⟩
    obtain ⟨w, rfl⟩ := hr v2 k2 h3
    obtain ⟨h, c, hh, rfl, rfl⟩ := (hour_colon x v1 w k k2).1 h2
    rcases (skip_blank _ r _).1 h1 with ⟨_, h⟩ | ⟨b, hb, hb', rfl, _⟩
    · simp at h
    · exact ⟨b, c, h, w, hb, hb', hh, by simp, h3⟩
  · rintro ⟨b, c, h, w, hb, hb', hh, rfl, h3⟩
    refine ⟨c ++ 58 :: w, (skip_blank _ _ _).2 (Or.inr ⟨b, hb, hb', by simp, ?_⟩), 58 :: w, { k with hour := h }, (hour_colon _ _ _ _ _).2 ⟨h, c, hh, rfl, rfl⟩, h3⟩
    obtain ⟨a, c', rfl, ha⟩ := hour_head hh
    simpa using ha

theorem rest_short (x : TimeExt) (n : Nat) (r : Str) (k k' : Clock) : parseLoop x (n + 2) b!" 15:0" r k = some k' ↔
    ∃ b c h, b ≠ [] ∧ (∀ e ∈ b, e = 32) ∧ Hour h c ∧ r = b ++ c ++ b!":0" ∧ k' = { k with hour := h } := by
  have he : ∀ v k k', parseLoop x (n + 1) b!":0" v k = some k' ↔ v = b!":0" ∧ k' = k := by
    intro v k k'
    rw [loop_end x n b!":0" b!":0" v k k' rfl]
    have : skipText (b!":0".length + 1) b!":0" v = some [] ↔ v = b!":0" := by
      constructor
      · intro h
        obtain ⟨r, rfl, h⟩ := (skip_char _ 58 b!"0" v [] (by decide)).1 h
        obtain ⟨r', rfl, h'⟩ := (skip_char _ 48 [] r [] (by decide)).1 h
        have h' : r' = [] := Option.some.inj h'
        rw [h']
      · rintro rfl; rfl
    rw [this]
  rw [show b!" 15:0" = b!" 15:" ++ b!"0" from rfl, rest_blank_hour x (n + 1) b!"0" r k k' rfl
    (fun v k h => ⟨b!"0", ((he v k k').1 h).1⟩)]
  constructor
  · rintro ⟨b, c, h, w, hb, hb', hh, rfl, h3⟩
    obtain ⟨h4, rfl⟩ := (he _ _ _).1 h3
    exact ⟨b, c, h, hb, hb', hh, by rw [h4], rfl⟩
  · rintro ⟨b, c, h, hb, hb', hh, rfl, rfl⟩
    exact ⟨b, c, h, b!"0", hb, hb', hh, rfl, (he _ _ _).2 ⟨rfl, rfl⟩⟩

/-- `:04:05` and what follows. -/
theorem rest_min_sec (x : TimeExt) (n : Nat) (rest r : Str) (k k' : Clock) (hk : k.nsec = 0)
    (hL : nextChunk (b!":05" ++ rest) = (b!":", some (.second, rest)))
    (hr : ∀ v k, parseLoop x n rest v k = some k' →
      ¬ ((v.head? = some 46 ∨ (x.comma = true ∧ v.head? = some 44)) ∧ digit0 (v.drop 1) = true) ∧ digit0 v = false) :
    parseLoop x (n + 2) (b!":04:05" ++ rest) r k = some k' ↔
      ∃ e f g mi se ns w, Sixty mi e ∧ Sixty se f ∧ Fraction x ns g ∧ r = b!":" ++ e ++ b!":" ++ f ++ g ++ w ∧
        parseLoop x n rest w { k with min := mi, sec := se, nsec := ns } = some k' := by
  rw [loop_step x (n + 1) _ b!":" (b!":05" ++ rest) r .minute k k' rfl]
  constructor
  · rintro ⟨v1, h1, v2, k2, h2, h3⟩
    obtain ⟨w1, rfl, h1⟩ := (skip_char _ 58 [] r v1 (by decide)).1 h1
    have h1 := Option.some.inj h1
    subst h1
    obtain ⟨mi, e, he, rfl, rfl⟩ := (read_minute _ _ _ _ _).1 h2
    obtain ⟨v3, h4, v4, k4, h5, h6⟩ := (loop_step x n _ b!":" rest v2 .second _ _ hL).1 h3
    obtain ⟨w2, rfl, h4⟩ := (skip_char _ 58 [] v2 v3 (by decide)).1 h4
    have h4 := Option.some.inj h4
    subst h4
    obtain ⟨se, f, ns, g, hf, hg, rfl, rfl, _, _⟩ := (read_second x _ _ ⟨k.year, k.month, k.day, k.hour, mi, k.sec, k.nsec, k.zone⟩ _ hk).1 h5
    exact ⟨e, f, g, mi, se, ns, v4, he, hf, hg, by simp, h6⟩
  · rintro ⟨e, f, g, mi, se, ns, w, he, hf, hg, rfl, h⟩
    refine ⟨e ++ 58 :: (f ++ (g ++ w)), (skip_char _ 58 [] _ _ (by decide)).2 ⟨_, by simp, rfl⟩, 58 :: (f ++ (g ++ w)), { k with min := mi },
      (read_minute _ _ _ _ _).2 ⟨mi, e, he, rfl, rfl⟩, ?_⟩
    refine (loop_step x n _ b!":" rest _ .second _ _ hL).2 ⟨f ++ (g ++ w), (skip_char _ 58 [] _ _ (by decide)).2 ⟨_, by simp, rfl⟩, w,
      { k with min := mi, sec := se, nsec := ns }, ?_, h⟩
    refine (read_second x _ _ ⟨k.year, k.month, k.day, k.hour, mi, k.sec, k.nsec, k.zone⟩ _ hk).2 ⟨se, f, ns, g, hf, hg, rfl, rfl, fun _ => (hr w _ h).1, fun _ => (hr w _ h).2⟩

theorem colon_head (x : TimeExt) (n : Nat) (rest v : Str) (k k' : Clock)
    (h : parseLoop x n (b!":04:05" ++ rest) v k = some k') : ∃ w, v = 58 :: w := by
  cases n with
  | zero => cases h
  | succ n =>
    obtain ⟨v1, h1, _⟩ := (loop_step x n _ b!":" (b!":05" ++ rest) v .minute k k' rfl).1 h
    obtain ⟨w, hw, _⟩ := (skip_char _ 58 [] v v1 (by decide)).1 h1
    exact ⟨w, hw⟩

theorem rest_full (x : TimeExt) (n : Nat) (r : Str) (k k' : Clock) (hk : k.nsec = 0) : parseLoop x (n + 4) b!" 15:04:05" r k = some k' ↔
    ∃ b c e f g h mi se ns, b ≠ [] ∧ (∀ e ∈ b, e = 32) ∧ Hour h c ∧ Sixty mi e ∧ Sixty se f ∧ Fraction x ns g ∧
      r = b ++ c ++ b!":" ++ e ++ b!":" ++ f ++ g ∧ k' = { k with hour := h, min := mi, sec := se, nsec := ns } := by
  have hms := fun w (kk : Clock) (hkk : kk.nsec = 0) => rest_min_sec x (n + 1) [] w kk k' hkk rfl
    (fun v k h => by rw [((rest_date x n v k k').1 h).1]; simp [digit0])
  rw [show b!" 15:04:05" = b!" 15:" ++ b!"04:05" from rfl, rest_blank_hour x (n + 3) b!"04:05" r k k' rfl
    (fun v k h => colon_head x (n + 3) [] v k k' h)]
  constructor
  · rintro ⟨b, c, h, w, hb, hb', hh, rfl, h3⟩
    obtain ⟨e, f, g, mi, se, ns, w', he, hf, hg, hw, h4⟩ := (hms (58 :: w) ⟨k.year, k.month, k.day, h, k.min, k.sec, k.nsec, k.zone⟩ hk).1 h3
    obtain ⟨rfl, rfl⟩ := (rest_date x n _ _ _).1 h4
    exact ⟨b, c, e, f, g, h, mi, se, ns, hb, hb', hh, he, hf, hg, by rw [hw]; simp, rfl⟩
  · rintro ⟨b, c, e, f, g, h, mi, se, ns, hb, hb', hh, he, hf, hg, rfl, rfl⟩
    refine ⟨b, c, h, e ++ b!":" ++ f ++ g, hb, hb', hh, by simp, ?_⟩
    exact (rest_min_sec x (n + 1) [] _ ⟨k.year, k.month, k.day, h, k.min, k.sec, k.nsec, k.zone⟩ _ hk rfl
      (fun v k h => by rw [((rest_date x n v k _).1 h).1]; simp [digit0])).2
      ⟨e, f, g, mi, se, ns, [], he, hf, hg, by simp, (rest_date x n _ _ _).2 ⟨rfl, rfl⟩⟩

theorem zone_head {x : TimeExt} {off : Int} {z : Str} (hz : ZoneText x off z) : ∃ c r, z = c :: r ∧ (c = 90 ∨ c = 43 ∨ c = 45) := by
  rcases hz with ⟨rfl, _⟩ | ⟨_, _, hh, mm, _, _, _, _, ⟨rfl, _⟩ | ⟨rfl, _⟩⟩
  · exact ⟨90, [], rfl, by simp⟩
  · exact ⟨43, hh ++ b!":" ++ mm, by simp, by simp⟩
  · exact ⟨45, hh ++ b!":" ++ mm, by simp, by simp⟩

theorem rest_zone (x : TimeExt) (n : Nat) (r : Str) (k k' : Clock) : parseLoop x (n + 2) b!"Z07:00" r k = some k' ↔
    ∃ off, ZoneText x off r ∧ k' = { k with zone := some off } := by
  rw [loop_step x (n + 1) _ [] [] r .zone k k' rfl]
  constructor
  · rintro ⟨v1, h1, v2, k2, h2, h3⟩
    have h1 := Option.some.inj h1
    subst h1
    obtain ⟨rfl, rfl⟩ := (rest_date x n _ _ _).1 h3
    obtain ⟨off, z, hz, rfl, rfl⟩ := (read_zone _ _ _ _ _).1 h2
    exact ⟨off, by simpa using hz, rfl⟩
  · rintro ⟨off, hz, rfl⟩
    exact ⟨r, rfl, [], _, (read_zone _ _ _ _ _).2 ⟨off, r, hz, by simp, rfl⟩, (rest_date x n _ _ _).2 ⟨rfl, rfl⟩⟩

theorem zone_quiet (x : TimeExt) (n : Nat) (v : Str) (k k' : Clock) (h : parseLoop x (n + 2) b!"Z07:00" v k = some k') :
    ¬ ((v.head? = some 46 ∨ (x.comma = true ∧ v.head? = some 44)) ∧ digit0 (v.drop 1) = true) ∧ digit0 v = false := by
  obtain ⟨off, hz, _⟩ := (rest_zone x n v k k').1 h
  obtain ⟨c, r, rfl, hc⟩ := zone_head hz
  rcases hc with rfl | rfl | rfl <;> simp [digit0]

theorem rest_rfc (x : TimeExt) (n : Nat) (r : Str) (k k' : Clock) (hk : k.nsec = 0) : parseLoop x (n + 5) b!"T15:04:05Z07:00" r k = some k' ↔
    ∃ c e f g z h mi se ns off, Hour h c ∧ Sixty mi e ∧ Sixty se f ∧ Fraction x ns g ∧ ZoneText x off z ∧
      r = b!"T" ++ c ++ b!":" ++ e ++ b!":" ++ f ++ g ++ z ∧ k' = { k with hour := h, min := mi, sec := se, nsec := ns, zone := some off } := by
  rw [loop_step x (n + 4) _ b!"T" (b!":04:05" ++ b!"Z07:00") r .hour k k' rfl]
  constructor
  · rintro ⟨v1, h1, v2, k2, h2, h3⟩
    obtain ⟨w1, rfl, h1⟩ := (skip_char _ 84 [] r v1 (by decide)).1 h1
    have h1 := Option.some.inj h1
    subst h1
    obtain ⟨w, rfl⟩ := colon_head x _ b!"Z07:00" v2 k2 k' h3
    obtain ⟨h, c, hh, rfl, rfl⟩ := (hour_colon x w1 w k k2).1 h2
    obtain ⟨e, f, g, mi, se, ns, w', he, hf, hg, hw, h4⟩ := (rest_min_sec x (n + 2) b!"Z07:00" (58 :: w) ⟨k.year, k.month, k.day, h, k.min, k.sec, k.nsec, k.zone⟩ k' hk rfl
      (fun v k h => zone_quiet x n v k k' h)).1 h3
    obtain ⟨off, hz, rfl⟩ := (rest_zone x n _ _ _).1 h4
    exact ⟨c, e, f, g, w', h, mi, se, ns, off, hh, he, hf, hg, hz, by rw [hw]; simp, rfl⟩
  · rintro ⟨c, e, f, g, z, h, mi, se, ns, off, hh, he, hf, hg, hz, rfl, rfl⟩
    refine ⟨c ++ 58 :: (e ++ b!":" ++ f ++ g ++ z), (skip_char _ 84 [] _ _ (by decide)).2 ⟨_, by simp, rfl⟩, 58 :: (e ++ b!":" ++ f ++ g ++ z),
      { k with hour := h }, (hour_colon _ _ _ _ _).2 ⟨h, c, hh, rfl, rfl⟩, ?_⟩
    exact (rest_min_sec x (n + 2) b!"Z07:00" _ ⟨k.year, k.month, k.day, h, k.min, k.sec, k.nsec, k.zone⟩ _ hk rfl
      (fun v k h => zone_quiet x n v k _ h)).2
      ⟨e, f, g, mi, se, ns, z, he, hf, hg, by simp, (rest_zone x n _ _ _).2 ⟨off, hz, rfl⟩⟩

/-! ## The formats -/

theorem fmt_date (x : TimeExt) (s : Str) (t : TimeV) : parseTime x b!"2006-01-02" s = some t ↔
    ∃ y m d, Day y m d s ∧ t = .date y m d 0 0 0 0 .local := by
  rw [show b!"2006-01-02" = b!"2006-01-02" ++ [] from rfl, parse_day x [] s t
    (fun r k k' _ h => by rw [((rest_date x 7 r k k').1 h).2]; simp)]
  constructor
  · rintro ⟨y, m, d, a, r, k', hd, rfl, hr, rfl⟩
    obtain ⟨rfl, rfl⟩ := (rest_date x 7 r _ k').1 hr
    exact ⟨y, m, d, by simpa using hd, rfl⟩
  · rintro ⟨y, m, d, hd, rfl⟩
    exact ⟨y, m, d, s, [], _, hd, by simp, (rest_date x 7 [] _ _).2 ⟨rfl, rfl⟩, rfl⟩

theorem fmt_short (x : TimeExt) (s : Str) (t : TimeV) : parseTime x b!"2006-01-02 15:0" s = some t ↔
    ∃ y m d h a b c, Day y m d a ∧ b ≠ [] ∧ (∀ e ∈ b, e = 32) ∧ Hour h c ∧ s = a ++ b ++ c ++ b!":0" ∧ t = .date y m d h 0 0 0 .local := by
  rw [show b!"2006-01-02 15:0" = b!"2006-01-02" ++ b!" 15:0" from rfl, parse_day x b!" 15:0" s t
    (fun r k k' _ h => by obtain ⟨_, _, _, _, _, _, _, rfl⟩ := (rest_short x 11 r k k').1 h; simp)]
  constructor
  · rintro ⟨y, m, d, a, r, k', hd, rfl, hr, rfl⟩
    obtain ⟨b, c, h, hb, hb', hh, rfl, rfl⟩ := (rest_short x 11 r _ k').1 hr
    exact ⟨y, m, d, h, a, b, c, hd, hb, hb', hh, by simp, rfl⟩
  · rintro ⟨y, m, d, h, a, b, c, hd, hb, hb', hh, rfl, rfl⟩
    exact ⟨y, m, d, a, b ++ c ++ b!":0", _, hd, by simp, (rest_short x 11 _ _ _).2 ⟨b, c, h, hb, hb', hh, rfl, rfl⟩, rfl⟩

theorem fmt_full (x : TimeExt) (s : Str) (t : TimeV) : parseTime x b!"2006-01-02 15:04:05" s = some t ↔
    ∃ y m d h mi se ns a b c e f g, Day y m d a ∧ b ≠ [] ∧ (∀ e ∈ b, e = 32) ∧ Hour h c ∧ Sixty mi e ∧ Sixty se f ∧ Fraction x ns g ∧
      s = a ++ b ++ c ++ b!":" ++ e ++ b!":" ++ f ++ g ∧ t = .date y m d h mi se ns .local := by
  rw [show b!"2006-01-02 15:04:05" = b!"2006-01-02" ++ b!" 15:04:05" from rfl, parse_day x b!" 15:04:05" s t
    (fun r k k' hk h => by obtain ⟨_, _, _, _, _, _, _, _, _, _, _, _, _, _, _, _, rfl⟩ := (rest_full x 13 r k k' hk).1 h; simp)]
  constructor
  · rintro ⟨y, m, d, a, r, k', hd, rfl, hr, rfl⟩
    obtain ⟨b, c, e, f, g, h, mi, se, ns, hb, hb', hh, he, hf, hg, rfl, rfl⟩ := (rest_full x 13 r _ k' rfl).1 hr
    exact ⟨y, m, d, h, mi, se, ns, a, b, c, e, f, g, hd, hb, hb', hh, he, hf, hg, by simp, rfl⟩
  · rintro ⟨y, m, d, h, mi, se, ns, a, b, c, e, f, g, hd, hb, hb', hh, he, hf, hg, rfl, rfl⟩
    exact ⟨y, m, d, a, b ++ c ++ b!":" ++ e ++ b!":" ++ f ++ g, _, hd, by simp,
      (rest_full x 13 _ _ _ rfl).2 ⟨b, c, e, f, g, h, mi, se, ns, hb, hb', hh, he, hf, hg, rfl, rfl⟩, rfl⟩

theorem fmt_rfc (x : TimeExt) (s : Str) (t : TimeV) : parseTime x b!"2006-01-02T15:04:05Z07:00" s = some t ↔
    ∃ y m d h mi se ns off a c e f g z, Day y m d a ∧ Hour h c ∧ Sixty mi e ∧ Sixty se f ∧ Fraction x ns g ∧ ZoneText x off z ∧
      s = a ++ b!"T" ++ c ++ b!":" ++ e ++ b!":" ++ f ++ g ++ z ∧ t = .date y m d h mi se ns (.offset off) := by
  rw [show b!"2006-01-02T15:04:05Z07:00" = b!"2006-01-02" ++ b!"T15:04:05Z07:00" from rfl, parse_day x b!"T15:04:05Z07:00" s t
    (fun r k k' hk h => by obtain ⟨_, _, _, _, _, _, _, _, _, _, _, _, _, _, _, _, rfl⟩ := (rest_rfc x 18 r k k' hk).1 h; simp)]
  constructor
  · rintro ⟨y, m, d, a, r, k', hd, rfl, hr, rfl⟩
    obtain ⟨c, e, f, g, z, h, mi, se, ns, off, hh, he, hf, hg, hz, rfl, rfl⟩ := (rest_rfc x 18 r _ k' rfl).1 hr
    exact ⟨y, m, d, h, mi, se, ns, off, a, c, e, f, g, z, hd, hh, he, hf, hg, hz, by simp, rfl⟩
  · rintro ⟨y, m, d, h, mi, se, ns, off, a, c, e, f, g, z, hd, hh, he, hf, hg, hz, rfl, rfl⟩
    exact ⟨y, m, d, a, b!"T" ++ c ++ b!":" ++ e ++ b!":" ++ f ++ g ++ z, _, hd, by simp,
      (rest_rfc x 18 _ _ _ rfl).2 ⟨c, e, f, g, z, h, mi, se, ns, off, hh, he, hf, hg, hz, rfl, rfl⟩, rfl⟩

/-! ## The formats exclude each other -/

theorem day_facts {y m d : Nat} {a : Str} (h : Day y m d a) : a.length = 10 ∧ a[4]? = some 45 ∧ a.count 58 = 0 := by
  obtain ⟨a1, b1, c1, ⟨l1, d1, _⟩, ⟨l2, d2, _⟩, ⟨l3, d3, _⟩, rfl, _⟩ := h
  have nc : ∀ l : Str, (∀ c ∈ l, 48 ≤ c.toNat ∧ c.toNat ≤ 57) → l.count 58 = 0 := by
    intro l hl
    rw [List.count_eq_zero]
    intro hm
    have := hl _ hm
    revert this; decide
  refine ⟨by simp [l1, l2, l3], ?_, ?_⟩
  · rw [show a1 ++ b!"-" ++ b1 ++ b!"-" ++ c1 = a1 ++ (45 :: (b1 ++ 45 :: c1)) by simp, List.getElem?_append_right (by omega), l1]
    rfl
  · simp only [List.count_append, nc _ d1, nc _ d2, nc _ d3]
    decide

theorem num_count {w n : Nat} {s : Str} (h : Num w n s) : s.count 58 = 0 := by
  rw [List.count_eq_zero]
  intro hm
  have := h.2.1 _ hm
  revert this; decide

theorem hour_count {n : Nat} {s : Str} (h : Hour n s) : s.count 58 = 0 ∧ s ≠ [] := by
  refine ⟨h.2.elim num_count num_count, ?_⟩
  obtain ⟨a, c', rfl, _⟩ := hour_head h
  simp

theorem blank_count {b : Str} (h : ∀ e ∈ b, e = 32) : b.count 58 = 0 := by
  rw [List.count_eq_zero]
  intro hm
  have := h _ hm
  revert this; decide

theorem unix_no_day {s a r : Str} {n : Int} {y m d : Nat} (hd : Day y m d a) (hn : Denotes true s n) : s ≠ a ++ r := by
  rintro rfl
  obtain ⟨h1, h2, _⟩ := day_facts hd
  have h4 : (a ++ r)[4]? = some 45 := by rw [List.getElem?_append_left (by omega)]; exact h2
  have hno : ∀ l : Str, Digits l → (45 : UInt8) ∉ l := by
    intro l hl hm
    have := hl.2 _ hm
    revert this; decide
  rcases hn with ⟨h, _⟩ | ⟨_, r', h, hr, _⟩ | ⟨_, r', h, hr, _⟩
  · exact hno _ h (List.mem_of_getElem? h4)
  · rw [h] at h4
    exact hno _ hr (List.mem_of_getElem? (i := 3) (by simpa using h4))
  · rw [h] at h4
    exact hno _ hr (List.mem_of_getElem? (i := 3) (by simpa using h4))

theorem at10 {a r : Str} {y m d : Nat} (hd : Day y m d a) (c : UInt8) : (a ++ c :: r)[10]? = some c := by
  obtain ⟨h1, _⟩ := day_facts hd
  rw [List.getElem?_append_right (by omega), h1]
  rfl

theorem at10_blank {a b r : Str} {y m d : Nat} (hd : Day y m d a) (hb : b ≠ []) (hb' : ∀ e ∈ b, e = 32) : (a ++ b ++ r)[10]? = some 32 := by
  obtain ⟨c, b', rfl⟩ := List.exists_cons_of_ne_nil hb
  have := at10 (r := b' ++ r) hd c
  rw [hb' c (by simp)] at this
  simpa [hb' c (by simp)] using this

theorem none_of {α : Type} {o : Option α} (h : ∀ t, o = some t → False) : o = none := by
  cases o with
  | none => rfl
  | some t => exact absurd rfl (fun e => h t e)

theorem bind_eq (x : TimeExt) (s : Str) : bindTime x timeFormats s =
    match parseTime x b!"2006-01-02" s with
    | some t => some t
    | none => match parseTime x b!"2006-01-02 15:0" s with
      | some t => some t
      | none => match parseTime x b!"2006-01-02 15:04:05" s with
        | some t => some t
        | none => match parseTime x b!"2006-01-02T15:04:05Z07:00" s with
          | some t => some t
          | none => match parseInt 64 s with
            | (n, none) => some (.unix n)
            | _ => none := by
  unfold bindTime timeFormats tryFormats tryFormats tryFormats tryFormats tryFormats
  simp only [reduceCtorEq, if_false]
  cases parseTime x b!"2006-01-02" s with
  | some t => rfl
  | none =>
    cases parseTime x b!"2006-01-02 15:0" s with
    | some t => rfl
    | none =>
      cases parseTime x b!"2006-01-02 15:04:05" s with
      | some t => rfl
      | none =>
        cases parseTime x b!"2006-01-02T15:04:05Z07:00" s with
        | some t => rfl
        | none => rfl

/-- **C148.** A time parameter is bound exactly when its text is a date, a date with an hour and `:0`, a date with hours, minutes and
seconds (perhaps a fraction), an RFC 3339 time or a number of seconds since 1970, and then to the moment the text means. -/
theorem C148_exact (x : TimeExt) (s : Str) (t : TimeV) : bindTime x timeFormats s = some t ↔ TimeMeans x s t := by
  rw [bind_eq]
  constructor
  · intro h
    split at h
    · rename_i t' hp
      obtain rfl := Option.some.inj h
      obtain ⟨y, m, d, hd, rfl⟩ := (fmt_date x s _).1 hp
      exact .date hd
    split at h
    · rename_i t' hp
      obtain rfl := Option.some.inj h
      obtain ⟨y, m, d, h, a, b, c, hd, hb, hb', hh, rfl, rfl⟩ := (fmt_short x s _).1 hp
      exact .short hd hb hb' hh
    split at h
    · rename_i t' hp
      obtain rfl := Option.some.inj h
      obtain ⟨y, m, d, h, mi, se, ns, a, b, c, e, f, g, hd, hb, hb', hh, he, hf, hg, rfl, rfl⟩ := (fmt_full x s _).1 hp
      exact .full hd hb hb' hh he hf hg
    split at h
    · rename_i t' hp
      obtain rfl := Option.some.inj h
      obtain ⟨y, m, d, h, mi, se, ns, off, a, c, e, f, g, z, hd, hh, he, hf, hg, hz, rfl, rfl⟩ := (fmt_rfc x s _).1 hp
      exact .rfc hd hh he hf hg hz
    split at h
    · rename_i n hp
      obtain rfl := Option.some.inj h
      obtain ⟨h1, h2⟩ := (parseInt_iff 64 (by decide) s n).1 hp
      exact .unix h1 h2
    · cases h
  · intro h
    cases h with
    | date hd => rw [(fmt_date x s _).2 ⟨_, _, _, hd, rfl⟩]
    | @short a b c y m d h hd hb hb' hh =>
      have n1 : parseTime x b!"2006-01-02" (a ++ b ++ c ++ b!":0") = none := none_of fun t' ht => by
        obtain ⟨y', m', d', hd', _⟩ := (fmt_date x _ _).1 ht
        have l1 := (day_facts hd').1
        have l2 := (day_facts hd).1
        simp at l1; omega
      rw [n1, (fmt_short x _ _).2 ⟨y, m, d, h, a, b, c, hd, hb, hb', hh, rfl, rfl⟩]
    | @full a b c e f g y m d h mi se ns hd hb hb' hh he hf hg =>
      have n1 : parseTime x b!"2006-01-02" (a ++ b ++ c ++ b!":" ++ e ++ b!":" ++ f ++ g) = none := none_of fun t' ht => by
        obtain ⟨y', m', d', hd', _⟩ := (fmt_date x _ _).1 ht
        have l1 := (day_facts hd').1
        have l2 := (day_facts hd).1
        simp at l1; omega
      have n2 : parseTime x b!"2006-01-02 15:0" (a ++ b ++ c ++ b!":" ++ e ++ b!":" ++ f ++ g) = none := none_of fun t' ht => by
        obtain ⟨y', m', d', h', a', b', c', hd', hb1, hb1', hh', hs, _⟩ := (fmt_short x _ _).1 ht
        have l := congrArg (List.count (58 : UInt8)) hs
        simp only [List.count_append, (day_facts hd').2.2, blank_count hb1', (hour_count hh').1,
          show List.count (58 : UInt8) b!":0" = 1 from rfl, show List.count (58 : UInt8) b!":" = 1 from rfl] at l
        omega
      rw [n1, n2, (fmt_full x _ _).2 ⟨y, m, d, h, mi, se, ns, a, b, c, e, f, g, hd, hb, hb', hh, he, hf, hg, rfl, rfl⟩]
    | @rfc a c e f g z y m d h mi se ns off hd hh he hf hg hz =>
      have h10 : (a ++ b!"T" ++ c ++ b!":" ++ e ++ b!":" ++ f ++ g ++ z)[10]? = some 84 := by
        have := at10 (r := c ++ b!":" ++ e ++ b!":" ++ f ++ g ++ z) hd 84
        simpa using this
      have n1 : parseTime x b!"2006-01-02" (a ++ b!"T" ++ c ++ b!":" ++ e ++ b!":" ++ f ++ g ++ z) = none := none_of fun t' ht => by
        obtain ⟨y', m', d', hd', _⟩ := (fmt_date x _ _).1 ht
        have l1 := (day_facts hd').1
        have l2 := (day_facts hd).1
        simp at l1; omega
      have n2 : parseTime x b!"2006-01-02 15:0" (a ++ b!"T" ++ c ++ b!":" ++ e ++ b!":" ++ f ++ g ++ z) = none := none_of fun t' ht => by
        obtain ⟨y', m', d', h', a', b', c', hd', hb1, hb1', hh', hs, _⟩ := (fmt_short x _ _).1 ht
        rw [hs] at h10
        have := at10_blank (r := c' ++ b!":0") hd' hb1 hb1'
        rw [← List.append_assoc] at this
        rw [this] at h10; cases h10
      have n3 : parseTime x b!"2006-01-02 15:04:05" (a ++ b!"T" ++ c ++ b!":" ++ e ++ b!":" ++ f ++ g ++ z) = none := none_of fun t' ht => by
        obtain ⟨y', m', d', h', mi', se', ns', a', b', c', e', f', g', hd', hb1, hb1', _, _, _, _, hs, _⟩ := (fmt_full x _ _).1 ht
        rw [hs] at h10
        have := at10_blank (r := c' ++ b!":" ++ e' ++ b!":" ++ f' ++ g') hd' hb1 hb1'
        simp only [← List.append_assoc] at this
        rw [this] at h10; cases h10
      rw [n1, n2, n3, (fmt_rfc x _ _).2 ⟨y, m, d, h, mi, se, ns, off, a, c, e, f, g, z, hd, hh, he, hf, hg, hz, rfl, rfl⟩]
    | unix hn hf =>
      have n1 : parseTime x b!"2006-01-02" s = none := none_of fun t' ht => by
        obtain ⟨y', m', d', hd', _⟩ := (fmt_date x _ _).1 ht
        exact unix_no_day (r := []) hd' hn (by simp)
      have n2 : parseTime x b!"2006-01-02 15:0" s = none := none_of fun t' ht => by
        obtain ⟨y', m', d', h', a', b', c', hd', hb1, hb1', hh', hs, _⟩ := (fmt_short x _ _).1 ht
        exact unix_no_day (r := b' ++ c' ++ b!":0") hd' hn (by simp [hs])
      have n3 : parseTime x b!"2006-01-02 15:04:05" s = none := none_of fun t' ht => by
        obtain ⟨y', m', d', h', mi', se', ns', a', b', c', e', f', g', hd', hb1, hb1', _, _, _, _, hs, _⟩ := (fmt_full x _ _).1 ht
        exact unix_no_day (r := b' ++ c' ++ b!":" ++ e' ++ b!":" ++ f' ++ g') hd' hn (by simp [hs])
      have n4 : parseTime x b!"2006-01-02T15:04:05Z07:00" s = none := none_of fun t' ht => by
        obtain ⟨y', m', d', h', mi', se', ns', off', a', c', e', f', g', z', hd', _, _, _, _, _, hs, _⟩ := (fmt_rfc x _ _).1 ht
        exact unix_no_day (r := b!"T" ++ c' ++ b!":" ++ e' ++ b!":" ++ f' ++ g' ++ z') hd' hn (by simp [hs])
      rw [n1, n2, n3, n4, (parseInt_iff 64 (by decide) s _).2 ⟨hn, hf⟩]

/-- The text of a time parameter has at most one meaning. -/
theorem C148_unambiguous (x : TimeExt) (s : Str) (t t' : TimeV) (h : TimeMeans x s t) (h' : TimeMeans x s t') : t = t' := by
  have h1 := (C148_exact x s t).2 h
  rw [(C148_exact x s t').2 h'] at h1
  exact (Option.some.inj h1).symm

/-- **C148, the claim the format is named for fails.** The package's format for a date with hours and minutes is missing its last digit, so
no text `YYYY-MM-DD hh:mm` is ever understood: the zero time is bound, without an error. -/
theorem C148_minutes_violated (x : TimeExt) {a c e : Str} {y m d h mi : Nat} (hd : Day y m d a) (hh : Hour h c) (he : Sixty mi e) :
    bindTime x timeFormats (a ++ b!" " ++ c ++ b!":" ++ e) = none := by
  have l1 := day_facts hd
  have ce : e.count 58 = 0 := num_count he.2
  refine none_of fun t ht => ?_
  have hm := (C148_exact x _ t).1 ht
  generalize hs : a ++ b!" " ++ c ++ b!":" ++ e = s at hm
  cases hm with
  | date hd' =>
    have := (day_facts hd').1
    rw [← hs] at this
    simp at this; omega
  | @short a' b' c' y' m' d' h' hd' hb hb' hh' =>
    obtain ⟨e1, e2, rfl, he1, he2, _⟩ := num_two_inv he.2
    have hl := congrArg (fun l : Str => l.reverse[1]?) hs
    simp at hl
    rw [hl] at he1
    revert he1; decide
  | @full a' b' c' e' f' g' y' m' d' h' mi' se' ns' hd' hb hb' hh' he' hf' hg' =>
    have l := congrArg (List.count (58 : UInt8)) hs
    simp only [List.count_append, l1.2.2, (hour_count hh).1, ce, show List.count (58 : UInt8) b!" " = 0 from rfl,
      show List.count (58 : UInt8) b!":" = 1 from rfl] at l
    omega
  | @rfc a' c' e' f' g' z' y' m' d' h' mi' se' ns' off' hd' hh' he' hf' hg' hz' =>
    have h1 : (a ++ b!" " ++ c ++ b!":" ++ e)[10]? = some 32 := by
      have := at10 (r := c ++ b!":" ++ e) hd 32
      simpa using this
    have h2 : (a' ++ b!"T" ++ c' ++ b!":" ++ e' ++ b!":" ++ f' ++ g' ++ z')[10]? = some 84 := by
      have := at10 (r := c' ++ b!":" ++ e' ++ b!":" ++ f' ++ g' ++ z') hd' 84
      simpa using this
    rw [hs, h2] at h1; cases h1
  | unix hn hf => exact unix_no_day (r := b!" " ++ c ++ b!":" ++ e) hd hn (by rw [← hs]; simp)

/-- Formats an application adds are tried after the package's, in order, empty ones being passed over: they never change the meaning of a
text that names a date, and the first that fits decides the others. -/
theorem C148_added_formats (x : TimeExt) (more : List Str) (s : Str) (t : TimeV) :
    bindTime x (timeFormats ++ more) s = some t ↔
      (TimeMeans x s t ∧ (∀ n, t ≠ .unix n)) ∨
      ((∀ t', TimeMeans x s t' → ∃ n, t' = .unix n) ∧
        ((∃ pre f post, more = pre ++ f :: post ∧ f ≠ [] ∧ parseTime x f s = some t ∧ ∀ g ∈ pre, g = [] ∨ parseTime x g s = none) ∨
         ((∀ g ∈ more, g = [] ∨ parseTime x g s = none) ∧ TimeMeans x s t))) := by
  have happ : ∀ fs, tryFormats x s (fs ++ more) = (match tryFormats x s fs with | some t => some t | none => tryFormats x s more) := by
    intro fs
    induction fs with
    | nil => rfl
    | cons f fs ih =>
      show (if f = [] then tryFormats x s (fs ++ more) else match parseTime x f s with | some t => some t | none => tryFormats x s (fs ++ more)) =
        (match (if f = [] then tryFormats x s fs else match parseTime x f s with | some t => some t | none => tryFormats x s fs) with
          | some t => some t | none => tryFormats x s more)
      by_cases hf : f = []
      · rw [if_pos hf, if_pos hf, ih]
      · rw [if_neg hf, if_neg hf]
        cases parseTime x f s with
        | some t => rfl
        | none => exact ih
  have hnone : ∀ fs, tryFormats x s fs = none ↔ ∀ g ∈ fs, g = [] ∨ parseTime x g s = none := by
    intro fs
    induction fs with
    | nil => simp [tryFormats]
    | cons f fs ih =>
      show (if f = [] then tryFormats x s fs else match parseTime x f s with | some t => some t | none => tryFormats x s fs) = none ↔ _
      by_cases hf : f = []
      · rw [if_pos hf, ih]; simp [hf]
      · rw [if_neg hf]
        cases hp : parseTime x f s with
        | some t => simp [hp, hf]
        | none => simp [hp, ih]
  have hsome : ∀ fs t, tryFormats x s fs = some t ↔
      ∃ pre f post, fs = pre ++ f :: post ∧ f ≠ [] ∧ parseTime x f s = some t ∧ ∀ g ∈ pre, g = [] ∨ parseTime x g s = none := by
    intro fs t
    induction fs with
    | nil => simp [tryFormats]
    | cons f fs ih =>
      have e : tryFormats x s (f :: fs) = if f = [] then tryFormats x s fs else match parseTime x f s with | some t => some t | none => tryFormats x s fs := rfl
      constructor
      · intro h
        rw [e] at h
        by_cases hf : f = []
        · rw [if_pos hf] at h
          obtain ⟨pre, g, post, rfl, h1, h2, h3⟩ := ih.1 h
          exact ⟨f :: pre, g, post, rfl, h1, h2, fun k hk => (List.mem_cons.1 hk).elim (fun e => Or.inl (e ▸ hf)) (h3 k)⟩
        · rw [if_neg hf] at h
          cases hp : parseTime x f s with
          | some t' =>
            rw [hp] at h
            exact ⟨[], f, fs, rfl, hf, by rw [hp]; exact h, by simp⟩
          | none =>
            rw [hp] at h
            obtain ⟨pre, g, post, rfl, h1, h2, h3⟩ := ih.1 h
            exact ⟨f :: pre, g, post, rfl, h1, h2, fun k hk => (List.mem_cons.1 hk).elim (fun e => Or.inr (e ▸ hp)) (h3 k)⟩
      · rintro ⟨pre, g, post, hfs, h1, h2, h3⟩
        rw [e]
        cases pre with
        | nil =>
          injection hfs with e1 e2
          subst e1
          rw [if_neg h1, h2]
        | cons p pre =>
          injection hfs with e1 e2
          subst e1
          have ih' := ih.2 ⟨pre, g, post, e2, h1, h2, fun k hk => h3 k (by simp [hk])⟩
          rcases h3 f (by simp) with hf | hf
          · rw [if_pos hf]; exact ih'
          · by_cases hf' : f = []
            · rw [if_pos hf']; exact ih'
            · rw [if_neg hf', hf]; exact ih'
  have hun : ∀ t, tryFormats x s timeFormats = some t → ∀ n, t ≠ .unix n := by
    intro t ht n hn
    obtain ⟨_, f, _, _, _, h2, _⟩ := (hsome _ _).1 ht
    subst hn
    unfold parseTime at h2
    split at h2
    · cases h2
    · split at h2
      · cases h2
      · cases h2
  have hex := fun t' => C148_exact x s t'
  unfold bindTime at hex ⊢
  rw [happ]
  cases h0 : tryFormats x s timeFormats with
  | some t0 =>
    rw [h0] at hex
    have hm0 : TimeMeans x s t0 := (hex t0).1 rfl
    constructor
    · intro h
      obtain rfl := Option.some.inj h
      exact Or.inl ⟨hm0, hun _ h0⟩
    · rintro (⟨h, _⟩ | ⟨h, _⟩)
      · exact (hex t).2 h
      · obtain ⟨n, hn⟩ := h t0 hm0
        exact absurd hn (hun _ h0 n)
  | none =>
    rw [h0] at hex
    simp only at hex ⊢
    have hu : ∀ t', TimeMeans x s t' → ∃ n, t' = .unix n := by
      intro t' h
      have := (hex t').2 h
      split at this
      · exact ⟨_, (Option.some.inj this).symm⟩
      · cases this
    constructor
    · intro h
      refine Or.inr ⟨hu, ?_⟩
      cases h1 : tryFormats x s more with
      | some t1 =>
        rw [h1] at h
        obtain rfl := Option.some.inj h
        exact Or.inl ((hsome _ _).1 h1)
      | none =>
        rw [h1] at h
        exact Or.inr ⟨(hnone _).1 h1, (hex t).1 h⟩
    · rintro (⟨h, h'⟩ | ⟨_, h | ⟨h1, h2⟩⟩)
      · obtain ⟨n, hn⟩ := hu t h
        exact absurd hn (h' n)
      · rw [(hsome _ _).2 h]
      · rw [(hnone _).2 h1]
        exact (hex t).2 h2

/-- Binding a time parameter of a request: the first value decides; without one, the zero time. `code` numbers the times. -/
theorem C148_bound (x : Ext) (tx : TimeExt) (code : Option TimeV → Nat) (h0 : code none = 0)
    (hx : ∀ s, x.time s = code (bindTime tx timeFormats s)) (it : Order) (path : List Nat) (p : P) (name : Str) :
    (∀ s rest t, lookup p.values name = some (s :: rest) → TimeMeans tx s t → bind x it .time path p name = some (.time (code (some t)))) ∧
    (∀ s rest, lookup p.values name = some (s :: rest) → (¬ ∃ t, TimeMeans tx s t) → bind x it .time path p name = some (.time (code none))) ∧
    ((lookup p.values name = none ∨ lookup p.values name = some []) → bind x it .time path p name = some (.time (code none))) := by
  have hb : bind x it .time path p name = some (match firstValue p name with | some s => .time (x.time s) | none => .time 0) := rfl
  refine ⟨?_, ?_, ?_⟩
  · intro s rest t h hm
    rw [hb, show firstValue p name = some s by unfold firstValue; rw [h]]
    show some (V.time (x.time s)) = _
    rw [hx, (C148_exact tx s t).2 hm]
  · intro s rest h hm
    rw [hb, show firstValue p name = some s by unfold firstValue; rw [h]]
    show some (V.time (x.time s)) = _
    rw [hx,
      none_of fun t ht => hm ⟨t, (C148_exact tx s t).1 ht⟩]
  · intro h
    rw [hb, show firstValue p name = none by unfold firstValue; rcases h with h | h <;> rw [h]]
    rw [h0]

/-! ## The zone of a time whose text has none -/

/-- `sub` is a part of `s`. -/
def Within (sub s : Str) : Prop := ∃ a b, s = a ++ sub ++ b

theorem contains_within (sub : Str) : ∀ s, contains sub s = true ↔ Within sub s
  | [] => by
    simp only [contains, decide_eq_true_eq]
    constructor
    · rintro rfl; exact ⟨[], [], rfl⟩
    · rintro ⟨a, b, h⟩
      have := congrArg List.length h
      simp at this
      exact List.eq_nil_of_length_eq_zero (by omega)
  | c :: s => by
    simp only [contains, Bool.or_eq_true, decide_eq_true_eq, contains_within sub s]
    constructor
    · rintro (h | ⟨a, b, h⟩)
      · exact ⟨[], (c :: s).drop sub.length, by rw [List.nil_append]; conv => lhs; rw [← List.take_append_drop sub.length (c :: s), h]⟩
      · exact ⟨c :: a, b, by rw [h]; rfl⟩
    · rintro ⟨a, b, h⟩
      cases a with
      | nil => left; rw [h]; simp
      | cons d a =>
        simp only [List.cons_append, List.cons.injEq] at h
        exact .inr ⟨a, b, h.2⟩

theorem Within.append {sub s : Str} (pre : Str) (h : Within sub s) : Within sub (pre ++ s) := by
  obtain ⟨a, b, rfl⟩ := h
  exact ⟨pre ++ a, b, by simp⟩

theorem Within.drop {sub s : Str} (n : Nat) (h : Within sub (s.drop n)) : Within sub s := by
  have := h.append (s.take n)
  rwa [List.take_append_drop] at this

theorem chunkAt_facts {s rest : Str} {c : Chunk} (h : chunkAt s = some (c, rest)) :
    (∃ n, rest = s.drop n) ∧ (c = .zone → Within b!"07" s) := by
  unfold chunkAt at h
  repeat' split at h
  all_goals first | (cases h; done) | skip
  all_goals
    simp only [Option.some.injEq, Prod.mk.injEq] at h
    obtain ⟨rfl, rfl⟩ := h
    refine ⟨⟨_, rfl⟩, fun hc => ?_⟩
    first
    | (cases hc; done)
    | (rename_i hz
       refine ⟨b!"Z", b!":00" ++ s.drop 6, ?_⟩
       conv => lhs; rw [← List.take_append_drop 6 s, hz]
       rfl)

theorem nextChunk_facts : ∀ (s : Str) {c : Chunk} {rest : Str}, (nextChunk s).2 = some (c, rest) →
    (∃ n, rest = s.drop n) ∧ (c = .zone → Within b!"07" s)
  | [], c, rest, h => by cases h
  | a :: s, c, rest, h => by
    unfold nextChunk at h
    cases hc : chunkAt (a :: s) with
    | some e =>
      rw [hc] at h
      simp only [Option.some.injEq] at h
      rw [h] at hc
      exact chunkAt_facts hc
    | none =>
      rw [hc] at h
      obtain ⟨⟨n, hn⟩, h2⟩ := nextChunk_facts s h
      exact ⟨⟨n + 1, hn⟩, fun e => (h2 e).append [a]⟩

theorem readChunk_zone {x : TimeExt} {c : Chunk} {v : Str} {k : Clock} {e : Str × Clock} (h : readChunk x c v k = some e) (hc : c ≠ .zone) :
    e.2.zone = k.zone := by
  cases c with
  | zone => exact absurd rfl hc
  | year => unfold readChunk readYear at h; simp only at h; split at h <;> cases h; rfl
  | month =>
    unfold readChunk at h; obtain ⟨a, _, h⟩ := Option.bind_eq_some_iff.1 h
    split at h <;> cases h; rfl
  | day =>
    unfold readChunk at h; obtain ⟨a, _, h⟩ := Option.bind_eq_some_iff.1 h
    cases h; rfl
  | hour =>
    unfold readChunk at h; obtain ⟨a, _, h⟩ := Option.bind_eq_some_iff.1 h
    split at h <;> cases h; rfl
  | minute =>
    unfold readChunk at h; obtain ⟨a, _, h⟩ := Option.bind_eq_some_iff.1 h
    split at h <;> cases h; rfl
  | second =>
    unfold readChunk at h; obtain ⟨a, _, h⟩ := Option.bind_eq_some_iff.1 h
    split at h
    · cases h
    · unfold readFraction at h
      split at h
      · obtain ⟨n, _, rfl⟩ := Option.map_eq_some_iff.1 h; rfl
      · cases h; rfl

theorem parseLoop_zone (x : TimeExt) : ∀ (n : Nat) (layout v : Str) (k k' : Clock), parseLoop x n layout v k = some k' →
    ¬ Within b!"07" layout → k'.zone = k.zone
  | 0, _, _, _, _, h, _ => by cases h
  | n + 1, layout, v, k, k', h, hw => by
    unfold parseLoop at h
    split at h
    · rename_i v' c rest h1 h2
      obtain ⟨⟨m, hm⟩, h3⟩ := nextChunk_facts layout h2
      obtain ⟨e, he, h⟩ := Option.bind_eq_some_iff.1 h
      rw [parseLoop_zone x n rest e.1 e.2 k' h (fun hr => hw (by rw [hm] at hr; exact hr.drop m))]
      exact readChunk_zone he fun hz => hw (h3 hz)
    · split at h
      · cases h; rfl
      · cases h
    · cases h

/-- **C148 (zones).** A time read by a format, one of the package or one added, is a local time exactly when the format has neither `07` nor
`MST` in it; else at an offset from UTC. (Chunks the package does not use are text in the model, see `chunkAt`.) -/
theorem C148_zone (x : TimeExt) (f v : Str) (t : TimeV) (h : parseTime x f v = some t) :
    ∃ y mo d hh mi s ns z, t = .date y mo d hh mi s ns z ∧
      (z = .local ↔ ¬ Within b!"07" f ∧ ¬ Within b!"MST" f) := by
  unfold parseTime at h
  split at h
  · cases h
  · rename_i k hk
    split at h
    · cases h
    · simp only [Option.some.injEq] at h
      refine ⟨_, _, _, _, _, _, _, _, h.symm, ?_⟩
      · constructor
        · intro hz
          unfold zoneOf at hz
          split at hz
          · cases hz
          · split at hz
            · cases hz
            · rename_i hc
              simp only [Bool.or_eq_true, not_or] at hc
              exact ⟨fun w => hc.1 ((contains_within _ _).2 w), fun w => hc.2 ((contains_within _ _).2 w)⟩
        · rintro ⟨h1, h2⟩
          rw [parseLoop_zone x _ _ _ _ _ hk h1]
          show (if contains b!"07" f || contains b!"MST" f then Zone.offset 0 else .local) = .local
          refine if_neg ?_
          rw [Bool.or_eq_true, contains_within, contains_within]
          exact fun h => h.elim h1 h2

/-! ## Cases -/

/-- Two digits for the hours and the minutes of a zone, at most nine for a fraction. -/
def toyTime : TimeExt where
  comma := true
  zoneHour s := if s.all (fun c => 48 ≤ c && c ≤ 57) then some (decimal s) else none
  zoneMin s := if s.all (fun c => 48 ≤ c && c ≤ 57) then some (decimal s) else none
  fraction s := if s.length ≤ 9 then some (decimal s * 10 ^ (9 - s.length)) else none

example : bindTime toyTime timeFormats b!"2024-02-29" = some (.date 2024 2 29 0 0 0 0 .local) := by decide +kernel
example : bindTime toyTime timeFormats b!"2023-02-29" = none := by decide +kernel
example : bindTime toyTime timeFormats b!"2024-02-29 7:05:09.25" = some (.date 2024 2 29 7 5 9 250000000 .local) := by decide +kernel
example : bindTime toyTime timeFormats b!"2024-02-29T17:05:09-02:30" = some (.date 2024 2 29 17 5 9 0 (.offset (-9000))) := by decide +kernel
example : bindTime toyTime timeFormats b!"1709210000" = some (.unix 1709210000) := by decide +kernel
example : bindTime toyTime timeFormats b!"2024-02-29 17:0" = some (.date 2024 2 29 17 0 0 0 .local) := by decide +kernel
example : bindTime toyTime timeFormats b!"2024-02-29 17:05" = none := by decide +kernel
example : bindTime toyTime (timeFormats ++ [[], b!"01-02"]) b!"12-31" = some (.date 0 12 31 0 0 0 0 .local) := by decide +kernel
example : parseTime toyTime b!"2006-01-02 UTC" b!"2024-02-29 UTC" = some (.date 2024 2 29 0 0 0 0 .local) := by decide +kernel
example : parseTime toyTime b!"07: 2006-01-02" b!"07: 2024-02-29" = some (.date 2024 2 29 0 0 0 0 (.offset 0)) := by decide +kernel
/-- Blanks in a format and in a value stand for each other in any number; a zone may be anywhere. -/
theorem C148_format_example :
    parseTime toyTime b!"Z07:00 2006  01-02" b!"+01:00   2024 02-29" = some (.date 2024 2 29 0 0 0 0 (.offset 3600)) ∧
    parseTime toyTime b!"2006 01-02" b!"2024   02-29" = some (.date 2024 2 29 0 0 0 0 .local) ∧
    parseTime toyTime b!"2006  01-02" b!"202402-29" = none := by decide +kernel
example : Day 2024 2 29 b!"2024-02-29" :=
  ⟨b!"2024", b!"02", b!"29", ⟨rfl, by decide, by decide⟩, ⟨rfl, by decide, by decide⟩, ⟨rfl, by decide, by decide⟩, rfl,
    by decide, Or.inr (Or.inr ⟨rfl, Or.inr ⟨rfl, Or.inl ⟨⟨506, rfl⟩, by decide⟩⟩⟩)⟩
example : Sixty 5 b!"05" := ⟨by decide, rfl, by decide, by decide⟩

end Verif.Params
