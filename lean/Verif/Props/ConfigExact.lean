import Verif.Model.ConfigLoad
import Verif.Proofs.Config
import Verif.Proofs.Trim
import Verif.Props.Config
/-! C175: what every configuration file means, well-formed or not. -/
namespace Verif.Conf
open Verif.Go

/-! ## Specification -/

/-- a separator of keys and values: `=` or `:` -/
def Ini.Sep (c : UInt8) : Prop := c = 61 ∨ c = 58

/-- three double quotes -/
def Ini.triple : Str := [34, 34, 34]

/-- the quote a line opens with: three double quotes (in a line of at least six bytes), one double quote, a back
quote, or none -/
inductive Ini.Opens : Str → Str → Prop
  | triple (rest : Str) : 3 ≤ rest.length → Ini.Opens (Ini.triple ++ rest) Ini.triple
  | double (rest : Str) : ¬ (Ini.triple <+: 34 :: rest ∧ 6 ≤ (34 :: rest).length) → Ini.Opens (34 :: rest) [34]
  | back (rest : Str) : Ini.Opens (96 :: rest) [96]
  | none (line : Str) : (∀ c, line.head? = some c → c ≠ 34 ∧ c ≠ 96) → Ini.Opens line []

/-- The key of a line and what follows its separator. Without a quote: everything before the first separator, which
may not be the first byte, without the white space around it. With a quote: up to the next such quote, as it is; what
stands between the closing quote and the first separator after it is ignored. -/
inductive Ini.Key : Str → Str → Str → Prop
  | bare (k : Str) (sep : UInt8) (rest : Str) : Ini.Opens (k ++ sep :: rest) [] → k ≠ [] → Ini.Sep sep →
      (∀ c ∈ k, ¬ Ini.Sep c) → Ini.Key (k ++ sep :: rest) (trimSpace k) rest
  | quoted (q k gap : Str) (sep : UInt8) (rest : Str) :
      Ini.Opens (q ++ k ++ q ++ gap ++ sep :: rest) q → q ≠ [] →
      ¬ q <:+: k ++ q.dropLast → Ini.Sep sep → (∀ c ∈ gap, ¬ Ini.Sep c) →
      Ini.Key (q ++ k ++ q ++ gap ++ sep :: rest) k rest

/-- The value of a text (without white space around it) after the separator. A text of at least two bytes that
starts with a back quote, or of at least six that starts with three double quotes, is the part up to the last such
quote; what follows is ignored. Every other text is its own value. -/
inductive Ini.Value : Str → Str → Prop
  | back (v junk : Str) : (96 : UInt8) ∉ junk → Ini.Value (96 :: v ++ 96 :: junk) v
  | triple (v junk : Str) : ¬ Ini.triple <:+: Ini.triple.tail ++ junk →
      Ini.Value (Ini.triple ++ v ++ Ini.triple ++ junk) v
  | bare (v : Str) : ¬ (v.head? = some 96 ∧ 2 ≤ v.length) → ¬ (Ini.triple <+: v ∧ 6 ≤ v.length) → Ini.Value v v

/-- what a line is -/
inductive Ini.Meaning where
  | ignored
  | header (name : Str)
  | entry (key value : Str)
  | nameless
  | unreadable
deriving DecidableEq

/-- blank, or a comment -/
def Ini.Ignored (line : Str) : Prop := ∀ c, line.head? = some c → c = 35 ∨ c = 59

/-- between square brackets -/
def Ini.Bracketed (line inner : Str) : Prop := line = 91 :: inner ++ [93]

/-- The meaning of a line without the white space around it. -/
inductive Ini.Means (line : Str) : Ini.Meaning → Prop
  | ignored : Ini.Ignored line → Ini.Means line .ignored
  | header (inner : Str) : Ini.Bracketed line inner → trimSpace inner ≠ [] → Ini.Means line (.header (trimSpace inner))
  | nameless (inner : Str) : Ini.Bracketed line inner → trimSpace inner = [] → Ini.Means line .nameless
  | entry (k rest v : Str) : ¬ Ini.Ignored line → (∀ inner, ¬ Ini.Bracketed line inner) → Ini.Key line k rest →
      Ini.Value (trimSpace rest) v → Ini.Means line (.entry k v)
  | unreadable : ¬ Ini.Ignored line → (∀ inner, ¬ Ini.Bracketed line inner) →
      (∀ k rest v, Ini.Key line k rest → ¬ Ini.Value (trimSpace rest) v) → Ini.Means line .unreadable

/-- the lines of a text: the pieces between line feeds, after a byte order mark if there is one, each without the
white space around it -/
def Ini.lines (text : Str) : List Str :=
  (splitOn1 10 (if [239, 187, 191] <+: text then text.drop 3 else text)).map trimSpace

/-- Line by line -/
inductive Ini.Read : List Str → List Ini.Meaning → Prop
  | nil : Ini.Read [] []
  | cons (l : Str) (m : Ini.Meaning) (ls : List Str) (ms : List Ini.Meaning) :
      Ini.Means l m → Ini.Read ls ms → Ini.Read (l :: ls) (m :: ms)

/-- The complaint about a line. -/
def Ini.complaint (line : Str) : Ini.Meaning → Option Str
  | .nameless => some b!"empty section name not allowed"
  | .unreadable => some (b!"could not parse line: " ++ line)
  | _ => none

/-- The complaint about the first line that deserves one. -/
def Ini.firstComplaint : List Str → List Ini.Meaning → Option Str
  | l :: ls, m :: ms => (Ini.complaint l m).or (Ini.firstComplaint ls ms)
  | _, _ => none

/-- The assignments (section, key, value) the lines make, in order: `cur` is the current section, `n` the number the
next `-` key gets. An empty key assigns nothing. -/
def Ini.assigns : Str → Nat → List Ini.Meaning → List (Str × Str × Str)
  | _, _, [] => []
  | _, _, .header name :: ms => Ini.assigns name 1 ms
  | cur, n, .entry k v :: ms =>
    if k = b!"-" then (cur, b!"#" ++ natDec n, v) :: Ini.assigns cur (n + 1) ms
    else if k = [] then Ini.assigns cur n ms
    else (cur, k, v) :: Ini.assigns cur n ms
  | cur, n, _ :: ms => Ini.assigns cur n ms

/-- The sections the lines mention: the headers, and the section of each entry. -/
def Ini.sections : Str → List Ini.Meaning → List Str
  | _, [] => []
  | _, .header name :: ms => name :: Ini.sections name ms
  | cur, .entry _ _ :: ms => cur :: Ini.sections cur ms
  | cur, _ :: ms => Ini.sections cur ms

/-- The last value assigned. -/
def Ini.last (as : List (Str × Str × Str)) (s k : Str) : Option Str :=
  (as.reverse.find? (fun a => a.1 = s ∧ a.2.1 = k)).map (fun a => a.2.2)

/-! ## Searching -/

instance (c : UInt8) : Decidable (Ini.Sep c) := inferInstanceAs (Decidable (_ ∨ _))

theorem index_neg {q s : Str} (hq : q ≠ []) : index q s = -1 ↔ ¬ q <:+: s := by
  induction s with
  | nil => simp [index, hq]
  | cons c cs ih =>
    unfold index
    by_cases h : q <+: c :: cs
    · rw [if_pos h]
      simp only [show ((0 : Int) = -1) = False from by simp, false_iff, Classical.not_not]
      exact h.isInfix
    · rw [if_neg h, List.infix_cons_iff]
      simp only [h, false_or, ← ih]
      rcases index_bounds q cs with e | ⟨e, _⟩
      · simp [e]
      · rw [if_neg (by omega)]; omega

theorem index_at {q : Str} (hq : q ≠ []) (b : Str) : ∀ (a : Str), ¬ q <:+: a ++ q.dropLast →
    index q (a ++ q ++ b) = a.length := by
  intro a
  induction a with
  | nil =>
    intro _
    obtain ⟨c, cs, rfl⟩ := List.exists_cons_of_ne_nil hq
    simp only [List.nil_append, List.cons_append, List.length_nil]
    unfold index
    rw [if_pos ⟨b, rfl⟩]; rfl
  | cons x a ih =>
    intro h
    have h' : ¬ q <:+: a ++ q.dropLast := fun e => h (List.infix_cons e)
    have := ih h'
    simp only [List.cons_append, List.length_cons]
    unfold index
    rw [if_neg, this, if_neg (by omega)]
    · simp
    · intro hp
      apply h
      have hq1 : 0 < q.length := List.length_pos_iff.2 hq
      have e : q.dropLast ++ [q.getLast hq] = q := List.dropLast_concat_getLast hq
      have hp' : q <+: (x :: a ++ q.dropLast) ++ ([q.getLast hq] ++ b) := by
        have e2 : (x :: a ++ q.dropLast) ++ ([q.getLast hq] ++ b) = x :: (a ++ q ++ b) := by
          conv => rhs; rw [← e]
          simp
        rw [e2]; exact hp
      have hl : q.length ≤ (x :: a ++ q.dropLast).length := by simp; omega
      exact (List.prefix_of_prefix_length_le hp' (List.prefix_append _ _) hl).isInfix

theorem index_split {q : Str} (hq : q ≠ []) : ∀ (s : Str), index q s ≠ -1 →
    ∃ a b, s = a ++ q ++ b ∧ index q s = a.length ∧ ¬ q <:+: a ++ q.dropLast := by
  intro s
  induction s with
  | nil => intro h; simp [index, hq] at h
  | cons c cs ih =>
    intro h
    by_cases hp : q <+: c :: cs
    · obtain ⟨b, hb⟩ := hp
      refine ⟨[], b, by simpa using hb.symm, ?_, ?_⟩
      · unfold index; rw [if_pos ⟨b, hb⟩]; rfl
      · intro e
        have := e.length_le
        have : 0 < q.length := List.length_pos_iff.2 hq
        simp at *
        omega
    · have hi : index q cs ≠ -1 := by
        intro e
        apply h
        unfold index
        rw [if_neg hp, e]; rfl
      obtain ⟨a, b, e1, e2, e3⟩ := ih hi
      have h0 : index q (c :: cs) = (c :: a).length := by
        unfold index
        rw [if_neg hp, e2, if_neg (by omega)]
        simp
      refine ⟨c :: a, b, by rw [e1]; rfl, h0, ?_⟩
      rw [List.cons_append, List.infix_cons_iff]
      rintro (e | e)
      · apply hp
        refine e.trans ?_
        rw [e1]
        refine List.cons_prefix_cons.2 ⟨rfl, ?_⟩
        rw [List.append_assoc]
        exact List.prefix_append_right_inj _ |>.2 ((List.dropLast_prefix q).trans (List.prefix_append _ _))
      · exact e3 e

theorem lastIndex_neg {q s : Str} (hq : q ≠ []) : lastIndex q s = -1 ↔ ¬ q <:+: s := by
  induction s with
  | nil => simp [lastIndex, hq]
  | cons c cs ih =>
    unfold lastIndex
    simp only
    rw [List.infix_cons_iff, not_or, ← ih]
    rcases lastIndex_bounds q cs with e | ⟨e, _⟩
    · rw [e, if_pos (by omega)]
      by_cases h : q <+: c :: cs
      · rw [if_pos h]; simp [h]
      · rw [if_neg h]; simp [h]
    · rw [if_neg (by omega)]
      constructor
      · intro; omega
      · rintro ⟨_, h⟩; omega

theorem lastIndex_at {q : Str} (hq : q ≠ []) (b : Str) (h : ¬ q <:+: q.tail ++ b) : ∀ (a : Str),
    lastIndex q (a ++ q ++ b) = a.length := by
  intro a
  induction a with
  | nil =>
    obtain ⟨c, cs, rfl⟩ := List.exists_cons_of_ne_nil hq
    simp only [List.nil_append, List.cons_append, List.length_nil]
    unfold lastIndex
    simp only
    have : lastIndex (c :: cs) (cs ++ b) = -1 := (lastIndex_neg hq).2 h
    rw [this, if_pos (by omega), if_pos ⟨b, rfl⟩]; rfl
  | cons x a ih =>
    simp only [List.cons_append, List.length_cons]
    unfold lastIndex
    simp only
    rw [ih, if_neg (by omega)]
    simp

theorem lastIndex_split {q : Str} (hq : q ≠ []) : ∀ (s : Str), lastIndex q s ≠ -1 →
    ∃ a b, s = a ++ q ++ b ∧ ¬ q <:+: q.tail ++ b := by
  intro s
  induction s with
  | nil => intro h; simp [lastIndex, hq] at h
  | cons c cs ih =>
    intro h
    by_cases hi : lastIndex q cs = -1
    · have hp : q <+: c :: cs := by
        apply Classical.byContradiction
        intro hp
        apply h
        unfold lastIndex
        simp only
        rw [hi, if_pos (by omega), if_neg hp]
      obtain ⟨b, hb⟩ := hp
      refine ⟨[], b, by simpa using hb.symm, ?_⟩
      obtain ⟨x, xs, rfl⟩ := List.exists_cons_of_ne_nil hq
      simp only [List.cons_append, List.cons.injEq] at hb
      rw [List.tail_cons, hb.2]
      exact (lastIndex_neg hq).1 hi
    · obtain ⟨a, b, e1, e2⟩ := ih hi
      exact ⟨c :: a, b, by rw [e1]; rfl, e2⟩

theorem indexSep_at (a : Str) (sep : UInt8) (b : Str) (hs : Ini.Sep sep) (ha : ∀ c ∈ a, ¬ Ini.Sep c) :
    indexSep (a ++ sep :: b) = a.length :=
  indexSep_skip a b sep (fun x hx => ⟨fun e => ha x hx (Or.inl e), fun e => ha x hx (Or.inr e)⟩) hs

theorem indexSep_split : ∀ (s : Str), indexSep s ≠ -1 →
    ∃ a sep b, s = a ++ sep :: b ∧ Ini.Sep sep ∧ (∀ c ∈ a, ¬ Ini.Sep c) ∧ indexSep s = a.length := by
  intro s
  induction s with
  | nil => intro h; exact absurd rfl h
  | cons c cs ih =>
    intro h
    by_cases hc : c = 61 ∨ c = 58
    · exact ⟨[], c, cs, rfl, hc, fun _ h => (nomatch h), indexSep_at [] c cs hc (fun _ h => (nomatch h))⟩
    · have hi : indexSep cs ≠ -1 := by
        intro e
        apply h
        unfold indexSep
        rw [if_neg hc, e]; rfl
      obtain ⟨a, sep, b, e1, e2, e3, _⟩ := ih hi
      have e3' : ∀ x ∈ c :: a, ¬ Ini.Sep x := by
        intro x hx
        rcases List.mem_cons.1 hx with rfl | hx
        · exact hc
        · exact e3 x hx
      refine ⟨c :: a, sep, b, by rw [e1]; rfl, e2, e3', ?_⟩
      rw [e1, ← List.cons_append]
      exact indexSep_at (c :: a) sep b e2 e3'

/-! ## Keys -/

theorem keyQuote_cons (c : UInt8) (cs : Str) : keyQuote (c :: cs) =
    .ok (if c = 34 then (if Ini.triple <+: c :: cs ∧ 6 ≤ (c :: cs).length then Ini.triple else [34])
      else if c = 96 then [96] else []) := by
  unfold keyQuote
  rw [at1_head]
  simp only [Res.bind]
  by_cases hc : c = 34
  · rw [if_pos hc, if_pos hc]
    by_cases h6 : 6 ≤ (c :: cs).length
    · rw [if_pos h6]
      rw [show slice (c :: cs) 0 3 = .ok ((c :: cs).take 3) from slice_from_start (s := c :: cs) (b := 3) (by omega)]
      simp only [Res.bind]
      have e : (List.take 3 (c :: cs) = b!"\"\"\"") ↔ (Ini.triple <+: c :: cs ∧ 6 ≤ (c :: cs).length) := by
        constructor
        · intro e
          refine ⟨?_, h6⟩
          rw [show Ini.triple = b!"\"\"\"" from rfl, ← e]
          exact List.take_prefix _ _
        · rintro ⟨⟨t, ht⟩, _⟩
          rw [← ht]; rfl
      by_cases h : Ini.triple <+: c :: cs ∧ 6 ≤ (c :: cs).length
      · simp only [if_pos h, if_pos (e.2 h)]; rfl
      · simp only [if_neg h, if_neg (fun x => h (e.1 x))]
    · simp only [if_neg h6, if_neg (fun x : _ ∧ _ => h6 x.2)]
  · rw [if_neg hc, if_neg hc]
    by_cases h : c = 96
    · rw [if_pos h, if_pos h]
    · rw [if_neg h, if_neg h]

theorem opens_of_quote {line q : Str} (hl : line ≠ []) (h : keyQuote line = .ok q) : Ini.Opens line q := by
  obtain ⟨c, cs, rfl⟩ := List.exists_cons_of_ne_nil hl
  rw [keyQuote_cons] at h
  injection h with h
  by_cases hc : c = 34
  · subst hc
    rw [if_pos rfl] at h
    by_cases h6 : Ini.triple <+: 34 :: cs ∧ 6 ≤ (34 :: cs : Str).length
    · rw [if_pos h6] at h
      obtain ⟨⟨t, ht⟩, hlen⟩ := h6
      rw [← ht, ← h]
      refine .triple t ?_
      rw [← ht] at hlen
      simp [Ini.triple] at hlen
      omega
    · rw [if_neg h6] at h
      rw [← h]
      exact .double cs h6
  · rw [if_neg hc] at h
    by_cases h9 : c = 96
    · subst h9
      rw [if_pos rfl] at h
      rw [← h]
      exact .back cs
    · rw [if_neg h9] at h
      rw [← h]
      exact .none _ (fun x hx => by
        simp only [List.head?_cons, Option.some.injEq] at hx
        subst hx
        exact ⟨hc, h9⟩)

theorem quote_of_opens {line q : Str} (hl : line ≠ []) (h : Ini.Opens line q) : keyQuote line = .ok q := by
  cases h with
  | triple rest h3 =>
    show keyQuote (34 :: (34 :: 34 :: rest)) = _
    rw [keyQuote_cons, if_pos rfl, if_pos ⟨⟨rest, rfl⟩, by simp; omega⟩]
  | double rest h => rw [keyQuote_cons, if_pos rfl, if_neg h]
  | back rest => rw [keyQuote_cons]; rfl
  | none _ h =>
    obtain ⟨c, cs, rfl⟩ := List.exists_cons_of_ne_nil hl
    obtain ⟨h1, h2⟩ := h c rfl
    rw [keyQuote_cons, if_neg h1, if_neg h2]

theorem opens_quote {line q : Str} (h : Ini.Opens line q) :
    q = [] ∨ (q ≠ [] ∧ q <+: line ∧ ∀ c ∈ q, ¬ Ini.Sep c) := by
  cases h with
  | triple rest _ => exact Or.inr ⟨by simp [Ini.triple], List.prefix_append _ _, by decide⟩
  | double rest _ => exact Or.inr ⟨by simp, ⟨rest, rfl⟩, by decide⟩
  | back rest => exact Or.inr ⟨by simp, ⟨rest, rfl⟩, by decide⟩
  | none _ _ => exact Or.inl rfl

/-- the key a line has according to the specification is the one the program takes -/
theorem key_ok {line k rest : Str} (h : Ini.Key line k rest) :
    ∃ i, keyPart line = .ok (k, i) ∧ slice line (i + 1) line.length = .ok rest := by
  cases h with
  | bare k sep rest ho hk hs hn =>
    have hl : k ++ sep :: rest ≠ [] := by simp
    have hi := indexSep_at k sep rest hs hn
    have hpos : 0 < k.length := List.length_pos_iff.2 hk
    refine ⟨k.length, ?_, ?_⟩
    · unfold keyPart
      rw [quote_of_opens hl ho]
      simp only [Res.bind]
      rw [if_neg (by simp), hi, if_neg (by omega),
        slice_from_start (s := k ++ sep :: rest) (b := k.length) (by simp), List.take_left' rfl]
    · rw [show ((k.length : Int) + 1) = ((k.length + 1 : Nat) : Int) from rfl,
        slice_to_end (by simp), ← List.drop_drop, List.drop_left' rfl]
      rfl
  | quoted q k gap sep rest ho hq hf hs hn =>
    have hl : q ++ k ++ q ++ gap ++ sep :: rest ≠ [] := by simp
    have hqs : ∀ c ∈ q, ¬ Ini.Sep c := by
      rcases opens_quote ho with e | e
      · exact absurd e hq
      · exact e.2.2
    have hd : (q ++ k ++ q ++ gap ++ sep :: rest).drop q.length = k ++ q ++ (gap ++ sep :: rest) := by
      rw [show q ++ k ++ q ++ gap ++ sep :: rest = q ++ (k ++ q ++ (gap ++ sep :: rest)) from by simp, List.drop_left' rfl]
    have hi : index q (k ++ q ++ (gap ++ sep :: rest)) = k.length := index_at hq _ k hf
    have hd2 : (q ++ k ++ q ++ gap ++ sep :: rest).drop (k.length + q.length) = (q ++ gap) ++ sep :: rest := by
      rw [show q ++ k ++ q ++ gap ++ sep :: rest = (q ++ k) ++ ((q ++ gap) ++ sep :: rest) from by simp,
        List.drop_left' (by simp; omega)]
    have hsep : indexSep ((q ++ gap) ++ sep :: rest) = (q ++ gap).length := indexSep_at _ sep rest hs (by
      intro c hc
      rcases List.mem_append.1 hc with hc | hc
      · exact hqs c hc
      · exact hn c hc)
    have hq1 : 0 < q.length := List.length_pos_iff.2 hq
    have hlen : (q ++ k ++ q ++ gap ++ sep :: rest).length = q.length + k.length + q.length + gap.length + 1 + rest.length := by
      simp; omega
    refine ⟨((q ++ gap).length + (k.length + q.length) : Nat), ?_, ?_⟩
    · unfold keyPart
      rw [quote_of_opens hl ho]
      simp only [Res.bind]
      rw [if_pos hq, slice_to_end (by omega)]
      simp only
      rw [hd, hi, if_neg (by omega), show ((k.length : Int) + q.length) = ((k.length + q.length : Nat) : Int) from rfl,
        slice_to_end (by omega)]
      simp only
      rw [hd2, hsep, if_neg (by simp; omega), slice_mid (by omega) (by omega)]
      simp only
      rw [show q ++ k ++ q ++ gap ++ sep :: rest = (q ++ k) ++ ((q ++ gap) ++ sep :: rest) from by simp,
        List.take_left' (by simp; omega), List.drop_left' rfl]
      rfl
    · rw [show ((((q ++ gap).length + (k.length + q.length) : Nat) : Int) + 1) =
          (((q ++ gap).length + (k.length + q.length) + 1 : Nat) : Int) from rfl,
        slice_to_end (by rw [hlen]; simp; omega)]
      rw [show q ++ k ++ q ++ gap ++ sep :: rest = (q ++ k ++ q ++ gap ++ [sep]) ++ rest from by simp,
        List.drop_left' (by simp; omega)]

/-- a line without a key is refused -/
theorem key_cases (line : Str) (hl : line ≠ []) :
    (∃ k rest, Ini.Key line k rest) ∨ keyPart line = .err (.couldNotParse line) := by
  obtain ⟨q, e, hqlen⟩ := keyQuote_spec hl
  have ho := opens_of_quote hl e
  by_cases hq : q = []
  · subst hq
    by_cases hs : indexSep line ≤ 0
    · right
      unfold keyPart
      rw [e]
      simp only [Res.bind]
      rw [if_neg (by simp), if_pos hs]
    · obtain ⟨a, sep, b, rfl, e2, e3, e4⟩ := indexSep_split line (by omega)
      left
      exact ⟨_, _, .bare a sep b ho (by intro h; subst h; rw [e4] at hs; exact hs (Int.le_refl _)) e2 e3⟩
  · rcases opens_quote ho with h | ⟨_, ⟨t, ht⟩, _⟩
    · exact absurd h hq
    · have hd : line.drop q.length = t := by rw [← ht, List.drop_left' rfl]
      by_cases hi : index q t = -1
      · right
        unfold keyPart
        rw [e]
        simp only [Res.bind]
        rw [if_pos hq, slice_to_end hqlen]
        simp only
        rw [hd, if_pos hi]
      · obtain ⟨k, b, e1, e2, e3⟩ := index_split hq t hi
        by_cases hs : indexSep (q ++ b) ≤ 0
        · right
          unfold keyPart
          rw [e]
          simp only [Res.bind]
          rw [if_pos hq, slice_to_end hqlen]
          simp only
          have hlen : line.length = q.length + k.length + q.length + b.length := by
            rw [← ht, e1]; simp; omega
          rw [hd, if_neg hi, e2, show ((k.length : Int) + q.length) = ((k.length + q.length : Nat) : Int) from rfl,
            slice_to_end (by omega)]
          simp only
          have hd2 : line.drop (k.length + q.length) = q ++ b := by
            rw [← ht, e1, show q ++ (k ++ q ++ b) = (q ++ k) ++ (q ++ b) from by simp, List.drop_left' (by simp; omega)]
          rw [hd2, if_pos hs]
        · left
          obtain ⟨a, sep, r, f1, f2, f3, f4⟩ := indexSep_split (q ++ b) (by omega)
          have hqs : ∀ c ∈ q, ¬ Ini.Sep c := by
            rcases opens_quote ho with h | h
            · exact absurd h hq
            · exact h.2.2
          have hle : q.length ≤ a.length := by
            apply Classical.byContradiction
            intro hlt
            have : sep ∈ q := by
              have e5 : (q ++ b)[a.length]? = some sep := by rw [f1]; simp
              rw [List.getElem?_append_left (by omega)] at e5
              exact List.mem_of_getElem? e5
            exact hqs sep this f2
          have hpre : q <+: a := List.prefix_of_prefix_length_le (l₃ := q ++ b) (List.prefix_append _ _)
            (by rw [f1]; exact List.prefix_append _ _) hle
          obtain ⟨gap, rfl⟩ := hpre
          have : line = q ++ k ++ q ++ gap ++ sep :: r := by
            rw [← ht, e1, List.append_assoc k q b, f1]; simp
          subst this
          exact ⟨k, r, .quoted q k gap sep r ho hq e3 f2 (fun c hc => f3 c (List.mem_append_right _ hc))⟩

/-! ## Values -/

theorem trimSpace_idem (s : Str) : trimSpace (trimSpace s) = trimSpace s := by
  by_cases h : trimSpace s = []
  · rw [h]; rfl
  · obtain ⟨_, _, _, _, _, h1, h2⟩ := trimSpace_spec s
    have := trimSpace_unique (w := []) (w' := []) (t := trimSpace s) spaces_nil spaces_nil h
      (by
        rw [List.append_nil]
        exact spaceLen_zero (fun x a hx e => h1 x hx ⟨a, e.symm⟩))
      (spaceLenRev_zero (fun x a hx e => h2 x hx ⟨a, e.symm⟩))
    simpa using this

/-- the quote a value opens with -/
theorem valQuote_eq (r : Str) : valQuote r =
    .ok (if r.head? = some 96 ∧ 2 ≤ r.length then [96]
      else if Ini.triple <+: r ∧ 6 ≤ r.length then Ini.triple else []) := by
  cases r with
  | nil => rfl
  | cons c cs =>
    unfold valQuote
    simp only [List.head?_cons, Option.some.injEq]
    have h3 : 6 ≤ (c :: cs).length → ((List.take 3 (c :: cs) = b!"\"\"\"") ↔ Ini.triple <+: c :: cs) := by
      intro h6
      constructor
      · intro e
        rw [show Ini.triple = b!"\"\"\"" from rfl, ← e]
        exact List.take_prefix _ _
      · rintro ⟨t, ht⟩
        rw [← ht]; rfl
    have tail : ((if (c :: cs).length ≥ 6 then
        (slice (c :: cs) 0 3).bind fun p => .ok (if p = b!"\"\"\"" then b!"\"\"\"" else [])
        else .ok []) : Res Str) = .ok (if Ini.triple <+: c :: cs ∧ 6 ≤ (c :: cs).length then Ini.triple else []) := by
      by_cases h6 : 6 ≤ (c :: cs).length
      · rw [if_pos h6, show slice (c :: cs) 0 3 = .ok ((c :: cs).take 3) from
          slice_from_start (s := c :: cs) (b := 3) (by omega)]
        simp only [Res.bind]
        by_cases h : Ini.triple <+: c :: cs
        · rw [if_pos ((h3 h6).2 h), if_pos ⟨h, h6⟩]; rfl
        · rw [if_neg (fun x => h ((h3 h6).1 x)), if_neg (fun x => h x.1)]
      · rw [if_neg h6, if_neg (fun x => h6 x.2)]
    by_cases h2 : 2 ≤ (c :: cs).length
    · rw [if_pos h2, show slice (c :: cs) 0 1 = .ok [c] from slice_from_start (s := c :: cs) (b := 1) (by simp)]
      simp only [Res.bind]
      by_cases hc : c = 96
      · subst hc
        rw [if_pos (show ([96] : Str) = b!"`" from rfl), if_pos ⟨rfl, h2⟩]
      · rw [if_neg (fun h => hc (by simpa using h)), if_neg (show ¬ (c = 96 ∧ 2 ≤ (c :: cs).length) from fun x => hc x.1)]
        exact tail
    · rw [if_neg h2, if_neg (show ¬ (c = 96 ∧ 2 ≤ (c :: cs).length) from fun x => h2 x.2)]
      simp only [Res.bind]
      rw [if_neg (by simp)]
      exact tail

theorem value_ok {line r v : Str} (hr : trimSpace r = r) (h : Ini.Value r v) : valPart line r = .ok v := by
  unfold valPart
  rw [valQuote_eq]
  cases h with
  | back v junk hj =>
    rw [if_pos ⟨rfl, by simp; omega⟩]
    simp only [Res.bind]
    rw [if_pos (by simp), slice_to_end (by simp)]
    simp only
    have hd : List.drop ([96] : Str).length (96 :: v ++ 96 :: junk) = v ++ [96] ++ junk := by simp
    rw [hd, lastIndex_at (by simp) junk (by
      simp only [List.tail_cons, List.nil_append]
      rintro ⟨a, b, e⟩
      exact hj (by rw [← e]; simp)), if_neg (by omega)]
    rw [show ((v.length : Int) + ([96] : Str).length) = ((v.length + 1 : Nat) : Int) from rfl,
      show ((([96] : Str).length : Nat) : Int) = ((1 : Nat) : Int) from rfl, slice_mid (by omega) (by simp)]
    rw [show (96 :: v ++ 96 :: junk : Str) = (96 :: v) ++ (96 :: junk) from rfl, List.take_left' (by simp)]
    rfl
  | triple v junk hj =>
    rw [if_neg (by simp [Ini.triple]), if_pos ⟨by rw [List.append_assoc, List.append_assoc]; exact List.prefix_append _ _,
      by simp [Ini.triple]; omega⟩]
    simp only [Res.bind]
    rw [if_pos (by simp [Ini.triple]), slice_to_end (by simp [Ini.triple])]
    simp only
    have hd : List.drop Ini.triple.length (Ini.triple ++ v ++ Ini.triple ++ junk) = v ++ Ini.triple ++ junk := by
      rw [List.append_assoc, List.append_assoc, List.drop_left' rfl, List.append_assoc]
    rw [hd, lastIndex_at (by simp [Ini.triple]) junk hj, if_neg (by omega)]
    rw [show ((v.length : Int) + Ini.triple.length) = ((v.length + Ini.triple.length : Nat) : Int) from rfl,
      slice_mid (by simp [Ini.triple]) (by simp [Ini.triple])]
    rw [List.append_assoc, List.take_left' (by simp; omega), List.drop_left' rfl]
  | bare _ h1 h2 =>
    rw [if_neg h1, if_neg h2]
    simp only [Res.bind]
    rw [if_neg (by simp), hr]

theorem value_cases (line r : Str) : (∃ v, Ini.Value r v) ∨ valPart line r = .err (.couldNotParse line) := by
  by_cases h1 : r.head? = some 96 ∧ 2 ≤ r.length
  · obtain ⟨c, cs, rfl⟩ := List.exists_cons_of_ne_nil (l := r) (by rintro rfl; simp at h1)
    obtain ⟨hc, h2⟩ := h1
    simp only [List.head?_cons, Option.some.injEq] at hc
    subst hc
    by_cases hi : lastIndex [96] cs = -1
    · right
      unfold valPart
      rw [valQuote_eq, if_pos ⟨rfl, h2⟩]
      simp only [Res.bind]
      rw [if_pos (by simp), slice_to_end (by simp)]
      simp only
      rw [show List.drop ([96] : Str).length (96 :: cs) = cs from rfl, if_pos hi]
    · left
      obtain ⟨a, b, e1, e2⟩ := lastIndex_split (by simp) cs hi
      refine ⟨a, ?_⟩
      rw [e1, show (96 :: (a ++ [96] ++ b) : Str) = 96 :: a ++ 96 :: b from by simp]
      refine .back a b (fun hm => e2 ?_)
      obtain ⟨x, y, e⟩ := List.append_of_mem hm
      exact ⟨x, y, by rw [e]; simp⟩
  · by_cases h2 : Ini.triple <+: r ∧ 6 ≤ r.length
    · obtain ⟨⟨t, ht⟩, h6⟩ := h2
      subst ht
      by_cases hi : lastIndex Ini.triple t = -1
      · right
        unfold valPart
        rw [valQuote_eq, if_neg h1, if_pos ⟨List.prefix_append _ _, h6⟩]
        simp only [Res.bind]
        rw [if_pos (by simp [Ini.triple]), slice_to_end (by simp [Ini.triple])]
        simp only
        rw [List.drop_left' rfl, if_pos hi]
      · left
        obtain ⟨a, b, e1, e2⟩ := lastIndex_split (by simp [Ini.triple]) t hi
        refine ⟨a, ?_⟩
        rw [e1, show Ini.triple ++ (a ++ Ini.triple ++ b) = Ini.triple ++ a ++ Ini.triple ++ b from by simp]
        exact .triple a b e2
    · exact Or.inl ⟨r, .bare r h1 h2⟩

/-! ## Lines -/

/-- what a line does to the parser -/
def meaningStep (st : PState) : Ini.Meaning → PState
  | .header name => { data := setValue st.data name [] [], section_ := name, count := 1 }
  | .entry k v =>
    if k = b!"-" then { st with data := setValue st.data st.section_ (35 :: natDec st.count) v, count := st.count + 1 }
    else { st with data := setValue st.data st.section_ k v }
  | _ => st

/-- what the parser answers -/
def meaningRes (st : PState) (line : Str) : Ini.Meaning → Res PState
  | .nameless => .err (.blankSection line)
  | .unreadable => .err (.couldNotParse line)
  | m => .ok (meaningStep st m)

theorem parseLine_ignored (st : PState) (line : Str) (h : Ini.Ignored line) : parseLine st line = .ok st := by
  unfold parseLine
  cases line with
  | nil => rfl
  | cons c cs =>
    rw [if_neg (by simp), at1_head]
    simp only [Res.bind]
    rw [if_pos (h c rfl)]

theorem not_ignored {line : Str} (h : ¬ Ini.Ignored line) : ∃ c cs, line = c :: cs ∧ ¬ (c = 35 ∨ c = 59) := by
  cases line with
  | nil => exact absurd (fun c hc => by simp at hc) h
  | cons c cs =>
    refine ⟨c, cs, rfl, fun e => h (fun x hx => ?_)⟩
    simp only [List.head?_cons, Option.some.injEq] at hx
    subst hx; exact e

theorem parseLine_bracketed (st : PState) (inner : Str) : parseLine st (91 :: inner ++ [93]) =
    if trimSpace inner = [] then .err (.blankSection (91 :: inner ++ [93]))
    else .ok { data := setValue st.data (trimSpace inner) [] [], section_ := trimSpace inner, count := 1 } := by
  have hlast : at1 (91 :: inner ++ [93]) (((91 :: inner ++ [93] : Str).length : Int) - 1) = .ok 93 := by
    rw [show (((91 :: inner ++ [93] : Str).length : Int) - 1) = ((inner.length + 1 : Nat) : Int) from by simp]
    unfold at1
    rw [if_pos ⟨by omega, by simp; omega⟩]
    simp
  have hslice : slice (91 :: inner ++ [93]) 1 (((91 :: inner ++ [93] : Str).length : Int) - 1) = .ok inner := by
    rw [show (((91 :: inner ++ [93] : Str).length : Int) - 1) = ((inner.length + 1 : Nat) : Int) from by simp,
      show (1 : Int) = ((1 : Nat) : Int) from rfl, slice_mid (by omega) (by simp),
      List.take_left' (by simp)]
    rfl
  unfold parseLine
  rw [if_neg (by simp), hlast, hslice]
  have h0 : at1 (91 :: inner ++ [93]) 0 = .ok 91 := by rw [List.cons_append]; exact at1_head 91 (inner ++ [93])
  rw [h0]
  simp only [Res.bind]
  rw [if_neg (by decide), if_pos ⟨trivial, trivial⟩]

theorem parseLine_entry (st : PState) (line : Str) (h : ¬ Ini.Ignored line)
    (hb : ∀ inner, ¬ Ini.Bracketed line inner) : parseLine st line = entryLine st line := by
  obtain ⟨c, cs, rfl, hc⟩ := not_ignored h
  unfold parseLine
  rw [if_neg (by simp), at1_head]
  simp only [Res.bind]
  rw [if_neg hc]
  have hl := at1_safe (s := c :: cs) (i := ((c :: cs).length : Int) - 1) (by simp) (by omega)
  cases he : at1 (c :: cs) (((c :: cs).length : Int) - 1) with
  | panic => rw [he] at hl; exact absurd hl id
  | err e =>
    exfalso
    unfold at1 at he
    split at he
    · split at he <;> cases he
    · cases he
  | ok e =>
    simp only
    rw [if_neg]
    rintro ⟨rfl, rfl⟩
    obtain ⟨h1, _, _⟩ := at1_ok he
    rcases List.eq_nil_or_concat cs with rfl | ⟨xs, x, rfl⟩
    · simp at h1
    · refine hb xs ?_
      unfold Ini.Bracketed
      rw [List.concat_eq_append] at h1 ⊢
      rw [show ((((91 :: (xs ++ [x]) : Str).length : Int) - 1).toNat) = xs.length + 1 from by simp] at h1
      simp at h1
      rw [h1]; rfl

/-- each line does what its meaning says -/
theorem parseLine_means (st : PState) (line : Str) (m : Ini.Meaning) (h : Ini.Means line m) :
    parseLine st line = meaningRes st line m := by
  cases h with
  | ignored h => exact parseLine_ignored st line h
  | header inner h hn =>
    rw [h, parseLine_bracketed, if_neg hn]; rfl
  | nameless inner h hn =>
    rw [h, parseLine_bracketed, if_pos hn]; rfl
  | entry k rest v h1 h2 h3 h4 =>
    rw [parseLine_entry st line h1 h2]
    obtain ⟨i, e1, e2⟩ := key_ok h3
    unfold entryLine
    rw [e1]
    simp only [Res.bind]
    rw [e2]
    simp only
    rw [value_ok (trimSpace_idem rest) h4]
    simp only [meaningRes, meaningStep]
    split <;> rfl
  | unreadable h1 h2 h3 =>
    rw [parseLine_entry st line h1 h2]
    obtain ⟨c, cs, rfl, _⟩ := not_ignored h1
    unfold entryLine
    rcases key_cases (c :: cs) (by simp) with ⟨k, rest, hk⟩ | e
    · obtain ⟨i, e1, e2⟩ := key_ok hk
      rw [e1]
      simp only [Res.bind]
      rw [e2]
      simp only
      rcases value_cases (c :: cs) (trimSpace rest) with ⟨v, hv⟩ | e
      · exact absurd hv (h3 k rest v hk)
      · rw [e]; rfl
    · rw [e]; rfl

/-- every line means something -/
theorem means_some (line : Str) : ∃ m, Ini.Means line m := by
  by_cases h1 : Ini.Ignored line
  · exact ⟨_, .ignored h1⟩
  · by_cases h2 : ∃ inner, Ini.Bracketed line inner
    · obtain ⟨inner, h2⟩ := h2
      by_cases h3 : trimSpace inner = []
      · exact ⟨_, .nameless inner h2 h3⟩
      · exact ⟨_, .header inner h2 h3⟩
    · by_cases h3 : ∃ k rest v, Ini.Key line k rest ∧ Ini.Value (trimSpace rest) v
      · obtain ⟨k, rest, v, a, b⟩ := h3
        exact ⟨_, .entry k rest v h1 (fun i hi => h2 ⟨i, hi⟩) a b⟩
      · exact ⟨_, .unreadable h1 (fun i hi => h2 ⟨i, hi⟩) (fun k rest v a b => h3 ⟨k, rest, v, a, b⟩)⟩

/-- a line means only one thing -/
theorem means_unique {line : Str} {m m' : Ini.Meaning} (h : Ini.Means line m) (h' : Ini.Means line m') : m = m' := by
  have bracket : ∀ {a b : Str}, Ini.Bracketed line a → Ini.Bracketed line b → a = b := by
    intro a b ha hb
    have e : (91 :: a ++ [93] : Str) = 91 :: b ++ [93] := ha.symm.trans hb
    simpa using e
  have ign : ∀ {a : Str}, Ini.Ignored line → ¬ Ini.Bracketed line a := by
    intro a hi hb
    rw [hb] at hi
    have := hi 91 rfl
    revert this; decide
  have key : ∀ {k r k' r' : Str}, Ini.Key line k r → Ini.Key line k' r' → k = k' ∧ r = r' := by
    intro k r k' r' a b
    obtain ⟨i, a1, a2⟩ := key_ok a
    obtain ⟨i', b1, b2⟩ := key_ok b
    rw [a1] at b1
    injection b1 with b1
    injection b1 with c1 c2
    subst c2
    rw [a2] at b2
    injection b2 with b2
    exact ⟨c1, b2⟩
  cases h with
  | ignored h =>
    cases h' with
    | ignored _ => rfl
    | header i hb _ => exact absurd hb (ign h)
    | nameless i hb _ => exact absurd hb (ign h)
    | entry _ _ _ n _ _ _ => exact absurd h n
    | unreadable n _ _ => exact absurd h n
  | header i hb hn =>
    cases h' with
    | ignored h => exact absurd hb (ign h)
    | header j hb' _ => rw [bracket hb hb']
    | nameless j hb' he => rw [bracket hb hb'] at hn; exact absurd he hn
    | entry _ _ _ _ n _ _ => exact absurd hb (n i)
    | unreadable _ n _ => exact absurd hb (n i)
  | nameless i hb hn =>
    cases h' with
    | ignored h => exact absurd hb (ign h)
    | header j hb' he => rw [bracket hb hb'] at hn; exact absurd hn he
    | nameless _ _ _ => rfl
    | entry _ _ _ _ n _ _ => exact absurd hb (n i)
    | unreadable _ n _ => exact absurd hb (n i)
  | entry k r v n1 n2 hk hv =>
    cases h' with
    | ignored h => exact absurd h n1
    | header j hb' _ => exact absurd hb' (n2 j)
    | nameless j hb' _ => exact absurd hb' (n2 j)
    | entry k' r' v' _ _ hk' hv' =>
      obtain ⟨rfl, rfl⟩ := key hk hk'
      have := (value_ok (line := []) (trimSpace_idem r) hv).symm.trans (value_ok (trimSpace_idem r) hv')
      injection this with this
      rw [this]
    | unreadable _ _ n => exact absurd hv (n k r v hk)
  | unreadable n1 n2 n3 =>
    cases h' with
    | ignored h => exact absurd h n1
    | header j hb' _ => exact absurd hb' (n2 j)
    | nameless j hb' _ => exact absurd hb' (n2 j)
    | entry k r v _ _ hk hv => exact absurd hv (n3 k r v hk)
    | unreadable _ _ _ => rfl

/-! ## Files -/

theorem parse_read {ls : List Str} {ms : List Ini.Meaning} (h : Ini.Read (ls.map trimSpace) ms) : ∀ st,
    (match Ini.firstComplaint (ls.map trimSpace) ms with
      | some c => ∃ e : PErr, parseLines st ls = .err e ∧ e.text = some c
      | none => parseLines st ls = .ok (ms.foldl meaningStep st)) := by
  induction ls generalizing ms with
  | nil => intro st; cases h; rfl
  | cons l ls ih =>
    intro st
    simp only [List.map_cons] at h ⊢
    cases h with
    | cons _ m _ ms hm hr =>
      have hp := parseLine_means st _ m hm
      have hi := ih hr (meaningStep st m)
      simp only [Ini.firstComplaint, parseLines, hp]
      cases m with
      | nameless => exact ⟨_, rfl, rfl⟩
      | unreadable => exact ⟨_, rfl, rfl⟩
      | ignored => exact hi
      | header n => exact hi
      | entry k v => exact hi

theorem last_cons (a : Str × Str × Str) (as : List (Str × Str × Str)) (s k : Str) :
    Ini.last (a :: as) s k = (Ini.last as s k).or (if a.1 = s ∧ a.2.1 = k then some a.2.2 else none) :=
  value_cons a as s k

theorem fold_meaning (ms : List Ini.Meaning) (hne : ∀ n, Ini.Meaning.header n ∈ ms → n ≠ []) : ∀ (st : PState),
    (∀ s k, look (ms.foldl meaningStep st).data s k =
      (Ini.last (Ini.assigns (sectionName st.section_) st.count ms) s k).or (look st.data s k)) ∧
    (∀ s, ((ms.foldl meaningStep st).data s).isSome = true ↔
      s ∈ Ini.sections (sectionName st.section_) ms ∨ (st.data s).isSome = true) := by
  induction ms with
  | nil => intro st; exact ⟨fun s k => rfl, fun s => by simp [Ini.sections]⟩
  | cons m ms ih =>
    intro st
    obtain ⟨i1, i2⟩ := ih (fun n hn => hne n (List.mem_cons_of_mem _ hn)) (meaningStep st m)
    simp only [List.foldl_cons]
    cases m with
    | ignored => exact ⟨i1, i2⟩
    | nameless => exact ⟨i1, i2⟩
    | unreadable => exact ⟨i1, i2⟩
    | header name =>
      have hname : sectionName name = name := by
        unfold sectionName; rw [if_neg (hne name (List.mem_cons_self ..))]
      refine ⟨fun s k => ?_, fun s => ?_⟩
      · rw [i1 s k]
        simp only [meaningStep, Ini.assigns, look_setSection, hname]
      · rw [i2 s]
        simp only [meaningStep, isSome_setValue, Ini.sections, List.mem_cons, hname]
        constructor
        · rintro (a | a | a)
          · exact Or.inl (Or.inr a)
          · exact Or.inl (Or.inl a.symm)
          · exact Or.inr a
        · rintro ((a | a) | a)
          · exact Or.inr (Or.inl a.symm)
          · exact Or.inl a
          · exact Or.inr (Or.inr a)
    | entry k v =>
      by_cases hk : k = b!"-"
      · simp only [meaningStep, if_pos hk] at i1 i2 ⊢
        refine ⟨fun s x => ?_, fun s => ?_⟩
        · rw [i1 s x, look_setValue _ _ _ _ _ _ (by simp)]
          simp only [Ini.assigns, if_pos hk, last_cons, show (b!"#" ++ natDec st.count) = 35 :: natDec st.count from rfl]
          cases Ini.last (Ini.assigns (sectionName st.section_) (st.count + 1) ms) s x with
          | some y => rfl
          | none =>
            simp only [Option.none_or]
            by_cases e : sectionName st.section_ = s ∧ (35 :: natDec st.count) = x
            · rw [if_pos e, if_pos (show _ ∧ _ from e)]; rfl
            · rw [if_neg e, if_neg (show ¬ (_ ∧ _) from e)]; rfl
        · rw [i2 s, isSome_setValue]
          simp only [Ini.sections, List.mem_cons]
          constructor
          · rintro (a | a | a)
            · exact Or.inl (Or.inr a)
            · exact Or.inl (Or.inl a.symm)
            · exact Or.inr a
          · rintro ((a | a) | a)
            · exact Or.inr (Or.inl a.symm)
            · exact Or.inl a
            · exact Or.inr (Or.inr a)
      · simp only [meaningStep, if_neg hk] at i1 i2 ⊢
        refine ⟨fun s x => ?_, fun s => ?_⟩
        · rw [i1 s x]
          simp only [Ini.assigns, if_neg hk]
          by_cases h0 : k = []
          · rw [if_pos h0, h0]
            congr 1
            unfold look setValue
            by_cases h : s = sectionName st.section_
            · simp only [h, if_true, Option.bind_some]
              cases st.data (sectionName st.section_) <;> rfl
            · rw [if_neg h]
          · rw [if_neg h0, look_setValue _ _ _ _ _ _ h0, last_cons]
            cases Ini.last (Ini.assigns (sectionName st.section_) st.count ms) s x with
            | some y => rfl
            | none =>
              simp only [Option.none_or]
              by_cases e : sectionName st.section_ = s ∧ k = x
              · rw [if_pos e, if_pos e]; rfl
              · rw [if_neg e, if_neg e]; rfl
        · rw [i2 s, isSome_setValue]
          simp only [Ini.sections, List.mem_cons]
          constructor
          · rintro (a | a | a)
            · exact Or.inl (Or.inr a)
            · exact Or.inl (Or.inl a.symm)
            · exact Or.inr a
          · rintro ((a | a) | a)
            · exact Or.inr (Or.inl a.symm)
            · exact Or.inl a
            · exact Or.inr (Or.inr a)

theorem header_named {line n : Str} (h : Ini.Means line (.header n)) : n ≠ [] := by
  cases h with
  | header inner _ hn => exact hn

theorem read_headers {ls : List Str} {ms : List Ini.Meaning} (h : Ini.Read ls ms) :
    ∀ n, Ini.Meaning.header n ∈ ms → n ≠ [] := by
  induction h with
  | nil => intro n hn; cases hn
  | cons l m ls ms hm _ ih =>
    intro n hn
    rcases List.mem_cons.1 hn with rfl | hn
    · exact header_named hm
    · exact ih n hn

theorem load_read (d : Data) (text : Str) (ms : List Ini.Meaning) (h : Ini.Read (Ini.lines text) ms) :
    (match Ini.firstComplaint (Ini.lines text) ms with
      | some c => opened (loadFromReader d text false) = .error (some c)
      | none => ∃ d', opened (loadFromReader d text false) = .ok d' ∧
          (∀ s k, look d' s k = (Ini.last (Ini.assigns b!"default" 1 ms) s k).or (look d s k)) ∧
          ∀ s, (d' s).isSome = true ↔ s ∈ Ini.sections b!"default" ms ∨ (d s).isSome = true) := by
  have hp := parse_read (ls := splitOn1 10 (stripBOM text)) h { data := d, section_ := [], count := 1 }
  obtain ⟨f1, f2⟩ := fold_meaning ms (read_headers h) { data := d, section_ := [], count := 1 }
  have hl : Ini.lines text = (splitOn1 10 (stripBOM text)).map trimSpace := rfl
  rw [← hl] at hp
  unfold loadFromReader
  simp only [Bool.false_eq_true, if_false]
  cases hc : Ini.firstComplaint (Ini.lines text) ms with
  | some c =>
    rw [hc] at hp
    obtain ⟨e, h1, h2⟩ := hp
    simp only [h1, Res.bind, opened, h2]
  | none =>
    rw [hc] at hp
    simp only at hp
    refine ⟨_, ?_, f1, f2⟩
    simp only [hp, Res.bind, opened]

theorem read_some (ls : List Str) : ∃ ms, Ini.Read ls ms := by
  induction ls with
  | nil => exact ⟨[], .nil⟩
  | cons l ls ih =>
    obtain ⟨m, hm⟩ := means_some l
    obtain ⟨ms, hr⟩ := ih
    exact ⟨m :: ms, .cons l m ls ms hm hr⟩

theorem read_unique {ls : List Str} {ms ms' : List Ini.Meaning} (h : Ini.Read ls ms) (h' : Ini.Read ls ms') :
    ms = ms' := by
  induction h generalizing ms' with
  | nil => cases h'; rfl
  | cons l m ls ms hm _ ih =>
    cases h' with
    | cons _ m' _ ms' hm' hr' => rw [means_unique hm hm', ih hr']

/-- **C175** (every text has exactly one reading): each line is blank or a comment, a section header, an entry, or
wrong in one of two ways, and never two of these. -/
theorem C175_one_reading (text : Str) :
    ∃ ms, Ini.Read (Ini.lines text) ms ∧ ∀ ms', Ini.Read (Ini.lines text) ms' → ms' = ms := by
  obtain ⟨ms, h⟩ := read_some (Ini.lines text)
  exact ⟨ms, h, fun ms' h' => read_unique h' h⟩

/-- **C175** (every text, well-formed or not): the configuration is refused exactly when some line is wrong, with
the complaint about the first such line; otherwise it has exactly the sections the text mentions, each key with the
last value assigned to it in its section, and no other keys. -/
theorem C175_exact (disk : Str → Option Source) (text : Str) (ms : List Ini.Meaning)
    (h : Ini.Read (Ini.lines text) ms) :
    (match Ini.firstComplaint (Ini.lines text) ms with
      | some c => loadIniFromReader disk (some (text, false)) = .error (some c)
      | none => ∃ d, loadIniFromReader disk (some (text, false)) = .ok d ∧
          (∀ s k, (listSection d s).bind (fun m => m k) = Ini.last (Ini.assigns b!"default" 1 ms) s k) ∧
          ∀ s, (listSection d s).isSome = true ↔ s ∈ Ini.sections b!"default" ms) := by
  have hl := load_read empty text ms h
  have e : loadIniFromReader disk (some (text, false)) = opened (loadFromReader empty text false) := rfl
  rw [e]
  cases hc : Ini.firstComplaint (Ini.lines text) ms with
  | some c => rw [hc] at hl; exact hl
  | none =>
    rw [hc] at hl
    obtain ⟨d, h1, h2, h3⟩ := hl
    refine ⟨d, h1, fun s k => ?_, fun s => ?_⟩
    · have := h2 s k
      rw [show look empty s k = none from rfl, Option.or_none] at this
      exact this
    · have := h3 s
      rw [show (empty s).isSome = false from rfl] at this
      simp only [Bool.false_eq_true, or_false] at this
      exact this

/-- **C175** (a file and a reader together): with both, and neither wrong, a key has the last value the reader
assigns to it, or if there is none the last value the file assigns; a wrong file is reported before the reader is
looked at. -/
theorem C175_file_then_reader (disk : Str → Option Source) (name f r : Str) (hn : name ≠ [])
    (hd : disk name = some (f, false)) (fs rs : List Ini.Meaning) (hf : Ini.Read (Ini.lines f) fs)
    (hr : Ini.Read (Ini.lines r) rs) :
    (match Ini.firstComplaint (Ini.lines f) fs, Ini.firstComplaint (Ini.lines r) rs with
      | some c, _ => newConfiger disk name (some (r, false)) = .error (some c) ∧
          loadIniFile disk name = .error (some c)
      | none, some c => newConfiger disk name (some (r, false)) = .error (some c)
      | none, none => ∃ d, newConfiger disk name (some (r, false)) = .ok d ∧
          ∀ s k, (listSection d s).bind (fun m => m k) =
            (Ini.last (Ini.assigns b!"default" 1 rs) s k).or (Ini.last (Ini.assigns b!"default" 1 fs) s k)) := by
  have h1 := load_read empty f fs hf
  have e0 : loadNamed disk name = opened (loadFromReader empty f false) := by
    unfold loadNamed; rw [if_neg hn, hd]; rfl
  cases hc : Ini.firstComplaint (Ini.lines f) fs with
  | some c =>
    rw [hc] at h1
    have h1 : opened (loadFromReader empty f false) = .error (some c) := h1
    simp only
    unfold loadIniFile newConfiger
    rw [e0, h1]
    exact ⟨rfl, rfl⟩
  | none =>
    rw [hc] at h1
    obtain ⟨d, a1, a2, _⟩ := h1
    have h2 := load_read d r rs hr
    have e : newConfiger disk name (some (r, false)) = opened (loadFromReader d r false) := by
      unfold newConfiger
      rw [e0, a1]; rfl
    rw [e]
    cases hc2 : Ini.firstComplaint (Ini.lines r) rs with
    | some c => rw [hc2] at h2; exact h2
    | none =>
      rw [hc2] at h2
      obtain ⟨d', b1, b2, _⟩ := h2
      refine ⟨d', b1, fun s k => ?_⟩
      have := b2 s k
      rw [a2 s k, show look empty s k = none from rfl, Option.or_none] at this
      exact this

/-- **C175** (nothing named): no file name, or no reader, is no error: the configuration is empty. A file that does
not open is an error. -/
theorem C175_nothing (disk : Str → Option Source) (name : Str) :
    loadIniFile disk [] = .ok empty ∧ loadIniFromReader disk none = .ok empty ∧
      (name ≠ [] → disk name = none → loadIniFile disk name = .error none) := by
  refine ⟨rfl, rfl, fun h1 h2 => ?_⟩
  unfold loadIniFile newConfiger loadNamed
  rw [if_neg h1, h2]; rfl

/-- an example: a file with a comment, a header, entries with and without quotes, and text after closing quotes -/
theorem ex_text_read : Ini.Read (Ini.lines b!"; c\n[ db ]\r\n \"a=b\" x : 1 \n- = `v` y\nk=\n")
    [.ignored, .header b!"db", .entry b!"a=b" b!"1", .entry b!"-" b!"v", .entry b!"k" [], .ignored] := by
  have hl : Ini.lines b!"; c\n[ db ]\r\n \"a=b\" x : 1 \n- = `v` y\nk=\n" =
      [b!"; c", b!"[ db ]", b!"\"a=b\" x : 1", b!"- = `v` y", b!"k=", []] := by decide +kernel
  rw [hl]
  have not_ign : ∀ (c : UInt8) (cs : Str), ¬ (c = 35 ∨ c = 59) → ¬ Ini.Ignored (c :: cs) := fun c cs h hi => h (hi c rfl)
  have not_br : ∀ (c : UInt8) (cs : Str), c ≠ 91 → ∀ inner, ¬ Ini.Bracketed (c :: cs) inner := by
    intro c cs h inner hb
    unfold Ini.Bracketed at hb
    rw [List.cons_append] at hb
    injection hb with h1 _
    exact h h1
  refine .cons _ _ _ _ (.ignored (fun c hc => ?_)) (.cons _ _ _ _ (.header b!" db " rfl (by decide +kernel))
    (.cons _ _ _ _ (.entry _ b!" 1" _ (not_ign _ _ (by decide)) (not_br _ _ (by decide))
        (.quoted [34] b!"a=b" b!" x " 58 b!" 1" (.double _ (by decide)) (by simp) (by decide) (Or.inr rfl) (by decide))
        (.bare b!"1" (by decide) (by decide)))
    (.cons _ _ _ _ (.entry b!"-" b!" `v` y" _ (not_ign _ _ (by decide)) (not_br _ _ (by decide))
        (.bare b!"- " 61 b!" `v` y" (.none _ (fun c hc => ?_)) (by simp) (Or.inl rfl) (by decide))
        (.back b!"v" b!" y" (by decide)))
    (.cons _ _ _ _ (.entry b!"k" [] _ (not_ign _ _ (by decide)) (not_br _ _ (by decide))
        (.bare b!"k" 61 [] (.none _ (fun c hc => ?_)) (by simp) (Or.inl rfl) (by decide))
        (.bare [] (by decide) (by decide)))
    (.cons _ _ _ _ (.ignored (fun c hc => by simp at hc)) .nil)))))
  · simp at hc; exact Or.inr hc.symm
  · simp at hc; subst hc; decide
  · simp at hc; subst hc; decide

/-- what it says: no complaint, and the key `#1` of section `db` is `v` -/
example : Ini.firstComplaint (Ini.lines b!"; c\n[ db ]\r\n \"a=b\" x : 1 \n- = `v` y\nk=\n")
      [.ignored, .header b!"db", .entry b!"a=b" b!"1", .entry b!"-" b!"v", .entry b!"k" [], .ignored] = none ∧
    Ini.last (Ini.assigns b!"default" 1 [.ignored, .header b!"db", .entry b!"a=b" b!"1", .entry b!"-" b!"v",
      .entry b!"k" [], .ignored]) b!"db" b!"#1" = some b!"v" := by decide +kernel

/-- a wrong line: the complaint is about the first one, with the line's text -/
example : opened (loadFromReader empty b!"a = 1\n  lonely \n[]" false) =
    .error (some b!"could not parse line: lonely") := by rfl

end Verif.Conf
