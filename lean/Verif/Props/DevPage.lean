import Verif.Model.DevPage
import Verif.Proofs.Bytes
import Verif.Proofs.Enc
/-!
# The development error page and the stack trace (C91, C92)
-/
namespace Verif.Page
open Verif.Go

namespace Spec

/-- The tags of the trace. -/
def ownTags : List Str :=
  [b!"<span class=\"file\">", b!"</span>", b!"<div class=\"line odd\">", b!"<div class=\"line even\">", b!"</div>"]

/-- A document is markup and text. -/
inductive Piece where
  | markup (s : Str)
  | text (s : Str)

/-- The document. -/
def render : List Piece → Str
  | [] => []
  | .markup s :: ps => s ++ render ps
  | .text s :: ps => s ++ render ps

/-- The text shown to the reader, still escaped. -/
def shownText : List Piece → Str
  | [] => []
  | .markup _ :: ps => shownText ps
  | .text s :: ps => s ++ shownText ps

/-- Text that cannot be taken for markup: no angle brackets and no quotes. -/
def Inert (s : Str) : Prop := 60 ∉ s ∧ 62 ∉ s ∧ 34 ∉ s ∧ 39 ∉ s

/-- All markup is allowed, all text is inert. -/
def Safe (allowed : List Str) (ps : List Piece) : Prop :=
  ∀ p ∈ ps, match p with | .markup s => s ∈ allowed | .text s => Inert s

/-- Reading escaped text. -/
def unescape : Str → Str
  | 38 :: 97 :: 109 :: 112 :: 59 :: s => 38 :: unescape s
  | 38 :: 35 :: 51 :: 57 :: 59 :: s => 39 :: unescape s
  | 38 :: 108 :: 116 :: 59 :: s => 60 :: unescape s
  | 38 :: 103 :: 116 :: 59 :: s => 62 :: unescape s
  | 38 :: 35 :: 51 :: 52 :: 59 :: s => 34 :: unescape s
  | c :: s => c :: unescape s
  | [] => []

/-- The number of non-overlapping occurrences of `" ("`. -/
def parens : Str → Nat
  | 32 :: 40 :: s => parens s + 1
  | _ :: s => parens s
  | [] => 0

/-- Without any `" ("`. -/
def dropParens : Str → Str
  | 32 :: 40 :: s => dropParens s
  | c :: s => c :: dropParens s
  | [] => []

/-- Without any `" ("` after the first. -/
def dropLater : Str → Str
  | 32 :: 40 :: s => 32 :: 40 :: dropParens s
  | c :: s => c :: dropLater s
  | [] => []

/-- What the page shows of a line of the trace. -/
def shownLine (l : Str) : Str := if l.head? = some 47 then dropLater l else l

end Spec
open Spec

theorem escByte_inert : ∀ c : UInt8, (60 ∉ escByte c ∧ 62 ∉ escByte c ∧ 34 ∉ escByte c ∧ 39 ∉ escByte c) := by
  exact forall_u8 (by decide +kernel)

theorem escape_inert (s : Str) : Inert (escape s) := by
  unfold escape Inert
  simp only [List.mem_flatMap, not_exists, not_and]
  exact ⟨fun c _ => (escByte_inert c).1, fun c _ => (escByte_inert c).2.1, fun c _ => (escByte_inert c).2.2.1, fun c _ => (escByte_inert c).2.2.2⟩

theorem escape_cons (c : UInt8) (s : Str) : escape (c :: s) = escByte c ++ escape s := rfl

theorem inert_append {a b : Str} : Inert (a ++ b) ↔ Inert a ∧ Inert b := by
  unfold Inert; simp only [List.mem_append]; constructor
  · rintro ⟨h1, h2, h3, h4⟩
    exact ⟨⟨fun h => h1 (.inl h), fun h => h2 (.inl h), fun h => h3 (.inl h), fun h => h4 (.inl h)⟩,
      ⟨fun h => h1 (.inr h), fun h => h2 (.inr h), fun h => h3 (.inr h), fun h => h4 (.inr h)⟩⟩
  · rintro ⟨⟨a1, a2, a3, a4⟩, b1, b2, b3, b4⟩
    exact ⟨fun h => h.elim a1 b1, fun h => h.elim a2 b2, fun h => h.elim a3 b3, fun h => h.elim a4 b4⟩

theorem render_append (a b : List Piece) : render (a ++ b) = render a ++ render b := by
  induction a with
  | nil => rfl
  | cons p a ih => cases p <;> simp [render, ih]

theorem shown_append (a b : List Piece) : shownText (a ++ b) = shownText a ++ shownText b := by
  induction a with
  | nil => rfl
  | cons p a ih => cases p <;> simp [shownText, ih]

theorem safe_append {al : List Str} {a b : List Piece} (ha : Safe al a) (hb : Safe al b) : Safe al (a ++ b) := by
  intro p hp
  rcases List.mem_append.1 hp with h | h
  · exact ha p h
  · exact hb p h

theorem splitParen_ne (s : Str) : splitParen s ≠ [] := by
  induction s using splitParen.induct with
  | case1 => simp [splitParen]
  | case2 => simp [splitParen]
  | case3 c d s h ih => unfold splitParen; rw [if_pos h]; simp
  | case4 c d s h x xs hx ih => unfold splitParen; rw [if_neg h, hx]; simp
  | case5 c d s h hx ih => exact absurd hx ih

/-- joining the parts with the separator gives the text back -/
theorem splitParen_join (s : Str) : ∀ p ps, splitParen s = p :: ps → s = p ++ ps.flatMap (fun q => b!" (" ++ q) := by
  induction s using splitParen.induct with
  | case1 => intro p ps h; simp [splitParen] at h; obtain ⟨rfl, rfl⟩ := h; rfl
  | case2 c => intro p ps h; simp [splitParen] at h; obtain ⟨rfl, rfl⟩ := h; rfl
  | case3 c d s h ih =>
    intro p ps hp
    unfold splitParen at hp
    rw [if_pos h] at hp
    obtain ⟨rfl, rfl⟩ := h
    obtain ⟨x, xs, hx⟩ := List.exists_cons_of_ne_nil (splitParen_ne s)
    cases hp
    rw [hx]
    have := ih x xs hx
    simp only [List.nil_append, List.flatMap_cons]
    conv => lhs; rw [this]
    rfl
  | case4 c d s h x xs hx ih =>
    intro p ps hp
    unfold splitParen at hp
    rw [if_neg h, hx] at hp
    cases hp
    rw [List.cons_append, ← ih x xs hx]
  | case5 c d s h hx ih => exact absurd hx (splitParen_ne _)

theorem splitParen_count (s : Str) : (splitParen s).length = parens s + 1 := by
  induction s using splitParen.induct with
  | case1 => simp [splitParen, parens]
  | case2 c => simp [splitParen, parens]
  | case3 c d s h ih =>
    unfold splitParen
    rw [if_pos h]
    obtain ⟨rfl, rfl⟩ := h
    simp [ih, parens]
  | case4 c d s h x xs hx ih =>
    unfold splitParen
    rw [if_neg h, hx]
    rw [hx] at ih
    have : parens (c :: d :: s) = parens (d :: s) := by
      conv => lhs; unfold parens
      split
      · rename_i heq; cases heq; exact absurd ⟨rfl, rfl⟩ h
      · rename_i heq; cases heq; rfl
      · rename_i heq; cases heq
    rw [this, ← ih]; simp
  | case5 c d s h hx ih => exact absurd hx (splitParen_ne _)

theorem splitParen_flatten (s : Str) : (splitParen s).flatten = dropParens s := by
  induction s using splitParen.induct with
  | case1 => rfl
  | case2 c => simp [splitParen, dropParens]
  | case3 c d s h ih =>
    unfold splitParen
    rw [if_pos h]
    obtain ⟨rfl, rfl⟩ := h
    simp [ih, dropParens]
  | case4 c d s h x xs hx ih =>
    unfold splitParen
    rw [if_neg h, hx]
    rw [hx] at ih
    have : dropParens (c :: d :: s) = c :: dropParens (d :: s) := by
      conv => lhs; unfold dropParens
      split
      · rename_i heq; cases heq; exact absurd ⟨rfl, rfl⟩ h
      · rename_i heq; cases heq; rfl
      · rename_i heq; cases heq
    rw [this, ← ih]; rfl
  | case5 c d s h hx ih => exact absurd hx (splitParen_ne _)

theorem dropLater_split (s : Str) : ∀ p ps, splitParen s = p :: ps → dropLater s = p ++ (if ps = [] then [] else b!" (" ++ ps.flatten) := by
  induction s using splitParen.induct with
  | case1 => intro p ps h; simp [splitParen] at h; obtain ⟨rfl, rfl⟩ := h; rfl
  | case2 c => intro p ps h; simp [splitParen] at h; obtain ⟨rfl, rfl⟩ := h; simp [dropLater]
  | case3 c d s h ih =>
    intro p ps hp
    unfold splitParen at hp
    rw [if_pos h] at hp
    obtain ⟨rfl, rfl⟩ := h
    cases hp
    rw [if_neg (splitParen_ne s), splitParen_flatten]
    rfl
  | case4 c d s h x xs hx ih =>
    intro p ps hp
    unfold splitParen at hp
    rw [if_neg h, hx] at hp
    cases hp
    have : dropLater (c :: d :: s) = c :: dropLater (d :: s) := by
      conv => lhs; unfold dropLater
      split
      · rename_i heq; cases heq; exact absurd ⟨rfl, rfl⟩ h
      · rename_i heq; cases heq; rfl
      · rename_i heq; cases heq
    rw [this, ih x xs hx]; rfl
  | case5 c d s h hx ih => exact absurd hx (splitParen_ne _)

theorem dropLater_id (s : Str) (h : parens s ≤ 1) : dropLater s = s := by
  obtain ⟨p, ps, hp⟩ := List.exists_cons_of_ne_nil (splitParen_ne s)
  have hc := splitParen_count s
  rw [dropLater_split s p ps hp]
  conv => rhs; rw [splitParen_join s p ps hp]
  rw [hp] at hc
  simp at hc
  match ps, hc with
  | [], _ => rfl
  | [q], _ => simp
  | _ :: _ :: _, hc => simp at hc; omega

/-- the escape of a byte has no space and no parenthesis, unless the byte is one -/
theorem escByte_plain : ∀ c : UInt8, (c ≠ 32 → 32 ∉ escByte c) ∧ (c ≠ 40 → 40 ∉ escByte c) ∧ (c ≠ 10 → 10 ∉ escByte c) ∧ escByte c ≠ [] ∧
    ((escByte c).head? = some 47 ↔ c = 47) := by
  exact forall_u8 (by decide +kernel)

theorem dropParens_cons (c : UInt8) (s : Str) (h : ∀ s', c :: s = 32 :: 40 :: s' → False) : dropParens (c :: s) = c :: dropParens s := by
  conv => lhs; unfold dropParens
  split
  · rename_i heq; exact absurd heq (h _)
  · rename_i heq; cases heq; rfl
  · rename_i heq; cases heq

theorem dropLater_cons (c : UInt8) (s : Str) (h : ∀ s', c :: s = 32 :: 40 :: s' → False) : dropLater (c :: s) = c :: dropLater s := by
  conv => lhs; unfold dropLater
  split
  · rename_i heq; exact absurd heq (h _)
  · rename_i heq; cases heq; rfl
  · rename_i heq; cases heq

theorem dropParens_plain (a t : Str) (h : 32 ∉ a) : dropParens (a ++ t) = a ++ dropParens t := by
  induction a with
  | nil => rfl
  | cons c a ih =>
    have hc : c ≠ 32 := fun e => h (by simp [e])
    rw [List.cons_append, dropParens_cons c _ (fun s' e => hc (by injection e)), ih (fun hm => h (by simp [hm]))]; rfl

theorem dropLater_plain (a t : Str) (h : 32 ∉ a) : dropLater (a ++ t) = a ++ dropLater t := by
  induction a with
  | nil => rfl
  | cons c a ih =>
    have hc : c ≠ 32 := fun e => h (by simp [e])
    rw [List.cons_append, dropLater_cons c _ (fun s' e => hc (by injection e)), ih (fun hm => h (by simp [hm]))]; rfl

theorem escape_head (c : UInt8) (s : Str) : (escape (c :: s)).head? = (escByte c).head? := by
  have := (escByte_plain c).2.2.2.1
  rw [escape_cons]
  cases h : escByte c with
  | nil => exact absurd h this
  | cons x y => rfl

theorem esc32 : escByte 32 = [32] := by decide
theorem esc40 : escByte 40 = [40] := by decide
theorem esc10 : escByte 10 = [10] := by decide

theorem drop_step (f : Str → Str) (d : UInt8) (t : Str) (hd : d ≠ 40)
    (h : ∀ (c : UInt8) (s : Str), (∀ s', c :: s = 32 :: 40 :: s' → False) → f (c :: s) = c :: f s) :
    f (32 :: (escByte d ++ t)) = 32 :: f (escByte d ++ t) := by
  apply h
  intro s' e
  have h1 := (escByte_plain d).2.2.2.1
  have h2 := (escByte_plain d).2.1 hd
  cases hx : escByte d with
  | nil => exact h1 hx
  | cons x y =>
    rw [hx] at e h2
    simp at e
    exact h2 (by simp [e.1])

theorem dropParens_escape (s : Str) : dropParens (escape s) = escape (dropParens s) := by
  induction s using dropParens.induct with
  | case1 s ih =>
    rw [escape_cons, escape_cons, esc32, esc40]
    exact ih
  | case2 c s h ih =>
    rw [dropParens_cons c s (fun s' e => by cases e; exact h s' rfl rfl), escape_cons, escape_cons]
    by_cases hc : c = 32
    · subst hc
      rw [esc32]
      cases s with
      | nil => rfl
      | cons d s =>
        have hd : d ≠ 40 := by rintro rfl; exact h s rfl rfl
        show dropParens (32 :: (escByte d ++ escape s)) = 32 :: escape (dropParens (d :: s))
        rw [drop_step dropParens d _ hd dropParens_cons, ← escape_cons, ih]
    · rw [dropParens_plain _ _ ((escByte_plain c).1 hc), ih]
  | case3 => rfl

theorem dropLater_escape (s : Str) : dropLater (escape s) = escape (dropLater s) := by
  induction s using dropLater.induct with
  | case1 s =>
    rw [escape_cons, escape_cons, esc32, esc40]
    show 32 :: 40 :: dropParens (escape s) = 32 :: 40 :: escape (dropParens s)
    rw [dropParens_escape]
  | case2 c s h ih =>
    rw [dropLater_cons c s (fun s' e => by cases e; exact h s' rfl rfl), escape_cons, escape_cons]
    by_cases hc : c = 32
    · subst hc
      rw [esc32]
      cases s with
      | nil => rfl
      | cons d s =>
        have hd : d ≠ 40 := by rintro rfl; exact h s rfl rfl
        show dropLater (32 :: (escByte d ++ escape s)) = 32 :: escape (dropLater (d :: s))
        rw [drop_step dropLater d _ hd dropLater_cons, ← escape_cons, ih]
    · rw [dropLater_plain _ _ ((escByte_plain c).1 hc), ih]
  | case3 => rfl

theorem shownLine_escape (l : Str) : shownLine (escape l) = escape (shownLine l) := by
  unfold shownLine
  cases l with
  | nil => rfl
  | cons c l =>
    rw [escape_head]
    have := (escByte_plain c).2.2.2.2
    by_cases hc : c = 47
    · rw [if_pos (this.2 hc), if_pos (by simp [hc]), dropLater_escape]
    · rw [if_neg (fun h => hc (this.1 h)), if_neg (by simpa using hc)]

theorem split_escape (s : Str) : splitOn1 10 (escape s) = (splitOn1 10 s).map escape := by
  have h1 : splitOn1 10 s ≠ [] := splitOn1_ne_nil 10 s
  have h2 : ∀ l : List Str, escape (join1 10 l) = join1 10 (l.map escape) := by
    intro l
    induction l with
    | nil => rfl
    | cons x l ih =>
      cases l with
      | nil => rfl
      | cons y l =>
        show escape (x ++ 10 :: join1 10 (y :: l)) = escape x ++ 10 :: join1 10 ((y :: l).map escape)
        rw [← ih]
        unfold escape
        rw [List.flatMap_append, List.flatMap_cons, esc10]; rfl
  have h3 := h2 (splitOn1 10 s)
  rw [join1_splitOn1] at h3
  rw [h3, splitOn1_join1]
  · simpa using h1
  · intro x hx
    obtain ⟨y, hy, rfl⟩ := List.mem_map.1 hx
    have hn := sep_not_mem_splitOn1 10 s y hy
    unfold escape
    simp only [List.mem_flatMap, not_exists, not_and]
    intro c hc
    exact (escByte_plain c).2.2.1 (fun e => hn (e ▸ hc))

theorem inert_of_sub {a b : Str} (h : ∀ c ∈ a, c ∈ b) (hb : Inert b) : Inert a :=
  ⟨fun m => hb.1 (h _ m), fun m => hb.2.1 (h _ m), fun m => hb.2.2.1 (h _ m), fun m => hb.2.2.2 (h _ m)⟩

/-- a styled line is markup and text -/
theorem styleLine_pieces (l : Str) (hl : Inert l) : ∃ ps, styleLine l = render ps ∧ Safe ownTags ps ∧ shownText ps = shownLine l := by
  cases l with
  | nil => exact ⟨[], rfl, (by intro p hp; cases hp), rfl⟩
  | cons c l =>
    by_cases hc : c = 47
    · subst hc
      obtain ⟨p, ps, hp⟩ := List.exists_cons_of_ne_nil (splitParen_ne (47 :: l))
      have hd := dropLater_split _ p ps hp
      have hj := splitParen_join _ p ps hp
      have hsl : shownLine (47 :: l) = dropLater (47 :: l) := by unfold shownLine; rw [if_pos (by simp)]
      cases ps with
      | nil =>
        refine ⟨[.markup b!"<div class=\"line odd\">", .text (47 :: l), .markup b!"</div>"], ?_, ?_, ?_⟩
        · show b!"<div class=\"line odd\">" ++ (match splitParen (47 :: l) with
            | p :: q :: ps => (b!"<span class=\"file\">" ++ p ++ b!"</span> (") ++ (q :: ps).flatten
            | _ => 47 :: l) ++ b!"</div>" = _
          rw [hp]; simp [render]
        · intro x hx
          simp only [List.mem_cons, List.not_mem_nil, or_false] at hx
          rcases hx with rfl | rfl | rfl
          · show _ ∈ ownTags; decide
          · exact hl
          · show _ ∈ ownTags; decide
        · rw [hsl, hd]; simp only [shownText, if_true, List.append_nil]; rw [hj]; simp
      | cons q ps =>
        have hin : Inert p ∧ Inert (q :: ps).flatten := by
          constructor
          · refine inert_of_sub ?_ hl; intro x hx; rw [hj]; simp [hx]
          · refine inert_of_sub ?_ hl
            intro x hx
            rw [hj]
            obtain ⟨y, hy, hxy⟩ := List.mem_flatten.1 hx
            exact List.mem_append_right _ (List.mem_flatMap.2 ⟨y, hy, List.mem_append_right _ hxy⟩)
        refine ⟨[.markup b!"<div class=\"line odd\">", .markup b!"<span class=\"file\">", .text p, .markup b!"</span>", .text (b!" (" ++ (q :: ps).flatten), .markup b!"</div>"], ?_, ?_, ?_⟩
        · show b!"<div class=\"line odd\">" ++ (match splitParen (47 :: l) with
            | p :: q :: ps => (b!"<span class=\"file\">" ++ p ++ b!"</span> (") ++ (q :: ps).flatten
            | _ => 47 :: l) ++ b!"</div>" = _
          rw [hp]; simp [render]
        · intro x hx
          simp only [List.mem_cons, List.not_mem_nil, or_false] at hx
          rcases hx with rfl | rfl | rfl | rfl | rfl | rfl
          · show _ ∈ ownTags; decide
          · show _ ∈ ownTags; decide
          · exact hin.1
          · show _ ∈ ownTags; decide
          · exact inert_append.2 ⟨by unfold Inert; decide, hin.2⟩
          · show _ ∈ ownTags; decide
        · rw [hsl, hd]; simp [shownText]
    · refine ⟨[.markup b!"<div class=\"line even\">", .text (c :: l), .markup b!"</div>"], ?_, ?_, ?_⟩
      · show (if c = 47 then _ else _) = _
        rw [if_neg hc]; simp [render]
      · intro x hx
        simp only [List.mem_cons, List.not_mem_nil, or_false] at hx
        rcases hx with rfl | rfl | rfl
        · show _ ∈ ownTags; decide
        · exact hl
        · show _ ∈ ownTags; decide
      · unfold shownLine; rw [if_neg (by simpa using hc)]; simp [shownText]

theorem lines_pieces (ls : List Str) (h : ∀ l ∈ ls, Inert l) :
    ∃ ps, join1 10 (ls.map styleLine) = render ps ∧ Safe ownTags ps ∧ shownText ps = join1 10 (ls.map shownLine) := by
  induction ls with
  | nil => exact ⟨[], rfl, (by intro p hp; cases hp), rfl⟩
  | cons l ls ih =>
    obtain ⟨a, a1, a2, a3⟩ := styleLine_pieces l (h l (by simp))
    obtain ⟨b, b1, b2, b3⟩ := ih (fun x hx => h x (by simp [hx]))
    cases ls with
    | nil => exact ⟨a, a1, a2, a3⟩
    | cons l2 ls =>
      refine ⟨a ++ (.text [10] :: b), ?_, ?_, ?_⟩
      · rw [render_append]
        show styleLine l ++ 10 :: join1 10 ((l2 :: ls).map styleLine) = render a ++ ([10] ++ render b)
        rw [a1, b1]; rfl
      · refine safe_append a2 ?_
        intro p hp
        rcases List.mem_cons.1 hp with rfl | hp
        · show Inert [10]; unfold Inert; decide
        · exact b2 p hp
      · rw [shown_append]
        show shownText a ++ ([10] ++ shownText b) = shownLine l ++ 10 :: join1 10 ((l2 :: ls).map shownLine)
        rw [a3, b3]; rfl

theorem unescape_escape (s : Str) : unescape (escape s) = s := by
  induction s with
  | nil => rfl
  | cons c s ih =>
    rw [escape_cons]
    by_cases h1 : c = 38
    · subst h1; show 38 :: unescape (escape s) = _; rw [ih]
    by_cases h2 : c = 39
    · subst h2; show 39 :: unescape (escape s) = _; rw [ih]
    by_cases h3 : c = 60
    · subst h3; show 60 :: unescape (escape s) = _; rw [ih]
    by_cases h4 : c = 62
    · subst h4; show 62 :: unescape (escape s) = _; rw [ih]
    by_cases h5 : c = 34
    · subst h5; show 34 :: unescape (escape s) = _; rw [ih]
    have : escByte c = [c] := by unfold escByte; simp [h1, h2, h3, h4, h5]
    rw [this]
    show unescape (c :: escape s) = _
    conv => lhs; unfold unescape
    split
    all_goals first
      | (rename_i heq; injection heq with e1 e2; exact absurd e1 h1)
      | (rename_i heq; injection heq with e1 e2; rw [← e1, ← e2, ih])
      | (rename_i heq; cases heq)

/-- **C91 (trace).** Whatever the stack trace contains, the trace on the page is the page's own tags and text that cannot be
taken for markup; read back, the text is the trace, line by line, except that in a line starting with a slash every `" ("`
after the first is dropped. -/
theorem C91_trace (st : Str) : ∃ ps, styleStack st = render ps ∧ Safe ownTags ps ∧
    unescape (shownText ps) = join1 10 ((splitOn1 10 st).map shownLine) := by
  obtain ⟨ps, h1, h2, h3⟩ := lines_pieces (splitOn1 10 (escape st)) (by
    rw [split_escape]; intro l hl; obtain ⟨x, -, rfl⟩ := List.mem_map.1 hl; exact escape_inert x)
  refine ⟨ps, h1, h2, ?_⟩
  rw [h3, split_escape]
  have : ((splitOn1 10 st).map escape).map shownLine = ((splitOn1 10 st).map shownLine).map escape := by
    simp only [List.map_map]
    exact List.map_congr_left (fun l _ => shownLine_escape l)
  rw [this]
  have hj : ∀ l : List Str, join1 10 (l.map escape) = escape (join1 10 l) := by
    intro l
    induction l with
    | nil => rfl
    | cons x l ih =>
      cases l with
      | nil => rfl
      | cons y l =>
        show escape x ++ 10 :: join1 10 ((y :: l).map escape) = escape (x ++ 10 :: join1 10 (y :: l))
        rw [ih]
        unfold escape
        rw [List.flatMap_append, List.flatMap_cons, esc10]; rfl
  rw [hj, unescape_escape]

/-- **C91 (complete).** A trace whose lines starting with a slash have at most one `" ("` is shown completely. -/
theorem C91_trace_complete (st : Str) (h : ∀ l ∈ splitOn1 10 st, l.head? = some 47 → parens l ≤ 1) :
    ∃ ps, styleStack st = render ps ∧ Safe ownTags ps ∧ unescape (shownText ps) = st := by
  obtain ⟨ps, h1, h2, h3⟩ := C91_trace st
  refine ⟨ps, h1, h2, ?_⟩
  rw [h3]
  have : (splitOn1 10 st).map shownLine = splitOn1 10 st := by
    conv => rhs; rw [← List.map_id (splitOn1 10 st)]
    apply List.map_congr_left
    intro l hl
    unfold shownLine
    split
    · rename_i hh; exact dropLater_id l (h l hl hh)
    · rfl
  rw [this, join1_splitOn1]

/-- **C91 (page, partial).** If the printed forms of the panic value have no angle brackets or quotes, the whole page is the
page's own markup and inert text. (Missing: they need not, see below.) -/
theorem C91_page_partial (err typ val st : Str) (he : Inert err) (ht : Inert typ) (hv : Inert val) :
    ∃ ps, page err typ val st = render ps ∧ Safe (ownTags ++ [page0, page1, page2, page3, page4]) ps := by
  obtain ⟨ps, h1, h2, -⟩ := C91_trace st
  refine ⟨[.markup page0, .text err, .markup page1, .text err, .markup page2, .text (typ ++ b!": " ++ val), .markup page3] ++ (ps ++ [.markup page4]), ?_, ?_⟩
  · rw [render_append, render_append, ← h1]
    simp only [render, page, List.append_assoc, List.append_nil]
  · refine safe_append ?_ (safe_append ?_ ?_)
    · intro x hx
      simp only [List.mem_cons, List.not_mem_nil, or_false] at hx
      rcases hx with rfl | rfl | rfl | rfl | rfl | rfl | rfl
      · show page0 ∈ _; simp
      · exact he
      · show page1 ∈ _; simp
      · exact he
      · show page2 ∈ _; simp
      · exact inert_append.2 ⟨inert_append.2 ⟨ht, by unfold Inert; decide⟩, hv⟩
      · show page3 ∈ _; simp
    · intro x hx
      have := h2 x hx
      cases x with
      | markup s => exact List.mem_append_left _ this
      | text s => exact this
    · intro x hx
      simp only [List.mem_cons, List.not_mem_nil, or_false] at hx
      subst hx
      show page4 ∈ _; simp

/-- A page with script of the panic value's choice. -/
theorem C91_error_unescaped_violated : ∃ err typ val st pre post,
    page err typ val st = pre ++ b!"<script>alert(1)</script>" ++ post ∧ b!"<script>alert(1)</script>" = err :=
  ⟨b!"<script>alert(1)</script>", b!"string", b!"x", [], page0, page1 ++ b!"<script>alert(1)</script>" ++ page2 ++ (b!"string" ++ b!": " ++ b!"x") ++ page3 ++ styleStack [] ++ page4,
    by unfold page; simp only [List.append_assoc], rfl⟩

/-- Beyond the first, `" ("` is lost from a line: the page does not show the trace that was logged. -/
theorem C91_trace_loses_text_violated : ∃ st, ¬ ∃ ps, styleStack st = render ps ∧ Safe ownTags ps ∧ unescape (shownText ps) = st := by
  refine ⟨b!"/a (b (c", ?_⟩
  rintro ⟨ps, h1, h2, h3⟩
  -- count the opening parentheses: the tags have none
  have hcount : ∀ ps : List Piece, Safe ownTags ps → (render ps).count 40 = (shownText ps).count 40 := by
    intro ps hs
    induction ps with
    | nil => rfl
    | cons p ps ih =>
      have := ih (fun x hx => hs x (by simp [hx]))
      cases p with
      | markup s =>
        have hm : s ∈ ownTags := hs (.markup s) (by simp)
        have h0 : ∀ s ∈ ownTags, s.count 40 = 0 := by decide
        simp only [render, shownText, List.count_append, this, h0 s hm, Nat.zero_add]
      | text s => simp only [render, shownText, List.count_append, this]
  have hun : ∀ s : Str, (unescape s).count 40 = s.count 40 := by
    intro s
    induction s using unescape.induct with
    | case7 => rfl
    | case6 c s h1 h2 h3 h4 h5 ih =>
      rw [unescape]
      · simp only [List.count_cons, ih]
      · exact h1
      · exact h2
      · exact h3
      · exact h4
      · exact h5
    | _ s ih => simpa [unescape, List.count_cons] using ih
  have h4 := hcount ps h2
  have h5 := hun (shownText ps)
  rw [h3] at h5
  rw [← h1, ← h5] at h4
  revert h4
  decide +kernel

/-- A trace met in practice is shown completely. -/
example : ∀ l ∈ splitOn1 10 b!"/srv/app/main.go:12 (0x4a)\n\tmain: go func() { f(<-c) }()\n", l.head? = some 47 → parens l ≤ 1 := by
  decide +kernel

example : Inert b!"index out of range" ∧ Inert b!"runtime.boundsError" := by unfold Inert; decide +kernel

/-! ## The stack trace -/

namespace Spec

/-- A line without the blanks around it. -/
def Trimmed (line src : Str) : Prop :=
  ∃ pre post, line = pre ++ src ++ post ∧ (∀ c ∈ pre ++ post, c = 32 ∨ c = 9) ∧
    (∀ c, src.head? = some c → c ≠ 32 ∧ c ≠ 9) ∧ (∀ c, src.getLast? = some c → c ≠ 32 ∧ c ≠ 9)

/-- What a trace says for a frame: where it is, and, if its file can be read, what it was doing. -/
def frameText (read : Str → Option Str) (name : Option Str → Str) (lineOf : Str → Int → Str) (f : Frame) : Str :=
  f.file ++ b!":" ++ natDec f.line ++ b!" (0x" ++ f.pc ++ b!")\n" ++
    (match read f.file with
      | none => []
      | some data => b!"\t" ++ name f.fn ++ b!": " ++ lineOf data f.line ++ b!"\n")

/-- The name has no centered dot. -/
def noCenterDot : Str → Prop
  | c :: d :: s => ¬ (c = 0xC2 ∧ d = 0xB7) ∧ noCenterDot (d :: s)
  | _ => True

end Spec

theorem dropWhile_blank (s : Str) : ∃ pre, s = pre ++ trimL s ∧ (∀ c ∈ pre, c = 32 ∨ c = 9) ∧ (∀ c, (trimL s).head? = some c → c ≠ 32 ∧ c ≠ 9) := by
  unfold trimL
  refine ⟨s.takeWhile (fun c => c = 32 || c = 9), List.takeWhile_append_dropWhile.symm, ?_, ?_⟩
  · intro c hc
    have := List.all_takeWhile (p := fun c : UInt8 => decide (c = 32) || decide (c = 9)) (l := s)
    have := List.all_eq_true.1 this c hc
    simpa using this
  · intro c hc
    have := List.head?_dropWhile_not (fun c : UInt8 => decide (c = 32) || decide (c = 9)) s
    rw [hc] at this
    simpa using this

theorem trim_trimmed (s : Str) : Trimmed s (trim s) := by
  obtain ⟨pre, h1, h2, h3⟩ := dropWhile_blank s
  obtain ⟨post, k1, k2, k3⟩ := dropWhile_blank (trimL s).reverse
  have e : trimL s = trim s ++ post.reverse := by
    have := congrArg List.reverse k1
    simpa [trim] using this
  refine ⟨pre, post.reverse, ?_, ?_, ?_, ?_⟩
  · rw [List.append_assoc, ← e]; exact h1
  · intro c hc
    rcases List.mem_append.1 hc with hc | hc
    · exact h2 c hc
    · exact k2 c (by simpa using hc)
  · intro c hc
    apply h3
    rw [e]
    cases ht : trim s with
    | nil => rw [ht] at hc; cases hc
    | cons x y => rw [ht] at hc; exact hc
  · intro c hc
    apply k3
    unfold trim at hc
    simpa using hc

/-- **C92 (source).** `FileSource` is the requested line of the file, counting from 1, without the blanks around it; outside
the file it is `???`; if the file cannot be read it is an error. -/
theorem C92_source (read : Str → Option Str) (file : Str) (n : Int) :
    (∀ data, read file = some data → ∃ src, fileSource read file n = some src ∧
      ((∀ (i : Nat) line, n = i + 1 → (splitOn1 10 data)[i]? = some line → Trimmed line src) ∧
       ((n < 1 ∨ n > (splitOn1 10 data).length) → src = b!"???"))) ∧
    (read file = none → fileSource read file n = none) := by
  refine ⟨?_, fun h => by simp [fileSource, h]⟩
  intro data h
  refine ⟨_, by simp [fileSource, h]; rfl, ?_, ?_⟩
  · intro i line hn hi
    subst hn
    obtain ⟨hlt, hget⟩ := List.getElem?_eq_some_iff.1 hi
    unfold source
    rw [if_neg (by omega)]
    have e : (((i : Int) + 1 - 1).toNat) = i := by omega
    rw [e]
    have : (splitOn1 10 data).getD i [] = line := by simp [List.getD, hi]
    rw [this]
    exact trim_trimmed line
  · intro hn
    unfold source
    rw [if_pos (by omega)]

theorem stackFrame_text (read : Str → Option Str) (f : Frame) (l : Loaded) (hf : f.file ≠ [])
    (hl : l.file ≠ [] → read l.file = some (join1 10 l.lines) ∧ l.lines = splitOn1 10 (join1 10 l.lines)) :
    (stackFrame read f l).1 = frameText read function (fun d n => source (splitOn1 10 d) n) f ∧
    ((stackFrame read f l).2.file ≠ [] → read (stackFrame read f l).2.file = some (join1 10 (stackFrame read f l).2.lines) ∧
      (stackFrame read f l).2.lines = splitOn1 10 (join1 10 (stackFrame read f l).2.lines)) := by
  unfold stackFrame frameText
  by_cases h : f.file ≠ l.file
  · rw [if_pos h]
    cases hr : read f.file with
    | none => exact ⟨by simp, hl⟩
    | some data =>
      refine ⟨by simp, fun _ => ?_⟩
      simp only [join1_splitOn1]
      exact ⟨hr, trivial⟩
  · rw [if_neg h]
    have e : f.file = l.file := Decidable.not_not.1 h
    obtain ⟨h1, h2⟩ := hl (e ▸ hf)
    refine ⟨?_, hl⟩
    rw [e, h1]
    simp only []
    rw [← h2]

theorem stackFrom_text (read : Str → Option Str) (fs : List Frame) : ∀ l : Loaded, (∀ f ∈ fs, f.file ≠ []) →
    (l.file ≠ [] → read l.file = some (join1 10 l.lines) ∧ l.lines = splitOn1 10 (join1 10 l.lines)) →
    stackFrom read fs l = fs.flatMap (frameText read function (fun d n => source (splitOn1 10 d) n)) := by
  induction fs with
  | nil => intros; rfl
  | cons f fs ih =>
    intro l hf hl
    obtain ⟨h1, h2⟩ := stackFrame_text read f l (hf f (by simp)) hl
    rw [stackFrom, h1, ih _ (fun g hg => hf g (by simp [hg])) h2]; rfl

/-- **C92.** The trace is the frames above `skip`, in order, each with its place and, exactly if its file can be read, the
function's short name and the source line `FileSource` gives; reusing the file loaded for an earlier frame never shows a line
of another file. -/
theorem C92_stack (read : Str → Option Str) (frames : List Frame) (skip : Nat) (hf : ∀ f ∈ frames, f.file ≠ []) :
    ∃ lineOf : Str → Int → Str,
      (∀ file data n, read file = some data → fileSource read file n = some (lineOf data n)) ∧
      stack read frames skip = (frames.drop skip).flatMap (frameText read function lineOf) := by
  refine ⟨fun d n => source (splitOn1 10 d) n, ?_, ?_⟩
  · intro file data n h; simp [fileSource, h]
  · exact stackFrom_text read _ _ (fun f hm => hf f (List.mem_of_mem_drop hm)) (fun h => absurd rfl h)

theorem undot_split (a b : Str) : undot (a ++ 0xC2 :: 0xB7 :: b) = undot a ++ 46 :: undot b := by
  induction a using undot.induct with
  | case1 => simp [undot]
  | case2 c =>
    show undot (c :: 0xC2 :: 0xB7 :: b) = _
    have h1 : ¬ (c = 0xC2 ∧ (0xC2 : UInt8) = 0xB7) := fun h => absurd h.2 (by decide)
    have h2 : undot (0xC2 :: 0xB7 :: b) = 46 :: undot b := by simp [undot]
    conv => lhs; unfold undot
    rw [if_neg h1, h2]; simp [undot]
  | case3 c d s h ih =>
    show undot (c :: d :: (s ++ _)) = _
    rw [undot, if_pos h, ih, undot, if_pos h]; rfl
  | case4 c d s h ih =>
    show undot (c :: d :: (s ++ _)) = _
    rw [undot, if_neg h, undot, if_neg h]
    show c :: undot ((d :: s) ++ _) = _
    rw [ih]; rfl

theorem undot_id (a : Str) (h : noCenterDot a) : undot a = a := by
  induction a using undot.induct with
  | case1 => rfl
  | case2 c => rfl
  | case3 c d s hh ih => exact absurd hh h.1
  | case4 c d s hh ih => rw [undot, if_neg hh, ih h.2]

theorem afterSlash_last (a b : Str) (h : 47 ∉ b) : afterSlash (a ++ 47 :: b) = b := by
  unfold afterSlash
  rw [if_pos (by simp)]
  have : (a ++ 47 :: b).reverse = b.reverse ++ 47 :: a.reverse := by simp
  rw [this, List.takeWhile_append_of_pos]
  · simp
  · intro c hc; have : c ≠ 47 := fun e => h (by simpa [e] using hc); simpa using this

theorem afterDot_first (a b : Str) (h : 46 ∉ a) : afterDot (a ++ 46 :: b) = b := by
  unfold afterDot
  rw [if_pos (by simp), List.dropWhile_append_of_pos]
  · simp
  · intro c hc; have : c ≠ 46 := fun e => h (e ▸ hc); simpa using this

/-- **C92 (names).** A function named `path/pkg.rest` is shown as `rest`, with or without a path, each centered dot
replaced by a period; an unknown one as `???`. -/
theorem C92_name (path pkg rest : Str) (h1 : 47 ∉ pkg ++ rest) (h2 : 46 ∉ pkg) (h3 : noCenterDot rest) :
    function (some (path ++ 47 :: (pkg ++ 46 :: rest))) = rest ∧ function (some (pkg ++ 46 :: rest)) = rest ∧ function none = b!"???" ∧
    (∀ recv, 47 ∉ recv → noCenterDot recv →
      function (some (path ++ 47 :: (pkg ++ 46 :: (recv ++ [0xC2, 0xB7] ++ rest)))) = recv ++ b!"." ++ rest) := by
  have hs : 47 ∉ pkg ++ 46 :: rest := by
    intro h; apply h1
    rcases List.mem_append.1 h with h | h
    · exact List.mem_append_left _ h
    · rcases List.mem_cons.1 h with h | h
      · exact absurd h (by decide)
      · exact List.mem_append_right _ h
  refine ⟨?_, ?_, rfl, ?_⟩
  · show undot (afterDot (afterSlash _)) = _
    rw [afterSlash_last _ _ hs, afterDot_first _ _ h2, undot_id _ h3]
  · show undot (afterDot (afterSlash _)) = _
    have : afterSlash (pkg ++ 46 :: rest) = pkg ++ 46 :: rest := by unfold afterSlash; rw [if_neg hs]
    rw [this, afterDot_first _ _ h2, undot_id _ h3]
  · intro recv hr hd
    show undot (afterDot (afterSlash _)) = _
    have hs2 : 47 ∉ pkg ++ 46 :: (recv ++ [0xC2, 0xB7] ++ rest) := by
      intro h
      simp only [List.mem_append, List.mem_cons, List.not_mem_nil, or_false] at h
      simp only [List.mem_append, not_or] at h1
      rcases h with h | h | (h | h | h) | h
      · exact h1.1 h
      · exact absurd h (by decide)
      · exact hr h
      · exact absurd h (by decide)
      · exact absurd h (by decide)
      · exact h1.2 h
    rw [afterSlash_last _ _ hs2, afterDot_first _ _ h2]
    have : recv ++ [0xC2, 0xB7] ++ rest = recv ++ 0xC2 :: 0xB7 :: rest := by simp
    rw [this, undot_split, undot_id _ hd, undot_id _ h3]; simp

/-- **C92 (names).** A name without a period is shown as it is, up to its path. -/
theorem C92_name_plain (path name : Str) (h1 : 47 ∉ name) (h2 : 46 ∉ name) (h3 : noCenterDot name) :
    function (some name) = name ∧ function (some (path ++ 47 :: name)) = name := by
  have hd : afterDot name = name := by unfold afterDot; rw [if_neg h2]
  constructor
  · show undot (afterDot (afterSlash _)) = _
    have : afterSlash name = name := by unfold afterSlash; rw [if_neg h1]
    rw [this, hd, undot_id _ h3]
  · show undot (afterDot (afterSlash _)) = _
    rw [afterSlash_last _ _ h1, hd, undot_id _ h3]

/-- Three frames, one file unreadable, the middle one reusing the first one's lines. -/
example : stack (fun f => if f = b!"/a.go" then some b!"package a\n\n\tpanic(1)\nf() " else none)
    [⟨b!"/rt.s", 1, b!"0", none⟩, ⟨b!"/a.go", 3, b!"a1", some b!"x/a.(*T).f"⟩, ⟨b!"/a.go", 4, b!"a2", some b!"x/a.g"⟩, ⟨b!"/b.go", 9, b!"b", none⟩] 1 =
    b!"/a.go:3 (0xa1)\n\t(*T).f: panic(1)\n/a.go:4 (0xa2)\n\tg: f()\n/b.go:9 (0xb)\n" := by decide +kernel

example : 47 ∉ b!"strip" ++ b!"(*Strip).ServeHTTP" ∧ 46 ∉ b!"strip" ∧ noCenterDot b!"ServeHTTP" := by
  refine ⟨by decide +kernel, by decide +kernel, ?_⟩
  simp only [noCenterDot]; decide +kernel

end Verif.Page
