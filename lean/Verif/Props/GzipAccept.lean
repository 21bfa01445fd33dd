import Verif.Props.GzipOut
/-!
# C153: which clients get a compressed answer, and what caches are told about it
-/
namespace Verif.Gz
open Verif.Resp Verif.Resp.Spec Spec Verif.Go

/-! ## Specification: the header a client sends, and what it means (RFC 7231 5.3.4) -/

/-- One entry of an `Accept-Encoding` header: a coding, and its weight (the text after `q=`) if it has one. -/
structure Spec.Coding where
  name : Str
  weight : Option Str
  deriving DecidableEq

/-- Where an entry may have blanks. -/
structure Spec.Blanks where
  lead : Str
  mid : Str
  after : Str
  trail : Str
  deriving DecidableEq

/-- The text of an entry. -/
def Spec.Coding.text (c : Spec.Coding) (b : Spec.Blanks) : Str :=
  b.lead ++ c.name ++
    (match c.weight with
     | none => []
     | some w => b.mid ++ 59 :: b.after ++ b!"q=" ++ w) ++ b.trail

/-- The header. -/
def Spec.acceptText (l : List (Spec.Coding × Spec.Blanks)) : Str := join1 44 (l.map fun e => e.1.text e.2)

/-- A token has no blank, comma, semicolon or equals sign; a weight is made of digits and dots; blanks are spaces and tabs. -/
structure Spec.Entry (e : Spec.Coding × Spec.Blanks) : Prop where
  name : ∀ c ∈ e.1.name, c ≠ 32 ∧ c ≠ 9 ∧ c ≠ 44 ∧ c ≠ 59 ∧ c ≠ 61
  weight : ∀ w ∈ e.1.weight, ∀ c ∈ w, (48 ≤ c ∧ c ≤ 57) ∨ c = 46
  blanks : ∀ s ∈ [e.2.lead, e.2.mid, e.2.after, e.2.trail], ∀ c ∈ s, c = 32 ∨ c = 9

/-- The weight is not zero. -/
def Spec.Coding.wanted (c : Spec.Coding) : Bool := c.weight.elim true fun w => w.any fun d => 49 ≤ d && d ≤ 57

/-- Codings are compared without regard to case; `x-gzip` means the same as `gzip`. -/
def Spec.Coding.isGzip (c : Spec.Coding) : Bool := toLower c.name == b!"gzip" || toLower c.name == b!"x-gzip"

/-- The client can take gzip: it lists it with a weight that is not zero; or it does not list it, and `*` has such a weight. -/
def Spec.takesGzip (l : List Spec.Coding) : Bool :=
  l.any (fun c => c.isGzip && c.wanted) || (!(l.any Spec.Coding.isGzip) && l.any fun c => c.name == b!"*" && c.wanted)

/-- The answer a client gets is a gzip stream of `data`, and marked as one. -/
structure Spec.Compressed {C : Codec} (r : GS C) (data : Str) : Prop where
  stream : C.decode (body r) = some data
  marked : ∀ h, r.sent = some h → h b!"Content-Encoding" = b!"gzip"
  sent : r.sent ≠ none

/-- The answer a client gets is `data`. -/
structure Spec.Plain {C : Codec} (r : GS C) (data : Str) : Prop where
  body : body r = data
  unmarked : ∀ h, r.sent = some h → h b!"Content-Encoding" = []

variable {C : Codec}

/-! ## Occurrences -/

/-- `sub` occurs in `s`. -/
def Occ (sub s : Str) : Prop := ∃ a b, s = a ++ sub ++ b

theorem occ_sep {sub : Str} (sep : UInt8) (hs : sep ∉ sub) (x y : Str) : Occ sub (x ++ sep :: y) ↔ Occ sub x ∨ Occ sub y := by
  constructor
  · rintro ⟨a, b, h⟩
    rcases List.append_eq_append_iff.1 h with ⟨t, h1, h2⟩ | ⟨t, h1, h2⟩
    · -- a ++ sub = x ++ t
      cases t with
      | nil => exact .inl ⟨a, [], by simpa using h1.symm⟩
      | cons t0 t =>
        simp only [List.cons_append, List.cons.injEq] at h2
        obtain ⟨rfl, h2⟩ := h2
        rcases List.append_eq_append_iff.1 h1 with ⟨u, e1, e2⟩ | ⟨u, e1, e2⟩
        · exact absurd (by rw [e2]; simp) hs
        · cases u with
          | nil => exact absurd (by rw [← (show sep :: t = sub by simpa using e2)]; simp) hs
          | cons u0 u =>
            simp only [List.cons_append, List.cons.injEq] at e2
            exact .inr ⟨u, b, by rw [h2, e2.2]⟩
    · exact .inl ⟨a, t, h1⟩
  · rintro (⟨a, b, rfl⟩ | ⟨a, b, rfl⟩)
    · exact ⟨a, b ++ sep :: y, by simp⟩
    · exact ⟨x ++ sep :: a, b, by simp⟩

theorem occ_nil {sub : Str} (hn : sub ≠ []) : ¬ Occ sub [] := by
  rintro ⟨a, b, h⟩
  exact hn (by cases a with
    | nil => cases sub with
      | nil => rfl
      | cons => cases h
    | cons => cases h)

theorem occ_tail {sub : Str} (hn : sub ≠ []) : ∀ (t x : Str), (∀ c ∈ t, c ∉ sub) → (Occ sub (x ++ t) ↔ Occ sub x)
  | [], x, _ => by simp
  | c :: t, x, h => by
    rw [occ_sep c (h c (by simp))]
    have := occ_tail hn t [] fun d hd => h d (List.mem_cons_of_mem _ hd)
    rw [List.nil_append] at this
    rw [this]
    exact ⟨fun h => h.resolve_right (occ_nil hn), .inl⟩

theorem occ_head {sub : Str} (hn : sub ≠ []) : ∀ (t x : Str), (∀ c ∈ t, c ∉ sub) → (Occ sub (t ++ x) ↔ Occ sub x)
  | [], x, _ => Iff.rfl
  | c :: t, x, h => by
    have := occ_sep c (h c (by simp)) [] (t ++ x)
    rw [List.nil_append] at this
    rw [List.cons_append, this, occ_head hn t x fun d hd => h d (List.mem_cons_of_mem _ hd)]
    exact ⟨fun h => h.resolve_left (occ_nil hn), .inr⟩

theorem occ_text {e : Spec.Coding × Spec.Blanks} (h : Spec.Entry e) : Occ b!"gzip" (e.1.text e.2) ↔ Occ b!"gzip" e.1.name := by
  have hb : ∀ s ∈ [e.2.lead, e.2.mid, e.2.after, e.2.trail], ∀ c ∈ s, c ∉ b!"gzip" := by
    intro s hs c hc
    rcases h.blanks s hs c hc with rfl | rfl <;> decide
  unfold Spec.Coding.text
  rw [occ_tail (by decide) _ _ (hb _ (by simp)), occ_tail (by decide), occ_head (by decide) _ _ (hb _ (by simp))]
  intro c hc
  cases hw : e.1.weight with
  | none => rw [hw] at hc; cases hc
  | some w =>
    rw [hw] at hc
    simp only [List.cons_append, List.mem_append, List.mem_cons, List.not_mem_nil, or_false, or_assoc] at hc
    rcases hc with hc | hc | hc | hc | hc | hc
    · exact hb _ (by simp) c hc
    · rw [hc]; decide
    · exact hb _ (by simp) c hc
    · rw [hc]; decide
    · rw [hc]; decide
    · rcases h.weight w hw c hc with ⟨h1, h2⟩ | rfl
      · have h2' := UInt8.le_iff_toNat_le.mp h2
        intro hm
        simp only [List.mem_cons, List.not_mem_nil, or_false] at hm
        rcases hm with rfl | rfl | rfl | rfl <;> exact absurd h2' (by decide)
      · decide

theorem occ_join : ∀ l : List Str, Occ b!"gzip" (join1 44 l) ↔ ∃ t ∈ l, Occ b!"gzip" t
  | [] => by simp [join1, occ_nil (show b!"gzip" ≠ [] by decide)]
  | [x] => by simp [join1]
  | x :: y :: l => by
    rw [show join1 44 (x :: y :: l) = x ++ 44 :: join1 44 (y :: l) from rfl, occ_sep 44 (by decide), occ_join (y :: l)]
    simp

theorem occ_accept {l : List (Spec.Coding × Spec.Blanks)} (h : ∀ e ∈ l, Spec.Entry e) :
    Occ b!"gzip" (Spec.acceptText l) ↔ ∃ e ∈ l, Occ b!"gzip" e.1.name := by
  unfold Spec.acceptText
  rw [occ_join]
  constructor
  · rintro ⟨t, ht, ho⟩
    obtain ⟨e, he, rfl⟩ := List.mem_map.1 ht
    exact ⟨e, he, (occ_text (h e he)).1 ho⟩
  · rintro ⟨e, he, ho⟩
    exact ⟨_, List.mem_map.2 ⟨e, he, rfl⟩, (occ_text (h e he)).2 ho⟩

/-! ## What the client gets -/

/-- The handlers leave these headers to the filter. -/
theorem sentHdr_keeps (detect : Str → Str) (k : Str) (hk : k ≠ b!"Content-Length" ∧ k ≠ b!"Content-Type") : ∀ (ops : List GOp) (h : Hdr),
    Spec.Leaves k ops → ∀ s, Spec.sentHdr detect h ops = some s → s k = h k
  | [], _, _, s, e => by cases e
  | .flush :: _, h, _, s, e => by
    simp only [Spec.sentHdr, Option.some.injEq] at e; rw [e]
  | .write p :: _, h, _, s, e => by
    simp only [Spec.sentHdr, Option.some.injEq] at e
    subst e
    simp [Spec.prepared, hk.1, hk.2]
  | .writeHeader _ :: os, h, hl, s, e =>
    sentHdr_keeps detect k hk os h (fun v hv => hl v (List.mem_cons_of_mem _ hv)) s e
  | .setHeader k' v :: os, h, hl, s, e => by
    have := sentHdr_keeps detect k hk os _ (fun v hv => hl v (List.mem_cons_of_mem _ hv)) s e
    rw [this]
    exact if_neg fun e => hl v (by rw [e]; simp)

theorem sentHdr_some (detect : Str → Str) : ∀ (ops : List GOp) (h : Hdr), writes ops = true → Spec.sentHdr detect h ops ≠ none
  | [], _, hw => by cases hw
  | .flush :: _, h, _ => by simp [Spec.sentHdr]
  | .write p :: _, h, _ => by simp [Spec.sentHdr]
  | .writeHeader _ :: os, h, hw => sentHdr_some detect os h (by simpa [writes] using hw)
  | .setHeader k' v :: os, h, hw => sentHdr_some detect os _ (by simpa [writes] using hw)

/-- The plain writer sends the headers in force at the first output. -/
theorem rawOps_has {k v : Str} : ∀ (ops : List GOp) (g : GS C), Spec.Leaves k ops → Has k v g → Has k v (ops.foldl GS.rawOp g)
  | [], g, _, h => h
  | o :: ops, g, hl, h => by
    rw [List.foldl_cons]
    refine rawOps_has ops _ (fun v hv => hl v (List.mem_cons_of_mem _ hv)) ?_
    cases o with
    | write p => exact raw_has h p
    | writeHeader s => exact h
    | flush =>
      refine ⟨h.1, fun x hx => ?_⟩
      have : (g.sent.or (some g.hdr)) = some x := hx
      cases hs : g.sent with
      | none => rw [hs] at this; simp only [Option.or, Option.some.injEq] at this; rw [← this]; exact h.1
      | some y => rw [hs] at this; simp only [Option.or, Option.some.injEq] at this; rw [← this]; exact h.2 y hs
    | setHeader k' v' =>
      refine ⟨?_, h.2⟩
      show (g.hdr.set k' v') k = v
      rw [Hdr.set_ne _ _ (fun e => hl v' (by rw [e]; simp))]
      exact h.1

/-- A response nothing was done with yet. -/
structure Spec.Start (g : GS C) : Prop where
  usable : Usable g
  closed : g.gz = none
  unsent : g.sent = none
  empty : body g = []
  plain : g.hdr b!"Content-Encoding" = []

/-- **C153 (exactly who).** For every `Accept-Encoding` header that is a list of codings with weights: the answer is compressed, and marked
so, exactly when some coding in the list has `gzip` as a part of its name - whatever its weight; otherwise it is sent as written, unmarked. -/
theorem C153_exact (hC : C.Lawful) (detect : Str → Str) (l : List (Spec.Coding × Spec.Blanks)) (hl : ∀ e ∈ l, Spec.Entry e)
    (g : GS C) (hg : Spec.Start g) (ops : List GOp) (hw : writes ops = true) (hk : Spec.Leaves b!"Content-Encoding" ops) :
    ((∃ e ∈ l, ∃ a b, e.1.name = a ++ b!"gzip" ++ b) → Spec.Compressed (filter detect (Spec.acceptText l) g ops) (written ops)) ∧
    ((¬ ∃ e ∈ l, ∃ a b, e.1.name = a ++ b!"gzip" ++ b) → Spec.Plain (filter detect (Spec.acceptText l) g ops) (written ops)) := by
  refine ⟨fun h => ?_, fun h => ?_⟩
  · have ha := (occ_accept hl).2 h
    obtain ⟨st, e1, e2⟩ := ((C109_body hC detect (Spec.acceptText l) g ops hg.usable hg.closed).1 ha).1 hw
    have e3 := C109_headers detect ha g ops hg.closed hg.unsent
    refine ⟨by rw [e1, hg.empty]; exact e2, fun s hs => ?_, ?_⟩
    · rw [e3] at hs
      rw [sentHdr_keeps detect b!"Content-Encoding" (by decide) ops _ hk s hs]
      rfl
    · rw [e3]; exact sentHdr_some detect ops _ hw
  · have ha : ¬ ∃ a b, Spec.acceptText l = a ++ b!"gzip" ++ b := fun h' => h ((occ_accept hl).1 h')
    refine ⟨by rw [(C109_body hC detect (Spec.acceptText l) g ops hg.usable hg.closed).2 ha, hg.empty]; rfl, fun s hs => ?_⟩
    have hc : contains (Spec.acceptText l) b!"gzip" = false := by
      cases hc : contains (Spec.acceptText l) b!"gzip" with
      | false => rfl
      | true => exact absurd ((contains_iff _ _).1 hc) ha
    unfold filter at hs
    rw [hc] at hs
    exact (rawOps_has (k := b!"Content-Encoding") (v := []) ops g hk ⟨hg.plain, fun h hh => by rw [hg.unsent] at hh; cases hh⟩).2 s hs

/-- **C153 (who should), as far as it holds.** If every coding with `gzip` in its name is gzip and none of them has weight zero, then only
clients that can take gzip get it. (Missing: a coding refused with `q=0`, and names that merely contain `gzip`; see `C153_refused_violated`
and `C153_other_coding_violated`.) -/
theorem C153_accepted_partial (hC : C.Lawful) (detect : Str → Str) (l : List (Spec.Coding × Spec.Blanks)) (hl : ∀ e ∈ l, Spec.Entry e)
    (hz : ∀ e ∈ l, (∃ a b, e.1.name = a ++ b!"gzip" ++ b) → e.1.isGzip = true ∧ e.1.wanted = true)
    (g : GS C) (hg : Spec.Start g) (ops : List GOp) (hw : writes ops = true) (hk : Spec.Leaves b!"Content-Encoding" ops)
    (hn : Spec.takesGzip (l.map Prod.fst) = false) : Spec.Plain (filter detect (Spec.acceptText l) g ops) (written ops) := by
  refine (C153_exact hC detect l hl g hg ops hw hk).2 ?_
  rintro ⟨e, he, ho⟩
  obtain ⟨h1, h2⟩ := hz e he ho
  have : Spec.takesGzip (l.map Prod.fst) = true := by
    unfold Spec.takesGzip
    rw [Bool.or_eq_true]
    exact .inl (List.any_eq_true.2 ⟨e.1, List.mem_map.2 ⟨e, he, rfl⟩, by rw [h1, h2]; rfl⟩)
  rw [this] at hn
  cases hn

/-- **C153 (the usual clients).** A client that lists `gzip` (or `x-gzip`) in lower case gets a compressed answer, wherever in the list it
is. -/
theorem C153_listed (hC : C.Lawful) (detect : Str → Str) (l : List (Spec.Coding × Spec.Blanks)) (hl : ∀ e ∈ l, Spec.Entry e)
    (hm : ∃ e ∈ l, e.1.name = b!"gzip" ∨ e.1.name = b!"x-gzip")
    (g : GS C) (hg : Spec.Start g) (ops : List GOp) (hw : writes ops = true) (hk : Spec.Leaves b!"Content-Encoding" ops) :
    Spec.Compressed (filter detect (Spec.acceptText l) g ops) (written ops) := by
  refine (C153_exact hC detect l hl g hg ops hw hk).1 ?_
  obtain ⟨e, he, h | h⟩ := hm
  · exact ⟨e, he, [], [], by simpa using h⟩
  · exact ⟨e, he, b!"x-", [], by rw [h]; rfl⟩

/-- **C153, refuted: refused codings.** A client that refuses gzip - it lists it once, with weight zero - gets a compressed answer, for every
list of other codings around it. -/
theorem C153_refused_violated (hC : C.Lawful) (detect : Str → Str) (l r : List (Spec.Coding × Spec.Blanks)) (w : Str) (b : Spec.Blanks)
    (hl : ∀ e ∈ l ++ (⟨b!"gzip", some w⟩, b) :: r, Spec.Entry e) (hz : ∀ d ∈ w, d = 48 ∨ d = 46)
    (ho : ∀ e ∈ l ++ r, e.1.isGzip = false)
    (g : GS C) (hg : Spec.Start g) (ops : List GOp) (hw : writes ops = true) (hk : Spec.Leaves b!"Content-Encoding" ops) :
    Spec.takesGzip ((l ++ (⟨b!"gzip", some w⟩, b) :: r).map Prod.fst) = false ∧
    Spec.Compressed (filter detect (Spec.acceptText (l ++ (⟨b!"gzip", some w⟩, b) :: r)) g ops) (written ops) := by
  refine ⟨?_, C153_listed hC detect _ hl ⟨(⟨b!"gzip", some w⟩, b), by simp, .inl rfl⟩ g hg ops hw hk⟩
  have hq : Spec.Coding.wanted ⟨b!"gzip", some w⟩ = false := by
    show (w.any fun d => 49 ≤ d && d ≤ 57) = false
    rw [List.any_eq_false]
    intro d hd
    rcases hz d hd with rfl | rfl <;> decide
  have h1 : ((l ++ (⟨b!"gzip", some w⟩, b) :: r).map Prod.fst).any (fun c => c.isGzip && c.wanted) = false := by
    rw [List.any_eq_false]
    intro c hc
    obtain ⟨e, he, rfl⟩ := List.mem_map.1 hc
    rcases List.mem_append.1 he with he | he
    · rw [ho e (List.mem_append_left _ he)]; simp
    · rcases List.mem_cons.1 he with rfl | he
      · rw [hq]; simp
      · rw [ho e (List.mem_append_right _ he)]; simp
  have h2 : ((l ++ (⟨b!"gzip", some w⟩, b) :: r).map Prod.fst).any Spec.Coding.isGzip = true :=
    List.any_eq_true.2 ⟨⟨b!"gzip", some w⟩, by simp, by simp [Spec.Coding.isGzip, toLower, lowerByte]⟩
  unfold Spec.takesGzip
  rw [h1, h2]
  rfl

/-- **C153, refuted: other codings.** A client that knows only a coding whose name contains `gzip` gets gzip. -/
theorem C153_other_coding_violated (hC : C.Lawful) (detect : Str → Str) (b : Spec.Blanks)
    (hl : Spec.Entry (⟨b!"pack200-gzip", none⟩, b)) (g : GS C) (hg : Spec.Start g) (ops : List GOp) (hw : writes ops = true)
    (hk : Spec.Leaves b!"Content-Encoding" ops) :
    Spec.takesGzip [⟨b!"pack200-gzip", none⟩] = false ∧
    Spec.Compressed (filter detect (Spec.acceptText [(⟨b!"pack200-gzip", none⟩, b)]) g ops) (written ops) :=
  ⟨by decide, (C153_exact hC detect _ (fun e he => by rw [List.mem_singleton.1 he]; exact hl) g hg ops hw hk).1
    ⟨_, List.mem_singleton.2 rfl, b!"pack200-", [], rfl⟩⟩

/-- **C153, refuted: capable clients left out.** A client that writes the name in capitals, or sends `*`, can take gzip and gets a plain
answer. -/
theorem C153_missed_violated (hC : C.Lawful) (detect : Str → Str) (n : Str) (hn : n = b!"GZIP" ∨ n = b!"*") (b : Spec.Blanks)
    (hl : Spec.Entry (⟨n, none⟩, b)) (g : GS C) (hg : Spec.Start g) (ops : List GOp) (hw : writes ops = true)
    (hk : Spec.Leaves b!"Content-Encoding" ops) :
    Spec.takesGzip [⟨n, none⟩] = true ∧ Spec.Plain (filter detect (Spec.acceptText [(⟨n, none⟩, b)]) g ops) (written ops) := by
  refine ⟨by rcases hn with rfl | rfl <;> decide, (C153_exact hC detect _ (fun e he => by rw [List.mem_singleton.1 he]; exact hl) g hg ops hw hk).2 ?_⟩
  rintro ⟨e, he, ho⟩
  rw [List.mem_singleton.1 he] at ho
  have := (contains_iff n b!"gzip").2 ho
  rcases hn with rfl | rfl <;> cases (this.symm.trans (by decide) : true = false)

/-! ## What caches are told -/

/-- **C153 (Vary).** The compressed answer says that it depends on `Accept-Encoding` (and on nothing else), whatever was set before. -/
theorem C153_vary (detect : Str → Str) {accept : Str} (ha : ∃ a b, accept = a ++ b!"gzip" ++ b) (g : GS C) (hg : g.gz = none)
    (hs : g.sent = none) (ops : List GOp) (hk : Spec.Leaves b!"Vary" ops) (s : Hdr) (h : (filter detect accept g ops).sent = some s) :
    s b!"Vary" = b!"Accept-Encoding" := by
  rw [C109_headers detect ha g ops hg hs] at h
  rw [sentHdr_keeps detect b!"Vary" (by decide) ops _ hk s h]
  rfl

/-- **C153, refuted: earlier Vary headers.** If an earlier filter said that the answer depends on `Cookie`, the compressed answer does
not say so any more. -/
theorem C153_vary_lost_violated (detect : Str → Str) {accept : Str} (ha : ∃ a b, accept = a ++ b!"gzip" ++ b) (g : GS C) (hg : g.gz = none)
    (hs : g.sent = none) (hv : g.hdr b!"Vary" = b!"Cookie") (ops : List GOp) (hw : writes ops = true) (hk : Spec.Leaves b!"Vary" ops) :
    ∃ s, (filter detect accept g ops).sent = some s ∧ ¬ ∃ a b, s b!"Vary" = a ++ b!"Cookie" ++ b := by
  cases h : (filter detect accept g ops).sent with
  | none => rw [C109_headers detect ha g ops hg hs] at h; exact absurd h (sentHdr_some detect ops _ hw)
  | some s =>
    refine ⟨s, rfl, ?_⟩
    rw [C153_vary detect ha g hg hs ops hk s h]
    intro h
    exact absurd ((contains_iff b!"Accept-Encoding" b!"Cookie").2 h) (by decide)

/-- **C153, refuted: plain answers.** The plain answer to the same request does not say that it depends on `Accept-Encoding`, although it
does. -/
theorem C153_vary_plain_violated (detect : Str → Str) {accept : Str} (ha : ¬ ∃ a b, accept = a ++ b!"gzip" ++ b) (g : GS C)
    (hs : g.sent = none) (hv : g.hdr b!"Vary" = []) (ops : List GOp) (hk : Spec.Leaves b!"Vary" ops) (s : Hdr)
    (h : (filter detect accept g ops).sent = some s) : s b!"Vary" = [] := by
  have hc : contains accept b!"gzip" = false := by
    cases hc : contains accept b!"gzip" with
    | false => rfl
    | true => exact absurd ((contains_iff _ _).1 hc) ha
  unfold filter at h
  rw [hc] at h
  exact (rawOps_has (k := b!"Vary") (v := []) ops g hk ⟨hv, fun h hh => by rw [hs] at hh; cases hh⟩).2 s h

/-! ## Concrete cases -/

/-- `br, gzip;q=0.0 , *;q=0.5` meets the hypotheses of `C153_refused_violated`, a fresh response those of `Start`. -/
example : (∀ e ∈ [((⟨b!"br", none⟩ : Spec.Coding), (⟨[], [], [], []⟩ : Spec.Blanks)), (⟨b!"gzip", some b!"0.0"⟩, ⟨[32], [], [], [32]⟩),
      (⟨b!"*", some b!"0.5"⟩, ⟨[32], [], [], []⟩)], Spec.Entry e) ∧
    Spec.acceptText [((⟨b!"br", none⟩ : Spec.Coding), (⟨[], [], [], []⟩ : Spec.Blanks)), (⟨b!"gzip", some b!"0.0"⟩, ⟨[32], [], [], [32]⟩),
      (⟨b!"*", some b!"0.5"⟩, ⟨[32], [], [], []⟩)] = b!"br, gzip;q=0.0 , *;q=0.5" ∧
    Spec.Start ({ rw := newRW } : GS toyCodec) := by
  refine ⟨?_, by decide, ⟨⟨(fun b hb => by cases hb), rfl⟩, rfl, rfl, by decide, rfl⟩⟩
  intro e he
  simp only [List.mem_cons, List.not_mem_nil, or_false] at he
  rcases he with rfl | rfl | rfl <;> exact ⟨by decide, by decide, by decide⟩

/-- What such a client sees. -/
example : let r := filter (fun _ => b!"text/plain") b!"br, gzip;q=0.0 , *;q=0.5" ({ rw := newRW } : GS toyCodec) [.write b!"ab"]
    toyCodec.decode (body r) = some b!"ab" ∧ body r ≠ b!"ab" ∧ r.sent.map (· b!"Content-Encoding") = some b!"gzip" := by decide

end Verif.Gz
