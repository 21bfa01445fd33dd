import Verif.Model.Query
import Verif.Model.Binder
import Verif.Props.Params
import Verif.Proofs.Enc
/-!
# C127: the parameters of a request, exactly, from its bytes
-/
namespace Verif.Params
open Verif.Go

/-! ## Specification -/

/-- A hexadecimal digit and its value. -/
def Spec.Hex (c : UInt8) (n : Nat) : Prop :=
  (48 ≤ c.toNat ∧ c.toNat ≤ 57 ∧ c.toNat = 48 + n) ∨ (97 ≤ c.toNat ∧ c.toNat ≤ 102 ∧ c.toNat = 87 + n) ∨
    (65 ≤ c.toNat ∧ c.toNat ≤ 70 ∧ c.toNat = 55 + n)

/-- `Decodes s t`: the form-encoded text `s` stands for `t`: `+` is a blank, `%XX` a byte, others themselves. -/
inductive Spec.Decodes : Str → Str → Prop where
  | nil : Spec.Decodes [] []
  | plus (s t : Str) : Spec.Decodes s t → Spec.Decodes (43 :: s) (32 :: t)
  | hex (a b : UInt8) (x y : Nat) (s t : Str) : Spec.Hex a x → Spec.Hex b y → Spec.Decodes s t →
      Spec.Decodes (37 :: a :: b :: s) (UInt8.ofNat (16 * x + y) :: t)
  | other (c : UInt8) (s t : Str) : c ≠ 43 → c ≠ 37 → Spec.Decodes s t → Spec.Decodes (c :: s) (c :: t)

/-- A piece `key=value` (cut at the first `=`; without `=` the value is empty). -/
def Spec.Piece (p k v : Str) : Prop :=
  (∃ a b, p = a ++ 61 :: b ∧ (61 : UInt8) ∉ a ∧ Spec.Decodes a k ∧ Spec.Decodes b v) ∨
    ((61 : UInt8) ∉ p ∧ Spec.Decodes p k ∧ v = [])

/-- Does the byte separate pieces? `;` does so only for old Go. -/
def Spec.Sep (semi : Bool) (c : UInt8) : Prop := c = 38 ∨ (semi = true ∧ c = 59)

/-- The text is these pieces, with separators between them. -/
inductive Spec.Splits (semi : Bool) : Str → List Str → Prop where
  | last (p : Str) : (∀ c ∈ p, ¬ Spec.Sep semi c) → Spec.Splits semi p [p]
  | more (p : Str) (c : UInt8) (t : Str) (ps : List Str) : (∀ c ∈ p, ¬ Spec.Sep semi c) → Spec.Sep semi c →
      Spec.Splits semi t ps → Spec.Splits semi (p ++ c :: t) (p :: ps)

/-- The pairs that pieces stand for, in order, and whether all pieces are well-formed. Empty pieces stand for
nothing; malformed ones are left out. -/
inductive Spec.Pairs (semi : Bool) : List Str → List (Str × Str) → Bool → Prop where
  | nil : Spec.Pairs semi [] [] true
  | empty (ps : List Str) (l : List (Str × Str)) (ok : Bool) : Spec.Pairs semi ps l ok → Spec.Pairs semi ([] :: ps) l ok
  | good (p k v : Str) (ps : List Str) (l : List (Str × Str)) (ok : Bool) : p ≠ [] → (semi = true ∨ (59 : UInt8) ∉ p) →
      Spec.Piece p k v → Spec.Pairs semi ps l ok → Spec.Pairs semi (p :: ps) ((k, v) :: l) ok
  | bad (p : Str) (ps : List Str) (l : List (Str × Str)) (ok : Bool) : p ≠ [] →
      ((semi = false ∧ (59 : UInt8) ∈ p) ∨ ∀ k v, ¬ Spec.Piece p k v) → Spec.Pairs semi ps l ok → Spec.Pairs semi (p :: ps) l false

/-- The text stands for these pairs; `ok`: nothing in it is malformed. -/
def Spec.Means (semi : Bool) (s : Str) (l : List (Str × Str)) (ok : Bool) : Prop :=
  ∃ ps, Spec.Splits semi s ps ∧ Spec.Pairs semi ps l ok

/-- The values that a list of pairs gives to a key. -/
def Spec.at_ (l : List (Str × Str)) (k : Str) : List Str := (l.filter (fun e => e.1 = k)).map (fun e => e.2)

/-! ## The decoder -/

theorem unhex_iff (c : UInt8) (n : Nat) : unhex c = some n ↔ Spec.Hex c n := by
  unfold unhex Spec.Hex
  simp only [UInt8.le_iff_toNat_le]
  have h1 : (48 : UInt8).toNat = 48 := rfl
  have h2 : (57 : UInt8).toNat = 57 := rfl
  have h3 : (97 : UInt8).toNat = 97 := rfl
  have h4 : (102 : UInt8).toNat = 102 := rfl
  have h5 : (65 : UInt8).toNat = 65 := rfl
  have h6 : (70 : UInt8).toNat = 70 := rfl
  rw [h1, h2, h3, h4, h5, h6]
  by_cases a : 48 ≤ c.toNat ∧ c.toNat ≤ 57
  · rw [if_pos a]; simp only [Option.some.injEq]; omega
  · rw [if_neg a]
    by_cases b : 97 ≤ c.toNat ∧ c.toNat ≤ 102
    · rw [if_pos b]; simp only [Option.some.injEq]; omega
    · rw [if_neg b]
      by_cases d : 65 ≤ c.toNat ∧ c.toNat ≤ 70
      · rw [if_pos d]; simp only [Option.some.injEq]; omega
      · rw [if_neg d]; constructor
        · intro h; cases h
        · intro h; omega

theorem decodes_iff (s t : Str) : queryUnescape s = some t ↔ Spec.Decodes s t := by
  constructor
  · intro h
    induction s using queryUnescape.induct generalizing t with
    | case1 => simp [queryUnescape] at h; subst h; exact .nil
    | case2 a b cs x y hy hx ih =>
      simp only [queryUnescape, hx, hy, Option.map_eq_some_iff] at h
      obtain ⟨t', h1, rfl⟩ := h
      rw [Nat.mul_comm x 16]
      exact .hex a b x y cs t' ((unhex_iff a x).1 hx) ((unhex_iff b y).1 hy) (ih _ h1)
    | case3 a b cs hn =>
      simp only [queryUnescape] at h
      cases h
    | case4 cs hn =>
      unfold queryUnescape at h
      split at h
      · rename_i e; cases e
      · rename_i e; injection e with _ e; exact (hn _ _ _ rfl e).elim
      · rename_i e; injection e with e1 e2; rw [if_pos e1.symm] at h; cases h
    | case5 c cs hn hc ih =>
      rw [queryUnescape_other hc, Option.map_eq_some_iff] at h
      obtain ⟨t', h1, rfl⟩ := h
      by_cases h43 : c = 43
      · subst h43; exact .plus cs t' (ih _ h1)
      · rw [if_neg h43]; exact .other c cs t' h43 hc (ih _ h1)
  · intro h
    induction h with
    | nil => rfl
    | plus s t _ ih => rw [queryUnescape_other (by decide), ih]; rfl
    | hex a b x y s t ha hb _ ih =>
      simp only [queryUnescape, (unhex_iff a x).2 ha, (unhex_iff b y).2 hb, ih, Option.map_some, Nat.mul_comm x 16]
    | other c s t h43 h37 _ ih => rw [queryUnescape_other h37, ih, if_neg h43]; rfl

theorem decodes_unique {s t u : Str} (h : Spec.Decodes s t) (h' : Spec.Decodes s u) : t = u := by
  rw [← decodes_iff] at h h'; rw [h] at h'; exact Option.some.inj h'

/-! ## The loop -/

theorem isSep_iff (semi : Bool) (c : UInt8) : isSep semi c = true ↔ Spec.Sep semi c := by
  unfold isSep Spec.Sep; simp

theorem takeWhile_sep (f : UInt8 → Bool) (p t : Str) (c : UInt8) (hp : ∀ c ∈ p, f c = true) (hc : f c = false) :
    (p ++ c :: t).takeWhile f = p ∧ (p ++ c :: t).dropWhile f = c :: t := by
  induction p with
  | nil => simp [hc]
  | cons d p ih =>
    have := ih (fun x hx => hp x (List.mem_cons_of_mem _ hx))
    have hd := hp d (by simp)
    simp only [List.cons_append, List.takeWhile_cons, List.dropWhile_cons, hd, if_true, this]
    exact ⟨trivial, trivial⟩

theorem takeWhile_all' (f : UInt8 → Bool) (p : Str) (hp : ∀ c ∈ p, f c = true) :
    p.takeWhile f = p ∧ p.dropWhile f = [] := by
  induction p with
  | nil => simp
  | cons d p ih =>
    have := ih (fun x hx => hp x (List.mem_cons_of_mem _ hx))
    have hd := hp d (by simp)
    simp only [List.takeWhile_cons, List.dropWhile_cons, hd, if_true, this]
    exact ⟨trivial, trivial⟩

theorem cutEq_sep (a b : Str) (h : (61 : UInt8) ∉ a) : cutEq (a ++ 61 :: b) = (a, b) := by
  have := takeWhile_sep (· != 61) a b 61 (fun c hc => by
    have : c ≠ 61 := fun e => h (e ▸ hc)
    simpa using this) (by decide)
  unfold cutEq
  rw [this.1, this.2]; rfl

theorem cutEq_none (a : Str) (h : (61 : UInt8) ∉ a) : cutEq a = (a, []) := by
  have := takeWhile_all' (· != 61) a (fun c hc => by
    have : c ≠ 61 := fun e => h (e ▸ hc)
    simpa using this)
  unfold cutEq
  rw [this.1, this.2]; rfl

theorem split_eq (p : Str) (h : (61 : UInt8) ∈ p) : ∃ a b, p = a ++ 61 :: b ∧ (61 : UInt8) ∉ a := by
  induction p with
  | nil => cases h
  | cons c p ih =>
    by_cases hc : c = 61
    · subst hc; exact ⟨[], p, rfl, by simp⟩
    · obtain ⟨a, b, e, hn⟩ := ih (by simpa [Ne.symm hc] using h)
      refine ⟨c :: a, b, by rw [e]; rfl, ?_⟩
      simp only [List.mem_cons, not_or]
      exact ⟨fun e => hc e.symm, hn⟩

theorem piece_iff (p k v : Str) :
    Spec.Piece p k v ↔ queryUnescape (cutEq p).1 = some k ∧ queryUnescape (cutEq p).2 = some v := by
  rw [decodes_iff, decodes_iff]
  unfold Spec.Piece
  by_cases h : (61 : UInt8) ∈ p
  · obtain ⟨a, b, rfl, hn⟩ := split_eq p h
    rw [cutEq_sep a b hn]
    constructor
    · rintro (⟨a', b', e, hn', h1, h2⟩ | ⟨h', _⟩)
      · have := cutEq_sep a' b' hn'
        rw [← e, cutEq_sep a b hn] at this
        injection this with e1 e2
        subst e1 e2
        exact ⟨h1, h2⟩
      · exact absurd h h'
    · rintro ⟨h1, h2⟩
      exact Or.inl ⟨a, b, rfl, hn, h1, h2⟩
  · rw [cutEq_none p h]
    constructor
    · rintro (⟨a', b', e, _⟩ | ⟨_, h1, rfl⟩)
      · exact absurd (by rw [e]; simp) h
      · exact ⟨h1, .nil⟩
    · rintro ⟨h1, h2⟩
      exact Or.inr ⟨h, h1, decodes_unique h2 .nil⟩

/-- All pieces in order. -/
def addPieces (semi : Bool) : List Str → Values → Bool → Values × Bool
  | [], m, ok => (m, ok)
  | p :: ps, m, ok => addPieces semi ps (addPiece semi p m ok).1 (addPiece semi p m ok).2

theorem queryLoop_nil (semi : Bool) (n : Nat) (m : Values) (ok : Bool) : queryLoop semi n [] m ok = (m, ok) := by
  cases n <;> simp [queryLoop]

theorem addPiece_nil (semi : Bool) (m : Values) (ok : Bool) : addPiece semi [] m ok = (m, ok) := by simp [addPiece]

theorem loop_pieces (semi : Bool) (s : Str) (ps : List Str) (h : Spec.Splits semi s ps) :
    ∀ (n : Nat) (m : Values) (ok : Bool), s.length ≤ n → queryLoop semi n s m ok = addPieces semi ps m ok := by
  induction h with
  | last p hp =>
    intro n m ok hn
    by_cases e : p = []
    · subst e; rw [queryLoop_nil, addPieces, addPieces, addPiece_nil]
    · cases n with
      | zero => exact absurd (List.length_eq_zero_iff.1 (by omega)) e
      | succ n =>
        have hw := takeWhile_all' (fun c => !isSep semi c) p (fun c hc => by
          have := hp c hc
          rw [← isSep_iff] at this
          simpa using this)
        rw [queryLoop, if_neg e, hw.1, hw.2, List.drop_nil, queryLoop_nil, addPieces, addPieces]
  | more p c t ps hp hc _ ih =>
    intro n m ok hn
    rw [List.length_append, List.length_cons] at hn
    cases n with
    | zero => omega
    | succ n =>
      have hw := takeWhile_sep (fun c => !isSep semi c) p t c (fun c hc => by
          have := hp c hc
          rw [← isSep_iff] at this
          simpa using this) (by
            rw [← isSep_iff] at hc
            simp [hc])
      rw [queryLoop, if_neg (by simp), hw.1, hw.2, List.drop_one, List.tail_cons, ih n _ _ (by omega), addPieces]

theorem addPieces_pairs (semi : Bool) (ps : List Str) (l : List (Str × Str)) (ok : Bool)
    (h : Spec.Pairs semi ps l ok) : ∀ (m : Values) (ok' : Bool),
    addPieces semi ps m ok' = (l.foldl (fun m e => appendAt m e.1 [e.2]) m, ok && ok') := by
  induction h with
  | nil => intro m ok'; simp [addPieces]
  | empty ps l ok _ ih => intro m ok'; rw [addPieces, addPiece_nil, ih]
  | good p k v ps l ok hne hs hp _ ih =>
    intro m ok'
    have hs' : ¬ (semi = false ∧ (59 : UInt8) ∈ p) := by
      rintro ⟨h1, h2⟩
      rcases hs with h | h
      · rw [h] at h1; cases h1
      · exact h h2
    rw [piece_iff] at hp
    have e : addPiece semi p m ok' = (appendAt m k [v], ok') := by
      unfold addPiece
      rw [if_neg hne, if_neg hs', hp.1]
      show (match queryUnescape (cutEq p).2 with | none => (m, false) | some v => (appendAt m k [v], ok')) = _
      rw [hp.2]
    rw [addPieces, e, ih]; rfl
  | bad p ps l ok hne hb _ ih =>
    intro m ok'
    have e : addPiece semi p m ok' = (m, false) := by
      unfold addPiece
      rw [if_neg hne]
      by_cases hs : semi = false ∧ (59 : UInt8) ∈ p
      · rw [if_pos hs]
      · rw [if_neg hs]
        rcases hb with hb | hb
        · exact absurd hb hs
        · cases h1 : queryUnescape (cutEq p).1 with
          | none => rfl
          | some k =>
            cases h2 : queryUnescape (cutEq p).2 with
            | none => simp only [h2]
            | some v => exact absurd ((piece_iff p k v).2 ⟨h1, h2⟩) (hb k v)
    rw [addPieces, e, ih]; simp

theorem splits_total (semi : Bool) (s : Str) : ∃ ps, Spec.Splits semi s ps := by
  induction s with
  | nil => exact ⟨[[]], .last [] (by simp)⟩
  | cons c s ih =>
    obtain ⟨ps, h⟩ := ih
    by_cases hc : Spec.Sep semi c
    · exact ⟨[] :: ps, .more [] c s ps (by simp) hc h⟩
    · cases h with
      | last _ hp =>
        exact ⟨[c :: s], .last _ (by
          intro d hd
          rcases List.mem_cons.1 hd with rfl | hd
          · exact hc
          · exact hp d hd)⟩
      | more p d t ps hp hd ht =>
        exact ⟨(c :: p) :: ps, .more (c :: p) d t ps (by
          intro x hx
          rcases List.mem_cons.1 hx with rfl | hx
          · exact hc
          · exact hp x hx) hd ht⟩

theorem pairs_total (semi : Bool) (ps : List Str) : ∃ l ok, Spec.Pairs semi ps l ok := by
  induction ps with
  | nil => exact ⟨[], true, .nil⟩
  | cons p ps ih =>
    obtain ⟨l, ok, h⟩ := ih
    by_cases hp : p = []
    · subst hp; exact ⟨l, ok, .empty ps l ok h⟩
    · by_cases hb : (semi = false ∧ (59 : UInt8) ∈ p) ∨ ∀ k v, ¬ Spec.Piece p k v
      · exact ⟨l, false, .bad p ps l ok hp hb h⟩
      · simp only [not_or, Classical.not_forall, Classical.not_not] at hb
        obtain ⟨h1, k, v, hkv⟩ := hb
        refine ⟨(k, v) :: l, ok, .good p k v ps l ok hp ?_ hkv h⟩
        cases semi with
        | true => exact Or.inl rfl
        | false => exact Or.inr fun e => h1 ⟨rfl, e⟩

theorem parse_means (semi : Bool) (s : Str) (l : List (Str × Str)) (ok : Bool) (h : Spec.Means semi s l ok) :
    parseQuery semi s = (l.foldl (fun m e => appendAt m e.1 [e.2]) [], ok) := by
  obtain ⟨ps, h1, h2⟩ := h
  unfold parseQuery
  rw [loop_pieces semi s ps h1 _ _ _ (Nat.le_refl _), addPieces_pairs semi ps l ok h2, Bool.and_true]

theorem foldPairs_isMap (l : List (Str × Str)) (m : Values) (h : Spec.IsMap m) :
    Spec.IsMap (l.foldl (fun m e => appendAt m e.1 [e.2]) m) := by
  induction l generalizing m with
  | nil => exact h
  | cons e l ih => exact ih _ (appendAt_isMap m _ _ h)

theorem lookup_foldPairs (l : List (Str × Str)) (m : Values) (k : Str) :
    lookup (l.foldl (fun m e => appendAt m e.1 [e.2]) m) k =
      joinLookup (lookup m k) (if Spec.at_ l k = [] then none else some (Spec.at_ l k)) := by
  induction l generalizing m with
  | nil => exact (join_none' _).symm
  | cons e l ih =>
    obtain ⟨a, v⟩ := e
    rw [List.foldl_cons, ih, lookup_appendAt]
    by_cases hk : k = a
    · subst hk
      have e1 : Spec.at_ ((k, v) :: l) k = v :: Spec.at_ l k := by simp [Spec.at_]
      have e2 : (if v :: Spec.at_ l k = [] then none else some (v :: Spec.at_ l k)) = some (v :: Spec.at_ l k) :=
        if_neg (by simp)
      rw [if_pos rfl, e1, e2]
      by_cases h : Spec.at_ l k = []
      · rw [if_pos h, h]; cases lookup m k <;> simp [joinLookup]
      · rw [if_neg h]; cases lookup m k <;> simp [joinLookup]
    · have e1 : Spec.at_ ((a, v) :: l) k = Spec.at_ l k := by simp [Spec.at_, Ne.symm hk]
      rw [if_neg hk, e1]

theorem valuesOf_foldPairs (l : List (Str × Str)) (k : Str) :
    Spec.valuesOf (l.foldl (fun m e => appendAt m e.1 [e.2]) []) k = Spec.at_ l k := by
  unfold Spec.valuesOf
  rw [lookup_foldPairs, lookup_nil, join_none]
  by_cases h : Spec.at_ l k = []
  · rw [if_pos h, h]; rfl
  · rw [if_neg h]; rfl

theorem calc_isMap (q r f : Values) (hq : Spec.IsMap q) (hr : Spec.IsMap r) (hf : Spec.IsMap f) :
    Spec.IsMap (calcValues q r f) := by
  unfold calcValues
  split
  · simp [Spec.IsMap]
  · split
    · exact hq
    · split
      · exact hr
      · split
        · exact hf
        · exact fold_isMap _ _ (fold_isMap _ _ (fold_isMap _ _ (by simp [Spec.IsMap])))

/-! ## C127 -/

/-- **C127**, every text has a meaning, and `URL.Query` / `ParseQuery` read it: for each key the values of its pairs
in order of appearance, no other key, and an error exactly when some piece is malformed. -/
theorem C127_query (semi : Bool) (s : Str) :
    (∃ l ok, Spec.Means semi s l ok) ∧ ∀ l ok, Spec.Means semi s l ok →
      (parseQuery semi s).2 = ok ∧ Spec.IsMap (parseQuery semi s).1 ∧
      (∀ k, Spec.valuesOf (parseQuery semi s).1 k = Spec.at_ l k) ∧
      ∀ k, Spec.hasKey (parseQuery semi s).1 k ↔ ∃ v, (k, v) ∈ l := by
  constructor
  · obtain ⟨ps, h⟩ := splits_total semi s
    obtain ⟨l, ok, h'⟩ := pairs_total semi ps
    exact ⟨l, ok, ps, h, h'⟩
  · intro l ok h
    rw [parse_means semi s l ok h]
    refine ⟨rfl, foldPairs_isMap l [] (by simp [Spec.IsMap]), valuesOf_foldPairs l, fun k => ?_⟩
    have h1 := lookup_none (l.foldl (fun m e => appendAt m e.1 [e.2]) []) k
    rw [lookup_foldPairs, lookup_nil, join_none] at h1
    have h2 : Spec.at_ l k = [] ↔ ¬ ∃ v, (k, v) ∈ l := by
      unfold Spec.at_
      rw [List.map_eq_nil_iff, List.filter_eq_nil_iff]
      constructor
      · rintro h ⟨v, hv⟩; exact h _ hv (by simp)
      · rintro h ⟨a, v⟩ hv e
        have : a = k := by simpa using e
        exact h ⟨v, this ▸ hv⟩
    by_cases h : Spec.at_ l k = []
    · rw [if_pos h] at h1
      exact ⟨fun e => absurd e (h1.1 rfl), fun e => absurd e (h2.1 h)⟩
    · rw [if_neg h] at h1
      constructor
      · intro _; exact Classical.byContradiction fun e => h (h2.2 e)
      · intro _; exact Classical.byContradiction fun e => by cases h1.2 e

/-- The text clients send for a list of pairs: `key=value`, both escaped, with `&` between them. -/
def Spec.encode (l : List (Str × Str)) : Str := join1 38 (l.map (fun e => queryEscape e.1 ++ 61 :: queryEscape e.2))

theorem encode_bytes (k v : Str) (c : UInt8) (h : c ∈ queryEscape k ++ 61 :: queryEscape v) : c ≠ 38 ∧ c ≠ 59 := by
  have hb : ∀ c : UInt8, escByte c = true → c ≠ 38 ∧ c ≠ 59 := forall_u8 (by decide +kernel)
  rcases List.mem_append.1 h with h | h
  · exact hb c (queryEscape_bytes k c h)
  · rcases List.mem_cons.1 h with rfl | h
    · decide
    · exact hb c (queryEscape_bytes v c h)

theorem encode_piece (k v : Str) : Spec.Piece (queryEscape k ++ 61 :: queryEscape v) k v := by
  have hb : ∀ c : UInt8, escByte c = true → c ≠ 61 := forall_u8 (by decide +kernel)
  exact Or.inl ⟨_, _, rfl, fun h => hb 61 (queryEscape_bytes k 61 h) rfl, (decodes_iff _ _).1 (query_roundtrip k),
    (decodes_iff _ _).1 (query_roundtrip v)⟩

/-- **C127**: any list of pairs, with any bytes in keys and values, escaped by the client, is read back as it is. -/
theorem C127_roundtrip (semi : Bool) (l : List (Str × Str)) : Spec.Means semi (Spec.encode l) l true := by
  have hs : ∀ k v : Str, ∀ c ∈ queryEscape k ++ 61 :: queryEscape v, ¬ Spec.Sep semi c := by
    rintro k v c hc (e | ⟨_, e⟩)
    · exact (encode_bytes k v c hc).1 e
    · exact (encode_bytes k v c hc).2 e
  have hp : ∀ l : List (Str × Str), Spec.Pairs semi (l.map (fun e => queryEscape e.1 ++ 61 :: queryEscape e.2)) l true := by
    intro l
    induction l with
    | nil => exact .nil
    | cons e l ih =>
      exact .good _ e.1 e.2 _ l true (by simp) (Or.inr fun h => (encode_bytes e.1 e.2 59 h).2 rfl) (encode_piece _ _) ih
  cases l with
  | nil => exact ⟨[[]], .last [] (by simp), .empty [] [] true .nil⟩
  | cons e l =>
    refine ⟨_, ?_, hp _⟩
    induction l generalizing e with
    | nil => exact .last _ (hs e.1 e.2)
    | cons e' l ih => exact .more _ 38 _ _ (hs e.1 e.2) (Or.inl rfl) (ih e')

/-- What the request's body says: nothing unless the method is POST, PUT or PATCH; otherwise its pairs, if the media
parameters are well-formed, the body can be read, is at most 10 MB and is well-formed. -/
def Spec.BodyMeans (semi : Bool) (r : RawReq) : Option (List (Str × Str)) → Prop
  | some l => (r.method ∉ [b!"POST", b!"PUT", b!"PATCH"] ∧ l = []) ∨
      (r.method ∈ [b!"POST", b!"PUT", b!"PATCH"] ∧ r.mimeOk = true ∧
        ∃ b, r.body = some b ∧ b.length ≤ 10 * 1024 * 1024 ∧ Spec.Means semi b l true)
  | none => r.method ∈ [b!"POST", b!"PUT", b!"PATCH"] ∧
      (r.mimeOk = false ∨ r.body = none ∨ ∃ b, r.body = some b ∧ (10 * 1024 * 1024 < b.length ∨ ∃ l, Spec.Means semi b l false))

theorem hasForm_iff (m : Str) : hasForm m = true ↔ m ∈ [b!"POST", b!"PUT", b!"PATCH"] := by
  unfold hasForm; simp

theorem postForm_some (semi : Bool) (r : RawReq) (l : List (Str × Str)) (h : Spec.BodyMeans semi r (some l)) :
    postForm semi r = some (l.foldl (fun m e => appendAt m e.1 [e.2]) []) := by
  unfold postForm
  rcases h with ⟨h1, rfl⟩ | ⟨h1, h2, b, h3, h4, h5⟩
  · rw [if_neg (fun e => h1 ((hasForm_iff _).1 e))]; rfl
  · rw [if_pos ((hasForm_iff _).2 h1), if_neg (by rw [h2]; decide), h3]
    show (if b.length > 10485760 then none else
      if (parseQuery semi b).2 = true then some (parseQuery semi b).1 else none) = _
    rw [if_neg (by omega), parse_means semi b l true h5, if_pos rfl]

theorem postForm_none (semi : Bool) (r : RawReq) (h : Spec.BodyMeans semi r none) : postForm semi r = none := by
  unfold postForm
  obtain ⟨h1, h2⟩ := h
  rw [if_pos ((hasForm_iff _).2 h1)]
  rcases h2 with h2 | h2 | ⟨b, h2, h3⟩
  · rw [if_pos h2]
  · rw [h2]; split <;> rfl
  · by_cases hm : r.mimeOk = false
    · rw [if_pos hm]
    · rw [if_neg hm, h2]
      show (if b.length > 10485760 then none else
        if (parseQuery semi b).2 = true then some (parseQuery semi b).1 else none) = _
      by_cases hl : b.length > 10485760
      · rw [if_pos hl]
      · rw [if_neg hl]
        rcases h3 with h3 | ⟨l, h3⟩
        · omega
        · rw [parse_means semi b l false h3]; exact if_neg (by simp)

/-- Every request's body says something (so the cases of `C127_form` are all there are). -/
theorem C127_body_total (semi : Bool) (r : RawReq) : ∃ o, Spec.BodyMeans semi r o := by
  by_cases h1 : r.method ∈ [b!"POST", b!"PUT", b!"PATCH"]
  · cases hm : r.mimeOk with
    | false => exact ⟨none, h1, Or.inl hm⟩
    | true =>
      cases hb : r.body with
      | none => exact ⟨none, h1, Or.inr (Or.inl hb)⟩
      | some b =>
        by_cases hl : b.length ≤ 10 * 1024 * 1024
        · obtain ⟨l, ok, h⟩ := (C127_query semi b).1
          cases ok with
          | true => exact ⟨some l, Or.inr ⟨h1, hm, b, hb, hl, h⟩⟩
          | false => exact ⟨none, h1, Or.inr (Or.inr ⟨b, hb, Or.inr ⟨l, h⟩⟩)⟩
        · exact ⟨none, h1, Or.inr (Or.inr ⟨b, hb, Or.inl (by omega)⟩)⟩
  · exact ⟨some [], Or.inl ⟨h1, rfl⟩⟩

/-- **C127**: requests that are not forms have the values of the query, then those of the route; malformed pieces
of the query are left out, the others kept. -/
theorem C127_plain (semi : Bool) (route : Values) (hr : Spec.IsMap route) (r : RawReq) (q : List (Str × Str)) (ok : Bool)
    (hq : Spec.Means semi r.rawQuery q ok) (h1 : mediaType r.contentType ≠ b!"application/x-www-form-urlencoded")
    (h2 : mediaType r.contentType ≠ b!"multipart/form-data") :
    ∃ vs, requestParams semi route r = some vs ∧ Spec.IsMap vs ∧
      ∀ k, Spec.valuesOf vs k = Spec.at_ q k ++ Spec.valuesOf route k := by
  unfold requestParams parseParams
  rw [if_neg h1, if_neg h2, parse_means semi _ q ok hq]
  refine ⟨_, rfl, calc_isMap _ _ _ (foldPairs_isMap q [] (by simp [Spec.IsMap])) hr (by simp [Spec.IsMap]), fun k => ?_⟩
  rw [(C53_merge _ route [] (foldPairs_isMap q [] (by simp [Spec.IsMap])) hr (by simp [Spec.IsMap]) k).1,
    valuesOf_foldPairs]
  simp [Spec.valuesOf, lookup_nil]

/-- **C127**: url-encoded forms. If query and body are well-formed each key has the values of the query, of the
route, of the body and again of the query; if either is malformed (or unreadable, or too large) there are no
parameters at all. -/
theorem C127_form (semi : Bool) (route : Values) (hr : Spec.IsMap route) (r : RawReq) (q : List (Str × Str)) (ok : Bool)
    (hq : Spec.Means semi r.rawQuery q ok) (o : Option (List (Str × Str))) (ho : Spec.BodyMeans semi r o)
    (h1 : mediaType r.contentType = b!"application/x-www-form-urlencoded") :
    (ok = false ∨ o = none → requestParams semi route r = none) ∧
    (∀ b, ok = true → o = some b → ∃ vs, requestParams semi route r = some vs ∧ Spec.IsMap vs ∧
      ∀ k, Spec.valuesOf vs k = Spec.at_ q k ++ Spec.valuesOf route k ++ Spec.at_ b k ++ Spec.at_ q k) := by
  have e := parse_means semi _ q ok hq
  constructor
  · intro h
    unfold requestParams parseParams
    rw [if_pos h1, e]
    cases ok with
    | false => rfl
    | true =>
      rcases h with h | h
      · cases h
      · subst h; rw [postForm_none semi r ho]; rfl
  · intro b hok hob
    subst hok hob
    have hqm := foldPairs_isMap q [] (by simp [Spec.IsMap])
    have hbm := foldPairs_isMap b [] (by simp [Spec.IsMap])
    obtain ⟨vs, hv, hk⟩ := C53_query_twice_violated r.contentType _ route _ (multipartForm semi r) hqm hr hbm h1
    have e2 : requestParams semi route r = some vs := by
      unfold requestParams
      rw [e, if_pos rfl, postForm_some semi r b ho]; exact hv
    refine ⟨vs, e2, ?_, fun k => ?_⟩
    · unfold parseParams at hv
      rw [if_pos h1] at hv
      cases hv
      exact calc_isMap _ _ _ hqm hr (fold_isMap _ _ (fold_isMap _ _ (by simp [Spec.IsMap])))
    · rw [hk k, valuesOf_foldPairs, valuesOf_foldPairs, ← List.append_assoc]

/-- **C127**: multipart forms: the values of the query, of the route and of the form; nothing at all if the query is
malformed or the form cannot be read. -/
theorem C127_multipart (semi : Bool) (route : Values) (hr : Spec.IsMap route) (r : RawReq) (q : List (Str × Str)) (ok : Bool)
    (hq : Spec.Means semi r.rawQuery q ok) (h1 : mediaType r.contentType = b!"multipart/form-data") (hm : r.mimeOk = true) :
    (ok = false ∨ r.multipart = none → requestParams semi route r = none) ∧
    (∀ f, ok = true → r.multipart = some f → Spec.IsMap f → ∃ vs, requestParams semi route r = some vs ∧
      ∀ k, Spec.valuesOf vs k = Spec.at_ q k ++ Spec.valuesOf route k ++ Spec.valuesOf f k) := by
  have e := parse_means semi _ q ok hq
  have hne : mediaType r.contentType ≠ b!"application/x-www-form-urlencoded" := by rw [h1]; decide
  constructor
  · intro h
    have : multipartForm semi r = none := by
      unfold multipartForm
      rw [e]
      by_cases hc : (hasForm r.method = true ∧ r.mimeOk = false) ∨ ok = false
      · rw [if_pos hc]
      · rw [if_neg hc]
        rcases h with h | h
        · exact absurd (Or.inr h) hc
        · exact h
    unfold requestParams parseParams
    rw [if_neg hne, if_pos h1, this]
  · intro f hok hf hfm
    subst hok
    have : multipartForm semi r = some f := by
      unfold multipartForm
      rw [e, if_neg (by rw [hm]; simp), hf]
    have hqm := foldPairs_isMap q [] (by simp [Spec.IsMap])
    unfold requestParams parseParams
    rw [if_neg hne, if_pos h1, this, e]
    refine ⟨_, rfl, fun k => ?_⟩
    rw [(C53_merge _ route f hqm hr hfm k).1, valuesOf_foldPairs]

/-- **C127**, what an action's scalar parameter sees: the first value. A query parameter therefore hides the route
parameter of the same name, and that hides the body's. -/
theorem C127_first (semi : Bool) (route : Values) (hr : Spec.IsMap route) (r : RawReq) (q : List (Str × Str)) (ok : Bool)
    (hq : Spec.Means semi r.rawQuery q ok) (o : Option (List (Str × Str))) (ho : Spec.BodyMeans semi r o)
    (hm : mediaType r.contentType ≠ b!"multipart/form-data") (vs : Values) (hv : requestParams semi route r = some vs)
    (files : List (Str × Nat)) (k : Str) :
    (∀ v, (Spec.at_ q k).head? = some v → firstValue ⟨vs, files⟩ k = some v) ∧
    (∀ v, Spec.at_ q k = [] → (Spec.valuesOf route k).head? = some v → firstValue ⟨vs, files⟩ k = some v) ∧
    (Spec.at_ q k = [] → Spec.valuesOf route k = [] → firstValue ⟨vs, files⟩ k =
      if mediaType r.contentType = b!"application/x-www-form-urlencoded" then
        (o.map (fun b => Spec.at_ b k)).getD [] |>.head? else none) := by
  have hfv : firstValue ⟨vs, files⟩ k = (Spec.valuesOf vs k).head? := by
    unfold firstValue Spec.valuesOf
    cases lookup vs k with
    | none => rfl
    | some l => cases l <;> rfl
  rw [hfv]
  by_cases h1 : mediaType r.contentType = b!"application/x-www-form-urlencoded"
  · have hf := C127_form semi route hr r q ok hq o ho h1
    have hok : ok = true := by
      cases ok with
      | true => rfl
      | false => rw [hf.1 (Or.inl rfl)] at hv; cases hv
    cases o with
    | none => rw [hf.1 (Or.inr rfl)] at hv; cases hv
    | some b =>
      obtain ⟨vs', hv', _, hk⟩ := hf.2 b hok rfl
      rw [hv] at hv'
      cases hv'
      rw [hk k, if_pos h1]
      refine ⟨fun v h => ?_, fun v e h => ?_, fun e e' => ?_⟩
      · cases hl : Spec.at_ q k with
        | nil => rw [hl] at h; cases h
        | cons x xs => rw [hl] at h; exact h
      · rw [e]
        cases hl : Spec.valuesOf route k with
        | nil => rw [hl] at h; cases h
        | cons x xs => rw [hl] at h; exact h
      · rw [e, e']; simp
  · obtain ⟨vs', hv', _, hk⟩ := C127_plain semi route hr r q ok hq h1 hm
    rw [hv] at hv'
    cases hv'
    rw [hk k, if_neg h1]
    refine ⟨fun v h => ?_, fun v e h => ?_, fun e e' => ?_⟩
    · cases hl : Spec.at_ q k with
      | nil => rw [hl] at h; cases h
      | cons x xs => rw [hl] at h; exact h
    · rw [e]; exact h
    · rw [e, e']; rfl

/-- A form with a query, a route parameter and odd bytes everywhere. -/
example :
    Spec.Means true b!"id=9&&x=%26a+b;flag" [(b!"id", b!"9"), (b!"x", b!"&a b"), (b!"flag", [])] true ∧
    (parseQuery true b!"id=9&&x=%26a+b;flag") = ([(b!"id", [b!"9"]), (b!"x", [b!"&a b"]), (b!"flag", [[]])], true) ∧
    (parseQuery false b!"id=9&x=%26a+b;flag") = ([(b!"id", [b!"9"])], false) ∧
    requestParams true [(b!"id", [b!"7"])]
      ⟨b!"POST", b!"application/x-www-form-urlencoded; charset=utf-8", true, b!"id=9", some b!"id=1&name=%41", none⟩ =
      some [(b!"id", [b!"9", b!"7", b!"1", b!"9"]), (b!"name", [b!"A"])] ∧
    requestParams true [(b!"id", [b!"7"])]
      ⟨b!"GET", b!"", true, b!"id=9&bad=%zz&z=1", some [], none⟩ = some [(b!"id", [b!"9", b!"7"]), (b!"z", [b!"1"])] ∧
    requestParams true [(b!"id", [b!"7"])]
      ⟨b!"GET", b!"application/x-www-form-urlencoded", true, b!"id=9&bad=%zz&z=1", some [], none⟩ = none := by
  refine ⟨?_, by decide +kernel, by decide +kernel, by decide +kernel, by decide +kernel, by decide +kernel⟩
  have hd : ∀ s t, queryUnescape s = some t → Spec.Decodes s t := fun s t h => (decodes_iff s t).1 h
  refine ⟨[b!"id=9", [], b!"x=%26a+b", b!"flag"], ?_, ?_⟩
  · refine .more b!"id=9" 38 b!"&x=%26a+b;flag" _ ?_ (Or.inl rfl) (.more [] 38 b!"x=%26a+b;flag" _ (by simp) (Or.inl rfl)
      (.more b!"x=%26a+b" 59 b!"flag" _ ?_ (Or.inr ⟨rfl, rfl⟩) (.last _ ?_))) <;>
    · intro c hc h
      rw [← isSep_iff] at h
      revert h
      revert c
      decide +kernel
  · refine .good _ _ _ _ _ _ (by simp) (Or.inl rfl) ?_ (.empty _ _ _ (.good _ _ _ _ _ _ (by simp) (Or.inl rfl) ?_
      (.good _ _ _ _ _ _ (by simp) (Or.inl rfl) ?_ .nil))) <;> rw [piece_iff] <;> decide +kernel

end Verif.Params
