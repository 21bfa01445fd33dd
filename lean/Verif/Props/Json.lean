import Verif.Model.Json
import Verif.Proofs.Utf8
import Verif.Proofs.Enc
import Verif.Proofs.Strconv
import Verif.Proofs.Num
import Verif.Props.ApiRes
import Verif.Props.FloatText
/-!
# C141: the JSON of an answer says what the program gave
-/
namespace Verif.Json
open Verif.Go

/-! ## Specification: reading JSON (RFC 8259) -/

/-- A JSON value. -/
inductive J where
  | null
  | bool (b : Bool)
  | num (i : Int)
  /-- `n * 10^x`, written with a fraction or an exponent -/
  | dec (neg : Bool) (n : Nat) (x : Int)
  | str (s : Str)
  | arr (l : List J)
  | obj (ms : List (Str × J))

/-- The tokens of a JSON text: `{ } [ ] , :`, strings (what is between the quotes), and everything else. -/
inductive Tok where
  | punct (c : UInt8)
  | str (raw : Str)
  | word (w : Str)
deriving DecidableEq

def Spec.isPunct (c : UInt8) : Bool := c == 123 || c == 125 || c == 91 || c == 93 || c == 44 || c == 58

def Spec.isSpace (c : UInt8) : Bool := c == 32 || c == 9 || c == 10 || c == 13

def Spec.wordChar (c : UInt8) : Bool := !Spec.isSpace c && !Spec.isPunct c && c != 34

/-- The rest of a string up to the quote that ends it, and what follows. -/
def Spec.strEnd : Str → Option (Str × Str)
  | [] => none
  | [c] => if c = 34 then some ([], []) else none
  | c :: e :: s =>
    if c = 34 then some ([], e :: s)
    else if c = 92 then (Spec.strEnd s).map fun p => (c :: e :: p.1, p.2)
    else (Spec.strEnd (e :: s)).map fun p => (c :: p.1, p.2)

/-- The tokens of a text; the number bounds its length. -/
def Spec.lexF : Nat → Str → Option (List Tok)
  | 0, _ => none
  | _ + 1, [] => some []
  | n + 1, c :: s =>
    if Spec.isSpace c then Spec.lexF n s
    else if Spec.isPunct c then (Spec.lexF n s).map (.punct c :: ·)
    else if c = 34 then (Spec.strEnd s).bind fun p => (Spec.lexF n p.2).map (.str p.1 :: ·)
    else (Spec.lexF n (s.dropWhile Spec.wordChar)).map (.word (c :: s.takeWhile Spec.wordChar) :: ·)

def Spec.lex (s : Str) : Option (List Tok) := Spec.lexF (s.length + 1) s

/-- RFC 8259 section 6, integers only: no leading zeros. -/
def Spec.natural (s : Str) : Option Nat :=
  if s ≠ [] ∧ (∀ c ∈ s, 48 ≤ c.toNat ∧ c.toNat ≤ 57) ∧ (s.head? = some 48 → s = [48]) then
    some (s.foldl (fun a c => a * 10 + (c.toNat - 48)) 0)
  else none

def Spec.isDigit (c : UInt8) : Bool := decide (48 ≤ c.toNat ∧ c.toNat ≤ 57)

/-- The number a row of digits stands for. -/
def Spec.amount (s : Str) : Nat := s.foldl (fun a c => a * 10 + (c.toNat - 48)) 0

/-- RFC 8259 section 6: a point and at least one digit, or nothing; the digits, and what follows. -/
def Spec.fraction (s : Str) : Option (Str × Str) :=
  if s.head? = some 46 then
    if s.tail.takeWhile Spec.isDigit = [] then none else some (s.tail.takeWhile Spec.isDigit, s.tail.dropWhile Spec.isDigit)
  else some ([], s)

/-- At least one digit and nothing else. -/
def Spec.digits1 (s : Str) : Option Nat := if s ≠ [] ∧ s.all Spec.isDigit = true then some (Spec.amount s) else none

/-- RFC 8259 section 6: `e` or `E`, a sign or none, at least one digit; or nothing. -/
def Spec.exponent : Str → Option Int
  | [] => some 0
  | e :: s =>
    if e = 101 ∨ e = 69 then
      (if s.head? = some 45 then (Spec.digits1 s.tail).map fun (n : Nat) => -(n : Int)
       else if s.head? = some 43 then (Spec.digits1 s.tail).map fun (n : Nat) => (n : Int)
       else (Spec.digits1 s).map fun (n : Nat) => (n : Int))
    else none

/-- RFC 8259 section 6: a number, without its sign. -/
def Spec.real (neg : Bool) (w : Str) : Option J :=
  (Spec.natural (w.takeWhile Spec.isDigit)).bind fun _ =>
    (Spec.fraction (w.dropWhile Spec.isDigit)).bind fun p =>
      (Spec.exponent p.2).map fun x => .dec neg (Spec.amount (w.takeWhile Spec.isDigit ++ p.1)) (x - p.1.length)

/-- A token that is not punctuation and not a string. -/
def Spec.word (w : Str) : Option J :=
  if w = b!"null" then some .null
  else if w = b!"true" then some (.bool true)
  else if w = b!"false" then some (.bool false)
  else if w.head? = some 45 then ((Spec.natural w.tail).map fun (n : Nat) => J.num (-(n : Int))).or (Spec.real true w.tail)
  else ((Spec.natural w).map fun (n : Nat) => J.num (n : Int)).or (Spec.real false w)

/-- Four hexadecimal digits. -/
def Spec.hex4 : Str → Option (Nat × Str)
  | a :: b :: c :: d :: r =>
    (unhex a).bind fun a => (unhex b).bind fun b => (unhex c).bind fun c => (unhex d).map fun d => (a * 4096 + b * 256 + c * 16 + d, r)
  | _ => none

/-- The escapes of two characters. -/
def Spec.short (e : UInt8) : Option UInt8 :=
  if e = 34 ∨ e = 92 ∨ e = 47 then some e
  else if e = 98 then some 8
  else if e = 102 then some 12
  else if e = 110 then some 10
  else if e = 114 then some 13
  else if e = 116 then some 9
  else none

/-- The second half of a surrogate pair, with the code point. -/
def Spec.low (hi : Nat) : Str → Option (Nat × Str)
  | 92 :: 117 :: s =>
    (Spec.hex4 s).bind fun p =>
      if 0xDC00 ≤ p.1 ∧ p.1 < 0xE000 then some (0x10000 + (hi - 0xD800) * 1024 + (p.1 - 0xDC00), p.2) else none
  | _ => none

/-- RFC 8259 section 7: the text (in UTF-8) of a string; the number bounds its length. -/
def Spec.unesc : Nat → Str → Option Str
  | 0, _ => none
  | _ + 1, [] => some []
  | n + 1, c :: s =>
    if c = 92 then
      (s.head?).bind fun e =>
        if e = 117 then
          (Spec.hex4 s.tail).bind fun p =>
            if 0xD800 ≤ p.1 ∧ p.1 < 0xDC00 then (Spec.low p.1 p.2).bind fun q => (Spec.unesc n q.2).map (utf8 q.1 ++ ·)
            else if 0xDC00 ≤ p.1 ∧ p.1 < 0xE000 then none
            else (Spec.unesc n p.2).map (utf8 p.1 ++ ·)
        else (Spec.short e).bind fun b => (Spec.unesc n s.tail).map (b :: ·)
    else if c < 32 then none
    else (Spec.unesc n s).map (c :: ·)

def Spec.text (raw : Str) : Option Str := Spec.unesc (raw.length + 1) raw

mutual
/-- RFC 8259 section 3: a value at the front of the tokens, and the tokens behind it; the number bounds the depth. -/
def Spec.value : Nat → List Tok → Option (J × List Tok)
  | 0, _ => none
  | _ + 1, [] => none
  | _ + 1, .word w :: r => (Spec.word w).map fun j => (j, r)
  | _ + 1, .str raw :: r => (Spec.text raw).map fun s => (.str s, r)
  | n + 1, .punct c :: r =>
    if c = 91 then
      (if r.head? = some (.punct 93) then some (.arr [], r.tail) else (Spec.elements n r).map fun p => (.arr p.1, p.2))
    else if c = 123 then
      (if r.head? = some (.punct 125) then some (.obj [], r.tail) else (Spec.members n r).map fun p => (.obj p.1, p.2))
    else none
/-- RFC 8259 section 5: values separated by commas, up to the bracket. -/
def Spec.elements : Nat → List Tok → Option (List J × List Tok)
  | 0, _ => none
  | n + 1, ts =>
    (Spec.value n ts).bind fun p =>
      if p.2.head? = some (.punct 44) then (Spec.elements n p.2.tail).map fun q => (p.1 :: q.1, q.2)
      else if p.2.head? = some (.punct 93) then some ([p.1], p.2.tail)
      else none
/-- RFC 8259 section 4: names and values separated by commas, up to the brace. -/
def Spec.members : Nat → List Tok → Option (List (Str × J) × List Tok)
  | n + 1, .str raw :: .punct 58 :: ts =>
    (Spec.text raw).bind fun k =>
      (Spec.value n ts).bind fun p =>
        if p.2.head? = some (.punct 44) then (Spec.members n p.2.tail).map fun q => ((k, p.1) :: q.1, q.2)
        else if p.2.head? = some (.punct 125) then some ([(k, p.1)], p.2.tail)
        else none
  | _, _ => none
end

/-- What a JSON text says; nothing may follow the value. -/
def Spec.parse (s : Str) : Option J :=
  (Spec.lex s).bind fun ts => (Spec.value (3 * ts.length + 1) ts).bind fun p => if p.2 = [] then some p.1 else none

/-! ## Specification: what is said -/

/-- A text in UTF-8. -/
def Spec.Utf8 (s : Str) : Prop := ∃ cs : List Nat, (∀ c ∈ cs, Scalar c) ∧ s = cs.flatMap utf8

/-- A text in UTF-8 without the characters U+2028 and U+2029, which end a line in JavaScript but not in JSON. -/
def Spec.Utf8Js (s : Str) : Prop := ∃ cs : List Nat, (∀ c ∈ cs, Scalar c ∧ c ≠ 0x2028 ∧ c ≠ 0x2029) ∧ s = cs.flatMap utf8

theorem Spec.Utf8Js.utf8 {s : Str} (h : Spec.Utf8Js s) : Spec.Utf8 s := h.imp fun _ h => ⟨fun c hc => (h.1 c hc).1, h.2⟩

/-- A Go string as text: the characters of which it is the encoding; a byte that does not begin a character stands for U+FFFD. -/
inductive Spec.Reads : Str → Str → Prop
  | nil : Spec.Reads [] []
  | char {n : Nat} {s t : Str} : Scalar n → Spec.Reads s t → Spec.Reads (utf8 n ++ s) (utf8 n ++ t)
  | bad {c : UInt8} {s t : Str} : (¬ ∃ n r, Scalar n ∧ c :: s = utf8 n ++ r) → Spec.Reads s t → Spec.Reads (c :: s) (utf8 0xFFFD ++ t)

/-- A JSON number and its value, `± num / den`. -/
inductive Spec.IsReal : J → Bool → Nat → Nat → Prop
  | num (neg : Bool) (n : Nat) : Spec.IsReal (.num (if neg then -(n : Int) else n)) neg n 1
  | dec (neg : Bool) (n : Nat) (x : Int) : Spec.IsReal (.dec neg n x) neg (n * 10 ^ x.toNat) (10 ^ (-x).toNat)

mutual
/-- The JSON value says what the Go value is: a float is a number that it is the nearest float to; a map is an object with its entries in any order. -/
inductive Spec.Says : GJ → J → Prop
  | nil : Spec.Says .nil .null
  | bool (b : Bool) : Spec.Says (.bool b) (.bool b)
  | int (i : Int) : Spec.Says (.int i) (.num i)
  | float {bits b num den : Nat} {neg : Bool} {j : J} : Spec.IsReal j neg num den → Flt.Spec.Nearest (Flt.fmtOf bits) num den b →
      Spec.Says (.float bits (.num neg b)) j
  | str {s t : Str} : Spec.Reads s t → Spec.Says (.str s) (.str t)
  | list {l : List GJ} {js : List J} : Spec.SaysAll l js → Spec.Says (.list l) (.arr js)
  | struct {ks : List Str} {vs : List GJ} {ms : List (Str × J)} : Spec.SaysMembers (ks.zip vs) ms → Spec.Says (.struct ks vs) (.obj ms)
  | map {ks : List Str} {vs : List GJ} {es : List (Str × GJ)} {ms : List (Str × J)} :
      es.Perm (ks.zip vs) → Spec.SaysMembers es ms → Spec.Says (.map ks vs) (.obj ms)
inductive Spec.SaysAll : List GJ → List J → Prop
  | nil : Spec.SaysAll [] []
  | cons {v : GJ} {j : J} {l : List GJ} {js : List J} : Spec.Says v j → Spec.SaysAll l js → Spec.SaysAll (v :: l) (j :: js)
inductive Spec.SaysMembers : List (Str × GJ) → List (Str × J) → Prop
  | nil : Spec.SaysMembers [] []
  | cons {k k' : Str} {v : GJ} {j : J} {l : List (Str × GJ)} {ms : List (Str × J)} :
      Spec.Reads k k' → Spec.Says v j → Spec.SaysMembers l ms → Spec.SaysMembers ((k, v) :: l) ((k', j) :: ms)
end

mutual
/-- A Go value: structs and maps have as many values as names. -/
def Spec.Ok : GJ → Prop
  | .list l => Spec.OkAll l
  | .struct ks vs => ks.length = vs.length ∧ Spec.OkAll vs
  | .map ks vs => ks.length = vs.length ∧ Spec.OkAll vs
  | _ => True
def Spec.OkAll : List GJ → Prop
  | [] => True
  | v :: l => Spec.Ok v ∧ Spec.OkAll l
end

mutual
/-- A value without JSON: a function or a channel, a float that is infinite or not a number, or something that contains one. -/
def Spec.NoJson : GJ → Prop
  | .bad => True
  | .float bits v => ∀ neg b, v = .num neg b → (Flt.fmtOf bits).inf ≤ b
  | .list l => Spec.AnyNoJson l
  | .struct _ vs => Spec.AnyNoJson vs
  | .map _ vs => Spec.AnyNoJson vs
  | _ => False
def Spec.AnyNoJson : List GJ → Prop
  | [] => False
  | v :: l => Spec.NoJson v ∨ Spec.AnyNoJson l
end

/-! ## Texts -/

/-- UTF-8 without `<`, `>`, `&`, U+2028 and U+2029. -/
structure Nice (x : Str) : Prop where
  enc8 : Spec.Utf8Js x
  safe : ∀ c ∈ x, c ≠ 60 ∧ c ≠ 62 ∧ c ≠ 38

theorem Nice.nil : Nice [] := ⟨⟨[], by simp, rfl⟩, by simp⟩

theorem Nice.append {a b : Str} (ha : Nice a) (hb : Nice b) : Nice (a ++ b) := by
  obtain ⟨⟨cs, h1, h2⟩, h3⟩ := ha
  obtain ⟨⟨ds, h4, h5⟩, h6⟩ := hb
  refine ⟨⟨cs ++ ds, fun c hc => ?_, by rw [h2, h5, List.flatMap_append]⟩, fun c hc => ?_⟩
  · rcases List.mem_append.1 hc with h | h
    · exact h1 c h
    · exact h4 c h
  · rcases List.mem_append.1 hc with h | h
    · exact h3 c h
    · exact h6 c h

/-- a harmless ASCII byte -/
def plainByte (c : UInt8) : Bool := c < 128 && c != 60 && c != 62 && c != 38

theorem Nice.ascii {a : Str} (h : a.all plainByte = true) : Nice a := by
  rw [List.all_eq_true] at h
  have hb : ∀ c ∈ a, c < 128 ∧ c ≠ 60 ∧ c ≠ 62 ∧ c ≠ 38 := fun c hc => by
    have := h c hc
    simp only [plainByte, Bool.and_eq_true, decide_eq_true_eq, bne_iff_ne] at this
    exact ⟨this.1.1.1, this.1.1.2, this.1.2, this.2⟩
  refine ⟨⟨a.map UInt8.toNat, ?_, ?_⟩, fun c hc => (hb c hc).2⟩
  · intro c hc
    obtain ⟨d, hd, rfl⟩ := List.mem_map.1 hc
    have := UInt8.lt_iff_toNat_lt.1 (hb d hd).1
    have e : (128 : UInt8).toNat = 128 := rfl
    exact ⟨.inl (by omega), by omega, by omega⟩
  · rw [List.flatMap_map]
    have : ∀ l : List UInt8, (∀ c ∈ l, c < 128) → l = l.flatMap fun c => utf8 c.toNat := by
      intro l
      induction l with
      | nil => intro _; rfl
      | cons c l ih =>
        intro hl
        have := UInt8.lt_iff_toNat_lt.1 (hl c (by simp))
        have e : (128 : UInt8).toNat = 128 := rfl
        rw [List.flatMap_cons, utf8_low _ (by omega), ← ih (fun c hc => hl c (by simp [hc])), ofNat_eq rfl]
        rfl
    exact this a fun c hc => (hb c hc).1

theorem Nice.rune {n : Nat} (h : Scalar n) (h8 : 0x80 ≤ n) (h1 : n ≠ 0x2028) (h2 : n ≠ 0x2029) : Nice (utf8 n) := by
  refine ⟨⟨[n], fun c hc => by rw [List.mem_singleton.1 hc]; exact ⟨h, h1, h2⟩, by simp⟩, fun c hc => ?_⟩
  have := utf8_high n h h8 c hc
  refine ⟨?_, ?_, ?_⟩ <;> (rintro rfl; revert this; decide)

theorem Nice.cons {c : UInt8} {a : Str} (hc : plainByte c = true) (ha : Nice a) : Nice (c :: a) :=
  Nice.append (a := [c]) (Nice.ascii (by simp [hc])) ha

/-! ## Strings -/

/-- A piece of a string's text `p` that stands for `u`. -/
structure Piece (p u : Str) : Prop where
  un : ∀ (x t : Str), (∀ n, x.length + 1 ≤ n → Spec.unesc n x = some t) →
    ∀ n, (p ++ x).length + 1 ≤ n → Spec.unesc n (p ++ x) = some (u ++ t)
  en : ∀ (x r : Str), Spec.strEnd (x ++ 34 :: r) = some (x, r) → Spec.strEnd (p ++ (x ++ 34 :: r)) = some (p ++ x, r)
  nice : Nice p

theorem strEnd_plain (c : UInt8) (y : Str) (h1 : c ≠ 34) (h2 : c ≠ 92) (hy : y ≠ []) :
    Spec.strEnd (c :: y) = (Spec.strEnd y).map fun p => (c :: p.1, p.2) := by
  cases y with
  | nil => exact absurd rfl hy
  | cons e s => rw [Spec.strEnd, if_neg h1, if_neg h2]

theorem strEnd_plains : ∀ (p : Str), (∀ c ∈ p, c ≠ 34 ∧ c ≠ 92) → ∀ (x r : Str), Spec.strEnd (x ++ 34 :: r) = some (x, r) →
    Spec.strEnd (p ++ (x ++ 34 :: r)) = some (p ++ x, r)
  | [], _, x, r, h => h
  | c :: p, hp, x, r, h => by
    have ih := strEnd_plains p (fun c hc => hp c (by simp [hc])) x r h
    rw [List.cons_append, strEnd_plain c _ (hp c (by simp)).1 (hp c (by simp)).2 (by simp), ih]
    rfl

theorem unesc_plain (n : Nat) (c : UInt8) (s : Str) (h1 : c ≠ 92) (h2 : ¬ c < 32) :
    Spec.unesc (n + 1) (c :: s) = (Spec.unesc n s).map (c :: ·) := by
  rw [Spec.unesc, if_neg h1, if_neg h2]

theorem Piece.plains (p : Str) (hp : ∀ c ∈ p, c ≠ 34 ∧ c ≠ 92 ∧ ¬ c < 32) (hn : Nice p) : Piece p p where
  un x t hx := by
    induction p with
    | nil => exact hx
    | cons c p ih =>
      have ih' : ∀ n, (p ++ x).length + 1 ≤ n → Spec.unesc n (p ++ x) = some (p ++ t) := by
        clear hn
        have hp' : ∀ c ∈ p, c ≠ 34 ∧ c ≠ 92 ∧ ¬ c < 32 := fun c hc => hp c (by simp [hc])
        clear ih hp
        induction p with
        | nil => exact hx
        | cons d p ih =>
          intro n hn
          obtain ⟨m, rfl⟩ : ∃ m, n = m + 1 := ⟨n - 1, by omega⟩
          rw [List.cons_append, unesc_plain m d _ (hp' d (by simp)).2.1 (hp' d (by simp)).2.2,
            ih (fun c hc => hp' c (by simp [hc])) m (by simp at hn ⊢; omega)]
          rfl
      intro n hn
      obtain ⟨m, rfl⟩ : ∃ m, n = m + 1 := ⟨n - 1, by omega⟩
      rw [List.cons_append, unesc_plain m c _ (hp c (by simp)).2.1 (hp c (by simp)).2.2, ih' m (by simp at hn ⊢; omega)]
      rfl
  en := strEnd_plains p fun c hc => ⟨(hp c hc).1, (hp c hc).2.1⟩
  nice := hn

theorem strEnd_esc (e : UInt8) (y : Str) : Spec.strEnd (92 :: e :: y) = (Spec.strEnd y).map fun p => (92 :: e :: p.1, p.2) := by
  rw [Spec.strEnd, if_neg (by decide), if_pos rfl]

theorem Piece.short (e c : UInt8) (h1 : e ≠ 117) (h2 : Spec.short e = some c) (h3 : plainByte e = true) : Piece [92, e] [c] where
  un x t hx n hn := by
    obtain ⟨m, rfl⟩ : ∃ m, n = m + 1 := ⟨n - 1, by omega⟩
    show Spec.unesc (m + 1) (92 :: e :: x) = _
    rw [Spec.unesc, if_pos rfl]
    simp only [List.head?_cons, Option.bind_some, List.tail_cons]
    rw [if_neg h1, h2, hx m (by simp at hn; omega)]
    rfl
  en x r h := by
    show Spec.strEnd (92 :: e :: (x ++ 34 :: r)) = _
    rw [strEnd_esc, h]; rfl
  nice := Nice.ascii (by simp [h3, show plainByte 92 = true by decide])

theorem hex4_append (a b c d : UInt8) (v : Nat) (h : Spec.hex4 [a, b, c, d] = some (v, [])) (x : Str) :
    Spec.hex4 (a :: b :: c :: d :: x) = some (v, x) := by
  simp only [Spec.hex4] at h ⊢
  cases ha : unhex a with
  | none => rw [ha] at h; cases h
  | some a' =>
    cases hb : unhex b with
    | none => rw [ha, hb] at h; cases h
    | some b' =>
      cases hc : unhex c with
      | none => rw [ha, hb, hc] at h; cases h
      | some c' =>
        cases hd : unhex d with
        | none => rw [ha, hb, hc, hd] at h; cases h
        | some d' =>
          rw [ha, hb, hc, hd] at h
          simp only [Option.bind_some, Option.map_some, Option.some.injEq, Prod.mk.injEq, and_true] at h ⊢
          exact h

theorem Piece.long (a b c d : UInt8) (v : Nat) (h : Spec.hex4 [a, b, c, d] = some (v, [])) (hv : v < 0xD800 ∨ 0xE000 ≤ v)
    (hp : ∀ x ∈ [a, b, c, d], x ≠ 34 ∧ x ≠ 92 ∧ plainByte x = true) : Piece [92, 117, a, b, c, d] (utf8 v) where
  un x t hx n hn := by
    obtain ⟨m, rfl⟩ : ∃ m, n = m + 1 := ⟨n - 1, by omega⟩
    show Spec.unesc (m + 1) (92 :: 117 :: a :: b :: c :: d :: x) = _
    rw [Spec.unesc, if_pos rfl]
    simp only [List.head?_cons, Option.bind_some, List.tail_cons]
    rw [if_pos trivial, hex4_append a b c d v h x]
    simp only [Option.bind_some]
    rw [if_neg (by omega), if_neg (by omega), hx m (by simp at hn; omega)]
    rfl
  en x r hx := by
    show Spec.strEnd (92 :: 117 :: ([a, b, c, d] ++ (x ++ 34 :: r))) = _
    rw [strEnd_esc, strEnd_plains [a, b, c, d] (fun y hy => ⟨(hp y hy).1, (hp y hy).2.1⟩) x r hx]
    rfl
  nice := Nice.ascii (by
    simp [show plainByte 92 = true by decide, show plainByte 117 = true by decide, (hp a (by simp)).2.2, (hp b (by simp)).2.2,
      (hp c (by simp)).2.2, (hp d (by simp)).2.2])

/-- An ASCII byte. -/
theorem Piece.byte (bf : Bool) (c : UInt8) (h : c < 128) : Piece (if htmlSafe c then [c] else escAscii bf c) [c] := by
  by_cases hs : htmlSafe c = true
  · rw [if_pos hs]
    have key : ∀ c : UInt8, htmlSafe c = true → c ≠ 34 ∧ c ≠ 92 ∧ ¬ c < 32 ∧ plainByte c = true := forall_u8 (by decide +kernel)
    have := key c hs
    exact Piece.plains [c] (fun d hd => by rw [List.mem_singleton] at hd; subst hd; exact ⟨this.1, this.2.1, this.2.2.1⟩)
      (Nice.ascii (by simp [this.2.2.2]))
  · rw [if_neg hs]
    have key : ∀ c : UInt8, c < 128 → htmlSafe c = false → ∀ bf : Bool,
        ((escAscii bf c).length = 2 ∧ (escAscii bf c)[0]? = some 92 ∧ (∃ e, (escAscii bf c)[1]? = some e ∧ e ≠ 117 ∧ Spec.short e = some c ∧ plainByte e = true)) ∨
        ((escAscii bf c).length = 6 ∧ (escAscii bf c).take 2 = [92, 117] ∧ Spec.hex4 ((escAscii bf c).drop 2) = some (c.toNat, []) ∧
          ∀ x ∈ (escAscii bf c).drop 2, x ≠ 34 ∧ x ≠ 92 ∧ plainByte x = true) := by
      intro c h1 h2 bf
      unfold escAscii
      by_cases e1 : c = 92 ∨ c = 34
      · rw [if_pos e1]
        rcases e1 with rfl | rfl
        · exact .inl ⟨rfl, rfl, 92, rfl, by decide, by decide, by decide⟩
        · exact .inl ⟨rfl, rfl, 34, rfl, by decide, by decide, by decide⟩
      rw [if_neg e1]
      by_cases e2 : c = 10
      · subst e2; exact .inl ⟨rfl, rfl, 110, rfl, by decide, by decide, by decide⟩
      rw [if_neg e2]
      by_cases e3 : c = 13
      · subst e3; exact .inl ⟨rfl, rfl, 114, rfl, by decide, by decide, by decide⟩
      rw [if_neg e3]
      by_cases e4 : c = 9
      · subst e4; exact .inl ⟨rfl, rfl, 116, rfl, by decide, by decide, by decide⟩
      rw [if_neg e4]
      by_cases e5 : bf = true ∧ c = 8
      · rw [if_pos e5]; obtain ⟨_, rfl⟩ := e5; exact .inl ⟨rfl, rfl, 98, rfl, by decide, by decide, by decide⟩
      rw [if_neg e5]
      by_cases e6 : bf = true ∧ c = 12
      · rw [if_pos e6]; obtain ⟨_, rfl⟩ := e6; exact .inl ⟨rfl, rfl, 102, rfl, by decide, by decide, by decide⟩
      rw [if_neg e6]
      refine .inr ⟨rfl, rfl, ?_⟩
      have k2 : ∀ c : UInt8, c < 128 → Spec.hex4 [48, 48, hexLower (c.toNat / 16), hexLower (c.toNat % 16)] = some (c.toNat, []) ∧
          ∀ x ∈ [48, 48, hexLower (c.toNat / 16), hexLower (c.toNat % 16)], x ≠ 34 ∧ x ≠ 92 ∧ plainByte x = true :=
        forall_u8 (by decide +kernel)
      exact k2 c h1
    rcases key c h (by simpa using hs) bf with ⟨h1, h2, e, h3, h4, h5, h6⟩ | ⟨h1, h2, h3, h4⟩
    · have : escAscii bf c = [92, e] := by
        match hE : escAscii bf c with
        | [a, b] => rw [hE] at h2 h3; simp at h2 h3; subst h2 h3; rfl
        | [] | [_] | _ :: _ :: _ :: _ => rw [hE] at h1; simp at h1
      rw [this]; exact Piece.short e c h4 h5 h6
    · obtain ⟨a, b, c', d, hE⟩ : ∃ a b c' d, escAscii bf c = [92, 117, a, b, c', d] := by
        match hE : escAscii bf c with
        | [x, y, a, b, c', d] => rw [hE] at h2; simp at h2; exact ⟨a, b, c', d, by rw [h2.1, h2.2]⟩
        | [] | [_] | [_, _] | [_, _, _] | [_, _, _, _] | [_, _, _, _, _] | _ :: _ :: _ :: _ :: _ :: _ :: _ :: _ => rw [hE] at h1; simp at h1
      rw [hE] at h3 h4 ⊢
      have hlt := UInt8.lt_iff_toNat_lt.1 h
      have e8 : (128 : UInt8).toNat = 128 := rfl
      have hu : utf8 c.toNat = [c] := by rw [utf8_low _ (by omega), ofNat_eq rfl]
      rw [← hu]
      exact Piece.long a b c' d c.toNat (by simpa using h3) (by omega) (by simpa using h4)

/-- What is known of the text of a string. -/
structure Good (raw s : Str) : Prop where
  reads : ∃ t, Spec.Reads s t ∧ ∀ n, raw.length + 1 ≤ n → Spec.unesc n raw = some t
  ends : ∀ r, Spec.strEnd (raw ++ 34 :: r) = some (raw, r)
  nice : Nice raw

theorem Good.step {p u x s s' : Str} (hp : Piece p u) (hr : ∀ t, Spec.Reads s t → Spec.Reads s' (u ++ t)) (hx : Good x s) : Good (p ++ x) s' := by
  obtain ⟨t, h1, h2⟩ := hx.reads
  refine ⟨⟨u ++ t, hr t h1, hp.un x t h2⟩, fun r => ?_, hp.nice.append hx.nice⟩
  rw [List.append_assoc]
  exact hp.en x r (hx.ends r)

theorem chars_good (bf : Bool) : ∀ (m : Nat) (s : Str), s.length ≤ m → Good (chars bf m s) s
  | 0, s, h => by
    have : s = [] := List.length_eq_zero_iff.1 (by omega)
    subst this
    exact ⟨⟨[], .nil, fun n hn => by obtain ⟨m, rfl⟩ : ∃ m, n = m + 1 := ⟨n - 1, by omega⟩; rfl⟩, fun r => by
      cases r <;> simp [chars, Spec.strEnd], Nice.nil⟩
  | m + 1, [], h => by
    exact ⟨⟨[], .nil, fun n hn => by obtain ⟨m, rfl⟩ : ∃ m, n = m + 1 := ⟨n - 1, by omega⟩; rfl⟩, fun r => by
      cases r <;> simp [chars, Spec.strEnd], Nice.nil⟩
  | m + 1, c :: s, h => by
    have hs : s.length ≤ m := by simp at h; omega
    rw [chars]
    by_cases h1 : c < 128
    · rw [if_pos h1]
      have hlt := UInt8.lt_iff_toNat_lt.1 h1
      have e8 : (128 : UInt8).toNat = 128 := rfl
      have hu : utf8 c.toNat = [c] := by rw [utf8_low _ (by omega), ofNat_eq rfl]
      refine Good.step (Piece.byte bf c h1) (fun t ht => ?_) (chars_good bf m s hs)
      have := Spec.Reads.char (n := c.toNat) (.inl (by omega)) ht
      rw [hu] at this
      exact this
    rw [if_neg h1]
    have h1' : 0x80 ≤ c.toNat := by
      rw [UInt8.lt_iff_toNat_lt] at h1
      have e8 : (128 : UInt8).toNat = 128 := rfl
      omega
    by_cases h2 : runeLen (c :: s) = 0
    · rw [if_pos h2]
      refine Good.step (p := b!"\\ufffd") (u := utf8 0xFFFD) (Piece.long 102 102 102 100 0xFFFD (by decide +kernel) (by omega) (by decide +kernel))
        (fun t ht => ?_) (chars_good bf m s hs)
      refine .bad ?_ ht
      rintro ⟨n, r, hn, he⟩
      rw [he] at h2
      have := runeLen_utf8 n hn r
      omega
    rw [if_neg h2]
    obtain ⟨n, r, hn, he, hl⟩ := utf8_of_runeLen _ h2
    have h3 : 0x80 ≤ n := by
      apply Classical.byContradiction
      intro hc
      rw [utf8_low n (by omega)] at he
      simp only [List.cons_append, List.nil_append, List.cons.injEq] at he
      rw [he.1, toNat_ofNat_lt (by omega)] at h1'
      omega
    have hpos := (runeLen_utf8 n hn r).2
    by_cases h4 : (c :: s).take 3 = [0xE2, 0x80, 0xA8]
    · rw [if_pos h4]
      have e : c :: s = utf8 0x2028 ++ s.drop 2 := by
        have h5 := List.take_append_drop 3 (c :: s)
        rw [h4] at h5
        rw [← h5]
        rfl
      refine Good.step (p := b!"\\u2028") (u := utf8 0x2028) (Piece.long 50 48 50 56 0x2028 (by decide +kernel) (by omega) (by decide +kernel))
        (fun t ht => ?_) (chars_good bf m (s.drop 2) (by simp; omega))
      rw [e]
      exact .char (.inl (by omega)) ht
    rw [if_neg h4]
    by_cases h5 : (c :: s).take 3 = [0xE2, 0x80, 0xA9]
    · rw [if_pos h5]
      have e : c :: s = utf8 0x2029 ++ s.drop 2 := by
        have h6 := List.take_append_drop 3 (c :: s)
        rw [h5] at h6
        rw [← h6]
        rfl
      refine Good.step (p := b!"\\u2029") (u := utf8 0x2029) (Piece.long 50 48 50 57 0x2029 (by decide +kernel) (by omega) (by decide +kernel))
        (fun t ht => ?_) (chars_good bf m (s.drop 2) (by simp; omega))
      rw [e]
      exact .char (.inl (by omega)) ht
    have h6 : n ≠ 0x2028 := by
      rintro rfl
      rw [he] at h4
      exact h4 rfl
    have h7 : n ≠ 0x2029 := by
      rintro rfl
      rw [he] at h5
      exact h5 rfl
    rw [if_neg h5, hl, he, List.take_left, List.drop_left]
    refine Good.step (Piece.plains (utf8 n) (fun d hd => ?_) (Nice.rune hn h3 h6 h7)) (fun t ht => .char hn ht) (chars_good bf m r ?_)
    · have := utf8_high n hn h3 d hd
      refine ⟨?_, ?_, ?_⟩
      · rintro rfl; revert this; decide
      · rintro rfl; revert this; decide
      · rw [UInt8.lt_iff_toNat_lt]
        have e8 : (32 : UInt8).toNat = 32 := rfl
        omega
    · have := congrArg List.length he
      simp only [List.length_cons, List.length_append] at this
      omega

/-! ## Tokens -/

def spell : Tok → Str
  | .punct c => [c]
  | .str raw => 34 :: (raw ++ [34])
  | .word w => w

def spells (ts : List Tok) : Str := ts.flatMap spell

def TokOk : Tok → Prop
  | .punct c => Spec.isPunct c = true
  | .str raw => (∀ r, Spec.strEnd (raw ++ 34 :: r) = some (raw, r)) ∧ Nice raw
  | .word w => w ≠ [] ∧ (∀ c ∈ w, Spec.wordChar c = true) ∧ w.all plainByte = true

def isWord : Tok → Bool
  | .word _ => true
  | _ => false

/-- No two words side by side. -/
def Apart : List Tok → Prop
  | a :: b :: r => ¬ (isWord a = true ∧ isWord b = true) ∧ Apart (b :: r)
  | _ => True

theorem Apart.tail {a : Tok} {r : List Tok} (h : Apart (a :: r)) : Apart r := by
  cases r with
  | nil => trivial
  | cons b r => exact h.2

theorem Apart.cons {a : Tok} {r : List Tok} (ha : isWord a = false) (h : Apart r) : Apart (a :: r) := by
  cases r with
  | nil => trivial
  | cons b r => exact ⟨by simp [ha], h⟩

theorem Apart.append : ∀ {a : List Tok} {c : UInt8} {r : List Tok}, Apart a → Apart r → Apart (a ++ .punct c :: r)
  | [], c, r, _, h => Apart.cons rfl h
  | [t], c, r, _, h => by exact ⟨by simp [isWord], Apart.cons rfl h⟩
  | t :: u :: a, c, r, h1, h2 => ⟨h1.1, Apart.append (a := u :: a) h1.2 h2⟩

/-- The text has these tokens. -/
def Lexes (x : Str) (ts : List Tok) : Prop := ∀ n, x.length + 1 ≤ n → Spec.lexF n x = some ts

theorem Lexes.nil : Lexes [] [] := fun n hn => by
  obtain ⟨m, rfl⟩ : ∃ m, n = m + 1 := ⟨n - 1, by omega⟩; rfl

theorem Lexes.space {c : UInt8} {x : Str} {ts : List Tok} (hc : Spec.isSpace c = true) (h : Lexes x ts) : Lexes (c :: x) ts := fun n hn => by
  obtain ⟨m, rfl⟩ : ∃ m, n = m + 1 := ⟨n - 1, by omega⟩
  rw [Spec.lexF, if_pos hc]
  exact h m (by simp at hn; omega)

theorem Lexes.spaces {x : Str} {ts : List Tok} (h : Lexes x ts) : ∀ (w : Str), (∀ c ∈ w, Spec.isSpace c = true) → Lexes (w ++ x) ts
  | [], _ => h
  | c :: w, hw => Lexes.space (hw c (by simp)) (Lexes.spaces h w fun d hd => hw d (by simp [hd]))

theorem punct_not_space : ∀ c : UInt8, Spec.isPunct c = true → Spec.isSpace c = false ∧ isWs c = false ∧ plainByte c = true ∧ Spec.wordChar c = false :=
  forall_u8 (by decide +kernel)

theorem wordChar_not : ∀ c : UInt8, Spec.wordChar c = true → Spec.isSpace c = false ∧ isWs c = false ∧ Spec.isPunct c = false ∧ c ≠ 34 ∧
    c ≠ 125 ∧ c ≠ 93 ∧ c ≠ 123 ∧ c ≠ 91 ∧ c ≠ 44 ∧ c ≠ 58 :=
  forall_u8 (by decide +kernel)

theorem Lexes.punct {c : UInt8} {x : Str} {ts : List Tok} (hc : Spec.isPunct c = true) (h : Lexes x ts) : Lexes (c :: x) (.punct c :: ts) := fun n hn => by
  obtain ⟨m, rfl⟩ : ∃ m, n = m + 1 := ⟨n - 1, by omega⟩
  rw [Spec.lexF, if_neg (by simp [(punct_not_space c hc).1]), if_pos hc, h m (by simp at hn; omega)]
  rfl

theorem Lexes.str {raw x : Str} {ts : List Tok} (hr : ∀ r, Spec.strEnd (raw ++ 34 :: r) = some (raw, r)) (h : Lexes x ts) :
    Lexes (34 :: (raw ++ 34 :: x)) (.str raw :: ts) := fun n hn => by
  obtain ⟨m, rfl⟩ : ∃ m, n = m + 1 := ⟨n - 1, by omega⟩
  rw [Spec.lexF, if_neg (by decide), if_neg (by decide), if_pos rfl, hr]
  simp only [Option.bind_some]
  rw [h m (by simp at hn; omega)]
  rfl

theorem takeWhile_word : ∀ (w x : Str), (∀ c ∈ w, Spec.wordChar c = true) → (∀ c, x.head? = some c → Spec.wordChar c = false) →
    (w ++ x).takeWhile Spec.wordChar = w ∧ (w ++ x).dropWhile Spec.wordChar = x
  | [], x, _, hx => by
    cases x with
    | nil => simp
    | cons c x =>
      have := hx c rfl
      simp [List.takeWhile_cons, List.dropWhile_cons, this]
  | c :: w, x, hw, hx => by
    have ih := takeWhile_word w x (fun d hd => hw d (by simp [hd])) hx
    have hc := hw c (by simp)
    simp [List.takeWhile_cons, List.dropWhile_cons, hc, ih]

theorem Lexes.word {w x : Str} {ts : List Tok} (h0 : w ≠ []) (hw : ∀ c ∈ w, Spec.wordChar c = true)
    (hx : ∀ c, x.head? = some c → Spec.wordChar c = false) (h : Lexes x ts) : Lexes (w ++ x) (.word w :: ts) := fun n hn => by
  obtain ⟨m, rfl⟩ : ∃ m, n = m + 1 := ⟨n - 1, by omega⟩
  cases w with
  | nil => exact absurd rfl h0
  | cons c w =>
    have hc := wordChar_not c (hw c (by simp))
    have hw' := takeWhile_word w x (fun d hd => hw d (by simp [hd])) hx
    rw [List.cons_append, Spec.lexF, if_neg (by simp [hc.1]), if_neg (by simp [hc.2.2.1]), if_neg hc.2.2.2.1, hw'.1, hw'.2,
      h m (by simp at hn; omega)]
    rfl

theorem head_spells {t : Tok} {r : List Tok} (ht : TokOk t) (hw : isWord t = false) (c : UInt8) (h : (spells (t :: r)).head? = some c) :
    Spec.wordChar c = false := by
  cases t with
  | punct d =>
    simp only [spells, List.flatMap_cons, spell, List.cons_append, List.nil_append, List.head?_cons, Option.some.injEq] at h
    subst h
    exact (punct_not_space d ht).2.2.2
  | str raw =>
    simp only [spells, List.flatMap_cons, spell, List.cons_append, List.head?_cons, Option.some.injEq] at h
    subst h
    decide
  | word w => simp [isWord] at hw

theorem spells_cons (t : Tok) (r : List Tok) : spells (t :: r) = spell t ++ spells r := rfl

theorem spells_append (a b : List Tok) : spells (a ++ b) = spells a ++ spells b := by simp [spells]

/-- The compact text. -/
theorem lexes_spells : ∀ ts : List Tok, (∀ t ∈ ts, TokOk t) → Apart ts → Lexes (spells ts) ts ∧ Nice (spells ts)
  | [], _, _ => ⟨Lexes.nil, Nice.nil⟩
  | t :: r, hok, ha => by
    obtain ⟨ih1, ih2⟩ := lexes_spells r (fun t ht => hok t (by simp [ht])) ha.tail
    have ht := hok t (by simp)
    cases t with
    | punct c => exact ⟨Lexes.punct ht ih1, Nice.cons (punct_not_space c ht).2.2.1 ih2⟩
    | str raw =>
      have e : spells (.str raw :: r) = 34 :: (raw ++ 34 :: spells r) := by simp [spells, spell]
      rw [e]
      exact ⟨Lexes.str ht.1 ih1, Nice.cons (by decide) (ht.2.append (Nice.cons (by decide) ih2))⟩
    | word w =>
      rw [spells_cons]
      refine ⟨Lexes.word ht.1 ht.2.1 ?_ ih1, (Nice.ascii ht.2.2).append ih2⟩
      intro c hc
      cases r with
      | nil => simp [spells] at hc
      | cons b r =>
        refine head_spells (hok b (by simp)) ?_ c hc
        have := ha.1
        simpa [isWord] using this

theorem newline_space (d : Nat) : ∀ c ∈ newline d, Spec.isSpace c = true := by
  intro c hc
  simp only [newline, List.mem_cons, List.mem_flatten, List.mem_replicate] at hc
  rcases hc with rfl | ⟨l, ⟨_, rfl⟩, hc⟩
  · decide
  · simp at hc; subst hc; decide

theorem newline_plain (d : Nat) : (newline d).all plainByte = true := by
  rw [List.all_eq_true]
  intro c hc
  have := newline_space d c hc
  revert this; revert c; exact fun c _ => (forall_u8 (P := fun c => Spec.isSpace c = true → plainByte c = true) (by decide +kernel) c)

/-- The scanner copies a string as it is. -/
theorem indent_str (need : Bool) (d : Nat) (x : Str) : ∀ raw : Str, (∀ r, Spec.strEnd (raw ++ 34 :: r) = some (raw, r)) →
    indentGo .str need d (raw ++ 34 :: x) = raw ++ 34 :: indentGo .out need d x := by
  intro raw
  suffices h : ∀ (k : Nat) (raw : Str), raw.length ≤ k → (∀ r, Spec.strEnd (raw ++ 34 :: r) = some (raw, r)) →
      indentGo .str need d (raw ++ 34 :: x) = raw ++ 34 :: indentGo .out need d x from h raw.length raw (Nat.le_refl _)
  intro k
  induction k with
  | zero =>
    intro raw hl _
    have : raw = [] := List.length_eq_zero_iff.1 (by omega)
    subst this
    simp [indentGo]
  | succ k ih =>
    intro raw hl hr
    match raw with
    | [] => simp [indentGo]
    | [c] =>
      have h1 := hr []
      simp only [List.cons_append, List.nil_append] at h1
      rw [Spec.strEnd] at h1
      by_cases e1 : c = 34
      · rw [if_pos e1] at h1; simp at h1
      rw [if_neg e1] at h1
      by_cases e2 : c = 92
      · rw [if_pos e2] at h1; simp [Spec.strEnd] at h1
      simp [indentGo, e1, e2]
    | c :: e :: raw =>
      have step : ∀ r, Spec.strEnd (c :: e :: (raw ++ 34 :: r)) = some (c :: e :: raw, r) := fun r => hr r
      by_cases e1 : c = 34
      · have := step []
        rw [Spec.strEnd, if_pos e1] at this
        simp at this
      by_cases e2 : c = 92
      · have h1 : ∀ r, Spec.strEnd (raw ++ 34 :: r) = some (raw, r) := fun r => by
          have := step r
          rw [Spec.strEnd, if_neg e1, if_pos e2, Option.map_eq_some_iff] at this
          obtain ⟨⟨a, b⟩, h1, h2⟩ := this
          simp only [Prod.mk.injEq, List.cons.injEq, true_and] at h2
          rw [h1, h2.1, h2.2]
        have := ih raw (by simp at hl; omega) h1
        simp [indentGo, e2, this]
      · have h1 : ∀ r, Spec.strEnd ((e :: raw) ++ 34 :: r) = some (e :: raw, r) := fun r => by
          have := step r
          rw [Spec.strEnd, if_neg e1, if_neg e2, Option.map_eq_some_iff] at this
          obtain ⟨⟨a, b⟩, h1, h2⟩ := this
          simp only [Prod.mk.injEq, List.cons.injEq, true_and] at h2
          rw [List.cons_append, h1, h2.1, h2.2]
        have := ih (e :: raw) (by simp at hl ⊢; omega) h1
        rw [List.cons_append] at this
        rw [List.cons_append, List.cons_append, indentGo, if_neg e2, if_neg e1, this]
        rfl

theorem indent_word (d : Nat) (x : Str) : ∀ w : Str, (∀ c ∈ w, Spec.wordChar c = true) →
    indentGo .out false d (w ++ x) = w ++ indentGo .out false d x
  | [], _ => rfl
  | c :: w, hw => by
    have ih := indent_word d x w fun e he => hw e (by simp [he])
    have hc := wordChar_not c (hw c (by simp))
    rw [List.cons_append, indentGo]
    simp only [hc, ih, Bool.false_eq_true, if_false, or_false, false_or, List.nil_append, List.cons_append]

theorem indent_word_need (need : Bool) (d : Nat) (x w : Str) (h0 : w ≠ []) (hw : ∀ c ∈ w, Spec.wordChar c = true) :
    indentGo .out need d (w ++ x) = (if need then newline (d + 1) else []) ++ (w ++ indentGo .out false (if need then d + 1 else d) x) := by
  cases w with
  | nil => exact absurd rfl h0
  | cons c w =>
    have hc := wordChar_not c (hw c (by simp))
    have h1 := indent_word (if need then d + 1 else d) x w fun e he => hw e (by simp [he])
    rw [List.cons_append, indentGo]
    simp only [hc, h1, Bool.false_eq_true, if_false, or_false, false_or, List.cons_append]

/-- After a word comes punctuation, a string, or nothing; so it does in the indented text. -/
theorem head_indent (d : Nat) {t : Tok} {r : List Tok} (ht : TokOk t) (hw : isWord t = false) (c : UInt8)
    (h : (indentGo .out false d (spells (t :: r))).head? = some c) : Spec.wordChar c = false := by
  have hnl : ∀ (d : Nat) (y : Str), (newline d ++ y).head? = some c → Spec.wordChar c = false := fun d y h => by
    simp only [newline, List.cons_append, List.head?_cons, Option.some.injEq] at h
    subst h; decide
  cases t with
  | punct e =>
    have he := punct_not_space e ht
    rw [spells_cons, spell, List.cons_append, List.nil_append, indentGo, if_neg (by simp [he.2.1])] at h
    by_cases h1 : e = 125 ∨ e = 93
    · rw [if_pos h1, if_neg (by simp)] at h
      exact hnl _ _ h
    · rw [if_neg h1, if_neg (by simp), List.nil_append] at h
      have : c = e := by
        by_cases h2 : e = 123 ∨ e = 91
        · rw [if_pos h2] at h; simpa using h.symm
        rw [if_neg h2] at h
        by_cases h3 : e = 44
        · rw [if_pos h3] at h; simpa using h.symm
        rw [if_neg h3] at h
        by_cases h4 : e = 58
        · rw [if_pos h4] at h; simpa using h.symm
        rw [if_neg h4] at h; simpa using h.symm
      rw [this]; exact he.2.2.2
  | str raw =>
    have : c = 34 := by
      simp [spells_cons, spell, indentGo, isWs] at h
      exact h.symm
    rw [this]; decide
  | word w => simp [isWord] at hw

/-- The indented text has the same tokens. -/
theorem lexes_indent : ∀ ts : List Tok, (∀ t ∈ ts, TokOk t) → Apart ts → ∀ (need : Bool) (d : Nat),
    Lexes (indentGo .out need d (spells ts)) ts ∧ Nice (indentGo .out need d (spells ts))
  | [], _, _, need, d => by simp only [spells, List.flatMap_nil, indentGo]; exact ⟨Lexes.nil, Nice.nil⟩
  | t :: r, hok, ha, need, d => by
    have ih := lexes_indent r (fun t ht => hok t (by simp [ht])) ha.tail
    have ht := hok t (by simp)
    have pre : ∀ {x : Str} {ts : List Tok}, Lexes x ts ∧ Nice x → Lexes ((if need then newline (d + 1) else []) ++ x) ts ∧
        Nice ((if need then newline (d + 1) else []) ++ x) := fun {x ts} h => by
      cases need with
      | false => exact h
      | true => exact ⟨Lexes.spaces h.1 _ (newline_space _), (Nice.ascii (newline_plain _)).append h.2⟩
    cases t with
    | punct c =>
      have hc := punct_not_space c ht
      rw [spells_cons, spell, List.cons_append, List.nil_append, indentGo, if_neg (by simp [hc.2.1])]
      by_cases h1 : c = 125 ∨ c = 93
      · rw [if_pos h1]
        cases need with
        | true => rw [if_pos rfl]; exact ⟨Lexes.punct ht (ih _ _).1, Nice.cons hc.2.2.1 (ih _ _).2⟩
        | false =>
          rw [if_neg (by simp)]
          exact ⟨Lexes.spaces (Lexes.punct ht (ih _ _).1) _ (newline_space _),
            (Nice.ascii (newline_plain _)).append (Nice.cons hc.2.2.1 (ih _ _).2)⟩
      rw [if_neg h1]
      refine pre ?_
      by_cases h2 : c = 123 ∨ c = 91
      · rw [if_pos h2]; exact ⟨Lexes.punct ht (ih _ _).1, Nice.cons hc.2.2.1 (ih _ _).2⟩
      rw [if_neg h2]
      by_cases h3 : c = 44
      · rw [if_pos h3]
        exact ⟨Lexes.punct ht (Lexes.spaces (ih _ _).1 _ (newline_space _)),
          Nice.cons hc.2.2.1 ((Nice.ascii (newline_plain _)).append (ih _ _).2)⟩
      rw [if_neg h3]
      by_cases h4 : c = 58
      · rw [if_pos h4]
        exact ⟨Lexes.punct ht (Lexes.space (by decide) (ih _ _).1), Nice.cons hc.2.2.1 (Nice.cons (by decide) (ih _ _).2)⟩
      rw [if_neg h4]
      exfalso
      have : ∀ c : UInt8, Spec.isPunct c = true → ¬ (c = 125 ∨ c = 93) → ¬ (c = 123 ∨ c = 91) → c ≠ 44 → c ≠ 58 → False :=
        forall_u8 (by decide +kernel)
      exact this c ht h1 h2 h3 h4
    | str raw =>
      have e : spells (.str raw :: r) = 34 :: (raw ++ 34 :: spells r) := by simp [spells, spell]
      rw [e, indentGo, if_neg (by decide), if_neg (by decide)]
      refine pre ?_
      rw [if_neg (by decide), if_neg (by decide), if_neg (by decide), if_pos rfl, indent_str _ _ _ raw ht.1]
      exact ⟨Lexes.str ht.1 (ih _ _).1, Nice.cons (by decide) (ht.2.append (Nice.cons (by decide) (ih _ _).2))⟩
    | word w =>
      rw [spells_cons, spell, indent_word_need need d _ w ht.1 ht.2.1]
      refine pre ⟨Lexes.word ht.1 ht.2.1 ?_ (ih _ _).1, (Nice.ascii ht.2.2).append (ih _ _).2⟩
      intro c hc
      cases r with
      | nil => simp [spells, indentGo] at hc
      | cons b r =>
        refine head_indent _ (hok b (by simp)) ?_ c hc
        have := ha.1
        simpa [isWord] using this

/-! ## Values -/

/-- The text `t` is JSON that says `v`. -/
def Val (t : Str) (v : GJ) : Prop :=
  ∃ ts j, t = spells ts ∧ (∀ k ∈ ts, TokOk k) ∧ Apart ts ∧ Spec.Says v j ∧
    ∀ n r, 3 * ts.length ≤ n → Spec.value n (ts ++ r) = some (j, r)

theorem value_zero (ts : List Tok) : Spec.value 0 ts = none := by rw [Spec.value]

theorem Val.word {w : Str} {v : GJ} {j : J} (h0 : w ≠ []) (hw : ∀ c ∈ w, Spec.wordChar c = true) (hp : w.all plainByte = true)
    (hj : Spec.word w = some j) (hs : Spec.Says v j) : Val w v := by
  refine ⟨[.word w], j, by simp [spells, spell], ?_, trivial, hs, ?_⟩
  · intro k hk
    rw [List.mem_singleton] at hk
    subst hk
    exact ⟨h0, hw, hp⟩
  · intro n r hn
    obtain ⟨m, rfl⟩ : ∃ m, n = m + 1 := ⟨n - 1, by simp at hn; omega⟩
    rw [List.cons_append, List.nil_append, Spec.value, hj]
    rfl

theorem text_of_good {raw s : Str} (h : Good raw s) : ∃ t, Spec.Reads s t ∧ Spec.text raw = some t := by
  obtain ⟨t, h1, h2⟩ := h.reads
  exact ⟨t, h1, h2 _ (Nat.le_refl _)⟩

theorem quote_good (bf : Bool) (s : Str) : Good (chars bf s.length s) s := chars_good bf _ s (Nat.le_refl _)

theorem Val.str (bf : Bool) (s : Str) : Val (quote bf s) (.str s) := by
  have hg := quote_good bf s
  obtain ⟨t, h1, h2⟩ := text_of_good hg
  refine ⟨[.str (chars bf s.length s)], .str t, by simp [spells, spell, quote], ?_, trivial, .str h1, ?_⟩
  · intro k hk
    rw [List.mem_singleton] at hk
    subst hk
    exact ⟨hg.ends, hg.nice⟩
  · intro n r hn
    obtain ⟨m, rfl⟩ : ∃ m, n = m + 1 := ⟨n - 1, by simp at hn; omega⟩
    rw [List.cons_append, List.nil_append, Spec.value, h2]
    rfl

/-! ### Numbers -/

theorem natDec_head (n : Nat) : (natDec n).head? = some 48 → natDec n = [48] := by
  induction n using Nat.strongRecOn with
  | _ n ih =>
    by_cases h : n < 10
    · rw [natDec_lt h]
      intro he
      simp only [List.head?_cons, Option.some.injEq] at he
      rw [he]
    · rw [natDec_ge (by omega)]
      intro he
      have he' : (natDec (n / 10)).head? = some 48 := by
        cases hn : natDec (n / 10) with
        | nil => exact absurd hn (natDec_ne_nil _)
        | cons a b => rw [hn] at he; simpa using he
      have h1 := ih (n / 10) (by omega) he'
      exfalso
      have h2 := natDec_decimal (n / 10)
      rw [h1] at h2
      have : NumSpec.decimal [48] = 0 := by decide
      omega

theorem natural_natDec (n : Nat) : Spec.natural (natDec n) = some n := by
  unfold Spec.natural
  rw [if_pos ⟨natDec_ne_nil n, natDec_digits n, natDec_head n⟩]
  have := natDec_decimal n
  unfold NumSpec.decimal at this
  rw [this]

theorem dig_facts : ∀ c : UInt8, (48 ≤ c.toNat ∧ c.toNat ≤ 57) → Spec.wordChar c = true ∧ plainByte c = true ∧ c ≠ 45 ∧ c ≠ 110 ∧ c ≠ 116 ∧ c ≠ 102 :=
  forall_u8 (by decide +kernel)

theorem fmtInt_cases (i : Int) : (∃ n : Nat, i = n ∧ fmtInt i = natDec n) ∨ ∃ n : Nat, i = -(n : Int) ∧ fmtInt i = 45 :: natDec n := by
  cases i with
  | ofNat n => exact .inl ⟨n, rfl, rfl⟩
  | negSucc n => exact .inr ⟨n + 1, rfl, rfl⟩

theorem Val.int (i : Int) : Val (fmtInt i) (.int i) := by
  have hnd : ∀ n : Nat, ∃ c s, natDec n = c :: s ∧ 48 ≤ c.toNat ∧ c.toNat ≤ 57 := fun n => by
    cases h : natDec n with
    | nil => exact absurd h (natDec_ne_nil n)
    | cons c s => exact ⟨c, s, rfl, natDec_digits n c (by rw [h]; simp)⟩
  rcases fmtInt_cases i with ⟨n, hi, hf⟩ | ⟨n, hi, hf⟩
  · rw [hf]
    refine Val.word (j := .num i) (natDec_ne_nil n) (fun c hc => (dig_facts c (natDec_digits n c hc)).1)
      (by rw [List.all_eq_true]; exact fun c hc => (dig_facts c (natDec_digits n c hc)).2.1) ?_ (.int i)
    obtain ⟨c, s, h1, h2⟩ := hnd n
    have hc := dig_facts c h2
    unfold Spec.word
    rw [if_neg (by rw [h1]; simp [hc]), if_neg (by rw [h1]; simp [hc]), if_neg (by rw [h1]; simp [hc]), if_neg (by rw [h1]; simp [hc]),
      natural_natDec, hi]
    rfl
  · rw [hf]
    refine Val.word (j := .num i) (by simp) ?_ ?_ ?_ (.int i)
    · intro c hc
      rcases List.mem_cons.1 hc with rfl | hc
      · decide
      · exact (dig_facts c (natDec_digits n c hc)).1
    · rw [List.all_eq_true]
      intro c hc
      rcases List.mem_cons.1 hc with rfl | hc
      · decide
      · exact (dig_facts c (natDec_digits n c hc)).2.1
    · unfold Spec.word
      rw [if_neg (by simp), if_neg (by simp), if_neg (by simp), if_pos (by simp), List.tail_cons, natural_natDec, hi]
      rfl

/-! ### Floats -/

theorem amount_val (s : Str) : Spec.amount s = Flt.Spec.val s := by
  unfold Spec.amount Flt.Spec.val
  congr 1
  funext n c
  rw [Nat.mul_comm]

theorem isDigit_iff (c : UInt8) : Spec.isDigit c = true ↔ 48 ≤ c.toNat ∧ c.toNat ≤ 57 := by simp [Spec.isDigit]

theorem takeWhile_digit : ∀ (w x : Str), Flt.Spec.Digits w → (∀ c, x.head? = some c → Spec.isDigit c = false) →
    (w ++ x).takeWhile Spec.isDigit = w ∧ (w ++ x).dropWhile Spec.isDigit = x
  | [], x, _, hx => by
    cases x with
    | nil => simp
    | cons c s => simp [hx c rfl]
  | c :: w, x, hw, hx => by
    have ih := takeWhile_digit w x (fun d hd => hw d (by simp [hd])) hx
    have hc := (isDigit_iff c).2 (hw c (by simp))
    simp [hc, ih]

/-- What the encoder writes for a float: an integer part without leading zeros, a fraction or none, an exponent or none. -/
def Shape (neg : Bool) (t : Str) (n : Nat) (y : Int) : Prop :=
  ∃ (m : Nat) (fp ep : Str) (x : Int), t = Flt.minus neg ++ (natDec m ++ ((if fp = [] then [] else 46 :: fp) ++ ep)) ∧
    Flt.Spec.Digits fp ∧
    ((ep = [] ∧ x = 0) ∨ ∃ sg ds, (sg = 43 ∨ sg = 45) ∧ Flt.Spec.Digits ds ∧ ds ≠ [] ∧ ep = 101 :: sg :: ds ∧
      x = (if sg = 45 then -(Flt.Spec.val ds : Int) else (Flt.Spec.val ds : Int))) ∧
    Flt.Spec.val (natDec m ++ fp) = n ∧ x - fp.length = y

theorem shape_exponent {ep : Str} {x : Int} (h : (ep = [] ∧ x = 0) ∨ ∃ sg ds, (sg = 43 ∨ sg = 45) ∧ Flt.Spec.Digits ds ∧ ds ≠ [] ∧
    ep = 101 :: sg :: ds ∧ x = (if sg = 45 then -(Flt.Spec.val ds : Int) else (Flt.Spec.val ds : Int))) : Spec.exponent ep = some x := by
  rcases h with ⟨rfl, rfl⟩ | ⟨sg, ds, hsg, hd, hne, rfl, rfl⟩
  · rfl
  · have h1 : Spec.digits1 ds = some (Flt.Spec.val ds) := by
      unfold Spec.digits1
      rw [if_pos ⟨hne, by rw [List.all_eq_true]; exact fun c hc => (isDigit_iff c).2 (hd c hc)⟩, amount_val]
    have hx : Spec.exponent (101 :: sg :: ds) = (if (sg :: ds).head? = some 45 then (Spec.digits1 (sg :: ds).tail).map fun (n : Nat) => -(n : Int)
       else if (sg :: ds).head? = some 43 then (Spec.digits1 (sg :: ds).tail).map fun (n : Nat) => (n : Int)
       else (Spec.digits1 (sg :: ds)).map fun (n : Nat) => (n : Int)) := rfl
    rw [hx]
    rcases hsg with rfl | rfl
    · rw [if_neg (by simp), if_pos (by simp), List.tail_cons, h1]; rfl
    · rw [if_pos (by simp), List.tail_cons, h1]; rfl

theorem shape_word {neg : Bool} {t : Str} {n : Nat} {y : Int} (h : Shape neg t n y) :
    ∃ j, Spec.word t = some j ∧ ((j = .num (if neg then -(n : Int) else n) ∧ y = 0) ∨ j = .dec neg n y) := by
  obtain ⟨m, fp, ep, x, rfl, hfp, hep, rfl, rfl⟩ := h
  have hbody : ∀ nn : Bool, ∃ j, ((Spec.natural (natDec m ++ ((if fp = [] then [] else 46 :: fp) ++ ep))).map
        fun (k : Nat) => J.num (if nn then -(k : Int) else k)).or
        (Spec.real nn (natDec m ++ ((if fp = [] then [] else 46 :: fp) ++ ep))) = some j ∧
      ((j = .num (if nn then -(Flt.Spec.val (natDec m ++ fp) : Int) else Flt.Spec.val (natDec m ++ fp)) ∧ x - fp.length = 0) ∨
        j = .dec nn (Flt.Spec.val (natDec m ++ fp)) (x - fp.length)) := by
    intro nn
    by_cases hz : fp = [] ∧ ep = []
    · obtain ⟨rfl, rfl⟩ := hz
      refine ⟨.num (if nn then -(m : Int) else m), ?_, Or.inl ⟨?_, ?_⟩⟩
      · rw [if_pos rfl, List.append_nil, List.append_nil, natural_natDec]
        rfl
      · rw [List.append_nil, Flt.val_natDec]
      · rcases hep with ⟨-, rfl⟩ | ⟨sg, ds, -, -, -, h, -⟩
        · rfl
        · cases h
    · -- there is a point or an `e`
      have hhead : ∀ c, ((if fp = [] then [] else 46 :: fp) ++ ep).head? = some c → c = 46 ∨ c = 101 := by
        intro c hc
        by_cases hf : fp = []
        · rw [if_pos hf, List.nil_append] at hc
          rcases hep with ⟨h, -⟩ | ⟨sg, ds, -, -, -, h, -⟩
          · exact absurd ⟨hf, h⟩ hz
          · rw [h] at hc; right; simpa using hc.symm
        · rw [if_neg hf] at hc; left; simpa using hc.symm
      have hne : ((if fp = [] then [] else 46 :: fp) ++ ep) ≠ [] := by
        intro e
        obtain ⟨e1, e2⟩ := List.append_eq_nil_iff.1 e
        by_cases hf : fp = []
        · exact hz ⟨hf, e2⟩
        · rw [if_neg hf] at e1; cases e1
      have hnd : ∀ c, ((if fp = [] then [] else 46 :: fp) ++ ep).head? = some c → Spec.isDigit c = false := by
        intro c hc
        rcases hhead c hc with rfl | rfl <;> decide
      have hnat : Spec.natural (natDec m ++ ((if fp = [] then [] else 46 :: fp) ++ ep)) = none := by
        unfold Spec.natural
        rw [if_neg]
        rintro ⟨-, h, -⟩
        cases hr : ((if fp = [] then [] else 46 :: fp) ++ ep) with
        | nil => exact hne hr
        | cons c s =>
          have h1 := h c (by rw [hr]; simp)
          have h2 := hnd c (by rw [hr]; rfl)
          rw [(isDigit_iff c).2 h1] at h2
          cases h2
      obtain ⟨t1, t2⟩ := takeWhile_digit (natDec m) ((if fp = [] then [] else 46 :: fp) ++ ep) (natDec_digits m) hnd
      have hfrac : Spec.fraction ((if fp = [] then [] else 46 :: fp) ++ ep) = some (fp, ep) := by
        have hepn : ∀ c, ep.head? = some c → Spec.isDigit c = false := by
          intro c hc
          rcases hep with ⟨h, -⟩ | ⟨sg, ds, -, -, -, h, -⟩
          · rw [h] at hc; cases hc
          · rw [h] at hc; cases hc; decide
        unfold Spec.fraction
        by_cases hf : fp = []
        · rw [if_pos hf, List.nil_append, hf]
          rw [if_neg]
          intro h46
          rcases hep with ⟨h, -⟩ | ⟨sg, ds, -, -, -, h, -⟩
          · rw [h] at h46; cases h46
          · rw [h] at h46; cases h46
        · rw [if_neg hf]
          obtain ⟨u1, u2⟩ := takeWhile_digit fp ep hfp hepn
          rw [if_pos (by simp), List.cons_append, List.tail_cons, u1, u2, if_neg hf]
      refine ⟨.dec nn (Flt.Spec.val (natDec m ++ fp)) (x - fp.length), ?_, Or.inr rfl⟩
      rw [hnat]
      unfold Spec.real
      rw [t1, t2, natural_natDec, hfrac]
      simp only [Option.bind_some, Option.map_none, Option.none_or, shape_exponent hep, Option.map_some, amount_val]
  obtain ⟨c, s, h1, h2⟩ : ∃ c s, natDec m = c :: s ∧ 48 ≤ c.toNat ∧ c.toNat ≤ 57 := by
    cases h : natDec m with
    | nil => exact absurd h (natDec_ne_nil m)
    | cons c s => exact ⟨c, s, rfl, natDec_digits m c (by rw [h]; simp)⟩
  have hc := dig_facts c h2
  obtain ⟨j, hj1, hj2⟩ := hbody neg
  refine ⟨j, ?_, hj2⟩
  generalize ((if fp = [] then [] else 46 :: fp) ++ ep) = r at hj1 ⊢
  cases neg with
  | false =>
    have hm : Flt.minus false ++ (natDec m ++ r) = natDec m ++ r := rfl
    rw [hm]
    unfold Spec.word
    rw [if_neg (by rw [h1]; simp [hc]), if_neg (by rw [h1]; simp [hc]), if_neg (by rw [h1]; simp [hc]), if_neg (by rw [h1]; simp [hc])]
    simpa using hj1
  | true =>
    have hm : Flt.minus true ++ (natDec m ++ r) = 45 :: (natDec m ++ r) := rfl
    rw [hm]
    unfold Spec.word
    rw [if_neg (by simp), if_neg (by simp), if_neg (by simp), if_pos (by simp), List.tail_cons]
    simpa using hj1

theorem shape_plain {neg : Bool} {t : Str} {n : Nat} {y : Int} (h : Shape neg t n y) :
    t ≠ [] ∧ (∀ c ∈ t, Spec.wordChar c = true) ∧ t.all plainByte = true := by
  obtain ⟨m, fp, ep, x, rfl, hfp, hep, -, -⟩ := h
  have hall : ∀ c ∈ Flt.minus neg ++ (natDec m ++ ((if fp = [] then [] else 46 :: fp) ++ ep)),
      (48 ≤ c.toNat ∧ c.toNat ≤ 57) ∨ c = 45 ∨ c = 46 ∨ c = 101 ∨ c = 43 := by
    intro c hc
    simp only [List.mem_append] at hc
    rcases hc with hc | hc | hc | hc
    · cases neg
      · cases hc
      · right; left; simpa [Flt.minus] using hc
    · exact Or.inl (natDec_digits m c hc)
    · by_cases hf : fp = []
      · rw [if_pos hf] at hc; cases hc
      · rw [if_neg hf] at hc
        rcases List.mem_cons.1 hc with rfl | hc
        · exact Or.inr (Or.inr (Or.inl rfl))
        · exact Or.inl (hfp c hc)
    · rcases hep with ⟨rfl, -⟩ | ⟨sg, ds, hsg, hd, -, rfl, -⟩
      · cases hc
      · rcases List.mem_cons.1 hc with rfl | hc
        · exact Or.inr (Or.inr (Or.inr (Or.inl rfl)))
        · rcases List.mem_cons.1 hc with rfl | hc
          · rcases hsg with rfl | rfl
            · exact Or.inr (Or.inr (Or.inr (Or.inr rfl)))
            · exact Or.inr (Or.inl rfl)
          · exact Or.inl (hd c hc)
  have hp : ∀ c, ((48 ≤ c.toNat ∧ c.toNat ≤ 57) ∨ c = 45 ∨ c = 46 ∨ c = 101 ∨ c = 43) → Spec.wordChar c = true ∧ plainByte c = true := by
    intro c hc
    rcases hc with hc | rfl | rfl | rfl | rfl
    · exact ⟨(dig_facts c hc).1, (dig_facts c hc).2.1⟩
    all_goals decide
  refine ⟨?_, fun c hc => (hp c (hall c hc)).1, ?_⟩
  · intro e
    exact natDec_ne_nil m (List.append_eq_nil_iff.1 (List.append_eq_nil_iff.1 e).2).1
  · rw [List.all_eq_true]; exact fun c hc => (hp c (hall c hc)).2

/-! The text of a float has that shape. -/

theorem shape_decimals (neg : Bool) (n k : Nat) : Shape neg (Flt.minus neg ++ Flt.withDecimals n k) n (-(k : Int)) := by
  unfold Flt.withDecimals
  by_cases hk : k = 0
  · subst hk
    rw [if_pos rfl]
    refine ⟨n, [], [], 0, by simp, by simp [Flt.Spec.Digits], Or.inl ⟨rfl, rfl⟩, ?_, rfl⟩
    rw [List.append_nil, Flt.val_natDec]
  · rw [if_neg hk]
    have hne : Flt.lastDigits k n ≠ [] := by
      intro e
      have := congrArg List.length e
      rw [Flt.lastDigits_length] at this
      exact hk this
    refine ⟨n / 10 ^ k, Flt.lastDigits k n, [], 0, by rw [if_neg hne]; simp, Flt.lastDigits_digits k n, Or.inl ⟨rfl, rfl⟩, ?_, ?_⟩
    · rw [Flt.val_lastDigits, Flt.val_natDec, Nat.mul_comm]
      exact Nat.div_add_mod _ _
    · rw [Flt.lastDigits_length]; omega

/-- The first digit of a number, and the others. -/
theorem natDec_first (n : Nat) : ∃ d ds, natDec n = Go.digit d :: ds ∧ d < 10 ∧ Flt.Spec.Digits ds := by
  induction n using Nat.strongRecOn with
  | _ n ih =>
    by_cases h : n < 10
    · exact ⟨n, [], natDec_lt h, h, by simp [Flt.Spec.Digits]⟩
    · obtain ⟨d, ds, h1, h2, h3⟩ := ih (n / 10) (by omega)
      refine ⟨d, ds ++ [Go.digit (n % 10)], ?_, h2, ?_⟩
      · rw [natDec_ge (by omega), h1, List.cons_append]
      · intro c hc
        rcases List.mem_append.1 hc with hc | hc
        · exact h3 c hc
        · rw [List.mem_singleton.1 hc]; exact digit_isDig (by omega)

theorem digit_val (c : UInt8) (h : 48 ≤ c.toNat ∧ c.toNat ≤ 57) (r : Str) : Flt.Spec.val (48 :: r) = Flt.Spec.val r := by
  simp [Flt.Spec.val]

theorem val_zero (r : Str) : Flt.Spec.val (48 :: r) = Flt.Spec.val r := by simp [Flt.Spec.val]

/-- Scientific notation with an exponent of any digits. -/
theorem shape_sci (neg : Bool) (n : Nat) (x : Int) (ds : Str) (hd : Flt.Spec.Digits ds) (hne : ds ≠ [])
    (hv : Flt.Spec.val ds = (x + (natDec n).length - 1).natAbs) :
    Shape neg (Flt.minus neg ++ (sciDigits n ++ 101 :: (if x + (natDec n).length - 1 < 0 then 45 else 43) :: ds)) n x := by
  obtain ⟨d, r, h1, h2, h3⟩ := natDec_first n
  have h0 : natDec d = [Go.digit d] := natDec_lt h2
  refine ⟨d, r, 101 :: (if x + (natDec n).length - 1 < 0 then 45 else 43) :: ds, x + (natDec n).length - 1, ?_, h3,
    Or.inr ⟨_, ds, ?_, hd, hne, rfl, ?_⟩, ?_, ?_⟩
  · unfold sciDigits
    rw [h1, h0]
    by_cases hr : r = []
    · simp [hr]
    · simp [hr]
  · split
    · exact Or.inr rfl
    · exact Or.inl rfl
  · rw [hv]
    by_cases hx : x + ((natDec n).length : Int) - 1 < 0
    · rw [if_pos hx, if_pos rfl]; omega
    · rw [if_neg hx, if_neg (by decide)]; omega
  · rw [h0]
    have := Flt.val_natDec n
    rw [h1] at this
    exact this
  · rw [h1, List.length_cons]; omega

theorem sciExp_eq (x : Int) : ∃ ds, sciExp x = (if x < 0 then 45 else 43) :: ds ∧ Flt.Spec.Digits ds ∧ ds ≠ [] ∧
    Flt.Spec.val ds = x.natAbs ∧ ((x.natAbs < 10 ∧ ds = [48, Go.digit x.natAbs]) ∨ (10 ≤ x.natAbs ∧ ds = natDec x.natAbs)) := by
  unfold sciExp
  by_cases h : x.natAbs < 10
  · refine ⟨_, rfl, ?_, ?_, ?_, Or.inl ⟨h, ?_⟩⟩
    · rw [if_pos h]
      intro c hc
      rcases List.mem_cons.1 hc with rfl | hc
      · decide
      · exact natDec_digits _ c hc
    · rw [if_pos h]; simp
    · rw [if_pos h, val_zero, Flt.val_natDec]
    · rw [if_pos h, natDec_lt h]
  · refine ⟨_, rfl, ?_, ?_, ?_, Or.inr ⟨by omega, ?_⟩⟩
    · rw [if_neg h]; exact natDec_digits _
    · rw [if_neg h]; exact natDec_ne_nil _
    · rw [if_neg h, Flt.val_natDec]
    · rw [if_neg h]

/-- Cleaning up the exponent: only `e-0d` changes. -/
theorem cleanExp_eq (t : Str) : cleanExp t = t ∨ ∃ a d, t = a ++ [101, 45, 48, d] ∧ cleanExp t = a ++ [101, 45, d] := by
  unfold cleanExp
  split
  · rename_i d r h
    right
    refine ⟨r.reverse, d, ?_, ?_⟩
    · rw [← List.reverse_reverse t, h]; simp
    · simp
  · exact Or.inl rfl

theorem shape_clean (neg : Bool) (n : Nat) (x : Int) : Shape neg (cleanExp (Flt.minus neg ++ sci n x)) n x := by
  obtain ⟨ds, e1, hd, hne, hv, hcase⟩ := sciExp_eq (x + (natDec n).length - 1)
  have hfull := shape_sci neg n x ds hd hne hv
  have et : Flt.minus neg ++ sci n x =
      Flt.minus neg ++ (sciDigits n ++ 101 :: (if x + (natDec n).length - 1 < 0 then 45 else 43) :: ds) := by
    unfold sci; rw [e1]
  rcases cleanExp_eq (Flt.minus neg ++ sci n x) with h | ⟨a, d, h1, h2⟩
  · rw [h, et]; exact hfull
  · rw [h2]
    rcases hcase with ⟨hlt, rfl⟩ | ⟨hge, rfl⟩
    · -- two digits, the first one 0
      rw [et] at h1
      have h1' : (Flt.minus neg ++ sciDigits n) ++ [101, (if x + (natDec n).length - 1 < 0 then 45 else 43), 48,
          Go.digit (x + (natDec n).length - 1).natAbs] = a ++ [101, 45, 48, d] := by
        rw [← h1]; simp
      obtain ⟨ea, eb⟩ := List.append_inj' h1' rfl
      have hs : (if x + (natDec n).length - 1 < 0 then (45 : UInt8) else 43) = 45 := by
        injection eb with _ eb
        injection eb with eb _
      have hdd : Go.digit (x + (natDec n).length - 1).natAbs = d := by
        injection eb with _ eb
        injection eb with _ eb
        injection eb with _ eb
        injection eb with eb _
      have hone := shape_sci neg n x [Go.digit (x + (natDec n).length - 1).natAbs]
        (by intro c hc; rw [List.mem_singleton.1 hc]; exact digit_isDig hlt) (by simp)
        (by rw [← natDec_lt hlt, Flt.val_natDec])
      rw [hs, hdd] at hone
      rw [← ea]
      simpa using hone
    · -- the digits of a number of at least two digits cannot be `0d`, nor reach `45` before them
      exfalso
      rw [et] at h1
      have hlast : ∃ p c, natDec (x + (natDec n).length - 1).natAbs = p ++ [c] ∧ p = natDec ((x + (natDec n).length - 1).natAbs / 10) :=
        ⟨_, _, natDec_ge hge, rfl⟩
      obtain ⟨p, c, hp1, hp2⟩ := hlast
      generalize (if x + (natDec n).length - 1 < 0 then (45 : UInt8) else 43) = sg at h1
      have h3 : (Flt.minus neg ++ (sciDigits n ++ 101 :: sg :: p)) ++ [c] = (a ++ [101, 45, 48]) ++ [d] := by
        rw [hp1] at h1
        simpa using h1
      obtain ⟨h4, -⟩ := List.append_inj' h3 rfl
      by_cases hsmall : (x + (natDec n).length - 1).natAbs / 10 < 10
      · rw [natDec_lt hsmall] at hp2
        rw [hp2] at h4
        have h5 : (Flt.minus neg ++ (sciDigits n ++ [101, sg])) ++ [Go.digit ((x + (natDec n).length - 1).natAbs / 10)] = (a ++ [101, 45]) ++ [48] := by
          simpa using h4
        obtain ⟨-, h6⟩ := List.append_inj' h5 rfl
        injection h6 with h6 _
        have h7 := congrArg UInt8.toNat h6
        rw [digit_toNat hsmall] at h7
        have : (48 : UInt8).toNat = 48 := rfl
        omega
      · rw [natDec_ge (by omega)] at hp2
        rw [hp2] at h4
        have h5 : (Flt.minus neg ++ (sciDigits n ++ 101 :: sg :: natDec ((x + (natDec n).length - 1).natAbs / 10 / 10))) ++
            [Go.digit ((x + (natDec n).length - 1).natAbs / 10 % 10)] = (a ++ [101, 45]) ++ [48] := by
          simpa using h4
        obtain ⟨h6, -⟩ := List.append_inj' h5 rfl
        obtain ⟨l, c', hl⟩ : ∃ l c', natDec ((x + (natDec n).length - 1).natAbs / 10 / 10) = l ++ [c'] := by
          rcases List.eq_nil_or_concat (natDec ((x + (natDec n).length - 1).natAbs / 10 / 10)) with h | ⟨l, c', h⟩
          · exact absurd h (natDec_ne_nil _)
          · exact ⟨l, c', by rw [h, List.concat_eq_append]⟩
        have hcd := natDec_digits ((x + (natDec n).length - 1).natAbs / 10 / 10) c' (by rw [hl]; simp)
        rw [hl] at h6
        have h7 : (Flt.minus neg ++ (sciDigits n ++ 101 :: sg :: l)) ++ [c'] = (a ++ [101]) ++ [45] := by simpa using h6
        obtain ⟨-, h8⟩ := List.append_inj' h7 rfl
        injection h8 with h8 _
        rw [h8] at hcd
        exact absurd hcd (by unfold isDig; decide)

/-- What the encoder writes for a finite float is a number of that shape, and the float is the nearest one to it. -/
theorem jsonFloat_shape (bits : Nat) (f : Flt.F) (t : Str) (h : jsonFloat bits f = some t) :
    ∃ neg b n y, f = .num neg b ∧ Shape neg t n y ∧
      Flt.Spec.Nearest (Flt.fmtOf bits) (n * 10 ^ y.toNat) (10 ^ (-y).toNat) b := by
  cases f with
  | nan => cases h
  | num neg b =>
    have hfm : (Flt.fmtOf bits).mb ≠ 0 ∧ (Flt.fmtOf bits).e ≤ 1074 := by
      unfold Flt.fmtOf; split <;> decide
    by_cases hb : b < (Flt.fmtOf bits).inf
    · have hh := Flt.shortest_hits (Flt.fmtOf bits) hfm.1 hfm.2 b
      unfold Flt.hits at hh
      rw [beq_iff_eq] at hh
      have hpos : ∀ y : Int, 0 < 10 ^ (-y).toNat := fun y => Nat.pow_pos (by decide)
      have hnear : Flt.Spec.Nearest (Flt.fmtOf bits)
          ((Flt.shortest (Flt.fmtOf bits) b).2 * 10 ^ (Flt.shortest (Flt.fmtOf bits) b).1.toNat)
          (10 ^ (-(Flt.shortest (Flt.fmtOf bits) b).1).toNat) b := by
        have := Flt.nearest_of_round (Flt.fmtOf bits) hfm.1 _ _ (hpos (Flt.shortest (Flt.fmtOf bits) b).1) (by rw [hh]; exact hb)
        rwa [hh] at this
      simp only [jsonFloat, if_pos hb, Option.some.injEq] at h
      by_cases hs : sciRange bits b = true
      · rw [if_pos hs] at h
        subst h
        exact ⟨neg, b, _, _, rfl, shape_clean neg _ _, hnear⟩
      · rw [if_neg hs] at h
        simp only [Flt.toStrF, if_pos hb] at h
        subst h
        generalize (Flt.shortest (Flt.fmtOf bits) b).1 = x at hnear ⊢
        generalize (Flt.shortest (Flt.fmtOf bits) b).2 = n at hnear ⊢
        refine ⟨neg, b, n * 10 ^ x.toNat, -((-x).toNat : Int), rfl, shape_decimals neg _ _, ?_⟩
        have e1 : (-((-x).toNat : Int)).toNat = 0 := by omega
        have e2 : (- -((-x).toNat : Int)).toNat = (-x).toNat := by omega
        rw [e1, e2, Nat.pow_zero, Nat.mul_one]
        exact hnear
    · simp only [jsonFloat, if_neg hb] at h
      cases h

theorem Val.float (bits : Nat) (f : Flt.F) (t : Str) (h : jsonFloat bits f = some t) : Val t (.float bits f) := by
  obtain ⟨neg, b, n, y, rfl, hs, hnear⟩ := jsonFloat_shape bits f t h
  obtain ⟨j, hj, hval⟩ := shape_word hs
  obtain ⟨h1, h2, h3⟩ := shape_plain hs
  refine Val.word h1 h2 h3 hj ?_
  rcases hval with ⟨rfl, rfl⟩ | rfl
  · refine Spec.Says.float (.num neg n) ?_
    simpa using hnear
  · exact Spec.Says.float (.dec neg n y) hnear

/-! ### Lists and objects -/

/-- A value does not begin with a closing bracket, a comma or a colon. -/
theorem value_head {n : Nat} {ts r : List Tok} {j : J} (h : Spec.value n ts = some (j, r)) : ts.head? ≠ some (.punct 93) ∧ ts.head? ≠ some (.punct 125) := by
  cases n with
  | zero => rw [value_zero] at h; cases h
  | succ n =>
    constructor
    · intro he
      obtain ⟨s, rfl⟩ : ∃ s, ts = .punct 93 :: s := by
        cases ts with
        | nil => simp at he
        | cons a s => simp at he; exact ⟨s, by rw [he]⟩
      rw [Spec.value, if_neg (by decide), if_neg (by decide)] at h
      cases h
    · intro he
      obtain ⟨s, rfl⟩ : ∃ s, ts = .punct 125 :: s := by
        cases ts with
        | nil => simp at he
        | cons a s => simp at he; exact ⟨s, by rw [he]⟩
      rw [Spec.value, if_neg (by decide), if_neg (by decide)] at h
      cases h

theorem join1_cons_ne (sep : UInt8) (x : Str) (l : List Str) (h : l ≠ []) : join1 sep (x :: l) = x ++ sep :: join1 sep l := by
  cases l with
  | nil => exact absurd rfl h
  | cons y l => rfl

theorem elements_val : ∀ (L : List (Str × GJ)), L ≠ [] → (∀ e ∈ L, Val e.1 e.2) →
    ∃ ts js, join1 44 (L.map Prod.fst) ++ [93] = spells ts ∧ (∀ k ∈ ts, TokOk k) ∧ Apart ts ∧ Spec.SaysAll (L.map Prod.snd) js ∧
      ts.head? ≠ some (.punct 93) ∧ ∀ n r, 3 * ts.length ≤ n → Spec.elements n (ts ++ r) = some (js, r)
  | [], h, _ => absurd rfl h
  | (t, v) :: L, _, hv => by
    obtain ⟨ts, j, h1, h2, h3, h4, h5⟩ := hv (t, v) (by simp)
    simp only at h1 h4
    have hne : ts ≠ [] := by
      rintro rfl
      have := h5 0 [] (by simp)
      rw [value_zero] at this; cases this
    have hhead : ∀ r, (ts ++ r).head? = ts.head? := fun r => by cases ts with | nil => exact absurd rfl hne | cons a b => rfl
    have h93 : ts.head? ≠ some (.punct 93) := by
      have := (value_head (h5 (3 * ts.length) [] (Nat.le_refl _))).1
      rwa [hhead] at this
    have hpos : 0 < ts.length := List.length_pos_iff.2 hne
    by_cases hL : L = []
    · subst hL
      refine ⟨ts ++ [.punct 93], [j], ?_, ?_, Apart.append (r := []) h3 trivial, .cons h4 .nil, by rw [hhead]; exact h93, ?_⟩
      · rw [spells_append, ← h1]; simp [join1, spells, spell]
      · intro k hk
        rcases List.mem_append.1 hk with h | h
        · exact h2 k h
        · rw [List.mem_singleton] at h; subst h; exact rfl
      · intro n r hn
        simp only [List.length_append, List.length_cons, List.length_nil] at hn
        obtain ⟨m, rfl⟩ : ∃ m, n = m + 1 := ⟨n - 1, by omega⟩
        rw [List.append_assoc, Spec.elements, h5 m _ (by omega)]
        simp
    · obtain ⟨us, js, g1, g2, g3, g4, g5, g6⟩ := elements_val L hL (fun e he => hv e (by simp [he]))
      refine ⟨ts ++ .punct 44 :: us, j :: js, ?_, ?_, Apart.append h3 g3, .cons h4 g4, by rw [hhead]; exact h93, ?_⟩
      · rw [spells_append, spells_cons, ← h1, ← g1, List.map_cons, join1_cons_ne _ _ _ (by simpa using hL)]
        simp [spell]
      · intro k hk
        rcases List.mem_append.1 hk with h | h
        · exact h2 k h
        · rcases List.mem_cons.1 h with rfl | h
          · exact rfl
          · exact g2 k h
      · intro n r hn
        simp only [List.length_append, List.length_cons] at hn
        obtain ⟨m, rfl⟩ : ∃ m, n = m + 1 := ⟨n - 1, by omega⟩
        rw [List.append_assoc, Spec.elements, h5 m _ (by omega)]
        simp [g6 m r (by omega)]

theorem members_val (bf : Bool) : ∀ (L : List (Str × (Str × GJ))), L ≠ [] → (∀ e ∈ L, Val e.2.1 e.2.2) →
    ∃ ts ms, join1 44 (L.map fun e => quote bf e.1 ++ 58 :: e.2.1) ++ [125] = spells ts ∧ (∀ k ∈ ts, TokOk k) ∧ Apart ts ∧
      Spec.SaysMembers (L.map fun e => (e.1, e.2.2)) ms ∧
      ts.head? ≠ some (.punct 125) ∧ ∀ n r, 3 * ts.length ≤ n → Spec.members n (ts ++ r) = some (ms, r)
  | [], h, _ => absurd rfl h
  | (k, t, v) :: L, _, hv => by
    obtain ⟨ts, j, h1, h2, h3, h4, h5⟩ := hv (k, t, v) (by simp)
    simp only at h1 h4
    have hg := quote_good bf k
    obtain ⟨k', hk1, hk2⟩ := text_of_good hg
    have hkey : ∀ (us : List Tok), (∀ x ∈ us, TokOk x) → ∀ x ∈ Tok.str (chars bf k.length k) :: .punct 58 :: us, TokOk x := by
      intro us hus x hx
      rcases List.mem_cons.1 hx with rfl | hx
      · exact ⟨hg.ends, hg.nice⟩
      · rcases List.mem_cons.1 hx with rfl | hx
        · exact rfl
        · exact hus x hx
    by_cases hL : L = []
    · subst hL
      refine ⟨.str (chars bf k.length k) :: .punct 58 :: (ts ++ [.punct 125]), [(k', j)], ?_, hkey _ ?_,
        Apart.cons rfl (Apart.cons rfl (Apart.append (r := []) h3 trivial)), .cons hk1 h4 .nil, by simp, ?_⟩
      · rw [spells_cons, spells_cons, spells_append, ← h1]; simp [join1, spells, spell, quote]
      · intro x hx
        rcases List.mem_append.1 hx with h | h
        · exact h2 x h
        · rw [List.mem_singleton] at h; subst h; exact rfl
      · intro n r hn
        simp only [List.length_append, List.length_cons, List.length_nil] at hn
        obtain ⟨m, rfl⟩ : ∃ m, n = m + 1 := ⟨n - 1, by omega⟩
        rw [List.cons_append, List.cons_append, Spec.members, hk2]
        simp only [Option.bind_some]
        rw [List.append_assoc, h5 m _ (by omega)]
        simp
    · obtain ⟨us, ms, g1, g2, g3, g4, g5, g6⟩ := members_val bf L hL (fun e he => hv e (by simp [he]))
      refine ⟨.str (chars bf k.length k) :: .punct 58 :: (ts ++ .punct 44 :: us), (k', j) :: ms, ?_, hkey _ ?_,
        Apart.cons rfl (Apart.cons rfl (Apart.append h3 g3)), .cons hk1 h4 g4, by simp, ?_⟩
      · rw [spells_cons, spells_cons, spells_append, spells_cons, ← h1, ← g1, List.map_cons, join1_cons_ne _ _ _ (by simpa using hL)]
        simp [spell, quote]
      · intro x hx
        rcases List.mem_append.1 hx with h | h
        · exact h2 x h
        · rcases List.mem_cons.1 h with rfl | h
          · exact rfl
          · exact g2 x h
      · intro n r hn
        simp only [List.length_append, List.length_cons] at hn
        obtain ⟨m, rfl⟩ : ∃ m, n = m + 1 := ⟨n - 1, by omega⟩
        rw [List.cons_append, List.cons_append, Spec.members, hk2]
        simp only [Option.bind_some]
        rw [List.append_assoc, h5 m _ (by omega)]
        simp [g6 m r (by omega)]

theorem Val.list {L : List (Str × GJ)} (h : ∀ e ∈ L, Val e.1 e.2) : Val (91 :: join1 44 (L.map Prod.fst) ++ [93]) (.list (L.map Prod.snd)) := by
  by_cases hL : L = []
  · subst hL
    refine ⟨[.punct 91, .punct 93], .arr [], rfl, ?_, ?_, .list .nil, ?_⟩
    · intro k hk
      simp only [List.mem_cons, List.not_mem_nil, or_false] at hk
      rcases hk with rfl | rfl <;> exact rfl
    · exact ⟨by simp [isWord], trivial⟩
    · intro n r hn
      obtain ⟨m, rfl⟩ : ∃ m, n = m + 1 := ⟨n - 1, by simp at hn; omega⟩
      rw [List.cons_append, Spec.value, if_pos rfl, if_pos (by simp)]
      rfl
  · obtain ⟨ts, js, h1, h2, h3, h4, h5, h6⟩ := elements_val L hL h
    refine ⟨.punct 91 :: ts, .arr js, ?_, ?_, Apart.cons rfl h3, .list h4, ?_⟩
    · rw [spells_cons, ← h1]; rfl
    · intro k hk
      rcases List.mem_cons.1 hk with rfl | hk
      · exact rfl
      · exact h2 k hk
    · intro n r hn
      obtain ⟨m, rfl⟩ : ∃ m, n = m + 1 := ⟨n - 1, by simp at hn; omega⟩
      have h7 := h6 m r (by simp at hn; omega)
      have hne : ts ≠ [] := by
        rintro rfl
        simp [spells] at h1
      have hh : (ts ++ r).head? ≠ some (.punct 93) := by
        cases ts with
        | nil => exact absurd rfl hne
        | cons a b => exact h5
      rw [List.cons_append, Spec.value, if_pos rfl, if_neg hh, h7]
      rfl

theorem object_val (bf : Bool) {L : List (Str × (Str × GJ))} (h : ∀ e ∈ L, Val e.2.1 e.2.2) (v : GJ)
    (hv : ∀ ms, Spec.SaysMembers (L.map fun e => (e.1, e.2.2)) ms → Spec.Says v (.obj ms)) :
    Val (object bf (L.map fun e => (e.1, e.2.1))) v := by
  unfold object
  rw [List.map_map]
  by_cases hL : L = []
  · subst hL
    refine ⟨[.punct 123, .punct 125], .obj [], rfl, ?_, ?_, hv [] .nil, ?_⟩
    · intro k hk
      simp only [List.mem_cons, List.not_mem_nil, or_false] at hk
      rcases hk with rfl | rfl <;> exact rfl
    · exact ⟨by simp [isWord], trivial⟩
    · intro n r hn
      obtain ⟨m, rfl⟩ : ∃ m, n = m + 1 := ⟨n - 1, by simp at hn; omega⟩
      rw [List.cons_append, Spec.value, if_neg (by decide), if_pos rfl, if_pos (by simp)]
      rfl
  · obtain ⟨ts, ms, h1, h2, h3, h4, h5, h6⟩ := members_val bf L hL h
    refine ⟨.punct 123 :: ts, .obj ms, ?_, ?_, Apart.cons rfl h3, hv ms h4, ?_⟩
    · rw [spells_cons, ← h1]; rfl
    · intro k hk
      rcases List.mem_cons.1 hk with rfl | hk
      · exact rfl
      · exact h2 k hk
    · intro n r hn
      obtain ⟨m, rfl⟩ : ∃ m, n = m + 1 := ⟨n - 1, by simp at hn; omega⟩
      have h7 := h6 m r (by simp at hn; omega)
      have hne : ts ≠ [] := by
        rintro rfl
        simp [spells] at h1
      have hh : (ts ++ r).head? ≠ some (.punct 125) := by
        cases ts with
        | nil => exact absurd rfl hne
        | cons a b => exact h5
      rw [List.cons_append, Spec.value, if_neg (by decide), if_pos rfl, if_neg hh, h7]
      rfl

/-! ### Sorting -/

theorem insertK_map {α β : Type} (f : Str × α → Str × β) (hf : ∀ e, (f e).1 = e.1) (e : Str × α) :
    ∀ l, insertK (f e) (l.map f) = (insertK e l).map f
  | [] => rfl
  | g :: l => by
    have ih := insertK_map f hf e l
    simp only [List.map_cons, insertK, hf]
    split
    · rfl
    · simp [ih]

theorem sortK_map {α β : Type} (f : Str × α → Str × β) (hf : ∀ e, (f e).1 = e.1) : ∀ l, sortK (l.map f) = (sortK l).map f
  | [] => rfl
  | e :: l => by
    rw [List.map_cons, sortK, sortK_map f hf l, insertK_map f hf, sortK]

theorem insertK_perm {α : Type} (e : Str × α) : ∀ l, (insertK e l).Perm (e :: l)
  | [] => .refl _
  | g :: l => by
    simp only [insertK]
    split
    · exact .refl _
    · exact ((insertK_perm e l).cons g).trans (.swap e g l)

theorem sortK_perm {α : Type} : ∀ l : List (Str × α), (sortK l).Perm l
  | [] => .refl _
  | e :: l => (insertK_perm e (sortK l)).trans ((sortK_perm l).cons e)

theorem zip_triples {α β : Type} : ∀ (ks : List Str) (ts : List α) (vs : List β), ts.length = vs.length →
    ks.zip ts = (ks.zip (ts.zip vs)).map (fun e => (e.1, e.2.1)) ∧ ks.zip vs = (ks.zip (ts.zip vs)).map (fun e => (e.1, e.2.2))
  | [], _, _, _ => by simp
  | _ :: _, [], [], _ => by simp
  | k :: ks, t :: ts, v :: vs, h => by
    have := zip_triples ks ts vs (by simpa using h)
    simp [this.1.symm, this.2.symm]
  | _ :: _, [], _ :: _, h => by simp at h
  | _ :: _, _ :: _, [], h => by simp at h

theorem zip_mem {α β : Type} : ∀ (ks : List α) (l : List β) (e : α × β), e ∈ ks.zip l → e.2 ∈ l := fun ks l e h => (List.of_mem_zip h).2

/-! ### The encoder -/

mutual
theorem enc_val (bf : Bool) (v : GJ) (t : Str) (h : enc bf v = some t) : Val t v := by
  match v with
  | .nil =>
    simp only [enc, Option.some.injEq] at h; subst h
    exact Val.word (by simp) (by decide +kernel) (by decide +kernel) (by rfl) .nil
  | .bool true =>
    simp only [enc, Option.some.injEq] at h; subst h
    exact Val.word (by simp) (by decide +kernel) (by decide +kernel) (by rfl) (.bool true)
  | .bool false =>
    simp only [enc, Option.some.injEq] at h; subst h
    exact Val.word (by simp) (by decide +kernel) (by decide +kernel) (by rfl) (.bool false)
  | .int i => simp only [enc, Option.some.injEq] at h; subst h; exact Val.int i
  | .float bits f => simp only [enc] at h; exact Val.float bits f t h
  | .str s => simp only [enc, Option.some.injEq] at h; subst h; exact Val.str bf s
  | .list l =>
    simp only [enc, Option.map_eq_some_iff] at h
    obtain ⟨ts, h1, rfl⟩ := h
    obtain ⟨h2, h3⟩ := encAll_val bf l ts h1
    have := Val.list (L := ts.zip l) h3
    rwa [List.map_fst_zip (by omega), List.map_snd_zip (by omega)] at this
  | .struct ks vs =>
    simp only [enc, Option.map_eq_some_iff] at h
    obtain ⟨ts, h1, rfl⟩ := h
    obtain ⟨h2, h3⟩ := encAll_val bf vs ts h1
    obtain ⟨e1, e2⟩ := zip_triples ks ts vs h2
    rw [e1]
    refine object_val bf (fun e he => h3 _ (zip_mem _ _ e he)) _ fun ms hm => .struct ?_
    rw [e2]; exact hm
  | .map ks vs =>
    simp only [enc, Option.map_eq_some_iff] at h
    obtain ⟨ts, h1, rfl⟩ := h
    obtain ⟨h2, h3⟩ := encAll_val bf vs ts h1
    obtain ⟨e1, e2⟩ := zip_triples ks ts vs h2
    rw [e1, sortK_map (fun e : Str × (Str × GJ) => (e.1, e.2.1)) (fun _ => rfl)]
    refine object_val bf (fun e he => h3 _ (zip_mem _ _ e ((sortK_perm _).mem_iff.1 he))) _ fun ms hm => .map ?_ hm
    rw [e2]; exact (sortK_perm _).map _
  | .bad => simp [enc] at h
theorem encAll_val (bf : Bool) (l : List GJ) (ts : List Str) (h : encAll bf l = some ts) :
    ts.length = l.length ∧ ∀ e ∈ ts.zip l, Val e.1 e.2 := by
  match l with
  | [] => simp only [encAll, Option.some.injEq] at h; subst h; simp
  | v :: l =>
    simp only [encAll] at h
    cases h1 : enc bf v with
    | none => rw [h1] at h; simp at h
    | some t =>
      cases h2 : encAll bf l with
      | none => rw [h1, h2] at h; simp at h
      | some us =>
        rw [h1, h2] at h
        simp only [Option.some.injEq] at h
        subst h
        have i1 := enc_val bf v t h1
        have i2 := encAll_val bf l us h2
        refine ⟨by simp [i2.1], fun e he => ?_⟩
        rw [List.zip_cons_cons] at he
        rcases List.mem_cons.1 he with rfl | he
        · exact i1
        · exact i2.2 e he
end

/-! ## C141 -/

theorem parse_of {x : Str} {ts : List Tok} {j : J} (hl : Lexes x ts) (hv : ∀ n r, 3 * ts.length ≤ n → Spec.value n (ts ++ r) = some (j, r)) :
    Spec.parse x = some j := by
  unfold Spec.parse Spec.lex
  rw [hl _ (Nat.le_refl _)]
  simp only [Option.bind_some]
  have := hv (3 * ts.length + 1) [] (by omega)
  rw [List.append_nil] at this
  rw [this]
  rfl

/-- C141: the text of a value - compact and indented alike - is JSON, and what it says is the value; it is UTF-8, and free of `<`, `>` and
`&` and of the characters U+2028 and U+2029. -/
theorem C141_says (bf : Bool) (v : GJ) (t : Str) (h : enc bf v = some t) :
    (∃ j, Spec.Says v j ∧ Spec.parse t = some j ∧ Spec.parse (indent t) = some j) ∧
    (∀ x, x = t ∨ x = indent t → Spec.Utf8Js x ∧ ∀ c ∈ x, c ≠ 60 ∧ c ≠ 62 ∧ c ≠ 38) := by
  obtain ⟨ts, j, rfl, h1, h2, h3, h4⟩ := enc_val bf v t h
  obtain ⟨a1, a2⟩ := lexes_spells ts h1 h2
  obtain ⟨b1, b2⟩ := lexes_indent ts h1 h2 false 0
  refine ⟨⟨j, h3, parse_of a1 h4, parse_of b1 h4⟩, ?_⟩
  rintro x (rfl | rfl)
  · exact ⟨a2.enc8, a2.safe⟩
  · exact ⟨b2.enc8, b2.safe⟩

mutual
theorem enc_none (bf : Bool) (v : GJ) : enc bf v = none ↔ Spec.NoJson v := by
  match v with
  | .nil => simp [enc, Spec.NoJson]
  | .bool true => simp [enc, Spec.NoJson]
  | .bool false => simp [enc, Spec.NoJson]
  | .int i => simp [enc, Spec.NoJson]
  | .float bits v =>
    simp only [enc, Spec.NoJson]
    cases v with
    | nan => simp [jsonFloat]
    | num neg b =>
      by_cases hb : b < (Flt.fmtOf bits).inf
      · simp only [jsonFloat, if_pos hb]
        constructor
        · intro h; cases h
        · intro h; exact absurd hb (Nat.not_lt.2 (h neg b rfl))
      · simp only [jsonFloat, if_neg hb, true_iff]
        intro neg' b' e
        cases e
        exact Nat.not_lt.1 hb
  | .str s => simp [enc, Spec.NoJson]
  | .list l => simp only [enc, Spec.NoJson, Option.map_eq_none_iff]; exact encAll_none bf l
  | .struct ks vs => simp only [enc, Spec.NoJson, Option.map_eq_none_iff]; exact encAll_none bf vs
  | .map ks vs => simp only [enc, Spec.NoJson, Option.map_eq_none_iff]; exact encAll_none bf vs
  | .bad => simp [enc, Spec.NoJson]
theorem encAll_none (bf : Bool) (l : List GJ) : encAll bf l = none ↔ Spec.AnyNoJson l := by
  match l with
  | [] => simp [encAll, Spec.AnyNoJson]
  | v :: l =>
    have i1 := enc_none bf v
    have i2 := encAll_none bf l
    simp only [encAll, Spec.AnyNoJson]
    rw [← i1, ← i2]
    cases enc bf v <;> cases encAll bf l <;> simp
end

/-- C141: there is a text unless the value contains a function or a channel, or a float that is infinite or not a number. -/
theorem C141_fails_iff (bf : Bool) (v : GJ) : enc bf v = none ↔ Spec.NoJson v := enc_none bf v

/-! ### Text that is UTF-8 is read as it is -/

theorem reads_utf8 : ∀ (cs : List Nat), (∀ c ∈ cs, Scalar c) → ∀ t, Spec.Reads (cs.flatMap utf8) t → t = cs.flatMap utf8
  | [], _, t, h => by
    simp only [List.flatMap_nil] at h ⊢
    generalize hs : ([] : Str) = s at h
    cases h with
    | nil => rfl
    | @char n s t hn _ =>
      exfalso
      have := (runeLen_utf8 n hn []).2
      have h0 := congrArg List.length hs
      simp only [List.length_nil, List.length_append] at h0
      omega
    | bad => cases hs
  | n :: cs, hc, t, h => by
    rw [List.flatMap_cons] at h ⊢
    generalize hs : utf8 n ++ cs.flatMap utf8 = s at h
    have hn := hc n (by simp)
    cases h with
    | nil =>
      exfalso
      have := (runeLen_utf8 n hn []).2
      have h0 := congrArg List.length hs
      simp only [List.length_nil, List.length_append] at h0
      omega
    | @char m s t hm hr =>
      have e1 := (runeLen_utf8 n hn (cs.flatMap utf8)).1
      have e2 := (runeLen_utf8 m hm s).1
      rw [hs, e2] at e1
      obtain ⟨e3, e4⟩ := List.append_inj hs e1.symm
      rw [← e4] at hr
      rw [← e3, reads_utf8 cs (fun c h => hc c (by simp [h])) t hr, e4]
    | @bad c s t hb hr => exact absurd ⟨n, _, hn, hs.symm⟩ hb

/-- C141: a string that is UTF-8 is read back exactly; every string is read back in one way. -/
theorem C141_text (s t : Str) (h : Spec.Reads s t) (hu : Spec.Utf8 s) : t = s := by
  obtain ⟨cs, h1, rfl⟩ := hu
  exact reads_utf8 cs h1 t h

theorem reads_unique : ∀ (k : Nat) (s : Str), s.length ≤ k → ∀ t t', Spec.Reads s t → Spec.Reads s t' → t = t' := by
  intro k
  induction k with
  | zero =>
    intro s hl t t' h h'
    have : s = [] := List.length_eq_zero_iff.1 (by omega)
    subst this
    exact (reads_utf8 [] (by simp) t h).trans (reads_utf8 [] (by simp) t' h').symm
  | succ k ih =>
    intro s hl t t' h h'
    cases h with
    | nil => exact (reads_utf8 [] (by simp) t' h').symm
    | @char n s t hn hr =>
      have hp := (runeLen_utf8 n hn []).2
      generalize hs : utf8 n ++ s = x at h'
      cases h' with
      | nil =>
        have h0 := congrArg List.length hs
        simp only [List.length_nil, List.length_append] at h0
        omega
      | @char m s' t' hm hr' =>
        have e1 := (runeLen_utf8 n hn s).1
        have e2 := (runeLen_utf8 m hm s').1
        rw [hs, e2] at e1
        obtain ⟨e3, e4⟩ := List.append_inj hs e1.symm
        subst e4
        rw [← e3, ih s (by simp at hl; omega) t t' hr hr']
      | @bad c s' t' hb hr' => exact absurd ⟨n, _, hn, hs.symm⟩ hb
    | @bad c s t hb hr =>
      generalize hs : c :: s = x at h'
      cases h' with
      | nil => cases hs
      | @char m s' t' hm hr' => exact absurd ⟨m, _, hm, hs⟩ hb
      | @bad c' s' t' hb' hr' =>
        cases hs
        rw [ih s (by simp at hl; omega) t t' hr hr']

theorem C141_text_unique (s t t' : Str) (h : Spec.Reads s t) (h' : Spec.Reads s t') : t = t' :=
  reads_unique s.length s (Nat.le_refl _) t t' h h'

/-! ### The order in which a map is visited does not show -/

theorem str_le_antisymm {a b : Str} (h1 : a ≤ b) (h2 : b ≤ a) : a = b := List.le_antisymm h1 h2

def Sorted {α : Type} : List (Str × α) → Prop := List.Pairwise (fun a b => a.1 ≤ b.1)

theorem insertK_sorted {α : Type} (e : Str × α) : ∀ l : List (Str × α), Sorted l → Sorted (insertK e l)
  | [], _ => by simp [insertK, Sorted]
  | g :: l, h => by
    simp only [insertK]
    obtain ⟨h1, h2⟩ := List.pairwise_cons.1 h
    by_cases hle : e.1 ≤ g.1
    · rw [if_pos hle]
      refine List.pairwise_cons.2 ⟨fun x hx => ?_, h⟩
      rcases List.mem_cons.1 hx with rfl | hx
      · exact hle
      · exact List.le_trans hle (h1 x hx)
    · rw [if_neg hle]
      have hge : g.1 ≤ e.1 := (List.le_total g.1 e.1).resolve_right hle
      refine List.pairwise_cons.2 ⟨fun x hx => ?_, insertK_sorted e l h2⟩
      rcases List.mem_cons.1 ((insertK_perm e l).mem_iff.1 hx) with rfl | hx
      · exact hge
      · exact h1 x hx

theorem sortK_sorted {α : Type} : ∀ l : List (Str × α), Sorted (sortK l)
  | [] => List.Pairwise.nil
  | e :: l => insertK_sorted e _ (sortK_sorted l)

theorem sorted_unique {α : Type} : ∀ (a b : List (Str × α)), Sorted a → Sorted b → (a.map Prod.fst).Nodup → a.Perm b → a = b
  | [], b, _, _, _, hp => by rw [List.nil_perm.1 hp]
  | x :: a, [], _, _, _, hp => by simp at hp
  | x :: a, y :: b, ha, hb, hn, hp => by
    have hxy : x = y := by
      have hx := hp.mem_iff.1 (List.mem_cons_self (a := x) (l := a))
      have hy := hp.mem_iff.2 (List.mem_cons_self (a := y) (l := b))
      rcases List.mem_cons.1 hx with e | hx
      · exact e
      · rcases List.mem_cons.1 hy with e | hy
        · exact e.symm
        · exfalso
          have h1 := (List.pairwise_cons.1 ha).1 y hy
          have h2 := (List.pairwise_cons.1 hb).1 x hx
          have e := str_le_antisymm h1 h2
          rw [List.map_cons] at hn
          exact (List.nodup_cons.1 hn).1 (List.mem_map.2 ⟨y, hy, e.symm⟩)
    subst hxy
    rw [sorted_unique a b (List.pairwise_cons.1 ha).2 (List.pairwise_cons.1 hb).2 (List.nodup_cons.1 hn).2 ((List.perm_cons x).1 hp)]

theorem encAll_eq (bf : Bool) : ∀ (l : List GJ) (ts : List Str), encAll bf l = some ts → l.map (enc bf) = ts.map some
  | [], ts, h => by simp only [encAll, Option.some.injEq] at h; subst h; rfl
  | v :: l, ts, h => by
    simp only [encAll] at h
    cases h1 : enc bf v with
    | none => rw [h1] at h; simp at h
    | some t =>
      cases h2 : encAll bf l with
      | none => rw [h1, h2] at h; simp at h
      | some us =>
        rw [h1, h2] at h
        simp only [Option.some.injEq] at h
        subst h
        simp [h1, encAll_eq bf l us h2]

theorem zip_texts (bf : Bool) : ∀ (ks : List Str) (vs : List GJ) (ts : List Str), vs.map (enc bf) = ts.map some →
    ks.zip ts = (ks.zip vs).map fun e => (e.1, (enc bf e.2).getD [])
  | [], _, _, _ => by simp
  | _ :: _, [], [], _ => by simp
  | k :: ks, v :: vs, t :: ts, h => by
    simp only [List.map_cons, List.cons.injEq] at h
    simp [zip_texts bf ks vs ts h.2, h.1]
  | _ :: _, [], _ :: _, h => by simp at h
  | _ :: _, _ :: _, [], h => by simp at h

/-- C141: the text of a map does not depend on the order in which it is visited. -/
theorem C141_order (bf : Bool) (ks ks' : List Str) (vs vs' : List GJ) (hl : ks.length = vs.length) (hl' : ks'.length = vs'.length)
    (hn : ks.Nodup) (hp : (ks.zip vs).Perm (ks'.zip vs')) : enc bf (.map ks vs) = enc bf (.map ks' vs') := by
  have hv : vs.Perm vs' := by
    have := hp.map Prod.snd
    rwa [List.map_snd_zip (by omega), List.map_snd_zip (by omega)] at this
  have hany : ∀ l : List GJ, encAll bf l = none ↔ ∃ v ∈ l, enc bf v = none := by
    intro l
    induction l with
    | nil => simp [encAll]
    | cons v l ih =>
      simp only [encAll]
      cases h1 : enc bf v with
      | none => simp [h1]
      | some t =>
        cases h2 : encAll bf l with
        | none =>
          simp only [true_iff]
          obtain ⟨w, hw, e⟩ := ih.1 h2
          exact ⟨w, by simp [hw], e⟩
        | some us =>
          simp only [reduceCtorEq, false_iff]
          rintro ⟨w, hw, e⟩
          rcases List.mem_cons.1 hw with rfl | hw
          · rw [h1] at e; cases e
          · rw [ih.2 ⟨w, hw, e⟩] at h2; cases h2
  simp only [enc]
  cases h1 : encAll bf vs with
  | none =>
    obtain ⟨w, hw, e⟩ := (hany vs).1 h1
    rw [(hany vs').2 ⟨w, hv.mem_iff.1 hw, e⟩]
    rfl
  | some ts =>
    cases h2 : encAll bf vs' with
    | none =>
      obtain ⟨w, hw, e⟩ := (hany vs').1 h2
      rw [(hany vs).2 ⟨w, hv.mem_iff.2 hw, e⟩] at h1; cases h1
    | some ts' =>
      simp only [Option.map_some]
      refine congrArg (fun l => some (object bf l)) ?_
      rw [zip_texts bf ks vs ts (encAll_eq bf vs ts h1), zip_texts bf ks' vs' ts' (encAll_eq bf vs' ts' h2)]
      refine sorted_unique _ _ (sortK_sorted _) (sortK_sorted _) ?_ ((sortK_perm _).trans ((hp.map _).trans (sortK_perm _).symm))
      refine (((sortK_perm _).map Prod.fst).nodup_iff).2 ?_
      rw [List.map_map]
      have e : (Prod.fst ∘ fun e : Str × GJ => (e.1, (enc bf e.2).getD [])) = Prod.fst := rfl
      rw [e, List.map_fst_zip (by omega)]
      exact hn

/-! ### Answers -/

/-- What an answer to an error says: its code unless it is 0, its message unless it is empty, its data unless it is nil - and nothing
else. -/
inductive Spec.SaysError (code : Int) (message : Str) (data : Option GJ) : J → Prop
  | mk {m : Str} {d : Option J} : Spec.Reads message m → (data = none ↔ d = none) → (∀ v j, data = some v → d = some j → Spec.Says v j) →
      Spec.SaysError code message data (.obj (
        (if code = 0 then [] else [(b!"code", .num code)]) ++ (if message = [] then [] else [(b!"message", .str m)]) ++
        (match d with | none => [] | some j => [(b!"data", j)])))

theorem utf8_ascii {s : Str} (h : s.all plainByte = true) : Spec.Utf8 s := (Nice.ascii h).enc8.utf8

theorem saysMembers_append : ∀ (a b : List (Str × GJ)) (ms : List (Str × J)), Spec.SaysMembers (a ++ b) ms →
    ∃ x y, ms = x ++ y ∧ Spec.SaysMembers a x ∧ Spec.SaysMembers b y
  | [], b, ms, h => ⟨[], ms, rfl, .nil, h⟩
  | e :: a, b, ms, h => by
    rw [List.cons_append] at h
    cases h with
    | cons h1 h2 h3 =>
      obtain ⟨x, y, rfl, h4, h5⟩ := saysMembers_append a b _ h3
      exact ⟨_ :: x, y, rfl, .cons h1 h2 h4, h5⟩

theorem says_int {i : Int} {j : J} (h : Spec.Says (.int i) j) : j = .num i := by cases h; rfl

theorem says_str {s : Str} {j : J} (h : Spec.Says (.str s) j) : ∃ t, Spec.Reads s t ∧ j = .str t := by
  cases h with
  | str h => exact ⟨_, h, rfl⟩

theorem saysMembers_one {k : Str} {v : GJ} {ms : List (Str × J)} (hk : k.all plainByte = true) (h : Spec.SaysMembers [(k, v)] ms) :
    ∃ j, ms = [(k, j)] ∧ Spec.Says v j := by
  cases h with
  | cons h1 h2 h3 =>
    cases h3
    rw [C141_text _ _ h1 (utf8_ascii hk)]
    exact ⟨_, rfl, h2⟩

/-- Every string can be read. -/
theorem reads_total (s : Str) : ∃ t, Spec.Reads s t := by
  obtain ⟨t, h, _⟩ := (quote_good false s).reads
  exact ⟨t, h⟩

theorem zip_map {α β : Type} : ∀ l : List (α × β), (l.map Prod.fst).zip (l.map Prod.snd) = l
  | [] => rfl
  | e :: l => by simp [zip_map l]

theorem saysError {code : Int} {message : Str} {data : Option GJ} {j : J} (h : Spec.Says (errGJ code message data) j) :
    Spec.SaysError code message data j := by
  unfold errGJ at h
  cases h with
  | @struct _ _ ms h =>
    rw [zip_map] at h
    unfold errFields at h
    obtain ⟨x, z, rfl, hx, hz⟩ := saysMembers_append _ _ _ h
    obtain ⟨x, y, rfl, hx, hy⟩ := saysMembers_append _ _ _ hx
    have h1 : x = if code = 0 then [] else [(b!"code", .num code)] := by
      by_cases hc : code = 0
      · rw [if_pos hc] at hx ⊢; cases hx; rfl
      · rw [if_neg hc] at hx ⊢
        obtain ⟨j, rfl, hj⟩ := saysMembers_one (by decide) hx
        rw [says_int hj]
    have h2 : ∃ m, Spec.Reads message m ∧ y = if message = [] then [] else [(b!"message", .str m)] := by
      by_cases hc : message = []
      · rw [if_pos hc] at hy
        cases hy
        obtain ⟨m, hm⟩ := reads_total message
        exact ⟨m, hm, by rw [if_pos hc]⟩
      · rw [if_neg hc] at hy
        obtain ⟨j, rfl, hj⟩ := saysMembers_one (by decide) hy
        obtain ⟨m, hm, rfl⟩ := says_str hj
        exact ⟨m, hm, by rw [if_neg hc]⟩
    obtain ⟨m, hm, h2⟩ := h2
    cases data with
    | none =>
      cases hz
      rw [h1, h2]
      exact .mk (d := none) hm (by simp) (by simp)
    | some v =>
      obtain ⟨j, rfl, hj⟩ := saysMembers_one (by decide) hz
      rw [h1, h2]
      refine .mk (d := some j) hm (by simp) ?_
      intro v' j' e1 e2
      cases e1; cases e2
      exact hj

theorem errGJ_noJson (code : Int) (message : Str) (data : Option GJ) :
    Spec.NoJson (errGJ code message data) ↔ ∃ v, data = some v ∧ Spec.NoJson v := by
  have key : ∀ l : List GJ, Spec.AnyNoJson l ↔ ∃ v ∈ l, Spec.NoJson v := by
    intro l
    induction l with
    | nil => simp [Spec.AnyNoJson]
    | cons v l ih => simp [Spec.AnyNoJson, ih]
  simp only [errGJ, Spec.NoJson, key, errFields]
  cases data with
  | none => by_cases h1 : code = 0 <;> by_cases h2 : message = [] <;> simp [h1, h2, Spec.NoJson]
  | some v => by_cases h1 : code = 0 <;> by_cases h2 : message = [] <;> simp [h1, h2, Spec.NoJson]

/-- The failure object. -/
theorem failure_says (msg : Str) {j : J} (h : Spec.Says (failure msg) j) (bf : Bool) :
    Spec.parse ((enc bf (failure msg)).getD []) = some j → ∃ m, Spec.Reads msg m ∧ j = .obj [(b!"code", .num 500), (b!"message", .str m)] := by
  intro hp
  have e : enc bf (failure msg) = some (object bf [(b!"code", fmtInt 500), (b!"message", quote bf msg)]) := by
    simp only [failure, enc, encAll, Option.map_some, List.zip_cons_cons, List.zip_nil_right, sortK, insertK]
    rw [if_pos (by decide)]
  have e2 : enc bf (.struct [b!"code", b!"message"] [.int 500, .str msg]) = some (object bf [(b!"code", fmtInt 500), (b!"message", quote bf msg)]) := by
    simp only [enc, encAll, Option.map_some, List.zip_cons_cons, List.zip_nil_right]
  obtain ⟨⟨j', h1, h2, -⟩, -⟩ := C141_says bf _ _ e2
  rw [e] at hp
  simp only [Option.getD_some] at hp
  rw [h2] at hp
  cases hp
  cases h1 with
  | @struct _ _ ms h1 =>
    simp only [List.zip_cons_cons, List.zip_nil_right] at h1
    cases h1 with
    | cons a1 a2 a3 =>
      cases a3 with
      | cons b1 b2 b3 =>
        cases b3
        obtain ⟨m, hm, rfl⟩ := says_str b2
        rw [says_int a2, C141_text _ _ a1 (utf8_ascii (by decide)), C141_text _ _ b1 (utf8_ascii (by decide))]
        exact ⟨m, hm, rfl⟩

/-- C141: a body given to `With` is answered with JSON that says it, with the status given; if it has no JSON, with the same status and
an object with code 500 and the encoder's message. -/
theorem C141_answer (dev bf : Bool) (status : Nat) (v : GJ) (msg : Str) (bs : List Resp.BF) (hb : Api.Spec.Quiet bs) (hs : status ≠ 204) :
    ∃ x, Api.Spec.Gets (Api.Spec.answer bs ((Api.ResBody.mk status (some (jval bf v msg))).write dev).ops) (Api.Spec.wanted status) x ∧
      ((Api.ResBody.mk status (some (jval bf v msg))).write dev).contentType = some b!"application/json; charset=UTF-8" ∧
      (¬ Spec.NoJson v → ∃ j, Spec.parse x = some j ∧ Spec.Says v j) ∧
      (Spec.NoJson v → ∃ m, Spec.Reads msg m ∧ Spec.parse x = some (.obj [(b!"code", .num 500), (b!"message", .str m)])) := by
  have hg := Api.C67_res_status dev ⟨status, some (jval bf v msg)⟩ bs hb
  simp only [if_neg hs, Option.getD_some] at hg
  refine ⟨_, hg, ?_, fun hj => ?_, fun hj => ?_⟩
  · unfold Api.ResBody.write
    rw [if_neg (by
      show ¬ (if status = 0 then 200 else status) = 204
      by_cases h0 : status = 0
      · rw [if_pos h0]; decide
      · rw [if_neg h0]; exact hs)]
    unfold Api.writeJson
    split <;> rfl
  · cases he : enc bf v with
    | none => exact absurd ((enc_none bf v).1 he) hj
    | some t =>
      obtain ⟨⟨j, h1, h2, h3⟩, -⟩ := C141_says bf v t he
      refine ⟨j, ?_, h1⟩
      cases dev with
      | false => simpa [Api.Spec.encoded, jval, he] using h2
      | true => simpa [Api.Spec.encoded, jval, he] using h3
  · have he := (enc_none bf v).2 hj
    cases hf : enc bf (failure msg) with
    | none =>
      have := (enc_none bf _).1 hf
      simp [failure, Spec.NoJson, Spec.AnyNoJson] at this
    | some t =>
      obtain ⟨⟨j, h1, h2, h3⟩, -⟩ := C141_says bf _ t hf
      obtain ⟨m, hm, rfl⟩ := failure_says msg h1 bf (by rw [hf]; exact h2)
      refine ⟨m, hm, ?_⟩
      cases dev with
      | false => simpa [Api.Spec.encoded, jval, he, hf] using h2
      | true => simpa [Api.Spec.encoded, jval, he, hf] using h3

/-- C141: the answer to a `ResError` says its code, its message and its data, as far as they are there, and nothing else; `Error()` is a
text that says the same. -/
theorem C141_error (dev bf : Bool) (status : Nat) (code : Int) (message msg : Str) (data : Option GJ) (bs : List Resp.BF)
    (hb : Api.Spec.Quiet bs) (hs : status ≠ 204) (hd : ∀ v, data = some v → ¬ Spec.NoJson v) :
    ∃ x j, Api.Spec.Gets (Api.Spec.answer bs ((Api.ResBody.mk status (some (jval bf (errGJ code message data) msg))).write dev).ops)
        (Api.Spec.wanted status) x ∧
      Spec.parse x = some j ∧ Spec.parse (errText bf code message data) = some j ∧ Spec.SaysError code message data j := by
  have hn : ¬ Spec.NoJson (errGJ code message data) := by
    rw [errGJ_noJson]
    rintro ⟨v, h1, h2⟩
    exact hd v h1 h2
  cases he : enc bf (errGJ code message data) with
  | none => exact absurd ((enc_none bf _).1 he) hn
  | some t =>
    obtain ⟨⟨j, h1, h2, h3⟩, -⟩ := C141_says bf _ t he
    have hg := Api.C67_res_status dev ⟨status, some (jval bf (errGJ code message data) msg)⟩ bs hb
    simp only [if_neg hs, Option.getD_some] at hg
    refine ⟨_, j, hg, ?_, by simpa [errText, he] using h2, saysError h1⟩
    cases dev with
    | false => simpa [Api.Spec.encoded, jval, he] using h2
    | true => simpa [Api.Spec.encoded, jval, he] using h3

/-! ### Examples -/

/-- A text with a quote, markup, a control character, U+2028 and a byte that is no character. -/
def exMsg : Str := [97, 34, 60, 8, 0xE2, 0x80, 0xA8, 0xFF, 0xC3, 0xA9]

theorem C141_example : enc false (errGJ 7 exMsg (some (.map [b!"b", b!"a"] [.list [.nil, .bool true], .struct [] []]))) =
    some (b!"{\"code\":7,\"message\":\"a\\\"\\u003c\\u0008\\u2028\\ufffd" ++ [0xC3, 0xA9] ++ b!"\",\"data\":{\"a\":{},\"b\":[null,true]}}") ∧
    indent b!"{\"a\":[],\"b\":[1,\"x,y\"]}" = b!"{\n  \"a\": [],\n  \"b\": [\n    1,\n    \"x,y\"\n  ]\n}" ∧
    enc false (errGJ 0 [] (some (.list [.bad]))) = none := by
  decide +kernel

/-- The reader on texts the encoder does not write. -/
theorem C141_reader_example : Spec.text b!"\\ud83d\\ude00\\/" = some ([0xF0, 0x9F, 0x98, 0x80] ++ b!"/") ∧ Spec.text b!"\\ud83d" = none ∧
    (Spec.parse b!" [01]").isNone = true ∧ (Spec.parse b!" [ 1 , -2 ]\n").isSome = true ∧ (Spec.parse b!"[1,]").isNone = true ∧
    (Spec.parse b!"{} {}").isNone = true := by
  decide +kernel

end Verif.Json
