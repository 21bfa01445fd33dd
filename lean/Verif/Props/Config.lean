import Verif.Proofs.Enc
import Verif.Proofs.Config
/-!
# C46–C49: configuration files and lookup
-/
namespace Verif.Conf
open Verif.Go

/-! ## C46: lookup precedence -/

/-- **C46**: the value of a name with section `s` and key `k` is the environment's when that is not empty,
otherwise that of the first file in the chain (the configuration itself, then its parents, nearest first) that
has a non-empty value, otherwise empty. -/
theorem C46_find_precedence (env : Str → Str) (d : Data) (parents : List Data) (name : Str)
    (hk : (sectionKey name).2 ≠ []) :
    let s := (sectionKey name).1
    let k := (sectionKey name).2
    find env (d :: parents) name =
      if env (envKey s k) ≠ [] then env (envKey s k)
      else (((d :: parents).map (fun d => ownValue d s k)).find? (fun v => v ≠ [])).getD [] := by
  intro s k
  have hs : s = (sectionKey name).1 := rfl
  have hk' : k = (sectionKey name).2 := rfl
  by_cases he : env (envKey s k) ≠ []
  · simp only [find]
    rw [if_neg hk, ← hs, ← hk', if_pos he, if_pos he]
  · rw [if_neg he]
    have key : ∀ (c : List Data), find env c name =
        ((c.map (fun d => ownValue d s k)).find? (fun v => v ≠ [])).getD [] := by
      intro c
      induction c with
      | nil => rfl
      | cons d c ih =>
        simp only [find]
        rw [if_neg hk, ← hs, ← hk', if_neg he]
        by_cases hv : ownValue d s k = []
        · rw [if_neg (by simpa using hv), ih]; simp [hv]
        · rw [if_pos hv]; simp [hv]
    exact key _

/-- Without a key there is no value, whatever the environment. -/
theorem C46_find_no_key (env : Str → Str) (chain : List Data) (name : Str) (hk : (sectionKey name).2 = []) :
    find env chain name = [] := by
  cases chain with
  | nil => rfl
  | cons d c => simp only [find]; rw [if_pos hk]

/-- How names are read: `section::key`, split at the first `::`. -/
theorem C46_name_with_section (s k : Str) (h : ∀ a b, s ++ [58] ≠ a ++ 58 :: 58 :: b) :
    sectionKey (s ++ 58 :: 58 :: k) = (s, k) := by
  have : splitName (s ++ 58 :: 58 :: k) = some (s, k) := by
    induction s with
    | nil => rfl
    | cons c s ih =>
      have ih' := ih (fun a b e => h (c :: a) b (by simp [e]))
      cases s with
      | nil =>
        have hc : c ≠ 58 := fun e => h [] [] (by simp [e])
        simp only [List.cons_append, List.nil_append, splitName]
        rw [if_neg (by simp [hc])]
        simp
      | cons d s =>
        have hcd : ¬ (c = 58 ∧ d = 58) := fun e => h [] (s ++ [58]) (by simp [e.1, e.2])
        simp only [List.cons_append] at ih' ⊢
        rw [splitName, if_neg hcd, ih']
        rfl
  unfold sectionKey
  rw [this]

/-- A name without `::` is a key of the default section. -/
theorem C46_name_without_section (k : Str) (h : ∀ a b, k ≠ a ++ 58 :: 58 :: b) : sectionKey k = ([], k) := by
  have : splitName k = none := by
    induction k with
    | nil => rfl
    | cons c k ih =>
      cases k with
      | nil => rfl
      | cons d k =>
        have hcd : ¬ (c = 58 ∧ d = 58) := fun e => h [] k (by simp [e.1, e.2])
        rw [splitName, if_neg hcd, ih (fun a b e => h (c :: a) b (by simp [e]))]
        rfl
  unfold sectionKey
  rw [this]

/-- **C46**: the environment variable of a key is `SECTION_KEY` (just `KEY` in the default section): letters in
upper case, `.`, `-`, `:` and blanks replaced by `_`, everything else kept, position by position. -/
theorem C46_env_name (s k : Str) :
    (envKey s k).length = (if s = [] then 0 else s.length + 1) + k.length ∧
    ∀ (i : Nat) (c : UInt8), ((if s = [] then k else s ++ b!"_" ++ k)[i]? = some c) →
      (envKey s k)[i]? = some (
        if c = 46 ∨ c = 45 ∨ c = 58 ∨ c = 32 then 95
        else if 97 ≤ c ∧ c ≤ 122 then c - 32 else c) := by
  have he : ∀ c : UInt8, upperByte (envByte c) =
      (if c = 46 ∨ c = 45 ∨ c = 58 ∨ c = 32 then 95 else if 97 ≤ c ∧ c ≤ 122 then c - 32 else c) := by
    exact forall_u8 (by decide +kernel)
  constructor
  · unfold envKey toUpper
    by_cases h : s = []
    · simp [h]
    · simp [h]; omega
  · intro i c hc
    rw [← he]
    unfold envKey toUpper
    rw [List.getElem?_map, List.getElem?_map]
    by_cases h : s = []
    · rw [if_pos h] at hc ⊢
      rw [List.nil_append, hc]; rfl
    · rw [if_neg h] at hc ⊢
      rw [hc]; rfl

example : envKey b!"My-Sec:tion" b!"some.key name" = b!"MY_SEC_TION_SOME_KEY_NAME" ∧ envKey [] b!"k-1" = b!"K_1" := by
  decide +kernel

/-- **C46**, a consequence worth knowing: different names share an environment variable. -/
theorem C46_env_names_collide_violated :
    envKey b!"db" b!"host" = envKey [] b!"db-host" ∧ envKey b!"db" b!"host" = envKey [] b!"db.host" ∧
    envKey b!"DB" b!"HOST" = envKey b!"db" b!"host" := by decide +kernel

/-- **C46** (application level): the default is used exactly when there is a configuration system and it has
no value. -/
theorem C46_default (f : Str → Str) (name dflt : Str) :
    appFind (some f) name (some dflt) = (if f name = [] then dflt else f name) ∧
    appFind (some f) name none = f name := ⟨rfl, rfl⟩

/-- **C46 fails** for the default when no configuration was imported: it is ignored. -/
theorem C46_default_ignored_violated (name dflt : Str) : appFind none name (some dflt) = [] := rfl

/-- a two-level chain: the child's empty value does not hide the parent's -/
example : find (fun _ => []) [setValue empty b!"s" b!"k" [], setValue empty b!"s" b!"k" b!"up"] b!"s::k" = b!"up" ∧
    find (fun n => if n = b!"S_K" then b!"env" else []) [setValue empty b!"s" b!"k" b!"own"] b!"s::k" = b!"env" ∧
    (sectionKey b!"s::k").2 ≠ [] := by decide +kernel

/-! ## C47: the parser is total -/

/-- **C47**: for every byte sequence and every starting configuration, loading returns a configuration or an
error; no index or slice expression of the parser is ever out of range. -/
theorem C47_parser_total (d : Data) (s : Str) (fail : Bool) :
    (∃ d', loadFromReader d s fail = .ok d') ∨ (∃ e, loadFromReader d s fail = .err e) := by
  have h := load_safe d s fail
  cases e : loadFromReader d s fail with
  | ok d' => left; exact ⟨d', rfl⟩
  | err x => right; exact ⟨x, rfl⟩
  | panic => rw [e] at h; exact absurd h id

/-- A failing reader always gives an error. -/
theorem C47_read_error (d : Data) (s : Str) : ∃ e, loadFromReader d s true = .err e := by
  rcases C47_parser_total d s true with ⟨d', e⟩ | h
  · exfalso
    unfold loadFromReader at e
    simp only [if_true] at e
    cases h : parseLines { data := d, section_ := [], count := 1 } ((splitOn1 10 (stripBOM s)).dropLast) with
    | ok st => rw [h] at e; cases e
    | err x => rw [h] at e; cases e
    | panic => rw [h] at e; cases e
  · exact h

/-- the nasty short lines -/
example : (loadIni b!"[").bind (fun _ => Res.ok ()) = .err (.couldNotParse b!"[") ∧
    (loadIni b!"[]").bind (fun _ => Res.ok ()) = .err (.blankSection b!"[]") ∧
    (loadIni b!"\"").bind (fun _ => Res.ok ()) = .err (.couldNotParse b!"\"") := by
  refine ⟨?_, ?_, ?_⟩ <;> rfl

/-! ## C48: round trip -/

/-- How a key or a value is written: bare, or between back quotes, double quotes or triple double quotes. -/
inductive Spec.Quote where
  | bare
  | back
  | double
  | triple
deriving DecidableEq

/-- The quotation mark. -/
def Spec.Quote.mark : Spec.Quote → Str
  | .bare => []
  | .back => b!"`"
  | .double => b!"\""
  | .triple => b!"\"\"\""

/-- What a line of a well-formed file says. Blanks (`p1`, `p2`) may surround section names and the separator;
keys and values may be quoted. -/
inductive Spec.Body where
  | blank
  | comment (c : UInt8) (text : Str)
  | header (p1 name p2 : Str)
  | entry (kq : Spec.Quote) (key p1 : Str) (sep : UInt8) (p2 : Str) (vq : Spec.Quote) (value : Str)

/-- A line: blanks before and after. -/
structure Spec.Line where
  indent : Str
  body : Spec.Body
  trail : Str

/-- A key or a value as written. -/
def Spec.written (q : Spec.Quote) (s : Str) : Str := q.mark ++ s ++ q.mark

/-- The text of a body. -/
def Spec.Body.text : Spec.Body → Str
  | .blank => []
  | .comment c t => c :: t
  | .header p1 name p2 => 91 :: p1 ++ name ++ p2 ++ [93]
  | .entry kq key p1 sep p2 vq v => Spec.written kq key ++ p1 ++ sep :: p2 ++ Spec.written vq v

/-- The text of a line. -/
def Spec.Line.text (l : Spec.Line) : Str := l.indent ++ l.body.text ++ l.trail

/-- The file: lines separated by line feeds. -/
def Spec.render (ls : List Spec.Line) : Str := join1 10 (ls.map Spec.Line.text)

/-- Only blanks: spaces, tabs, carriage returns, vertical tabs, form feeds. -/
def Spec.Blank (s : Str) : Prop := ∀ c ∈ s, c = 32 ∨ c = 9 ∨ c = 13 ∨ c = 11 ∨ c = 12

/-- Not empty, and nothing for `strings.TrimSpace` to trim. -/
def Spec.Trimmed (s : Str) : Prop := s ≠ [] ∧ spaceLen s = 0 ∧ spaceLenRev s.reverse = 0

/-- Well-formed keys. A bare key contains no separator and does not look like something else; a quoted key may
contain anything but its quotation mark (and line feeds), blanks at its ends included. -/
def Spec.KeyWF (q : Spec.Quote) (key : Str) : Prop :=
  key ≠ [] ∧ 10 ∉ key ∧
  match q with
  | .bare => Spec.Trimmed key ∧ 61 ∉ key ∧ 58 ∉ key ∧
      ∀ c, key.head? = some c → c ≠ 35 ∧ c ≠ 59 ∧ c ≠ 34 ∧ c ≠ 96 ∧ c ≠ 91
  | .back => 96 ∉ key
  | .double => 34 ∉ key
  | .triple => ¬ (b!"\"\"\"" <:+: key ++ b!"\"\"")

/-- Well-formed values. A bare value is empty, or trimmed and not starting with a quotation mark; a value between
back quotes or triple quotes may be anything (without line feeds); double quotes are not quotation marks of
values. -/
def Spec.ValueWF (q : Spec.Quote) (v : Str) : Prop :=
  10 ∉ v ∧
  match q with
  | .bare => v = [] ∨ (Spec.Trimmed v ∧ v.head? ≠ some 96 ∧ ¬ (b!"\"\"\"" <+: v))
  | .double => False
  | _ => True

/-- Well-formed bodies. -/
def Spec.Body.WF : Spec.Body → Prop
  | .blank => True
  | .comment c t => (c = 35 ∨ c = 59) ∧ 10 ∉ t
  | .header p1 name p2 => Spec.Blank p1 ∧ Spec.Blank p2 ∧ Spec.Trimmed name ∧ 10 ∉ name
  | .entry kq key p1 sep p2 vq v =>
    Spec.KeyWF kq key ∧ Spec.Blank p1 ∧ (sep = 61 ∨ sep = 58) ∧ Spec.Blank p2 ∧ Spec.ValueWF vq v

/-- Well-formed lines. -/
def Spec.Line.WF (l : Spec.Line) : Prop := Spec.Blank l.indent ∧ Spec.Blank l.trail ∧ l.body.WF

/-- The key an assignment is about, when `n - 1` automatic keys were used before it in its section: `-` stands
for `#1`, `#2`, … -/
def Spec.keyName (n : Nat) (key : Str) : Str := if key = b!"-" then b!"#" ++ natDec n else key

/-- The assignments of a file in order: section, key, value; `cur` is the section before the first header, `n`
the number of the next automatic key, which starts again from 1 after each header. -/
def Spec.assignments : Str → Nat → List Spec.Line → List (Str × Str × Str)
  | _, _, [] => []
  | cur, n, l :: ls =>
    match l.body with
    | .header _ name _ => Spec.assignments name 1 ls
    | .entry _ key _ _ _ _ v =>
      (cur, Spec.keyName n key, v) :: Spec.assignments cur (if key = b!"-" then n + 1 else n) ls
    | _ => Spec.assignments cur n ls

/-- The sections that exist: those with a header or an assignment. -/
def Spec.sections : Str → List Spec.Line → List Str
  | _, [] => []
  | cur, l :: ls =>
    match l.body with
    | .header _ name _ => name :: Spec.sections name ls
    | .entry _ _ _ _ _ _ _ => cur :: Spec.sections cur ls
    | _ => Spec.sections cur ls

/-- The last value assigned to a key of a section. -/
def Spec.value (as : List (Str × Str × Str)) (s k : Str) : Option Str :=
  (as.reverse.find? (fun a => a.1 = s ∧ a.2.1 = k)).map (fun a => a.2.2)

theorem blank_iff {s : Str} (h : Spec.Blank s) : ∀ c ∈ s, blankB c = true := by
  intro c hc
  rcases h c hc with e | e | e | e | e <;> subst e <;> rfl

theorem trimmed_iff {s : Str} (h : Spec.Trimmed s) : Clean s := h

/-! ### each line -/

theorem indexSep_skip (a b : Str) (c : UInt8) (ha : ∀ x ∈ a, x ≠ 61 ∧ x ≠ 58) (hc : c = 61 ∨ c = 58) :
    indexSep (a ++ c :: b) = a.length := by
  induction a with
  | nil => simp [indexSep, hc]
  | cons x a ih =>
    have hx := ha x (List.mem_cons_self ..)
    simp only [List.cons_append, indexSep]
    rw [if_neg (by simp [hx.1, hx.2]), ih (fun y hy => ha y (List.mem_cons_of_mem _ hy))]
    rw [if_neg (by omega)]
    simp

theorem lastIndex_end (v : Str) (q : UInt8) : lastIndex [q] (v ++ [q]) = v.length := by
  induction v with
  | nil => simp [lastIndex]
  | cons c v ih =>
    simp only [List.cons_append, lastIndex]
    rw [ih, if_neg (by omega)]
    simp

theorem at1_head (c : UInt8) (s : Str) : at1 (c :: s) 0 = .ok c := by
  unfold at1
  rw [if_pos ⟨by omega, by simp only [List.length_cons]; omega⟩]
  rfl

theorem lastIndex_end3 (v : Str) : lastIndex [34, 34, 34] (v ++ [34, 34, 34]) = v.length := by
  induction v with
  | nil => decide
  | cons c v ih =>
    simp only [List.cons_append, lastIndex]
    rw [ih, if_neg (by omega)]
    simp

theorem valPart_back (line v : Str) : valPart line (96 :: v ++ [96]) = .ok v := by
  have hq : valQuote (96 :: v ++ [96]) = .ok [96] := by
    unfold valQuote
    rw [if_pos (by simp), show (slice (96 :: v ++ [96]) 0 1) = .ok [96] from by
      rw [show (1 : Int) = ((1 : Nat) : Int) from rfl, slice_from_start (by simp)]; rfl]
    rfl
  unfold valPart
  rw [hq]
  simp only [Res.bind]
  rw [if_pos (by simp), show (([96] : Str).length : Int) = ((1 : Nat) : Int) from rfl, slice_to_end (by simp)]
  simp only [List.cons_append, List.drop_succ_cons, List.drop_zero]
  rw [lastIndex_end, if_neg (by omega),
    show ((v.length : Int) + ((1 : Nat) : Int)) = ((v.length + 1 : Nat) : Int) from by omega,
    slice_mid (by omega) (by simp)]
  simp

theorem valPart_triple (line v : Str) : valPart line ([34, 34, 34] ++ v ++ [34, 34, 34]) = .ok v := by
  have hq : valQuote ([34, 34, 34] ++ v ++ [34, 34, 34]) = .ok [34, 34, 34] := by
    unfold valQuote
    rw [if_pos (by simp), show (slice ([34, 34, 34] ++ v ++ [34, 34, 34]) 0 1) = .ok [34] from by
      rw [show (1 : Int) = ((1 : Nat) : Int) from rfl, slice_from_start (by simp)]; rfl]
    simp only [Res.bind]
    rw [if_neg (by decide), if_pos (by simp), show (slice ([34, 34, 34] ++ v ++ [34, 34, 34]) 0 3) = .ok [34, 34, 34] from by
      rw [show (3 : Int) = ((3 : Nat) : Int) from rfl, slice_from_start (by simp)]; rfl]
    rfl
  unfold valPart
  rw [hq]
  simp only [Res.bind]
  rw [if_pos (by simp), show (([34, 34, 34] : Str).length : Int) = ((3 : Nat) : Int) from rfl, slice_to_end (by simp)]
  simp only [List.cons_append, List.nil_append, List.drop_succ_cons, List.drop_zero]
  rw [lastIndex_end3, if_neg (by omega),
    show ((v.length : Int) + ((3 : Nat) : Int)) = ((v.length + 3 : Nat) : Int) from by omega,
    slice_mid (by omega) (by simp)]
  simp

theorem valPart_plain (line v : Str)
    (h : v = [] ∨ (Clean v ∧ v.head? ≠ some 96 ∧ ¬ (b!"\"\"\"" <+: v))) : valPart line v = .ok v := by
  rcases h with rfl | ⟨hc, h1, h2⟩
  · rfl
  · have hq : valQuote v = .ok [] := by
      unfold valQuote
      have hf : ∃ f, (if v.length ≥ 2 then slice v 0 1 else .ok []) = Res.ok f ∧ f ≠ b!"`" := by
        by_cases hl : v.length ≥ 2
        · rw [if_pos hl, show (1 : Int) = ((1 : Nat) : Int) from rfl, slice_from_start (by omega)]
          refine ⟨_, rfl, fun e => h1 ?_⟩
          cases v with
          | nil => simp at hl
          | cons c v => simpa using e
        · rw [if_neg hl]; exact ⟨_, rfl, by simp⟩
      obtain ⟨f, e, hf⟩ := hf
      rw [e]
      simp only [Res.bind]
      rw [if_neg hf]
      by_cases h6 : v.length ≥ 6
      · rw [if_pos h6, show (3 : Int) = ((3 : Nat) : Int) from rfl, slice_from_start (by omega)]
        simp only
        rw [if_neg]
        intro e
        exact h2 (by rw [← e]; exact List.take_prefix 3 v)
      · rw [if_neg h6]
    unfold valPart
    rw [hq]
    simp only [Res.bind]
    rw [if_neg (by simp), trimSpace_clean hc]

/-- A bare key. -/
theorem keyPart_bare (key p1 rest : Str) (sep : UInt8) (hk : Clean key) (h61 : 61 ∉ key) (h58 : 58 ∉ key)
    (hh : ∀ c, key.head? = some c → c ≠ 34 ∧ c ≠ 96)
    (hp : ∀ c ∈ p1, blankB c = true) (hs : sep = 61 ∨ sep = 58) :
    keyPart (key ++ p1 ++ sep :: rest) = .ok (key, ((key ++ p1).length : Nat)) := by
  obtain ⟨c, k, rfl⟩ := List.exists_cons_of_ne_nil hk.1
  obtain ⟨n3, n4⟩ := hh c rfl
  have hidx : indexSep (c :: k ++ p1 ++ sep :: rest) = ((c :: k ++ p1).length : Nat) := by
    apply indexSep_skip _ _ _ _ hs
    intro x hx
    rcases List.mem_append.1 hx with hx | hx
    · exact ⟨fun e => h61 (e ▸ hx), fun e => h58 (e ▸ hx)⟩
    · have := hp x hx
      constructor <;> (intro e; subst e; revert this; decide)
  have hq : keyQuote (c :: k ++ p1 ++ sep :: rest) = .ok [] := by
    unfold keyQuote
    simp only [List.cons_append]
    rw [at1_head]
    simp only [Res.bind]
    rw [if_neg n3, if_neg n4]
  unfold keyPart
  rw [hq]
  simp only [Res.bind]
  rw [if_neg (by simp), hidx, if_neg (by simp only [List.cons_append, List.length_cons]; omega),
    slice_from_start (by simp)]
  simp only
  rw [List.take_left' rfl]
  have := trimSpace_pad (w := []) (by simp) hp hk
  rw [List.nil_append] at this
  rw [this]

/-- A quoted key, given where its closing mark is found. -/
theorem keyPart_marked (m key p1 rest : Str) (sep : UInt8) (hm : m ≠ [])
    (hms : ∀ c ∈ m, c ≠ 61 ∧ c ≠ 58)
    (hq : keyQuote (m ++ key ++ m ++ p1 ++ sep :: rest) = .ok m)
    (hi : index m (key ++ (m ++ (p1 ++ sep :: rest))) = key.length)
    (hp : ∀ c ∈ p1, blankB c = true) (hs : sep = 61 ∨ sep = 58) :
    keyPart (m ++ key ++ m ++ p1 ++ sep :: rest) = .ok (key, ((m ++ key ++ m ++ p1).length : Nat)) := by
  have hlm : 0 < m.length := List.length_pos_iff.2 hm
  have hsep : indexSep (m ++ (p1 ++ sep :: rest)) = ((m ++ p1).length : Nat) := by
    rw [← List.append_assoc]
    apply indexSep_skip _ _ _ _ hs
    intro x hx
    rcases List.mem_append.1 hx with hx | hx
    · exact hms x hx
    · have := hp x hx
      constructor <;> (intro e; subst e; revert this; decide)
  have hl : m ++ key ++ m ++ p1 ++ sep :: rest = m ++ (key ++ (m ++ (p1 ++ sep :: rest))) := by simp
  unfold keyPart
  rw [hq, hl]
  simp only [Res.bind]
  rw [if_pos hm, slice_to_end (by simp)]
  simp only
  rw [List.drop_left' rfl, hi, if_neg (by omega),
    show ((key.length : Int) + (m.length : Int)) = ((m.length + key.length : Nat) : Int) from by omega,
    slice_to_end (by simp)]
  simp only
  rw [show List.drop (m.length + key.length) (m ++ (key ++ (m ++ (p1 ++ sep :: rest)))) = m ++ (p1 ++ sep :: rest) from by
    rw [← List.append_assoc, List.drop_left' (by simp)], hsep, if_neg (by simp; omega),
    slice_mid (by omega) (by simp)]
  simp only
  rw [← List.append_assoc, List.take_left' (by simp), List.drop_left' rfl]
  simp only [List.length_append, Res.ok.injEq, Prod.mk.injEq, true_and]
  omega

theorem index_char (q : UInt8) (key t : Str) (h : q ∉ key) : index [q] (key ++ q :: t) = key.length := by
  induction key with
  | nil => simp [index]
  | cons c k ih =>
    have hc : c ≠ q := fun e => h (by simp [e])
    simp only [List.cons_append, index]
    rw [if_neg (by simp; exact fun e => hc e.symm), ih (fun e => h (List.mem_cons_of_mem _ e)), if_neg (by omega)]
    simp

theorem index_triple (key t : Str) (h : ¬ (([34, 34, 34] : Str) <:+: key ++ [34, 34])) :
    index [34, 34, 34] (key ++ 34 :: 34 :: 34 :: t) = key.length := by
  induction key with
  | nil => simp [index]
  | cons c k ih =>
    have hn : ¬ (([34, 34, 34] : Str) <+: c :: (k ++ 34 :: 34 :: 34 :: t)) := by
      intro hp
      apply h
      obtain ⟨r, e⟩ := hp
      match k, e with
      | [], e =>
        simp only [List.nil_append, List.cons_append, List.cons.injEq] at e
        exact ⟨[], [], by simp [e.1]⟩
      | [d], e =>
        simp only [List.nil_append, List.cons_append, List.cons.injEq] at e
        exact ⟨[], [34], by simp [← e.1, ← e.2.1]⟩
      | d :: d' :: k, e =>
        simp only [List.nil_append, List.cons_append, List.cons.injEq] at e
        exact ⟨[], k ++ [34, 34], by simp [← e.1, ← e.2.1, ← e.2.2.1]⟩
    simp only [List.cons_append, index]
    rw [if_neg hn, ih (fun ⟨a, b, e⟩ => h ⟨c :: a, b, by simp [← e]⟩), if_neg (by omega)]
    simp

/-- The key part of a written key. -/
theorem keyPart_written (kq : Spec.Quote) (key p1 rest : Str) (sep : UInt8) (h : Spec.KeyWF kq key)
    (hp : ∀ c ∈ p1, blankB c = true) (hs : sep = 61 ∨ sep = 58) :
    keyPart (Spec.written kq key ++ p1 ++ sep :: rest) =
      .ok (key, ((Spec.written kq key ++ p1).length : Nat)) := by
  obtain ⟨hne, _, h⟩ := h
  unfold Spec.written
  cases kq with
  | bare =>
    obtain ⟨h1, h2, h3, h4⟩ := h
    simp only [Spec.Quote.mark, List.nil_append, List.append_nil]
    exact keyPart_bare key p1 rest sep (trimmed_iff h1) h2 h3 (fun c hc => ⟨(h4 c hc).2.2.1, (h4 c hc).2.2.2.1⟩) hp hs
  | back =>
    refine keyPart_marked _ key p1 rest sep (by decide) (by decide) ?_ ?_ hp hs
    · show keyQuote (96 :: (key ++ [96] ++ p1 ++ sep :: rest)) = .ok [96]
      unfold keyQuote
      rw [at1_head]
      rfl
    · exact index_char 96 key _ h
  | double =>
    refine keyPart_marked _ key p1 rest sep (by decide) (by decide) ?_ ?_ hp hs
    · show keyQuote (34 :: (key ++ [34] ++ p1 ++ sep :: rest)) = .ok [34]
      unfold keyQuote
      rw [at1_head]
      simp only [Res.bind]
      rw [if_pos trivial]
      split
      · rw [show (3 : Int) = ((3 : Nat) : Int) from rfl, slice_from_start (by omega)]
        obtain ⟨c, k, rfl⟩ := List.exists_cons_of_ne_nil hne
        simp only
        rw [if_neg]
        intro e
        simp only [List.cons_append, List.take_succ_cons, List.cons.injEq] at e
        exact h (by rw [← e.2.1]; exact List.mem_cons_self ..)
      · rfl
    · exact index_char 34 key _ h
  | triple =>
    refine keyPart_marked _ key p1 rest sep (by decide) (by decide) ?_ ?_ hp hs
    · show keyQuote (34 :: 34 :: 34 :: (key ++ [34, 34, 34] ++ p1 ++ sep :: rest)) = .ok [34, 34, 34]
      unfold keyQuote
      rw [at1_head]
      simp only [Res.bind]
      rw [if_pos trivial, if_pos (by simp only [List.length_cons, List.length_append]; omega),
        show (3 : Int) = ((3 : Nat) : Int) from rfl, slice_from_start (by simp)]
      rfl
    · exact index_triple key _ h

/-- A written key starts like neither a comment nor a header, nor with a blank. -/
theorem written_head (kq : Spec.Quote) (key : Str) (h : Spec.KeyWF kq key) :
    ∃ c k, Spec.written kq key = c :: k ∧ c ≠ 35 ∧ c ≠ 59 ∧ c ≠ 91 ∧ spaceLen (c :: k) = 0 := by
  obtain ⟨hne, _, h⟩ := h
  unfold Spec.written
  cases kq with
  | bare =>
    obtain ⟨h1, h2, h3, h4⟩ := h
    obtain ⟨c, k, rfl⟩ := List.exists_cons_of_ne_nil hne
    obtain ⟨n1, n2, n3, n4, n5⟩ := h4 c rfl
    exact ⟨c, k, by simp [Spec.Quote.mark], n1, n2, n5, h1.2.1⟩
  | back => exact ⟨96, _, rfl, by decide, by decide, by decide, spaceLen_ascii (by decide) (by decide) _⟩
  | double => exact ⟨34, _, rfl, by decide, by decide, by decide, spaceLen_ascii (by decide) (by decide) _⟩
  | triple => exact ⟨34, _, rfl, by decide, by decide, by decide, spaceLen_ascii (by decide) (by decide) _⟩

/-- An entry line, as the parser sees it after trimming. -/
theorem parse_entry (st : PState) (kq : Spec.Quote) (key p1 rest v : Str) (sep : UInt8) (hk : Spec.KeyWF kq key)
    (hp : ∀ c ∈ p1, blankB c = true) (hs : sep = 61 ∨ sep = 58)
    (hv : ∀ line, valPart line (trimSpace rest) = .ok v) :
    parseLine st (Spec.written kq key ++ p1 ++ sep :: rest) =
      .ok { st with data := setValue st.data st.section_ (Spec.keyName st.count key) v,
                    count := if key = b!"-" then st.count + 1 else st.count } := by
  have hkp := keyPart_written kq key p1 rest sep hk hp hs
  obtain ⟨c, k, hw, n1, n2, n5, _⟩ := written_head kq key hk
  rw [hw] at hkp ⊢
  have hel : entryLine st (c :: k ++ p1 ++ sep :: rest) =
      .ok { st with data := setValue st.data st.section_ (Spec.keyName st.count key) v,
                    count := if key = b!"-" then st.count + 1 else st.count } := by
    unfold entryLine
    rw [hkp]
    simp only [Res.bind]
    rw [show (((c :: k ++ p1).length : Nat) : Int) + 1 = (((c :: k ++ p1).length + 1 : Nat) : Int) from by omega,
      slice_to_end (by simp; omega)]
    have : List.drop ((c :: k ++ p1).length + 1) (c :: k ++ p1 ++ sep :: rest) = rest := by
      rw [← List.drop_drop, List.drop_left' rfl]; rfl
    rw [this]
    simp only
    rw [hv]
    simp only
    unfold Spec.keyName
    by_cases hd : key = b!"-"
    · rw [if_pos hd, if_pos hd, if_pos hd]; rfl
    · rw [if_neg hd, if_neg hd, if_neg hd]
  unfold parseLine
  rw [if_neg (by simp)]
  have h0 : at1 (c :: k ++ p1 ++ sep :: rest) 0 = .ok c := by
    simp only [List.cons_append]; exact at1_head _ _
  rw [h0]
  simp only [Res.bind]
  rw [if_neg (by simp [n1, n2])]
  have hlast : Safe (at1 (c :: k ++ p1 ++ sep :: rest) ((c :: k ++ p1 ++ sep :: rest).length - 1)) := by
    apply at1_safe <;> simp only [List.cons_append, List.length_cons] <;> omega
  cases hl : at1 (c :: k ++ p1 ++ sep :: rest) ((c :: k ++ p1 ++ sep :: rest).length - 1) with
  | panic => rw [hl] at hlast; exact absurd hlast id
  | err e =>
    exfalso
    unfold at1 at hl
    split at hl
    · split at hl <;> cases hl
    · cases hl
  | ok e =>
    simp only
    rw [if_neg (by simp [n5])]
    exact hel

/-- What a line does to the parser's state. -/
def lineStep (st : PState) (l : Spec.Line) : PState :=
  match l.body with
  | .header _ name _ => { data := setValue st.data name [] [], section_ := name, count := 1 }
  | .entry _ key _ _ _ _ v =>
    { st with data := setValue st.data st.section_ (Spec.keyName st.count key) v,
              count := if key = b!"-" then st.count + 1 else st.count }
  | _ => st

theorem clean_ends {a b : UInt8} {s : Str} (ha : a.toNat < 128) (ha' : asciiSp a = false) (hb : b.toNat < 128)
    (hb' : asciiSp b = false) : Clean (a :: s ++ [b]) :=
  ⟨by simp, spaceLen_ascii ha ha' _, by
    rw [List.reverse_append]; exact spaceLenRev_ascii hb hb' _⟩

theorem parse_line (st : PState) (l : Spec.Line) (h : l.WF) :
    parseLine st (trimSpace l.text) = .ok (lineStep st l) := by
  obtain ⟨hi, ht, hb⟩ := h
  have hi' := blank_iff hi
  have ht' := blank_iff ht
  obtain ⟨indent, body, trail⟩ := l
  unfold Spec.Line.text lineStep
  simp only at hi' ht' hb ⊢
  cases body with
  | blank =>
    have : trimSpace (indent ++ [] ++ trail) = [] := by
      apply trimSpace_blank
      intro c hc
      simp only [List.append_nil, List.mem_append] at hc
      exact hc.elim (hi' c) (ht' c)
    simp only [Spec.Body.text]
    rw [this]
    rfl
  | comment c t =>
    obtain ⟨hc, hn⟩ := hb
    simp only [Spec.Body.text]
    have hlt : c.toNat < 128 ∧ asciiSp c = false := by
      rcases hc with e | e <;> subst e <;> decide
    obtain ⟨s', e⟩ := trimSpace_head (s := t ++ trail) hi' hlt.1 hlt.2
    rw [show indent ++ (c :: t) ++ trail = indent ++ c :: (t ++ trail) from by simp, e]
    unfold parseLine
    rw [if_neg (by simp), at1_head]
    simp only [Res.bind]
    rw [if_pos hc]
  | header p1 name p2 =>
    obtain ⟨h1, h2, h3, h4⟩ := hb
    simp only [Spec.Body.text]
    have hcl : Clean (91 :: (p1 ++ name ++ p2) ++ [93]) := clean_ends (by decide) (by decide) (by decide) (by decide)
    rw [show indent ++ (91 :: p1 ++ name ++ p2 ++ [93]) ++ trail = indent ++ (91 :: (p1 ++ name ++ p2) ++ [93]) ++ trail
      from by simp, trimSpace_pad hi' ht' hcl]
    unfold parseLine
    rw [if_neg (by simp), show at1 (91 :: (p1 ++ name ++ p2) ++ [93]) 0 = .ok 91 from by
      simp only [List.cons_append]; exact at1_head _ _]
    simp only [Res.bind]
    rw [if_neg (by decide)]
    have hl : at1 (91 :: (p1 ++ name ++ p2) ++ [93]) ((91 :: (p1 ++ name ++ p2) ++ [93] : Str).length - 1) = .ok 93 := by
      unfold at1
      rw [if_pos ⟨by simp only [List.cons_append, List.length_cons]; omega,
        by simp only [List.cons_append, List.length_cons]; omega⟩]
      have : (((91 :: (p1 ++ name ++ p2) ++ [93] : Str).length : Int) - 1).toNat
          = (91 :: (p1 ++ name ++ p2) : Str).length := by
        simp only [List.length_append, List.length_cons, List.length_nil]; omega
      rw [this]
      simp
    rw [hl]
    simp only
    rw [if_pos (by decide)]
    have hsl : slice (91 :: (p1 ++ name ++ p2) ++ [93]) 1 ((91 :: (p1 ++ name ++ p2) ++ [93] : Str).length - 1)
        = .ok (p1 ++ name ++ p2) := by
      rw [show (((91 :: (p1 ++ name ++ p2) ++ [93] : Str).length : Int) - 1)
        = (((p1 ++ name ++ p2).length + 1 : Nat) : Int) from by
          simp only [List.length_append, List.length_cons, List.length_nil]; omega,
        show (1 : Int) = ((1 : Nat) : Int) from rfl, slice_mid (by omega) (by simp)]
      rw [List.take_left' (by simp)]
      simp
    rw [hsl]
    simp only
    rw [trimSpace_pad (blank_iff h1) (blank_iff h2) (trimmed_iff h3), if_neg h3.1]
  | entry kq key p1 sep p2 q v =>
    obtain ⟨h1, h7, h8, h9, h10, h11⟩ := hb
    have hp1 := blank_iff h7
    have hp2 := blank_iff h9
    obtain ⟨c0, k0, hwk, _, _, _, hsp⟩ := written_head kq key h1
    have hwne : Spec.written kq key ≠ [] := by rw [hwk]; simp
    rw [← hwk] at hsp
    have hsep : sep.toNat < 128 ∧ asciiSp sep = false := by
      rcases h8 with e | e <;> subst e <;> decide
    have hhead : ∀ c, (p1 ++ sep :: (p2 ++ Spec.written q v)).head? = some c → c.toNat < 128 := by
      intro c hc
      cases p1 with
      | nil => simp at hc; rw [← hc]; exact hsep.1
      | cons x p1 => simp at hc; rw [← hc]; exact blankB_lt (hp1 x (List.mem_cons_self ..))
    simp only [Spec.Body.text]
    by_cases hw : Spec.written q v = []
    · have hv : v = [] := by
        unfold Spec.written at hw
        simp only [List.append_eq_nil_iff] at hw
        exact hw.1.2
      have hcl : Clean (Spec.written kq key ++ p1 ++ [sep]) := by
        refine ⟨by simp, ?_, ?_⟩
        · rw [List.append_assoc, spaceLen_append hwne]
          · exact hsp
          · intro c hc
            apply hhead c
            cases p1 with
            | nil => simpa using hc
            | cons x p1 => simpa using hc
        · rw [List.reverse_append]; exact spaceLenRev_ascii hsep.1 hsep.2 _
      rw [hw, show indent ++ (Spec.written kq key ++ p1 ++ sep :: p2 ++ []) ++ trail =
        indent ++ (Spec.written kq key ++ p1 ++ [sep]) ++ (p2 ++ trail)
        from by simp, trimSpace_pad hi' (by
          intro c hc
          rcases List.mem_append.1 hc with hc | hc
          · exact hp2 c hc
          · exact ht' c hc) hcl]
      rw [parse_entry st kq key p1 [] [] sep h1 hp1 h8 (fun _ => rfl), hv]
    · have hwc : spaceLenRev (Spec.written q v).reverse = 0 ∧ trimSpace (p2 ++ Spec.written q v) = Spec.written q v
          ∧ ∀ line, valPart line (Spec.written q v) = .ok v := by
        unfold Spec.written at hw ⊢
        cases q with
        | double => exact absurd h11 id
        | back =>
          have hcl : Clean (96 :: v ++ [96]) := clean_ends (by decide) (by decide) (by decide) (by decide)
          refine ⟨hcl.2.2, ?_, fun line => valPart_back line v⟩
          have := trimSpace_pad (w' := []) hp2 (by simp) hcl
          rw [List.append_nil] at this
          exact this
        | triple =>
          have hcl : Clean (34 :: ([34, 34] ++ v ++ [34, 34]) ++ [34]) :=
            clean_ends (by decide) (by decide) (by decide) (by decide)
          have he : (34 :: ([34, 34] ++ v ++ [34, 34]) ++ [34] : Str) = [34, 34, 34] ++ v ++ [34, 34, 34] := by simp
          rw [he] at hcl
          refine ⟨hcl.2.2, ?_, fun line => valPart_triple line v⟩
          have := trimSpace_pad (w' := []) hp2 (by simp) hcl
          rw [List.append_nil] at this
          exact this
        | bare =>
          simp only [Spec.Quote.mark, List.nil_append, List.append_nil] at hw ⊢
          rcases h11 with e | ⟨e1, e2, e3⟩
          · exact absurd e hw
          · refine ⟨e1.2.2, ?_, fun line => valPart_plain line v (Or.inr ⟨trimmed_iff e1, e2, e3⟩)⟩
            have := trimSpace_pad (w' := []) hp2 (by simp) (trimmed_iff e1)
            simpa using this
      obtain ⟨w1, w2, w3⟩ := hwc
      have hcl : Clean (Spec.written kq key ++ p1 ++ sep :: (p2 ++ Spec.written q v)) := by
        refine ⟨by simp, ?_, ?_⟩
        · rw [List.append_assoc, spaceLen_append hwne hhead]; exact hsp
        · rw [show (Spec.written kq key ++ p1 ++ sep :: (p2 ++ Spec.written q v)).reverse =
            (Spec.written q v).reverse ++ (p2.reverse ++ sep :: (Spec.written kq key ++ p1).reverse) from by simp]
          rw [spaceLenRev_append (by simpa using hw)]
          · exact w1
          · intro c hc
            cases hp : p2.reverse with
            | nil => rw [hp] at hc; simp at hc; rw [← hc]; exact hsep.1
            | cons x y =>
              rw [hp] at hc
              simp at hc
              rw [← hc]
              exact blankB_lt (hp2 x (List.mem_reverse.1 (by rw [hp]; exact List.mem_cons_self ..)))
      rw [show indent ++ (Spec.written kq key ++ p1 ++ sep :: p2 ++ Spec.written q v) ++ trail =
        indent ++ (Spec.written kq key ++ p1 ++ sep :: (p2 ++ Spec.written q v)) ++ trail from by simp,
        trimSpace_pad hi' ht' hcl]
      rw [parse_entry st kq key p1 _ v sep h1 hp1 h8 (by rw [w2]; exact w3)]

/-! ### whole files -/

theorem text_no_newline (l : Spec.Line) (h : l.WF) : 10 ∉ l.text := by
  obtain ⟨hi, ht, hb⟩ := h
  obtain ⟨indent, body, trail⟩ := l
  have nb : ∀ s, Spec.Blank s → (10 : UInt8) ∉ s := by
    intro s hs hm
    have := blank_iff hs 10 hm
    revert this; decide
  unfold Spec.Line.text
  simp only at hi ht hb ⊢
  rw [List.append_assoc]
  intro hm
  rcases List.mem_append.1 hm with hm | hm
  · exact nb _ hi hm
  rcases List.mem_append.1 hm with hm | hm
  rotate_left
  · exact nb _ ht hm
  cases body with
  | blank => cases hm
  | comment c t =>
    obtain ⟨hc, hn⟩ := hb
    rcases List.mem_cons.1 hm with e | hm
    · subst e; rcases hc with e | e <;> revert e <;> decide
    · exact hn hm
  | header p1 name p2 =>
    obtain ⟨h1, h2, h3, h4⟩ := hb
    simp only [Spec.Body.text, List.cons_append, List.mem_cons, List.mem_append, List.append_assoc] at hm
    rcases hm with e | hm | hm | hm | hm
    · revert e; decide
    · exact nb _ h1 hm
    · exact h4 hm
    · exact nb _ h2 hm
    · simp at hm
  | entry kq key p1 sep p2 q v =>
    obtain ⟨h1, h7, h8, h9, h10, _⟩ := hb
    have hmark : ∀ q : Spec.Quote, (10 : UInt8) ∉ q.mark := by intro q; cases q <;> decide
    have hwr : ∀ (q : Spec.Quote) (s : Str), (10 : UInt8) ∉ s → (10 : UInt8) ∉ Spec.written q s := by
      intro q s hs hm
      unfold Spec.written at hm
      simp only [List.mem_append] at hm
      rcases hm with (hm | hm) | hm
      · exact hmark q hm
      · exact hs hm
      · exact hmark q hm
    simp only [Spec.Body.text, List.cons_append, List.mem_cons, List.mem_append, List.append_assoc] at hm
    rcases hm with hm | hm | hm | hm | hm
    · exact hwr kq key h1.2.1 hm
    · exact nb _ h7 hm
    · subst hm; rcases h8 with e | e <;> revert e <;> decide
    · exact nb _ h9 hm
    · exact hwr q v h10 hm

theorem parse_all (ls : List Spec.Line) : ∀ (st : PState), (∀ l ∈ ls, l.WF) →
    parseLines st (ls.map Spec.Line.text) = .ok (ls.foldl lineStep st) := by
  induction ls with
  | nil => intro st _; rfl
  | cons l ls ih =>
    intro st h
    simp only [List.map_cons, parseLines, List.foldl_cons]
    rw [parse_line st l (h l (List.mem_cons_self ..))]
    exact ih _ (fun x hx => h x (List.mem_cons_of_mem _ hx))

/-- the value a data set has -/
def look (d : Data) (s k : Str) : Option Str := (d s).bind (fun m => m k)

theorem look_setValue (d : Data) (cur key v s k : Str) (hk : key ≠ []) :
    look (setValue d cur key v) s k = if sectionName cur = s ∧ key = k then some v else look d s k := by
  unfold look setValue
  by_cases h : s = sectionName cur
  · subst h
    simp only [if_true, if_neg hk, Option.bind_some, true_and]
    by_cases e : k = key
    · simp [e]
    · simp only [e, if_false]
      rw [if_neg (fun x => e x.symm)]
      cases d (sectionName cur) <;> rfl
  · rw [if_neg h, if_neg (fun x => h x.1.symm)]

theorem look_setSection (d : Data) (name s k : Str) : look (setValue d name [] []) s k = look d s k := by
  unfold look setValue
  by_cases h : s = sectionName name
  · simp only [h, if_true, Option.bind_some]
    cases d (sectionName name) <;> rfl
  · rw [if_neg h]

theorem isSome_setValue (d : Data) (cur key v s : Str) :
    (setValue d cur key v s).isSome = true ↔ sectionName cur = s ∨ (d s).isSome = true := by
  unfold setValue
  by_cases h : s = sectionName cur
  · simp [h]
  · rw [if_neg h]
    constructor
    · exact Or.inr
    · rintro (e | e)
      · exact absurd e.symm h
      · exact e

theorem value_cons (a : Str × Str × Str) (as : List (Str × Str × Str)) (s k : Str) :
    Spec.value (a :: as) s k = (Spec.value as s k).or (if a.1 = s ∧ a.2.1 = k then some a.2.2 else none) := by
  unfold Spec.value
  rw [List.reverse_cons, List.find?_append]
  cases h : as.reverse.find? (fun a => decide (a.1 = s ∧ a.2.1 = k)) with
  | some b => simp
  | none =>
    simp only [Option.map_none, Option.none_or]
    by_cases e : a.1 = s ∧ a.2.1 = k
    · simp [e]
    · simp only [if_neg e]
      rw [List.find?_cons]
      simp [e]

theorem fold_spec (ls : List Spec.Line) : ∀ (st : PState), (∀ l ∈ ls, l.WF) →
    (∀ s k, look (ls.foldl lineStep st).data s k =
      (Spec.value (Spec.assignments (sectionName st.section_) st.count ls) s k).or (look st.data s k)) ∧
    (∀ s, ((ls.foldl lineStep st).data s).isSome = true ↔
      s ∈ Spec.sections (sectionName st.section_) ls ∨ (st.data s).isSome = true) := by
  induction ls with
  | nil =>
    intro st _
    exact ⟨fun s k => rfl, fun s => by simp [Spec.sections]⟩
  | cons l ls ih =>
    intro st h
    obtain ⟨i1, i2⟩ := ih (lineStep st l) (fun x hx => h x (List.mem_cons_of_mem _ hx))
    have hwf := (h l (List.mem_cons_self ..)).2.2
    simp only [List.foldl_cons]
    obtain ⟨indent, body, trail⟩ := l
    cases body with
    | blank => exact ⟨i1, i2⟩
    | comment c t => exact ⟨i1, i2⟩
    | header p1 name p2 =>
      have hname : sectionName name = name := by
        unfold sectionName; rw [if_neg hwf.2.2.1.1]
      simp only [lineStep] at i1 i2
      rw [hname] at i1 i2
      refine ⟨fun s k => ?_, fun s => ?_⟩
      · have := i1 s k
        rw [look_setSection] at this
        exact this
      · have := i2 s
        rw [isSome_setValue, hname] at this
        simp only [Spec.sections, List.mem_cons]
        rw [show (List.foldl lineStep (lineStep st ⟨indent, .header p1 name p2, trail⟩) ls).data s =
          (List.foldl lineStep { data := setValue st.data name [] [], section_ := name, count := 1 } ls).data s from rfl, this]
        constructor
        · rintro (a | a | a)
          · exact Or.inl (Or.inr a)
          · exact Or.inl (Or.inl a.symm)
          · exact Or.inr a
        · rintro ((a | a) | a)
          · exact Or.inr (Or.inl a.symm)
          · exact Or.inl a
          · exact Or.inr (Or.inr a)
    | entry kq key p1 sep p2 q v =>
      have hk : Spec.keyName st.count key ≠ [] := by
        unfold Spec.keyName
        split
        · simp
        · exact hwf.1.1
      simp only [lineStep] at i1 i2
      refine ⟨fun s k => ?_, fun s => ?_⟩
      · have := i1 s k
        rw [look_setValue _ _ _ _ _ _ hk] at this
        show look (List.foldl lineStep (lineStep st ⟨indent, .entry kq key p1 sep p2 q v, trail⟩) ls).data s k = _
        simp only [lineStep]
        rw [this]
        simp only [Spec.assignments, value_cons]
        cases Spec.value (Spec.assignments (sectionName st.section_)
          (if key = b!"-" then st.count + 1 else st.count) ls) s k with
        | some x => rfl
        | none =>
          simp only [Option.none_or]
          by_cases e : sectionName st.section_ = s ∧ Spec.keyName st.count key = k
          · rw [if_pos e, if_pos e]; rfl
          · rw [if_neg e, if_neg e]; rfl
      · have := i2 s
        rw [isSome_setValue] at this
        simp only [Spec.sections, List.mem_cons]
        show ((List.foldl lineStep (lineStep st ⟨indent, .entry kq key p1 sep p2 q v, trail⟩) ls).data s).isSome = true ↔ _
        simp only [lineStep]
        rw [this]
        constructor
        · rintro (a | a | a)
          · exact Or.inl (Or.inr a)
          · exact Or.inl (Or.inl a.symm)
          · exact Or.inr a
        · rintro ((a | a) | a)
          · exact Or.inr (Or.inl a.symm)
          · exact Or.inl a
          · exact Or.inr (Or.inr a)

/-- **C48**: a well-formed file parses, with exactly the sections it mentions, each key having the last value
assigned to it in its section, and no other keys. The file may start with a byte order mark. -/
theorem C48_round_trip (ls : List Spec.Line) (h : ∀ l ∈ ls, l.WF) (s : Str)
    (hs : s = [239, 187, 191] ++ Spec.render ls ∨ (s = Spec.render ls ∧ ¬ ([239, 187, 191] : Str) <+: s)) :
    ∃ d, loadIni s = .ok d ∧
      (∀ sec key, ((listSection d sec).bind (fun m => m key)) =
        Spec.value (Spec.assignments b!"default" 1 ls) sec key) ∧
      ∀ sec, (listSection d sec).isSome = true ↔ sec ∈ Spec.sections b!"default" ls := by
  have hstrip : stripBOM s = Spec.render ls := by
    unfold stripBOM
    rcases hs with e | ⟨e1, e2⟩
    · rw [if_pos (by rw [e]; exact List.prefix_append _ _), e]; rfl
    · rw [if_neg e2, e1]
  obtain ⟨f1, f2⟩ := fold_spec ls { data := empty, section_ := [], count := 1 } h
  refine ⟨(ls.foldl lineStep { data := empty, section_ := [], count := 1 }).data, ?_, fun sec key => ?_, fun sec => ?_⟩
  · unfold loadIni loadFromReader
    simp only [Bool.false_eq_true, if_false]
    rw [hstrip]
    by_cases hne : ls = []
    · subst hne; rfl
    · unfold Spec.render
      rw [splitOn1_join1 10 _ (by simpa using hne)
        (by
          intro x hx
          obtain ⟨l, hl, rfl⟩ := List.mem_map.1 hx
          exact text_no_newline l (h l hl)), parse_all ls _ h]
      rfl
  · have := f1 sec key
    have e : look empty sec key = none := rfl
    simp only [e, Option.or_none] at this
    exact this
  · have := f2 sec
    have e : sectionName [] = b!"default" := by decide
    rw [show (({ data := empty, section_ := [], count := 1 } : PState).section_) = [] from rfl, e] at this
    simpa [empty, listSection] using this

/-- **C48**, read through lookup: with nothing in the environment, a key of a section has the last value the
file assigns to it. -/
theorem C48_find (ls : List Spec.Line) (h : ∀ l ∈ ls, l.WF)
    (hb : ¬ ([239, 187, 191] : Str) <+: Spec.render ls) (sec key : Str) (hsec : sec ≠ [])
    (hcol : ∀ a b, sec ++ [58] ≠ a ++ 58 :: 58 :: b) (hkey : key ≠ []) :
    ∃ d, loadIni (Spec.render ls) = .ok d ∧
      find (fun _ => []) [d] (sec ++ 58 :: 58 :: key) =
        (Spec.value (Spec.assignments b!"default" 1 ls) sec key).getD [] := by
  obtain ⟨d, h1, h2, _⟩ := C48_round_trip ls h _ (Or.inr ⟨rfl, hb⟩)
  refine ⟨d, h1, ?_⟩
  simp only [find, C46_name_with_section sec key hcol]
  rw [if_neg hkey, if_neg (by simp)]
  have : ownValue d sec key = (Spec.value (Spec.assignments b!"default" 1 ls) sec key).getD [] := by
    unfold ownValue sectionName
    rw [if_neg hsec, ← h2 sec key]
    rfl
  by_cases hv : ownValue d sec key = []
  · rw [if_neg (by simpa using hv), ← this, hv]
  · rw [if_pos hv, this]

/-- a file with comments, CRLF line ends, a repeated key, quoted and unquoted keys and values, automatic keys -/
def Spec.exampleFile : List Spec.Line :=
  [⟨[], .comment 35 b!" settings", []⟩, ⟨[], .entry .bare b!"name" b!" " 61 b!" " .bare b!"strip", [13]⟩,
    ⟨[], .blank, []⟩, ⟨b!"  ", .header b!" " b!"db" [], [13]⟩,
    ⟨[9], .entry .bare b!"host" [] 58 [] .back b!" a`b ", []⟩,
    ⟨[], .entry .bare b!"host" [] 61 b!" " .bare b!"x=y", b!" "⟩,
    ⟨[], .entry .bare b!"-" b!" " 61 [] .bare b!"one", []⟩, ⟨[], .entry .bare b!"-" b!" " 61 [] .bare b!"two", []⟩,
    ⟨[], .entry .double b!" =k" b!" " 61 [] .triple b!" \" ", []⟩, ⟨[], .entry .back b!"-" [] 61 [] .bare b!"three", []⟩,
    ⟨[], .entry .triple b!"a\"b" [] 58 [] .bare [], []⟩]

example : (∀ l ∈ Spec.exampleFile, l.WF) ∧ ¬ ([239, 187, 191] : Str) <+: Spec.render Spec.exampleFile ∧
    Spec.value (Spec.assignments b!"default" 1 Spec.exampleFile) b!"db" b!"host" = some b!"x=y" ∧
    Spec.value (Spec.assignments b!"default" 1 Spec.exampleFile) b!"db" b!"#3" = some b!"three" ∧
    Spec.value (Spec.assignments b!"default" 1 Spec.exampleFile) b!"db" b!" =k" = some b!" \" " ∧
    Spec.render Spec.exampleFile = b!"# settings\nname = strip\r\n\n  [ db]\r\n\thost:` a`b `\nhost= x=y \n- =one\n- =two\n\" =k\" =\"\"\" \" \"\"\"\n`-`=three\n\"\"\"a\"b\"\"\":" := by
  refine ⟨?_, by decide +kernel, by decide +kernel, by decide +kernel, by decide +kernel, by decide +kernel⟩
  intro l hl
  simp only [Spec.exampleFile, List.mem_cons, List.not_mem_nil, or_false] at hl
  have tr : ∀ s : Str, (s ≠ [] ∧ spaceLen s = 0 ∧ spaceLenRev s.reverse = 0) → Spec.Trimmed s := fun s h => h
  have bl : ∀ s : Str, (∀ c ∈ s, c = 32 ∨ c = 9 ∨ c = 13 ∨ c = 11 ∨ c = 12) → Spec.Blank s := fun s h => h
  have kb : ∀ s : Str, (s ≠ [] ∧ (10 : UInt8) ∉ s ∧ (s ≠ [] ∧ spaceLen s = 0 ∧ spaceLenRev s.reverse = 0) ∧ (61 : UInt8) ∉ s ∧ (58 : UInt8) ∉ s ∧
      ∀ c, s.head? = some c → c ≠ 35 ∧ c ≠ 59 ∧ c ≠ 34 ∧ c ≠ 96 ∧ c ≠ 91) → Spec.KeyWF .bare s := fun s h => h
  rcases hl with rfl | rfl | rfl | rfl | rfl | rfl | rfl | rfl | rfl | rfl | rfl
  · exact ⟨bl _ (by decide), bl _ (by decide), by decide, by decide⟩
  · exact ⟨bl _ (by decide), bl _ (by decide), kb _ (by decide), bl _ (by decide), by decide, bl _ (by decide), by decide,
      Or.inr ⟨tr _ (by decide), by decide, by decide⟩⟩
  · exact ⟨bl _ (by decide), bl _ (by decide), trivial⟩
  · exact ⟨bl _ (by decide), bl _ (by decide), bl _ (by decide), bl _ (by decide), tr _ (by decide), by decide⟩
  · exact ⟨bl _ (by decide), bl _ (by decide), kb _ (by decide), bl _ (by decide), by decide, bl _ (by decide), by decide, trivial⟩
  · exact ⟨bl _ (by decide), bl _ (by decide), kb _ (by decide), bl _ (by decide), by decide, bl _ (by decide), by decide,
      Or.inr ⟨tr _ (by decide), by decide, by decide⟩⟩
  · exact ⟨bl _ (by decide), bl _ (by decide), kb _ (by decide), bl _ (by decide), by decide, bl _ (by decide), by decide,
      Or.inr ⟨tr _ (by decide), by decide, by decide⟩⟩
  · exact ⟨bl _ (by decide), bl _ (by decide), kb _ (by decide), bl _ (by decide), by decide, bl _ (by decide), by decide,
      Or.inr ⟨tr _ (by decide), by decide, by decide⟩⟩
  · exact ⟨bl _ (by decide), bl _ (by decide), ⟨by decide, by decide, by decide⟩, bl _ (by decide), by decide, bl _ (by decide), by decide, trivial⟩
  · exact ⟨bl _ (by decide), bl _ (by decide), ⟨by decide, by decide, by decide⟩, bl _ (by decide), by decide, bl _ (by decide), by decide,
      Or.inr ⟨tr _ (by decide), by decide, by decide⟩⟩
  · exact ⟨bl _ (by decide), bl _ (by decide), ⟨by decide, by decide, by decide⟩, bl _ (by decide), by decide, bl _ (by decide), by decide,
      Or.inl rfl⟩

end Verif.Conf
