import Verif.Model.StaticRedirect
import Verif.Props.Static
import Verif.Props.RealUrl
/-!
# C151: where the redirect to a directory leads
-/
namespace Verif.Static
open Verif.Go Verif.Router

namespace RedirSpec
/-- A reference that names another host: one that begins with two slashes (RFC 3986, 4.2). -/
def OffSite (loc : Str) : Prop := ∃ r, loc = 47 :: 47 :: r

/-- The path begins with exactly two slashes; `h` is what stands up to the next one. -/
def TwoSlashes (path h : Str) : Prop :=
  h ≠ [] ∧ (47 : UInt8) ∉ h ∧ ∃ r, path = 47 :: 47 :: h ++ r ∧ (r = [] ∨ r.head? = some 47)

/-- The text of a directory: a slash, and every name followed by one. -/
def dirText : List Str → Str
  | [] => b!"/"
  | c :: cs => 47 :: c ++ dirText cs

/-- `?query`, or nothing. -/
def queryText (q : Str) : Str := if q = [] then [] else 63 :: q

/-- A query as RFC 3986 has it, as far as it matters: ASCII, no control byte, no `#`. -/
def PlainQuery (q : Str) : Prop := ∀ c ∈ q, c ≠ 35 ∧ 32 ≤ c ∧ c < 127
end RedirSpec
open RedirSpec

/-! ## escaping and cleaning -/

theorem pe_append (a b : Str) : pathEscape (a ++ b) = pathEscape a ++ pathEscape b := by
  induction a with
  | nil => rfl
  | cons c a ih =>
    simp only [List.cons_append, pathEscape]
    split
    · rw [ih]; rfl
    · rw [ih]; rfl

theorem pe_inj {a b : Str} (h : pathEscape a = pathEscape b) : a = b := by
  have h1 := Params.path_roundtrip a
  rw [h, Params.path_roundtrip b] at h1
  exact (Option.some.inj h1).symm

theorem pathByte_plain (c : UInt8) : pathByte c = true → c ≠ 35 ∧ c ≠ 63 ∧ c < 128 ∧ ctlByte c = false := by
  refine forall_u8 (P := fun c => pathByte c = true → c ≠ 35 ∧ c ≠ 63 ∧ c < 128 ∧ ctlByte c = false) ?_ c
  decide +kernel

theorem plain_ctl (c : UInt8) : 32 ≤ c ∧ c < 127 → ctlByte c = false := by
  refine forall_u8 (P := fun c => 32 ≤ c ∧ c < 127 → ctlByte c = false) ?_ c
  decide +kernel

theorem plain_lt (c : UInt8) : 32 ≤ c ∧ c < 127 → c < 128 := by
  refine forall_u8 (P := fun c => 32 ≤ c ∧ c < 127 → c < 128) ?_ c
  decide +kernel

theorem hexUpper_slash : ∀ n : Fin 16, hexUpper n.val ≠ 47 := by decide

theorem pe_byte_cases (c : UInt8) : (c = 47 ∧ pathEscape [c] = [47]) ∨
    (c ≠ 47 ∧ pathEscape [c] ≠ [] ∧ (47 : UInt8) ∉ pathEscape [c]) := by
  refine forall_u8 (P := fun c => (c = 47 ∧ pathEscape [c] = [47]) ∨
    (c ≠ 47 ∧ pathEscape [c] ≠ [] ∧ (47 : UInt8) ∉ pathEscape [c])) ?_ c
  decide +kernel

theorem pe_cons (c : UInt8) (s : Str) : pathEscape (c :: s) = pathEscape [c] ++ pathEscape s :=
  pe_append [c] s

theorem split_glue (x t : Str) (hx : (47 : UInt8) ∉ x) : splitOn1 47 (x ++ t) =
    match splitOn1 47 t with
    | [] => [x]
    | h :: r => (x ++ h) :: r := by
  induction x with
  | nil =>
    have := splitOn1_ne_nil 47 t
    cases hs : splitOn1 47 t with
    | nil => exact absurd hs this
    | cons a b => simp [hs]
  | cons c x ih =>
    have hc : c ≠ 47 := fun e => hx (by simp [e])
    rw [List.cons_append, splitOn1, if_neg hc, ih (fun h => hx (by simp [h]))]
    cases splitOn1 47 t with
    | nil => rfl
    | cons a b => rfl

theorem pe_split (s : Str) : splitOn1 47 (pathEscape s) = (splitOn1 47 s).map pathEscape := by
  induction s with
  | nil => rfl
  | cons c s ih =>
    rw [pe_cons]
    rcases pe_byte_cases c with ⟨h1, h2⟩ | ⟨h1, h2, h3⟩
    · subst h1
      rw [h2]
      simp only [List.singleton_append, splitOn1, if_true, ih, List.map_cons]
      rfl
    · rw [split_glue _ _ h3, ih]
      conv => rhs; rw [splitOn1, if_neg h1]
      have := splitOn1_ne_nil 47 s
      cases hs : splitOn1 47 s with
      | nil => exact absurd hs this
      | cons a b =>
        simp only [List.map_cons]
        rw [pe_cons c a]

theorem pe_cleanStep (st : List Str) (c : Str) :
    cleanStep (st.map pathEscape) (pathEscape c) = (cleanStep st c).map pathEscape := by
  have h0 : pathEscape c = [] ↔ c = [] := ⟨fun h => pe_inj (b := []) h, fun h => by rw [h]; rfl⟩
  have h1 : pathEscape c = b!"." ↔ c = b!"." := ⟨fun h => pe_inj (b := b!".") h, fun h => by rw [h]; rfl⟩
  have h2 : pathEscape c = b!".." ↔ c = b!".." := ⟨fun h => pe_inj (b := b!"..") h, fun h => by rw [h]; rfl⟩
  unfold cleanStep
  by_cases a : c = [] ∨ c = b!"."
  · rw [if_pos a, if_pos (by rw [h0, h1]; exact a)]
  · rw [if_neg a, if_neg (by rw [h0, h1]; exact a)]
    by_cases b : c = b!".."
    · rw [if_pos b, if_pos (h2.2 b), List.map_tail]
    · rw [if_neg b, if_neg (fun h => b (h2.1 h))]
      rfl

theorem pe_cleanComps (s : Str) : cleanComps (pathEscape s) = (cleanComps s).map pathEscape := by
  unfold cleanComps
  rw [pe_split, List.map_reverse]
  congr 1
  have : ∀ (l : List Str) (st : List Str), (l.map pathEscape).foldl cleanStep (st.map pathEscape) =
      (l.foldl cleanStep st).map pathEscape := by
    intro l
    induction l with
    | nil => intro st; rfl
    | cons c l ih => intro st; rw [List.map_cons, List.foldl_cons, List.foldl_cons, pe_cleanStep, ih]
  exact this _ []

theorem pe_dirText (cs : List Str) : pathEscape (dirText cs) = dirText (cs.map pathEscape) := by
  induction cs with
  | nil => rfl
  | cons c cs ih =>
    show pathEscape (47 :: (c ++ dirText cs)) = 47 :: (pathEscape c ++ dirText (cs.map pathEscape))
    rw [pe_cons, pe_append, ih]
    rfl

theorem join_dirText : ∀ (cs : List Str), cs ≠ [] → 47 :: join1 47 cs ++ [47] = dirText cs := by
  intro cs
  induction cs with
  | nil => intro h; exact absurd rfl h
  | cons c cs ih =>
    intro _
    cases cs with
    | nil => simp [join1, dirText]
    | cons d ds =>
      have := ih (by simp)
      show 47 :: (c ++ 47 :: join1 47 (d :: ds)) ++ [47] = 47 :: c ++ dirText (d :: ds)
      rw [← this]
      simp

theorem join_ends : ∀ (cs : List Str), (∀ c ∈ cs, c ≠ [] ∧ (47 : UInt8) ∉ c) → cs ≠ [] →
    (join1 47 cs).getLast? ≠ some 47 := by
  intro cs
  induction cs with
  | nil => intro _ h; exact absurd rfl h
  | cons c cs ih =>
    intro h _
    cases cs with
    | nil =>
      intro hl
      exact (h c (by simp)).2 (List.mem_of_getLast? hl)
    | cons d ds =>
      have := ih (fun x hx => h x (by simp [hx])) (by simp)
      show (c ++ 47 :: join1 47 (d :: ds)).getLast? ≠ _
      have hne : join1 47 (d :: ds) ≠ [] := by
        intro he
        cases ds with
        | nil => exact (h d (by simp)).1 he
        | cons e es => cases d with
          | nil => exact (h [] (by simp)).1 rfl
          | cons x xs => cases he
      cases hj : join1 47 (d :: ds) with
      | nil => exact absurd hj hne
      | cons x xs =>
        rw [hj] at this
        rw [List.getLast?_append]
        simpa [List.getLast?_cons_cons] using this

theorem suffix_slash (s : Str) : hasSuffix s b!"/" = true ↔ s.getLast? = some 47 := by
  unfold hasSuffix
  rw [List.isSuffixOf_iff_suffix]
  constructor
  · rintro ⟨t, rfl⟩; simp
  · intro h
    refine ⟨s.dropLast, ?_⟩
    cases s with
    | nil => cases h
    | cons c r =>
      have := List.dropLast_concat_getLast (l := c :: r) (by simp)
      rw [List.getLast?_eq_some_getLast (by simp)] at h
      simp only [Option.some.injEq] at h
      rw [h] at this
      exact this

theorem takeWhile_all {p : UInt8 → Bool} {s : Str} (h : ∀ c ∈ s, p c = true) : s.takeWhile p = s := by
  induction s with
  | nil => rfl
  | cons c s ih =>
    rw [List.takeWhile_cons_of_pos (h c (by simp)), ih (fun x hx => h x (by simp [hx]))]

theorem dropWhile_all {p : UInt8 → Bool} {s : Str} (h : ∀ c ∈ s, p c = true) : s.dropWhile p = [] := by
  induction s with
  | nil => rfl
  | cons c s ih =>
    rw [List.dropWhile_cons_of_pos (h c (by simp)), ih (fun x hx => h x (by simp [hx]))]

theorem query_cut (p q : Str) (hp : (63 : UInt8) ∉ p) :
    (p ++ queryText q).takeWhile (· != 63) = p ∧ (p ++ queryText q).dropWhile (· != 63) = queryText q := by
  induction p with
  | nil =>
    unfold queryText
    split
    · exact ⟨rfl, rfl⟩
    · exact ⟨rfl, rfl⟩
  | cons c p ih =>
    have hc : (c != 63) = true := by
      have : c ≠ 63 := fun e => hp (by simp [e])
      simpa using this
    have := ih (fun h => hp (by simp [h]))
    rw [List.cons_append, List.takeWhile_cons_of_pos (p := (· != 63)) hc,
      List.dropWhile_cons_of_pos (p := (· != 63)) hc, this.1, this.2]
    exact ⟨rfl, rfl⟩

theorem destText_eq (d q : Str) : destText d q = pathEscape d ++ queryText q := by
  unfold destText queryText
  by_cases h : q = []
  · rw [if_neg (by simp [h]), if_pos h]
  · rw [if_pos h, if_neg h]

theorem pe_no63 (d : Str) : (63 : UInt8) ∉ pathEscape d :=
  fun h => (pathByte_plain 63 (Params.pathEscape_bytes d 63 h)).2.1 rfl

/-- tidying the text of a directory -/
theorem tidy_dest (d q : Str) (hd : d.head? = some 47) (hl : d.getLast? = some 47) :
    tidy (destText d q) = pathEscape (dirText (cleanComps d)) ++ queryText q := by
  unfold tidy
  rw [destText_eq, (query_cut _ q (pe_no63 d)).1, (query_cut _ q (pe_no63 d)).2]
  congr 1
  have h1 : hasSuffix (pathEscape d) b!"/" = true := by
    rw [suffix_slash]
    have : d = d.dropLast ++ [47] := by
      have := (suffix_slash d).2 hl
      unfold hasSuffix at this
      rw [List.isSuffixOf_iff_suffix] at this
      obtain ⟨t, rfl⟩ := this
      simp
    rw [this, pe_append]
    show (_ ++ [47]).getLast? = _
    simp
  have h2 : cleanRooted (pathEscape d) = 47 :: join1 47 ((cleanComps d).map pathEscape) := by
    unfold cleanRooted
    rw [pe_cleanComps]
  rw [pe_dirText, h1, h2]
  have hok : ∀ c ∈ (cleanComps d).map pathEscape, c ≠ [] ∧ (47 : UInt8) ∉ c := by
    intro c hc
    rw [← pe_cleanComps] at hc
    exact ⟨(cleanComps_ok _ c hc).1, (cleanComps_ok _ c hc).2.2.2⟩
  by_cases hn : (cleanComps d).map pathEscape = []
  · rw [hn]
    decide +kernel
  · have hs : hasSuffix (47 :: join1 47 ((cleanComps d).map pathEscape)) b!"/" = false := by
      cases hx : hasSuffix (47 :: join1 47 ((cleanComps d).map pathEscape)) b!"/" with
      | false => rfl
      | true =>
        exfalso
        rw [suffix_slash] at hx
        have h5 := join_ends _ hok hn
        cases hj : join1 47 ((cleanComps d).map pathEscape) with
        | nil =>
          cases hc : (cleanComps d).map pathEscape with
          | nil => exact hn hc
          | cons a as =>
            rw [hc] at hj
            have ha := (hok a (by rw [hc]; simp)).1
            cases as with
            | nil => exact ha hj
            | cons b bs =>
              cases a with
              | nil => exact ha rfl
              | cons x xs => cases hj
        | cons x xs =>
          rw [hj] at hx h5
          rw [List.getLast?_cons_cons] at hx
          exact h5 hx
    rw [hs]
    simp only [Bool.not_false, Bool.and_self, if_true]
    exact join_dirText _ hn

/-! ## parsing what `String` made -/

theorem pe_takeWhile (s : Str) : (pathEscape s).takeWhile (· != 47) = pathEscape (s.takeWhile (· != 47)) := by
  induction s with
  | nil => rfl
  | cons c s ih =>
    rw [pe_cons]
    rcases pe_byte_cases c with ⟨h1, h2⟩ | ⟨h1, h2, h3⟩
    · subst h1
      rw [h2]
      rfl
    · rw [List.takeWhile_append_of_pos (by
        intro x hx
        have : x ≠ 47 := fun e => h3 (e ▸ hx)
        simpa using this), ih, List.takeWhile_cons_of_pos (by simpa using h1)]
      exact (pe_cons c _).symm

theorem pe_dropWhile (s : Str) : (pathEscape s).dropWhile (· != 47) = pathEscape (s.dropWhile (· != 47)) := by
  induction s with
  | nil => rfl
  | cons c s ih =>
    rw [pe_cons]
    rcases pe_byte_cases c with ⟨h1, h2⟩ | ⟨h1, h2, h3⟩
    · subst h1
      rw [h2]
      rfl
    · rw [List.dropWhile_append_of_pos (p := (· != 47)) (by
        intro x hx
        have : x ≠ 47 := fun e => h3 (e ▸ hx)
        simpa using this), ih, List.dropWhile_cons_of_pos (p := (· != 47)) (by simpa using h1)]

theorem pe_pathUnescape_some (s : Str) : (pathUnescape (pathEscape s)).isNone = false := by
  rw [Params.path_roundtrip]; rfl

/-- what `url.Parse` makes of the text of a path and a query -/
theorem parsedHost_dest (A : Str → Option (Str × Str)) (d q : Str) (hq : PlainQuery q) :
    parsedHost A (destText d q) =
      if hasPrefix (pathEscape d) b!"//" && !hasPrefix (pathEscape d) b!"///" then
        (A (((pathEscape d).drop 2).takeWhile (· != 47))).elim none (fun r =>
          if (pathUnescape (((pathEscape d).drop 2).dropWhile (· != 47))).isNone then none else some r.2)
      else some [] := by
  have hplain : ∀ c ∈ destText d q, c ≠ 35 ∧ ctlByte c = false := by
    intro c hc
    rw [destText_eq, List.mem_append] at hc
    rcases hc with hc | hc
    · have := pathByte_plain c (Params.pathEscape_bytes d c hc)
      exact ⟨this.1, this.2.2.2⟩
    · unfold queryText at hc
      split at hc
      · cases hc
      · rcases List.mem_cons.1 hc with rfl | hc
        · decide
        · have := hq c hc
          exact ⟨this.1, plain_ctl c this.2⟩
  have ht : (destText d q).takeWhile (· != 35) = destText d q :=
    takeWhile_all (fun c hc => by simpa using (hplain c hc).1)
  have hdr : (destText d q).dropWhile (· != 35) = [] :=
    dropWhile_all (fun c hc => by simpa using (hplain c hc).1)
  have hctl : (destText d q).any ctlByte = false := by
    rw [List.any_eq_false]
    intro c hc
    rw [(hplain c hc).2]; decide
  have hcut : (cutQuery (destText d q)).1 = pathEscape d := by
    unfold cutQuery
    rw [destText_eq]
    exact (query_cut _ q (pe_no63 d)).1
  unfold parsedHost
  rw [ht, hdr, hctl, hcut]
  simp only [Bool.false_eq_true, if_false, pe_pathUnescape_some]
  have h0 : (pathUnescape (List.drop 1 ([] : Str))).isNone = false := rfl
  rw [h0]
  simp only [Bool.false_eq_true, if_false]
  congr 1
  cases A (((pathEscape d).drop 2).takeWhile (· != 47)) with
  | none => rfl
  | some r => rfl

theorem pe_slash (s : Str) : pathEscape (47 :: s) = 47 :: pathEscape s := rfl

theorem pe_prefix2 (d : Str) : hasPrefix (pathEscape d) b!"//" = true ↔ ∃ r, d = 47 :: 47 :: r := by
  have one : ∀ d : Str, ∀ t, pathEscape d = 47 :: t → ∃ r, d = 47 :: r ∧ t = pathEscape r := by
    intro d t h
    cases d with
    | nil => cases h
    | cons c d =>
      rw [pe_cons] at h
      rcases pe_byte_cases c with ⟨h1, h2⟩ | ⟨h1, h2, h3⟩
      · subst h1; rw [h2] at h
        exact ⟨d, rfl, by simpa using (List.cons.inj h).2.symm⟩
      · exfalso
        cases hp : pathEscape [c] with
        | nil => exact h2 hp
        | cons x xs =>
          rw [hp] at h h3
          rw [List.cons_append] at h
          exact h3 (by simp [(List.cons.inj h).1])
  unfold hasPrefix
  rw [List.isPrefixOf_iff_prefix]
  constructor
  · rintro ⟨t, ht⟩
    obtain ⟨r, h1, h2⟩ := one d _ ht.symm
    obtain ⟨r', h3, h4⟩ := one r _ h2.symm
    exact ⟨r', by rw [h1, h3]⟩
  · rintro ⟨r, rfl⟩
    exact ⟨pathEscape r, rfl⟩

theorem pe_prefix3 (d : Str) : hasPrefix (pathEscape d) b!"///" = true ↔ ∃ r, d = 47 :: 47 :: 47 :: r := by
  constructor
  · intro h
    have h2 : hasPrefix (pathEscape d) b!"//" = true := by
      unfold hasPrefix at *
      rw [List.isPrefixOf_iff_prefix] at *
      obtain ⟨t, ht⟩ := h
      exact ⟨47 :: t, by rw [← ht]; rfl⟩
    obtain ⟨r, rfl⟩ := (pe_prefix2 d).1 h2
    have h3 : hasPrefix (pathEscape (47 :: r)) b!"//" = true := by
      unfold hasPrefix at *
      rw [List.isPrefixOf_iff_prefix] at *
      obtain ⟨t, ht⟩ := h
      exact ⟨t, (List.cons.inj ht).2⟩
    obtain ⟨r', h4⟩ := (pe_prefix2 _).1 h3
    exact ⟨r', by rw [h4]⟩
  · rintro ⟨r, rfl⟩
    unfold hasPrefix
    rw [List.isPrefixOf_iff_prefix]
    exact ⟨pathEscape r, rfl⟩

/-! ## two slashes or not -/

theorem two_cases (path : Str) (h0 : path.head? = some 47) (hl : path.getLast? ≠ some 47) :
    (∃ host, TwoSlashes path host) ∨ (∀ host, ¬ TwoSlashes path host) ∧
      ((∃ c r, path = 47 :: c :: r ∧ c ≠ 47) ∨ ∃ r, path = 47 :: 47 :: 47 :: r) := by
  obtain ⟨t, rfl⟩ : ∃ t, path = 47 :: t := by
    cases path with
    | nil => cases h0
    | cons x xs => exact ⟨xs, by rw [show x = 47 by simpa using h0]⟩
  cases t with
  | nil => exact absurd rfl hl
  | cons c r =>
    by_cases hc : c = 47
    · subst hc
      cases r with
      | nil => exact absurd rfl hl
      | cons d r =>
        by_cases hd : d = 47
        · subst hd
          refine Or.inr ⟨?_, Or.inr ⟨r, rfl⟩⟩
          rintro host ⟨h1, h2, t, h3, -⟩
          cases host with
          | nil => exact h1 rfl
          | cons x xs =>
            simp only [List.cons_append, List.cons.injEq, true_and] at h3
            exact h2 (by simp [← h3.1])
        · refine Or.inl ⟨(d :: r).takeWhile (· != 47), ?_, ?_, (d :: r).dropWhile (· != 47), ?_, ?_⟩
          · rw [List.takeWhile_cons_of_pos (p := (· != 47)) (by simpa using hd)]; simp
          · intro hm
            have := List.all_takeWhile (p := (· != 47)) (l := d :: r)
            rw [List.all_eq_true] at this
            have := this 47 hm
            simp at this
          · rw [List.cons_append, List.cons_append, List.takeWhile_append_dropWhile]
          · cases hx : (d :: r).dropWhile (· != 47) with
            | nil => exact Or.inl rfl
            | cons y ys =>
              right
              have := List.head?_dropWhile_not (· != 47) (d :: r)
              rw [hx] at this
              simp at this
              simp [this]
    · refine Or.inr ⟨?_, Or.inl ⟨c, r, rfl, hc⟩⟩
      rintro host ⟨h1, h2, t, h3, -⟩
      simp only [List.cons_append, List.cons.injEq, true_and] at h3
      exact hc h3.1

theorem host_of_two (A : Str → Option (Str × Str)) {path host q : Str} (hq : PlainQuery q) (ht : TwoSlashes path host) :
    parsedHost A (destText (path ++ b!"/") q) = (A (pathEscape host)).map (·.2) := by
  obtain ⟨h1, h2, r, rfl, hr⟩ := ht
  rw [parsedHost_dest A _ q hq]
  have e2 : hasPrefix (pathEscape (47 :: 47 :: host ++ r ++ b!"/")) b!"//" = true := (pe_prefix2 _).2 ⟨host ++ r ++ b!"/", rfl⟩
  have e3 : hasPrefix (pathEscape (47 :: 47 :: host ++ r ++ b!"/")) b!"///" = false := by
    cases hx : hasPrefix (pathEscape (47 :: 47 :: host ++ r ++ b!"/")) b!"///" with
    | false => rfl
    | true =>
      exfalso
      obtain ⟨t, e⟩ := (pe_prefix3 _).1 hx
      cases host with
      | nil => exact h1 rfl
      | cons x xs =>
        simp only [List.cons_append, List.cons.injEq, true_and] at e
        exact h2 (by simp [e.1])
  rw [e2, e3]
  simp only [Bool.not_false, Bool.and_self, if_true]
  have e4 : (pathEscape (47 :: 47 :: host ++ r ++ b!"/")).drop 2 = pathEscape (host ++ (r ++ b!"/")) := by
    show (47 :: 47 :: pathEscape (host ++ r ++ b!"/")).drop 2 = _
    rw [List.append_assoc]
    rfl
  have e5 : (host ++ (r ++ b!"/")).takeWhile (· != 47) = host := by
    rw [List.takeWhile_append_of_pos (by
      intro x hx
      have : x ≠ 47 := fun e => h2 (e ▸ hx)
      simpa using this)]
    rcases hr with rfl | hr
    · simp
    · cases r with
      | nil => cases hr
      | cons y ys =>
        simp only [List.head?_cons, Option.some.injEq] at hr
        subst hr
        simp
  rw [e4, pe_takeWhile, pe_dropWhile, e5, pe_pathUnescape_some]
  cases A (pathEscape host) with
  | none => rfl
  | some x => rfl

theorem host_of_other (A : Str → Option (Str × Str)) {path q : Str} (hq : PlainQuery q)
    (ht : (∃ c r, path = 47 :: c :: r ∧ c ≠ 47) ∨ ∃ r, path = 47 :: 47 :: 47 :: r) :
    parsedHost A (destText (path ++ b!"/") q) = some [] := by
  rw [parsedHost_dest A _ q hq, if_neg]
  rcases ht with ⟨c, r, rfl, hc⟩ | ⟨r, rfl⟩
  · have : hasPrefix (pathEscape (47 :: c :: r ++ b!"/")) b!"//" = false := by
      cases hx : hasPrefix (pathEscape (47 :: c :: r ++ b!"/")) b!"//" with
      | false => rfl
      | true =>
        exfalso
        obtain ⟨t, e⟩ := (pe_prefix2 _).1 hx
        simp only [List.cons_append, List.cons.injEq, true_and] at e
        exact hc e.1
    rw [this]; simp
  · rw [(pe_prefix3 (47 :: 47 :: 47 :: r ++ b!"/")).2 ⟨r ++ b!"/", rfl⟩]
    simp

theorem hex_ascii (s : Str) (h : ∀ c ∈ s, c < 128) : hexEscapeNonASCII s = s := by
  induction s with
  | nil => rfl
  | cons c s ih =>
    rw [hexEscapeNonASCII, if_pos (h c (by simp)), ih (fun x hx => h x (by simp [hx]))]

theorem ascii_dest (p q : Str) (hq : PlainQuery q) : ∀ c ∈ pathEscape p ++ queryText q, c < 128 := by
  intro c hc
  rcases List.mem_append.1 hc with hc | hc
  · exact (pathByte_plain c (Params.pathEscape_bytes p c hc)).2.2.1
  · unfold queryText at hc
    split at hc
    · cases hc
    · rcases List.mem_cons.1 hc with rfl | hc
      · decide
      · exact plain_lt c (hq c hc).2

theorem cleanComps_snoc (path : Str) : cleanComps (path ++ b!"/") = cleanComps path := by
  rw [show path ++ b!"/" = path ++ 47 :: [] from rfl, cleanComps_append]
  simp [splitOn1, cleanStep]

theorem location_of {A : Str → Option (Str × Str)} {fs : FS} {pre root : Str} {opt : Opt} {m path q loc : Str}
    (h : location A fs pre root opt m path q = some loc) :
    path.getLast? ≠ some 47 ∧ (∃ file, Spec.Mine pre opt m path file ∧ fs (Spec.osPath root file) = some (some true)) ∧
      loc = redirectTo A (destText (path ++ b!"/") q) := by
  unfold location at h
  split at h
  · rename_i d hd
    obtain ⟨h1, h2, h3⟩ := (C75_redirect_iff fs pre root opt m path d).1 hd
    cases h
    exact ⟨h2, h3, by rw [h1]⟩
  · cases h
  · cases h
  · cases h

theorem of_location {A : Str → Option (Str × Str)} {fs : FS} {pre root : Str} {opt : Opt} {m path q file : Str}
    (h1 : path.getLast? ≠ some 47) (h2 : Spec.Mine pre opt m path file) (h3 : fs (Spec.osPath root file) = some (some true)) :
    location A fs pre root opt m path q = some (redirectTo A (destText (path ++ b!"/") q)) := by
  have := (C75_redirect_iff fs pre root opt m path _).2 ⟨rfl, h1, file, h2, h3⟩
  unfold location
  rw [this]

/-! ## C151 -/

/-- C151: exactly where a request for a directory without a trailing slash is sent.  `A` is how `net/url` reads an
authority: a request whose path begins with exactly two slashes, followed by anything that is not an authority with an
empty host, is sent to the request's own path with its two slashes; every other one to the directory's canonical path. -/
theorem C151_location (A : Str → Option (Str × Str)) (fs : FS) (pre root : Str) (opt : Opt) (m path q loc : Str)
    (h0 : path.head? = some 47) (hq : PlainQuery q) (h : location A fs pre root opt m path q = some loc) :
    (∀ host, TwoSlashes path host → (∀ user, A (pathEscape host) ≠ some (user, [])) →
      loc = pathEscape path ++ b!"/" ++ queryText q) ∧
    ((∀ host, TwoSlashes path host → ∃ user, A (pathEscape host) = some (user, [])) →
      loc = pathEscape (dirText (cleanComps path)) ++ queryText q) := by
  obtain ⟨hl, -, rfl⟩ := location_of h
  unfold redirectTo
  constructor
  · intro host ht hA
    rw [host_of_two A hq ht, if_neg, destText_eq, hex_ascii _ (ascii_dest _ q hq), pe_append]
    · rfl
    · intro he
      obtain ⟨⟨u, hh⟩, h1, h2⟩ := Option.map_eq_some_iff.1 he
      simp only at h2
      subst h2
      exact hA u h1
  · intro hA
    have hhost : parsedHost A (destText (path ++ b!"/") q) = some [] := by
      rcases two_cases path h0 hl with ⟨host, ht⟩ | ⟨-, ht⟩
      · obtain ⟨u, hu⟩ := hA host ht
        rw [host_of_two A hq ht, hu]; rfl
      · exact host_of_other A hq ht
    rw [if_pos hhost, tidy_dest _ q (by cases path with | nil => cases h0 | cons c r => simpa using h0) (by simp),
      cleanComps_snoc, hex_ascii _ (ascii_dest _ q hq)]

theorem dirText_onsite (cs : List Str) (h : ∀ c ∈ cs, c ≠ [] ∧ (47 : UInt8) ∉ c) (q : Str) :
    ¬ OffSite (dirText cs ++ queryText q) := by
  rintro ⟨r, hr⟩
  cases cs with
  | nil =>
    unfold queryText at hr
    split at hr
    · cases hr
    · cases hr
  | cons c cs =>
    have hc := h c (by simp)
    cases c with
    | nil => exact hc.1 rfl
    | cons x xs =>
      have e : x = 47 := by
        have : dirText ((x :: xs) :: cs) ++ queryText q = 47 :: x :: (xs ++ dirText cs ++ queryText q) := by
          show 47 :: (x :: xs) ++ dirText cs ++ queryText q = _
          simp
        rw [this] at hr
        simpa using (List.cons.inj (List.cons.inj hr).2).1
      exact hc.2 (by simp [e])

/-- C151: the client is sent to another host exactly if the request's path begins with exactly two slashes and what
follows is not an authority with an empty host. -/
theorem C151_offsite_iff (A : Str → Option (Str × Str)) (fs : FS) (pre root : Str) (opt : Opt) (m path q loc : Str)
    (h0 : path.head? = some 47) (hq : PlainQuery q) (h : location A fs pre root opt m path q = some loc) :
    OffSite loc ↔ ∃ host, TwoSlashes path host ∧ ∀ user, A (pathEscape host) ≠ some (user, []) := by
  obtain ⟨h1, h2⟩ := C151_location A fs pre root opt m path q loc h0 hq h
  by_cases hx : ∃ host, TwoSlashes path host ∧ ∀ user, A (pathEscape host) ≠ some (user, [])
  · refine ⟨fun _ => hx, fun _ => ?_⟩
    obtain ⟨host, ht, hA⟩ := hx
    rw [h1 host ht hA]
    obtain ⟨-, -, r, rfl, -⟩ := ht
    exact ⟨pathEscape (host ++ r) ++ b!"/" ++ queryText q, rfl⟩
  · refine ⟨fun ho => ?_, fun h => absurd h hx⟩
    exfalso
    rw [h2 (by
      intro host ht
      apply Classical.byContradiction
      intro hc
      exact hx ⟨host, ht, fun u hu => hc ⟨u, hu⟩⟩), pe_dirText] at ho
    refine dirText_onsite _ ?_ q ho
    intro c hc
    rw [← pe_cleanComps] at hc
    exact ⟨(cleanComps_ok _ c hc).1, (cleanComps_ok _ c hc).2.2.2⟩

/-- C151 (the part that holds): a filter mounted under a prefix, other than one that begins with two slashes, never sends
a client to another host.  Missing: a filter mounted at the root. -/
theorem C151_prefix_partial (A : Str → Option (Str × Str)) (fs : FS) (pre root : Str) (opt : Opt) (m path q loc : Str)
    (hpre : ∃ c r, Spec.Normal pre (47 :: c :: r) ∧ c ≠ 47) (hq : PlainQuery q)
    (h : location A fs pre root opt m path q = some loc) : ¬ OffSite loc := by
  obtain ⟨c, r, hn, hc⟩ := hpre
  obtain ⟨hl, ⟨file, ⟨-, ⟨q', hn', hu⟩, -⟩, -⟩, -⟩ := location_of h
  have e : q' = 47 :: c :: r := by rw [← (normal_iff _ _).1 hn', (normal_iff _ _).1 hn]
  subst e
  have hp := hu.1
  rw [C151_offsite_iff A fs pre root opt m path q loc (by rw [hp]; rfl) hq h]
  rintro ⟨host, ⟨-, -, t, h3, -⟩, -⟩
  rw [hp] at h3
  simp only [List.cons_append, List.cons.injEq, true_and] at h3
  exact hc h3.1

/-- C151: a filter mounted at the root of the site sends a client to any host: `GET //host/..` names the directory
itself and is answered with a redirect to `//host/../`. -/
theorem C151_open_redirect_violated (A : Str → Option (Str × Str)) (fs : FS) (root host : Str) (opt : Opt)
    (hroot : fs (Spec.osPath root []) = some (some true)) (hskip : opt.skipPrefix = [])
    (h1 : host ≠ []) (h2 : (47 : UInt8) ∉ host) (hA : ∀ user, A (pathEscape host) ≠ some (user, [])) :
    location A fs [] root opt b!"GET" (b!"//" ++ host ++ b!"/..") [] = some (b!"//" ++ pathEscape host ++ b!"/../") := by
  have hlast : (b!"//" ++ host ++ b!"/..").getLast? ≠ some 47 := by
    rw [List.getLast?_append]
    show ¬ (some (46 : UInt8)).or _ = some 47
    simp
  have hmine : Spec.Mine [] opt b!"GET" (b!"//" ++ host ++ b!"/..") (b!"//" ++ host ++ b!"/..") :=
    ⟨Or.inr (Or.inl rfl), ⟨[], Or.inl ⟨rfl, rfl⟩, rfl, Or.inl rfl⟩, by rw [hskip]; nofun⟩
  have hos : Spec.osPath root (b!"//" ++ host ++ b!"/..") = Spec.osPath root [] := by
    unfold Spec.osPath
    have : cleanComps (b!"//" ++ host ++ b!"/..") = cleanComps [] := by
      rw [show b!"//" ++ host ++ b!"/.." = 47 :: (47 :: (host ++ 47 :: b!"..")) from by simp,
        cleanComps_slash, cleanComps_slash, cleanComps_append]
      have hs : splitOn1 47 b!".." = [b!".."] := by decide
      rw [hs]
      show (cleanStep (cleanComps host).reverse b!"..").reverse = _
      have : cleanStep (cleanComps host).reverse b!".." = (cleanComps host).reverse.tail := rfl
      rw [this]
      unfold cleanComps
      rw [splitOn1_of_not_mem 47 host h2, List.reverse_reverse]
      show (cleanStep [] host).tail.reverse = []
      unfold cleanStep
      split
      · rfl
      · split
        · rfl
        · rfl
    rw [this]
  have hl := of_location (A := A) (q := []) hlast hmine (by rw [hos]; exact hroot)
  have := (C151_location A fs [] root opt b!"GET" (b!"//" ++ host ++ b!"/..") [] _ rfl nofun hl).1 host
    ⟨h1, h2, b!"/..", by simp, Or.inr rfl⟩ hA
  rw [hl, this]
  congr 1
  rw [pe_append, pe_append]
  show b!"//" ++ pathEscape host ++ b!"/.." ++ b!"/" ++ [] = _
  simp

/-- the request a client on this site makes for the address it was sent to -/
theorem parse_location (A : Str → Option (Str × Str)) (d q : Str) (hd : d.head? = some 47) (hq : PlainQuery q) :
    ∃ u, parseRequestURI A (pathEscape d ++ queryText q) = some u ∧ u.path = d ∧ u.rawQuery = q := by
  cases d with
  | nil => cases hd
  | cons x d =>
  have hx : x = 47 := by simpa using hd
  subst hx
  have hctl : (pathEscape (47 :: d) ++ queryText q).any ctlByte = false := by
    rw [List.any_eq_false]
    intro c hc
    have : ctlByte c = false := by
      rcases List.mem_append.1 hc with hc | hc
      · exact (pathByte_plain c (Params.pathEscape_bytes _ c hc)).2.2.2
      · unfold queryText at hc
        split at hc
        · cases hc
        · rcases List.mem_cons.1 hc with rfl | hc
          · decide
          · exact plain_ctl c (hq c hc).2
    rw [this]; decide
  have hsch : getScheme (pathEscape (47 :: d) ++ queryText q) = some ([], pathEscape (47 :: d) ++ queryText q) := by
    rw [pe_slash]
    rfl
  obtain ⟨c1, c2⟩ := query_cut (pathEscape (47 :: d)) q (pe_no63 _)
  have hcut : cutQuery (pathEscape (47 :: d) ++ queryText q) =
      (pathEscape (47 :: d), (queryText q).drop 1, queryText q == [63]) := by
    unfold cutQuery
    rw [c1, c2]
  have hq1 : (queryText q).drop 1 = q := by
    unfold queryText
    split
    · rename_i e; rw [e]; rfl
    · rfl
  have hset : ∀ u : URL, ∃ u', URL.setPath u (pathEscape (47 :: d)) = some u' ∧ u'.path = 47 :: d ∧ u'.rawQuery = u.rawQuery := by
    intro u
    unfold URL.setPath
    rw [Params.path_roundtrip]
    exact ⟨_, rfl, rfl, rfl⟩
  obtain ⟨u, h1, h2, h3⟩ := hset ⟨toLower [], [], [], [], [], [], queryText q == [63], (queryText q).drop 1⟩
  refine ⟨u, ?_, h2, h3.trans hq1⟩
  unfold parseRequestURI
  rw [hctl, if_neg (by decide), if_neg (by rw [pe_slash]; nofun), if_neg (by
    rw [pe_slash]
    intro h
    exact absurd (List.cons.inj h).1 (by decide)), hsch]
  simp only []
  rw [hcut]
  simp only []
  have hp : hasPrefix (pathEscape (47 :: d)) b!"/" = true := by
    rw [pe_slash]
    unfold hasPrefix
    rw [List.isPrefixOf_iff_prefix]
    exact ⟨pathEscape d, rfl⟩
  rw [hp, if_pos rfl, if_neg (fun h => h.1 rfl)]
  exact h1

/-- C151 (the part that holds): the redirect leads to the directory.  For a canonical path, the request that the client
makes next, with the same query, is for the same path with a slash at its end; it is again the filter's, opens the same
directory and is not redirected again.  Missing: paths that are not canonical, and filters that skip the directory's own
name with a slash. -/
theorem C151_follow_partial (A : Str → Option (Str × Str)) (fs : FS) (pre root : Str) (opt : Opt) (m path q loc file : Str)
    (hcan : path = cleanRooted path) (hq : PlainQuery q) (hm : Spec.Mine pre opt m path file)
    (hskip : file ++ b!"/" ∉ opt.skipPrefix)
    (h : location A fs pre root opt m path q = some loc) :
    loc = pathEscape path ++ b!"/" ++ queryText q ∧
    ∃ u, parseRequestURI A loc = some u ∧ u.path = path ++ b!"/" ∧ u.rawQuery = q ∧
      (serve fs pre root opt m u.path).1.tried.head? = some (Spec.osPath root file) ∧
      ∀ d, (serve fs pre root opt m u.path).2 ≠ .redirect d := by
  obtain ⟨hl, -, -⟩ := location_of h
  have h0 : path.head? = some 47 := by rw [hcan]; rfl
  have hcomps : cleanComps path ≠ [] := by
    intro hc
    apply hl
    rw [hcan]
    unfold cleanRooted
    rw [hc]
    rfl
  have hdir : dirText (cleanComps path) = path ++ b!"/" := by
    rw [← join_dirText _ hcomps]
    conv => rhs; rw [hcan]
    rfl
  have hnot : ∀ host, ¬ TwoSlashes path host := by
    rintro host ⟨h1, h2, r, h3, -⟩
    refine dirText_onsite (cleanComps path) (fun c hc => ⟨(cleanComps_ok _ c hc).1, (cleanComps_ok _ c hc).2.2.2⟩) [] ?_
    rw [hdir, h3]
    exact ⟨host ++ r ++ b!"/" ++ [], by simp [queryText]⟩
  have hloc := (C151_location A fs pre root opt m path q loc h0 hq h).2 (fun host ht => absurd ht (hnot host))
  rw [hdir] at hloc
  obtain ⟨u, u1, u2, u3⟩ := parse_location A (path ++ b!"/") q (by
    cases path with
    | nil => cases h0
    | cons x xs => simpa using h0) hq
  refine ⟨by rw [hloc, pe_append]; rfl, u, by rw [hloc]; exact u1, u2, u3, ?_⟩
  rw [u2]
  have hm' : Spec.Mine pre opt m (path ++ b!"/") (file ++ b!"/") := by
    obtain ⟨a, ⟨q', b, c1, c2⟩, d⟩ := hm
    refine ⟨a, ⟨q', b, by rw [c1, List.append_assoc], ?_⟩, ?_⟩
    · rcases c2 with c2 | c2 | c2
      · exact Or.inl c2
      · rw [c2]; exact Or.inr (Or.inr rfl)
      · right; right
        cases file with
        | nil => cases c2
        | cons x xs => simpa using c2
    · intro p hp hpre
      rcases List.prefix_concat_iff.1 hpre with e | e
      · exact hskip (e ▸ hp)
      · exact d p hp e
  have hos : Spec.osPath root (file ++ b!"/") = Spec.osPath root file := by
    unfold Spec.osPath
    rw [cleanComps_snoc]
  constructor
  · rw [← hos]
    exact C69_mine_opened fs pre root opt m _ _ hm'
  · intro d hd
    obtain ⟨-, h2, -⟩ := (C75_redirect_iff fs pre root opt m _ d).1 hd
    exact h2 (by simp)

theorem low_ascii (c : UInt8) : ¬ c < 128 → unhex (hexEscapeNonASCII.digitLower (c.toNat / 16)) = some (c.toNat / 16) ∧
    unhex (hexEscapeNonASCII.digitLower (c.toNat % 16)) = some (c.toNat % 16) ∧
    hexEscapeNonASCII.digitLower (c.toNat / 16) < 128 ∧ hexEscapeNonASCII.digitLower (c.toNat % 16) < 128 := by
  refine forall_u8 (P := fun c => ¬ c < 128 → unhex (hexEscapeNonASCII.digitLower (c.toNat / 16)) = some (c.toNat / 16) ∧
    unhex (hexEscapeNonASCII.digitLower (c.toNat % 16)) = some (c.toNat % 16) ∧
    hexEscapeNonASCII.digitLower (c.toNat / 16) < 128 ∧ hexEscapeNonASCII.digitLower (c.toNat % 16) < 128) ?_ c
  decide +kernel

theorem unhex_high (c : UInt8) : ¬ c < 128 → unhex c = none := by
  refine forall_u8 (P := fun c => ¬ c < 128 → unhex c = none) ?_ c
  decide +kernel

theorem hexEsc_bytes (s : Str) : ∀ c ∈ hexEscapeNonASCII s, c < 128 := by
  induction s with
  | nil => intro c h; cases h
  | cons d s ih =>
    intro c hc
    rw [hexEscapeNonASCII] at hc
    split at hc
    · rename_i hd
      rcases List.mem_cons.1 hc with rfl | hc
      · exact hd
      · exact ih c hc
    · rename_i hd
      have := low_ascii d hd
      rcases List.mem_cons.1 hc with rfl | hc
      · decide
      rcases List.mem_cons.1 hc with rfl | hc
      · exact this.2.2.1
      rcases List.mem_cons.1 hc with rfl | hc
      · exact this.2.2.2
      · exact ih c hc

theorem unescape_plain (c : UInt8) (s : Str) (h : c ≠ 37) : pathUnescape (c :: s) = (pathUnescape s).map (c :: ·) := by
  rw [pathUnescape]
  · rw [if_neg h]
  · intro a b cs h1 h2; exact h h1

theorem hexEsc_cons_high (c : UInt8) (s : Str) (h : ¬ c < 128) : hexEscapeNonASCII (c :: s) =
    37 :: hexEscapeNonASCII.digitLower (c.toNat / 16) :: hexEscapeNonASCII.digitLower (c.toNat % 16) :: hexEscapeNonASCII s := by
  rw [hexEscapeNonASCII, if_neg h]

theorem unescape_pct (x y : UInt8) (s : Str) : pathUnescape (37 :: x :: y :: s) =
    (unhex x).elim none (fun a => (unhex y).elim none (fun b => (pathUnescape s).map (UInt8.ofNat (a * 16 + b) :: ·))) := by
  simp only [pathUnescape]
  cases unhex x with
  | none => rfl
  | some a =>
    cases unhex y with
    | none => rfl
    | some b => rfl

theorem hexEsc_cons_low (c : UInt8) (s : Str) (h : c < 128) : hexEscapeNonASCII (c :: s) = c :: hexEscapeNonASCII s := by
  rw [hexEscapeNonASCII, if_pos h]

/-- percent-encoding a byte that is not ASCII does not change what the text stands for -/
theorem hexEsc_decodes : ∀ (n : Nat) (s : Str), s.length ≤ n → pathUnescape (hexEscapeNonASCII s) = pathUnescape s := by
  intro n
  induction n with
  | zero => intro s h; cases s with | nil => rfl | cons _ _ => simp at h
  | succ n ih =>
    intro s h
    cases s with
    | nil => rfl
    | cons c s =>
      have hs : s.length ≤ n := by simpa using h
      by_cases hc : c < 128
      · rw [hexEsc_cons_low c s hc]
        by_cases h37 : c = 37
        · subst h37
          cases s with
          | nil => rfl
          | cons x s =>
            by_cases hx : x < 128
            · rw [hexEsc_cons_low x s hx]
              cases s with
              | nil => rfl
              | cons y s =>
                by_cases hy : y < 128
                · rw [hexEsc_cons_low y s hy, unescape_pct, unescape_pct, ih s (by simp at hs; omega)]
                · rw [hexEsc_cons_high y s hy, unescape_pct, unescape_pct, unhex_high y hy]
                  have : unhex 37 = none := by decide
                  rw [this]
                  rfl
            · rw [hexEsc_cons_high x s hx, unescape_pct]
              have : unhex 37 = none := by decide
              rw [this]
              cases s with
              | nil =>
                show none = pathUnescape [37, x]
                simp [pathUnescape]
              | cons y s =>
                rw [unescape_pct, unhex_high x hx]
                rfl
        · rw [unescape_plain c _ h37, unescape_plain c _ h37, ih s hs]
      · obtain ⟨h1, h2, -, -⟩ := low_ascii c hc
        have h37 : c ≠ 37 := fun e => hc (by rw [e]; decide)
        rw [hexEsc_cons_high c s hc, unescape_pct, h1, h2, unescape_plain c s h37, ih s hs]
        have : UInt8.ofNat (c.toNat / 16 * 16 + c.toNat % 16) = c := by
          rw [Nat.div_add_mod']
          exact UInt8.ofNat_toNat
        show Option.map (UInt8.ofNat (c.toNat / 16 * 16 + c.toNat % 16) :: ·) _ = _
        rw [this]

/-- C151: whatever bytes the query has, the address sent is ASCII and stands for the same text as the directory's path
(the canonical one or the request's own) followed by the query. -/
theorem C151_ascii (A : Str → Option (Str × Str)) (fs : FS) (pre root : Str) (opt : Opt) (m path q loc : Str)
    (h0 : path.head? = some 47) (h : location A fs pre root opt m path q = some loc) :
    (∀ c ∈ loc, c < 128) ∧
    (pathUnescape loc = pathUnescape (pathEscape (dirText (cleanComps path)) ++ queryText q) ∨
      pathUnescape loc = pathUnescape (pathEscape path ++ b!"/" ++ queryText q)) := by
  obtain ⟨hl, -, rfl⟩ := location_of h
  unfold redirectTo
  refine ⟨hexEsc_bytes _, ?_⟩
  rw [hexEsc_decodes _ _ (Nat.le_refl _)]
  split
  · left
    rw [tidy_dest _ q (by cases path with | nil => cases h0 | cons c r => simpa using h0) (by simp), cleanComps_snoc]
  · right
    rw [destText_eq, pe_append]
    rfl

namespace RedirEx
/-- A directory `d` below `/srv`, with an index file. -/
def disk : FS := fun p =>
  if p = b!"/srv" ∨ p = b!"/srv/d" then some (some true)
  else if p = b!"/srv/d/index.html" then some (some false) else none

/-- An authority is a host: no user information. -/
def hosts : Str → Option (Str × Str) := fun a => some ([], a)
end RedirEx
open RedirEx

/-- The usual case: the redirect keeps the query, and escapes. -/
example : location hosts disk b!"/s" b!"/srv" {} b!"GET" b!"/s/d" b!"x=1" = some b!"/s/d/?x=1" := by decide +kernel
example : b!"/s/d" = cleanRooted b!"/s/d" := by decide +kernel
example : location hosts disk b!"" b!"/srv" {} b!"GET" b!"/d" b!"" = some b!"/d/" := by decide +kernel
/-- The two slashes: off to another host; three: not. -/
example : location hosts disk b!"" b!"/srv" {} b!"GET" b!"//evil.example/.." b!"" = some b!"//evil.example/../" := by
  decide +kernel
example : location hosts disk b!"" b!"/srv" {} b!"GET" b!"///evil.example/../d" b!"" = some b!"/d/" := by
  decide +kernel

/-- C151: below a prefix, a path that leaves it with `..` is served from the directory but the redirect leads outside
the prefix, to a path that the filter does not serve. -/
theorem C151_prefix_left_violated :
    location hosts disk b!"/s" b!"/srv" {} b!"GET" b!"/s/../d" b!"" = some b!"/d/" ∧
    (serve disk b!"/s" b!"/srv" {} b!"GET" b!"/d/").2 = .pass := by
  constructor <;> decide +kernel

/-- C151: a directory whose name with a slash is skipped is redirected to the path that is skipped. -/
theorem C151_skipped_violated :
    location hosts disk b!"/s" b!"/srv" { skipPrefix := [b!"/d/"] } b!"GET" b!"/s/d" b!"" = some b!"/s/d/" ∧
    (serve disk b!"/s" b!"/srv" { skipPrefix := [b!"/d/"] } b!"GET" b!"/s/d/").2 = .pass := by
  constructor <;> decide +kernel

end Verif.Static
