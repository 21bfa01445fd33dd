import Verif.Model.Wire
import Verif.Props.Jar
import Verif.Proofs.Num
import Verif.Proofs.Config
/-!
# C133: cookies survive the wire
-/
namespace Verif.Sess
open Verif.Go

/-! ## Specification -/

/-- A token (RFC 7230): letters, digits and ``!#$%&'*+-.^_`|~``, at least one. -/
def Spec.Token (s : Str) : Prop :=
  s ≠ [] ∧ ∀ c ∈ s, (97 ≤ c ∧ c ≤ 122) ∨ (65 ≤ c ∧ c ≤ 90) ∨ (48 ≤ c ∧ c ≤ 57) ∨ c ∈ b!"!#$%&'*+-.^_`|~"

/-- Cookie octets (RFC 6265): printable, no blank, quote, comma, semicolon or backslash. -/
def Spec.Octets (s : Str) : Prop := ∀ c ∈ s, 33 ≤ c ∧ c ≤ 126 ∧ c ≠ 34 ∧ c ≠ 44 ∧ c ≠ 59 ∧ c ≠ 92

/-- A domain in lower case: letters, digits, `-` and `.`. -/
def Spec.LowerName (s : Str) : Prop := ∀ c ∈ s, (97 ≤ c ∧ c ≤ 122) ∨ (48 ≤ c ∧ c ≤ 57) ∨ c = 45 ∨ c = 46

/-! ## Lemmas: bytes -/

theorem validName_iff (n : Str) : validName n = true ↔ Spec.Token n := by
  have hb : ∀ c : UInt8, tokenByte c = true ↔
      ((97 ≤ c ∧ c ≤ 122) ∨ (65 ≤ c ∧ c ≤ 90) ∨ (48 ≤ c ∧ c ≤ 57) ∨ c ∈ b!"!#$%&'*+-.^_`|~") := by
    intro c
    exact forall_u8 (P := fun c => tokenByte c = true ↔
      ((97 ≤ c ∧ c ≤ 122) ∨ (65 ≤ c ∧ c ≤ 90) ∨ (48 ≤ c ∧ c ≤ 57) ∨ c ∈ b!"!#$%&'*+-.^_`|~")) (by decide +kernel) c
  unfold validName Spec.Token
  rw [Bool.and_eq_true, List.all_eq_true]
  refine and_congr (by simp) ?_
  exact forall_congr' fun c => imp_congr Iff.rfl (hb c)

theorem token_byte (c : UInt8) : tokenByte c = true → plain c = true ∧ c ≠ 61 ∧ c ≠ 59 ∧ c ≠ 34 ∧ c ≠ 10 ∧ c ≠ 13 := by
  refine forall_u8 (P := fun c => tokenByte c = true → plain c = true ∧ c ≠ 61 ∧ c ≠ 59 ∧ c ≠ 34 ∧ c ≠ 10 ∧ c ≠ 13) ?_ c
  decide +kernel

theorem octet_byte (c : UInt8) : (33 ≤ c ∧ c ≤ 126 ∧ c ≠ 34 ∧ c ≠ 44 ∧ c ≠ 59 ∧ c ≠ 92) →
    plain c = true ∧ valueByte c = true ∧ c ≠ 32 ∧ c ≠ 44 ∧ c ≠ 59 ∧ c ≠ 34 := by
  refine forall_u8 (P := fun c => (33 ≤ c ∧ c ≤ 126 ∧ c ≠ 34 ∧ c ≠ 44 ∧ c ≠ 59 ∧ c ≠ 92) →
    plain c = true ∧ valueByte c = true ∧ c ≠ 32 ∧ c ≠ 44 ∧ c ≠ 59 ∧ c ≠ 34) ?_ c
  decide +kernel

theorem lower_byte (c : UInt8) : ((97 ≤ c ∧ c ≤ 122) ∨ (48 ≤ c ∧ c ≤ 57) ∨ c = 45 ∨ c = 46) →
    plain c = true ∧ lowerByte c = c ∧ c ≠ 59 := by
  refine forall_u8 (P := fun c => ((97 ≤ c ∧ c ≤ 122) ∨ (48 ≤ c ∧ c ≤ 57) ∨ c = 45 ∨ c = 46) →
    plain c = true ∧ lowerByte c = c ∧ c ≠ 59) ?_ c
  decide +kernel

theorem b64_octet (c : UInt8) : b64Byte c = true → 33 ≤ c ∧ c ≤ 126 ∧ c ≠ 34 ∧ c ≠ 44 ∧ c ≠ 59 ∧ c ≠ 92 := by
  refine forall_u8 (P := fun c => b64Byte c = true → 33 ≤ c ∧ c ≤ 126 ∧ c ≠ 34 ∧ c ≠ 44 ∧ c ≠ 59 ∧ c ≠ 92) ?_ c
  decide +kernel

/-- signed values are made of cookie octets -/
theorem encode_octets (H : Hmac) {raw key v : Str} {t : Int} (h : encodeSecure H raw key t = some v) : Spec.Octets v := by
  obtain ⟨_, _, rfl⟩ := encode_some H h
  intro c hc
  exact b64_octet c (b64Encode_bytes _ c hc)

theorem sanitize_octets {v : Str} (h : Spec.Octets v) : sanitizeValue v = v := by
  have hf : v.filter valueByte = v := by
    rw [List.filter_eq_self]
    intro c hc
    exact (octet_byte c (h c hc)).2.1
  unfold sanitizeValue
  rw [hf, if_neg]
  rintro (e | e)
  · exact (octet_byte 32 (h 32 (by simpa using e))).2.2.1 rfl
  · exact (octet_byte 44 (h 44 (by simpa using e))).2.2.2.1 rfl

/-! ## Lemmas: reading the pieces -/

theorem splitPieces (p : Str) (rest : List Str) (hp : 59 ∉ p) (hr : ∀ r ∈ rest, 59 ∉ r) :
    splitOn1 59 (p ++ (rest.map (b!"; " ++ ·)).flatten) = p :: rest.map (32 :: ·) := by
  induction rest generalizing p with
  | nil => simp [splitOn1_of_not_mem 59 p hp]
  | cons r rest ih =>
    have e : p ++ ((r :: rest).map (b!"; " ++ ·)).flatten =
        p ++ 59 :: ((32 :: r) ++ (rest.map (b!"; " ++ ·)).flatten) := by simp
    rw [e, splitOn1_append_sep 59 p _ hp, ih (32 :: r) ?_ (fun x hx => hr x (List.mem_cons_of_mem _ hx))]
    · rfl
    · intro h
      rcases List.mem_cons.1 h with h | h
      · cases h
      · exact hr r List.mem_cons_self h

theorem plain_not_blank {c : UInt8} (h : plain c = true) : (c == 32 || c == 9) = false := by
  revert h
  exact forall_u8 (P := fun c => plain c = true → (c == 32 || c == 9) = false) (by decide +kernel) c

theorem dropBlank_plain (s : Str) (h : ∀ c ∈ s, plain c = true) : s.dropWhile (fun c => c == 32 || c == 9) = s := by
  cases s with
  | nil => rfl
  | cons c s => rw [List.dropWhile_cons, plain_not_blank (h c List.mem_cons_self)]; rfl

theorem trimWsp_plain (s : Str) (h : ∀ c ∈ s, plain c = true) : trimWsp s = s := by
  unfold trimWsp
  rw [dropBlank_plain s h, dropBlank_plain s.reverse (fun c hc => h c (List.mem_reverse.1 hc)), List.reverse_reverse]

theorem trimWsp_blank (s : Str) (h : ∀ c ∈ s, plain c = true) : trimWsp (32 :: s) = s := by
  unfold trimWsp
  rw [List.dropWhile_cons, if_pos (by decide)]
  exact trimWsp_plain s h

theorem cutEquals_pair (n v : Str) (hn : ∀ c ∈ n, plain c = true ∧ c ≠ 61) (hv : ∀ c ∈ v, plain c = true) :
    cutEquals (n ++ b!"=" ++ v) = (n, v) ∧ cutEquals (32 :: (n ++ b!"=" ++ v)) = (n, v) := by
  have e : n ++ b!"=" ++ v = n ++ 61 :: v := by simp
  have h1 : 61 ∉ n := fun h => (hn 61 h).2 rfl
  have h2 : 61 ∉ (32 :: n : Str) := by
    intro h
    rcases List.mem_cons.1 h with h | h
    · cases h
    · exact h1 h
  unfold cutEquals
  constructor
  · rw [e, takeWhile_append_sep 61 n v h1, dropWhile_append_sep 61 n v h1, trimWsp_plain n (fun c hc => (hn c hc).1)]
    simp only [List.drop_succ_cons, List.drop_zero]
    rw [trimWsp_plain v hv]
  · rw [e]
    have e2 : 32 :: (n ++ 61 :: v) = (32 :: n) ++ 61 :: v := rfl
    rw [e2, takeWhile_append_sep 61 _ v h2, dropWhile_append_sep 61 _ v h2, trimWsp_blank n (fun c hc => (hn c hc).1)]
    simp only [List.drop_succ_cons, List.drop_zero]
    rw [trimWsp_plain v hv]

/-! ### the attributes -/

theorem ua_path (c : HttpCookie) : uaAttr c (32 :: b!"Path=/") = { c with path := b!"/" } := by
  have e : cutEquals (32 :: b!"Path=/") = (b!"Path", b!"/") := by decide
  unfold uaAttr
  rw [e]
  rfl

theorem ua_httpOnly (c : HttpCookie) : uaAttr c (32 :: b!"HttpOnly") = { c with httpOnly := true } := by
  have e : cutEquals (32 :: b!"HttpOnly") = (b!"HttpOnly", []) := by decide
  unfold uaAttr
  rw [e]
  rfl

theorem ua_secure (c : HttpCookie) : uaAttr c (32 :: b!"Secure") = { c with secure := true } := by
  have e : cutEquals (32 :: b!"Secure") = (b!"Secure", []) := by decide
  unfold uaAttr
  rw [e]
  rfl

theorem ua_gone (c : HttpCookie) : uaAttr c (32 :: b!"Max-Age=0") = { c with maxAge := -1 } := by
  have e : cutEquals (32 :: b!"Max-Age=0") = (b!"Max-Age", b!"0") := by decide
  unfold uaAttr
  rw [e]
  rfl

theorem ua_expires (c : HttpCookie) (d : Str) : uaAttr c (32 :: (b!"Expires=" ++ d)) = c := by
  have e : (cutEquals (32 :: (b!"Expires=" ++ d))).1 = b!"Expires" := by
    have : 32 :: (b!"Expires=" ++ d) = (32 :: b!"Expires") ++ 61 :: d := by simp
    unfold cutEquals
    rw [this, takeWhile_append_sep 61 _ d (by decide)]
    have h : trimWsp (32 :: b!"Expires") = b!"Expires" := by decide
    exact h
  unfold uaAttr
  rw [e]
  rfl

theorem ua_domain (c : HttpCookie) (d : Str) (hd : d ≠ []) (hp : ∀ x ∈ d, plain x = true) :
    uaAttr c (32 :: (b!"Domain=" ++ d)) = { c with domain := toLower (wireDomain d) } := by
  have e := (cutEquals_pair b!"Domain" d (by decide) hp).2
  have e' : (b!"Domain" ++ b!"=" ++ d : Str) = b!"Domain=" ++ d := by simp
  rw [e'] at e
  unfold uaAttr
  rw [e, if_neg (show ¬ toLower b!"Domain" = b!"max-age" by decide), if_pos (show toLower b!"Domain" = b!"domain" by decide), if_neg hd]

theorem uaMaxAge_pos {n : Int} (h : 0 < n) : uaMaxAge (fmtInt n) = some n := by
  rw [fmtInt_pos h]
  have h1 := natDec_Digits n.toNat
  have h2 := natDec_decimal n.toNat
  unfold NumSpec.decimal at h2
  cases hd : natDec n.toNat with
  | nil => exact absurd hd h1.1
  | cons c ds =>
    rw [hd] at h1 h2
    have hb : ∀ x : UInt8, isDig x → (48 ≤ x && x ≤ 57) = true := by
      intro x hx
      unfold isDig at hx
      simp only [Bool.and_eq_true, decide_eq_true_eq, UInt8.le_iff_toNat_le]
      simpa using hx
    have hds : ds.all (fun d => 48 ≤ d && d ≤ 57) = true := by
      rw [List.all_eq_true]
      intro x hx
      exact hb x (h1.2 x (List.mem_cons_of_mem _ hx))
    have hc := hb c (h1.2 c List.mem_cons_self)
    unfold uaMaxAge
    simp only
    rw [if_pos hds, if_neg (by rintro rfl; revert hc; decide), if_pos hc, h2, if_neg (by omega)]
    congr 1
    omega

theorem ua_maxAge (c : HttpCookie) {n : Int} (h : 0 < n) :
    uaAttr c (32 :: (b!"Max-Age=" ++ fmtInt n)) = { c with maxAge := n } := by
  have e := (cutEquals_pair b!"Max-Age" (fmtInt n) (by decide) (fun x hx => ((okField_time h).2 x hx).1)).2
  have e' : (b!"Max-Age" ++ b!"=" ++ fmtInt n : Str) = b!"Max-Age=" ++ fmtInt n := by simp
  rw [e'] at e
  unfold uaAttr
  rw [e, if_pos (show toLower b!"Max-Age" = b!"max-age" by decide), uaMaxAge_pos h]
  rfl

/-- a number that is not positive is the removal of the cookie -/
def Spec.age (n : Int) : Int := if n < 0 then -1 else n

theorem attrs_read (isIP : Str → Bool) (at' : Attrs) (dom date : Str) (n v : Str) (age : Int)
    (hdom : validDomain isIP dom = true → wireDomain dom ≠ [] ∧ ∀ c ∈ wireDomain dom, plain c = true) (c : HttpCookie)
    (hc : c = ⟨n, v, [], [], 0, false, false⟩) :
    (((GoCookie.mk n v b!"/" dom date age at'.secure true).attrs isIP).map (32 :: ·)).foldl uaAttr c =
      ⟨n, v, b!"/", if validDomain isIP dom then toLower (wireDomain (wireDomain dom)) else [], Spec.age age, at'.secure, true⟩ := by
  subst hc
  unfold GoCookie.attrs
  simp only [List.map_append, List.foldl_append]
  rw [if_pos (by decide : (b!"/" : Str) ≠ [])]
  have e1 : (b!"Path=" ++ (b!"/" : Str).filter (fun b => 32 ≤ b && b < 127 && b != 59)) = b!"Path=/" := by decide
  rw [e1, List.map_cons, List.map_nil, List.foldl_cons, List.foldl_nil, ua_path]
  have e2 : ∀ c0 : HttpCookie, c0.domain = [] →
      List.foldl uaAttr c0 (List.map (32 :: ·) (if validDomain isIP dom = true then [b!"Domain=" ++ wireDomain dom] else [])) =
        { c0 with domain := if validDomain isIP dom then toLower (wireDomain (wireDomain dom)) else [] } := by
    intro c0 h0
    by_cases hd : validDomain isIP dom = true
    · rw [if_pos hd, if_pos hd, List.map_cons, List.map_nil, List.foldl_cons, List.foldl_nil,
        ua_domain c0 _ (hdom hd).1 (hdom hd).2]
    · rw [if_neg hd, if_neg hd, ← h0]; rfl
  rw [e2 _ rfl]
  have e3 : ∀ c0 : HttpCookie, List.foldl uaAttr c0 (List.map (32 :: ·) (if date ≠ [] then [b!"Expires=" ++ date] else [])) = c0 := by
    intro c0
    by_cases hd : date ≠ []
    · rw [if_pos hd, List.map_cons, List.map_nil, List.foldl_cons, List.foldl_nil, ua_expires]
    · rw [if_neg hd]; rfl
  rw [e3]
  have e4 : ∀ c0 : HttpCookie, c0.maxAge = 0 → List.foldl uaAttr c0 (List.map (32 :: ·)
      (if age > 0 then [b!"Max-Age=" ++ fmtInt age] else if age < 0 then [b!"Max-Age=0"] else [])) =
        { c0 with maxAge := Spec.age age } := by
    intro c0 h0
    unfold Spec.age
    by_cases h1 : age > 0
    · rw [if_pos h1, if_neg (by omega), List.map_cons, List.map_nil, List.foldl_cons, List.foldl_nil, ua_maxAge _ h1]
    · rw [if_neg h1]
      by_cases h2 : age < 0
      · rw [if_pos h2, if_pos h2, List.map_cons, List.map_nil, List.foldl_cons, List.foldl_nil, ua_gone]
      · have : age = 0 := by omega
        subst this
        rw [if_neg h2, if_neg h2, ← h0]; rfl
  rw [e4 _ rfl]
  have e5 : ∀ c0 : HttpCookie, List.foldl uaAttr c0 (List.map (32 :: ·) (if true = true then [b!"HttpOnly"] else [])) =
      { c0 with httpOnly := true } := fun c0 => ua_httpOnly c0
  refine (congrArg (fun c0 => List.foldl uaAttr c0 (List.map (32 :: ·) (if at'.secure = true then [b!"Secure"] else [])))
    (e5 _)).trans ?_
  have e6 : ∀ c0 : HttpCookie, c0.secure = false → List.foldl uaAttr c0 (List.map (32 :: ·)
      (if at'.secure = true then [b!"Secure"] else [])) = { c0 with secure := at'.secure } := by
    intro c0 h0
    cases at'.secure with
    | true => exact ua_secure c0
    | false =>
      rw [if_neg (by decide)]
      cases c0
      cases h0
      rfl
  rw [e6 _ rfl]

theorem attrs_no_semicolon (isIP : Str → Bool) (at' : Attrs) (dom date : Str) (n v : Str) (age : Int)
    (hdom : validDomain isIP dom = true → 59 ∉ wireDomain dom) (hdate : 59 ∉ date) :
    ∀ r ∈ (GoCookie.mk n v b!"/" dom date age at'.secure true).attrs isIP, 59 ∉ r := by
  intro r hr
  unfold GoCookie.attrs at hr
  simp only [List.mem_append] at hr
  rcases hr with ((((hr | hr) | hr) | hr) | hr) | hr
  · split at hr
    · rw [List.mem_singleton] at hr; subst hr; decide
    · cases hr
  · split at hr
    · rename_i hd
      rw [List.mem_singleton] at hr; subst hr
      intro h
      rcases List.mem_append.1 h with h | h
      · revert h; decide
      · exact hdom hd h
    · cases hr
  · split at hr
    · rw [List.mem_singleton] at hr; subst hr
      intro h
      rcases List.mem_append.1 h with h | h
      · revert h; decide
      · exact hdate h
    · cases hr
  · split at hr
    · rename_i hp
      rw [List.mem_singleton] at hr; subst hr
      intro h
      rcases List.mem_append.1 h with h | h
      · revert h; decide
      · have := ((okField_time hp).2 59 h)
        rw [fmtInt_pos hp] at h
        have := natDec_digits _ 59 h
        unfold isDig at this
        simp at this
    · split at hr
      · rw [List.mem_singleton] at hr; subst hr; decide
      · cases hr
  · split at hr
    · rw [List.mem_singleton] at hr; subst hr; decide
    · cases hr
  · split at hr
    · rw [List.mem_singleton] at hr; subst hr; decide
    · cases hr

/-- The header of a cookie of the code, read by a browser. -/
theorem read_text (isIP : Str → Bool) (at' : Attrs) (dom date : Str) (n v : Str) (age : Int) (hn : Spec.Token n)
    (hv : Spec.Octets v) (hdate : 59 ∉ date)
    (hdom : validDomain isIP dom = true → wireDomain dom ≠ [] ∧ ∀ c ∈ wireDomain dom, plain c = true ∧ c ≠ 59) :
    (setCookieText isIP ⟨n, v, b!"/", dom, date, age, at'.secure, true⟩).bind uaRead = some
      ⟨n, v, b!"/", if validDomain isIP dom then toLower (wireDomain (wireDomain dom)) else [], Spec.age age, at'.secure, true⟩ := by
  have hvn := (validName_iff n).2 hn
  have hall : ∀ c ∈ n, tokenByte c = true := by
    unfold validName at hvn
    rw [Bool.and_eq_true, List.all_eq_true] at hvn
    exact hvn.2
  have hn' : ∀ c ∈ n, plain c = true ∧ c ≠ 61 := fun c hc => ⟨(token_byte c (hall c hc)).1, (token_byte c (hall c hc)).2.1⟩
  have hv' : ∀ c ∈ v, plain c = true := fun c hc => (octet_byte c (hv c hc)).1
  unfold setCookieText
  rw [if_pos hvn, Option.bind_some]
  simp only
  rw [sanitize_octets hv]
  unfold uaRead
  have hs : 59 ∉ n ++ b!"=" ++ v := by
    intro h
    simp only [List.mem_append, List.mem_singleton] at h
    rcases h with (h | h) | h
    · exact (token_byte 59 (hall 59 h)).2.2.1 rfl
    · revert h; decide
    · exact (octet_byte 59 (hv 59 h)).2.2.2.2.1 rfl
  rw [splitPieces _ _ hs (attrs_no_semicolon isIP at' dom date n v age (fun h e => ((hdom h).2 59 e).2 rfl) hdate)]
  simp only
  rw [if_pos (by simp), (cutEquals_pair n v hn' hv').1]
  simp only
  rw [if_neg hn.1, attrs_read isIP at' dom date n v age (fun h => ⟨(hdom h).1, fun c hc => ((hdom h).2 c hc).1⟩) _ rfl]

/-! ### the Cookie header -/

theorem spaceLenRev_ascii (c : UInt8) (r : Str) (h : plain c = true) (hr : ∀ x ∈ r, x.toNat < 128) :
    spaceLenRev (c :: r) = 0 := by
  have hb := plain_bounds h
  have ne : ∀ (d : UInt8), (d.toNat < 33 ∨ 126 < d.toNat) → c ≠ d := by
    intro d hd e; subst e; omega
  simp only [spaceLenRev]
  rw [if_neg]
  · split
    · rename_i r'
      have := hr 0xC2 (by simp)
      simp at this
    · rename_i b a r' _
      have ha := hr a (by simp)
      rw [if_neg]
      have nea : ∀ (d : UInt8), 128 ≤ d.toNat → a ≠ d := by
        intro d hd e; subst e; omega
      simp only [spaceLen]
      split
      · decide
      · split
        · exact absurd rfl (nea 0xC2 (by decide))
        · exact absurd rfl (nea 0xE1 (by decide))
        · exact absurd rfl (nea 0xE2 (by decide))
        · exact absurd rfl (nea 0xE2 (by decide))
        · exact absurd rfl (nea 0xE3 (by decide))
        · decide
    · rfl
  · rintro (h | h | h | h | h | h) <;> exact absurd h (ne _ (by decide))

/-- ASCII text that begins and ends with something printable -/
theorem clean_ascii (s : Str) (h0 : s ≠ []) (h1 : ∀ c, s.head? = some c → plain c = true)
    (h2 : ∀ c, s.getLast? = some c → plain c = true) (h3 : ∀ c ∈ s, c.toNat < 128) : Conf.Clean s := by
  refine ⟨h0, ?_, ?_⟩
  · cases s with
    | nil => exact absurd rfl h0
    | cons c s => exact spaceLen_plain c s (h1 c rfl)
  · cases hr : s.reverse with
    | nil => rw [List.reverse_eq_nil_iff] at hr; exact absurd hr h0
    | cons c r =>
      refine spaceLenRev_ascii c r ?_ (fun x hx => ?_)
      · apply h2
        have := congrArg List.reverse hr
        rw [List.reverse_reverse, List.reverse_cons] at this
        rw [this]
        simp
      · exact h3 x (by rw [← List.mem_reverse, hr]; exact List.mem_cons_of_mem _ hx)

/-- a name and value that can be sent -/
def Spec.Pair (c : Str × Str) : Prop := Spec.Token c.1 ∧ Spec.Octets c.2

def pairText (c : Str × Str) : Str := c.1 ++ b!"=" ++ c.2

theorem pair_bytes {c : Str × Str} (h : Spec.Pair c) : ∀ x ∈ pairText c, plain x = true ∧ x ≠ 59 := by
  have hvn := (validName_iff c.1).2 h.1
  unfold validName at hvn
  rw [Bool.and_eq_true, List.all_eq_true] at hvn
  intro x hx
  unfold pairText at hx
  simp only [List.mem_append] at hx
  rcases hx with (hx | hx) | hx
  · exact ⟨(token_byte x (hvn.2 x hx)).1, (token_byte x (hvn.2 x hx)).2.2.1⟩
  · have : x = 61 := by simpa using hx
    subst this; decide
  · exact ⟨(octet_byte x (h.2 x hx)).1, (octet_byte x (h.2 x hx)).2.2.2.2.1⟩

theorem pair_ne {c : Str × Str} (_h : Spec.Pair c) : pairText c ≠ [] := by
  unfold pairText
  simp

theorem plain_lt {c : UInt8} (h : plain c = true) : c.toNat < 128 := by
  have := plain_bounds h
  omega

theorem pair_clean {c : Str × Str} (h : Spec.Pair c) : Conf.Clean (pairText c) := by
  have hb := pair_bytes h
  refine clean_ascii _ (pair_ne h) (fun x hx => (hb x (List.mem_of_mem_head? hx)).1)
    (fun x hx => (hb x (List.mem_of_getLast? hx)).1) (fun x hx => plain_lt (hb x hx).1)

theorem readPart_pair {c : Str × Str} (h : Spec.Pair c) : readPart (pairText c) = some c ∧ readPart (32 :: pairText c) = some c := by
  have hvn := (validName_iff c.1).2 h.1
  have hall : ∀ x ∈ c.1, tokenByte x = true := by
    unfold validName at hvn
    rw [Bool.and_eq_true, List.all_eq_true] at hvn
    exact hvn.2
  have h61 : 61 ∉ c.1 := fun hx => (token_byte 61 (hall 61 hx)).2.1 rfl
  have key : ∀ part, trimSpace part = pairText c → readPart part = some c := by
    intro part hp
    have e : pairText c = c.1 ++ 61 :: c.2 := by unfold pairText; simp
    unfold readPart
    rw [hp, e, takeWhile_append_sep 61 c.1 c.2 h61, dropWhile_append_sep 61 c.1 c.2 h61, if_pos hvn]
    simp only [List.drop_succ_cons, List.drop_zero]
    have hpv : parseValue c.2 = some c.2 := by
      unfold parseValue
      rw [if_neg, if_pos]
      · rw [List.all_eq_true]
        intro x hx
        exact (octet_byte x (h.2 x hx)).2.1
      · rintro ⟨_, h1, _⟩
        exact (octet_byte 34 (h.2 34 (List.mem_of_mem_head? h1))).2.2.2.2.2 rfl
    rw [hpv]
    rfl
  constructor
  · exact key _ (Conf.trimSpace_clean (pair_clean h))
  · apply key
    have := Conf.trimSpace_pad (w := [32]) (w' := []) (by decide) (by simp) (pair_clean h)
    simpa using this

theorem cookieHeader_eq (c : Str × Str) (cs : Cookies) :
    cookieHeader (c :: cs) = pairText c ++ ((cs.map pairText).map (b!"; " ++ ·)).flatten := by
  unfold cookieHeader pairText
  rw [List.map_map]
  congr 2

theorem header_clean (c : Str × Str) (cs : Cookies) (h : ∀ d ∈ c :: cs, Spec.Pair d) :
    Conf.Clean (cookieHeader (c :: cs)) := by
  have hc := h c List.mem_cons_self
  have hne := pair_ne hc
  rw [cookieHeader_eq]
  refine clean_ascii _ (by simp [hne]) ?_ ?_ ?_
  · intro x hx
    rw [List.head?_append] at hx
    cases hp : pairText c with
    | nil => exact absurd hp hne
    | cons y r =>
      rw [hp] at hx
      simp only [List.head?_cons, Option.some_or, Option.some.injEq] at hx
      subst hx
      exact (pair_bytes hc y (by rw [hp]; exact List.mem_cons_self)).1
  · intro x hx
    rcases List.eq_nil_or_concat cs with rfl | ⟨cs', d, rfl⟩
    · simp only [List.map_nil, List.flatten_nil, List.append_nil] at hx
      exact (pair_bytes hc x (List.mem_of_getLast? hx)).1
    · have hd := h d (by simp)
      simp only [List.concat_eq_append, List.map_append, List.map_cons, List.map_nil, List.flatten_append, List.flatten_cons,
        List.flatten_nil, List.append_nil] at hx
      rw [← List.append_assoc, ← List.append_assoc, List.getLast?_append] at hx
      have hne' := pair_ne hd
      cases hl : (pairText d).getLast? with
      | none => rw [List.getLast?_eq_none_iff] at hl; exact absurd hl hne'
      | some y =>
        rw [hl] at hx
        simp only [Option.some_or, Option.some.injEq] at hx
        subst hx
        exact (pair_bytes hd y (List.mem_of_getLast? hl)).1
  · intro x hx
    rcases List.mem_append.1 hx with hx | hx
    · exact plain_lt (pair_bytes hc x hx).1
    · simp only [List.map_map, List.mem_flatten, List.mem_map] at hx
      obtain ⟨l, ⟨d, hd, rfl⟩, hx⟩ := hx
      simp only [Function.comp_apply] at hx
      rcases List.mem_append.1 hx with hx | hx
      · have : x = 59 ∨ x = 32 := by simpa using hx
        rcases this with rfl | rfl <;> decide
      · exact plain_lt (pair_bytes (h d (List.mem_cons_of_mem _ hd)) x hx).1

/-- what a browser sends is read as it was sent -/
theorem read_header (cs : Cookies) (h : ∀ c ∈ cs, Spec.Pair c) : readCookies [cookieHeader cs] = cs := by
  unfold readCookies
  rw [List.flatMap_cons, List.flatMap_nil, List.append_nil]
  cases cs with
  | nil => rfl
  | cons c cs =>
    rw [Conf.trimSpace_clean (header_clean c cs h), cookieHeader_eq,
      splitPieces _ _ (fun e => (pair_bytes (h c List.mem_cons_self) 59 e).2 rfl) (by
        intro r hr
        obtain ⟨d, hd, rfl⟩ := List.mem_map.1 hr
        exact fun e => (pair_bytes (h d (List.mem_cons_of_mem _ hd)) 59 e).2 rfl)]
    rw [List.filterMap_cons, (readPart_pair (h c List.mem_cons_self)).1]
    simp only
    congr 1
    rw [List.map_map]
    have hcs : ∀ d ∈ cs, Spec.Pair d := fun d hd => h d (List.mem_cons_of_mem _ hd)
    clear h
    induction cs with
    | nil => rfl
    | cons d cs ih =>
      rw [List.map_cons, List.filterMap_cons]
      simp only [Function.comp_apply]
      rw [(readPart_pair (hcs d List.mem_cons_self)).2]
      simp only
      rw [ih (fun x hx => hcs x (List.mem_cons_of_mem _ hx))]

/-! ### domains -/

/-- A label of a domain name: letters (in lower case), digits and hyphens, no hyphen at either end, at most 63 bytes. -/
def Spec.Label (l : Str) : Prop :=
  l ≠ [] ∧ l.length ≤ 63 ∧ (∀ c ∈ l, (97 ≤ c ∧ c ≤ 122) ∨ (48 ≤ c ∧ c ≤ 57) ∨ c = 45) ∧
    l.head? ≠ some 45 ∧ l.getLast? ≠ some 45

/-- A domain name in lower case: labels separated by dots, with a letter somewhere, at most 254 bytes. -/
def Spec.DomainName (d : Str) : Prop :=
  ∃ labels, labels ≠ [] ∧ d = join1 46 labels ∧ (∀ l ∈ labels, Spec.Label l) ∧ (∃ c ∈ d, 97 ≤ c ∧ c ≤ 122) ∧ d.length ≤ 254

def letter (c : UInt8) : Bool := 97 ≤ c && c ≤ 122

theorem loop_label (rest : Str) : ∀ (l : Str) (last : UInt8) (seen : Bool) (n : Nat),
    (∀ c ∈ l, (97 ≤ c ∧ c ≤ 122) ∨ (48 ≤ c ∧ c ≤ 57) ∨ c = 45) → (l.head? = some 45 → last ≠ 46) →
    domainLoop last seen n (l ++ rest) = domainLoop (l.getLast?.getD last) (seen || l.any letter) (n + l.length) rest := by
  intro l
  induction l with
  | nil => intro last seen n _ _; simp
  | cons c l ih =>
    intro last seen n hb hh
    have hc := hb c List.mem_cons_self
    have hl : ∀ x ∈ l, (97 ≤ x ∧ x ≤ 122) ∨ (48 ≤ x ∧ x ≤ 57) ∨ x = 45 := fun x hx => hb x (List.mem_cons_of_mem _ hx)
    have h46 : c ≠ 46 := by
      rintro rfl
      rcases hc with h | h | h <;> revert h <;> decide
    have e : domainLoop last seen n (c :: l ++ rest) = domainLoop c (seen || letter c) (n + 1) (l ++ rest) := by
      rw [List.cons_append, domainLoop]
      by_cases h1 : ((97 ≤ c && c ≤ 122) || (65 ≤ c && c ≤ 90)) = true
      · rw [if_pos h1]
        have : letter c = true := by
          revert hc h1
          exact forall_u8 (P := fun c => ((97 ≤ c ∧ c ≤ 122) ∨ (48 ≤ c ∧ c ≤ 57) ∨ c = 45) →
            ((97 ≤ c && c ≤ 122) || (65 ≤ c && c ≤ 90)) = true → letter c = true) (by decide +kernel) c
        rw [this]; simp
      · rw [if_neg h1]
        have hf : letter c = false := by
          revert h1
          exact forall_u8 (P := fun c => ¬ ((97 ≤ c && c ≤ 122) || (65 ≤ c && c ≤ 90)) = true → letter c = false) (by decide +kernel) c
        rw [hf, Bool.or_false]
        by_cases h2 : (48 ≤ c && c ≤ 57) = true
        · rw [if_pos h2]
        · rw [if_neg h2]
          have h3 : c = 45 := by
            revert hc h1 h2
            exact forall_u8 (P := fun c => ((97 ≤ c ∧ c ≤ 122) ∨ (48 ≤ c ∧ c ≤ 57) ∨ c = 45) →
              ¬ ((97 ≤ c && c ≤ 122) || (65 ≤ c && c ≤ 90)) = true → ¬ (48 ≤ c && c ≤ 57) = true → c = 45) (by decide +kernel) c
          rw [if_pos h3]
          have : (last != 46) = true := by
            rw [bne_iff_ne]; exact hh (by rw [h3]; rfl)
          rw [this, Bool.true_and]
    rw [e, ih c _ _ hl (fun _ => h46)]
    have e2 : (c :: l).getLast?.getD last = l.getLast?.getD c := by
      cases l with
      | nil => rfl
      | cons d l => rw [List.getLast?_cons_cons]; cases h : (d :: l).getLast? with
        | none => simp at h
        | some y => rfl
    rw [e2]
    simp [Bool.or_assoc, Nat.add_comm, Nat.add_left_comm]

theorem loop_labels : ∀ (labels : List Str) (seen : Bool), labels ≠ [] → (∀ l ∈ labels, Spec.Label l) →
    domainLoop 46 seen 0 (join1 46 labels) = (seen || (join1 46 labels).any letter) := by
  intro labels
  induction labels with
  | nil => intro _ h; exact absurd rfl h
  | cons l labels ih =>
    intro seen _ hl
    obtain ⟨h1, h2, h3, h4, h5⟩ := hl l List.mem_cons_self
    have hlast : ∃ y, l.getLast? = some y ∧ y ≠ 45 ∧ y ≠ 46 := by
      cases h : l.getLast? with
      | none => rw [List.getLast?_eq_none_iff] at h; exact absurd h h1
      | some y =>
        refine ⟨y, rfl, fun e => h5 (by rw [h, e]), ?_⟩
        rintro rfl
        rcases h3 46 (List.mem_of_getLast? h) with h | h | h <;> revert h <;> decide
    obtain ⟨y, hy, hy1, hy2⟩ := hlast
    have hpos : 0 < l.length := List.length_pos_iff.2 h1
    cases labels with
    | nil =>
      have := loop_label [] l 46 seen 0 h3 (fun h => absurd h h4)
      rw [List.append_nil] at this
      show domainLoop 46 seen 0 l = _
      rw [this, hy]
      show (y != 45 && decide (0 + l.length ≤ 63) && (seen || l.any letter)) = _
      have e1 : (y != 45) = true := by rw [bne_iff_ne]; exact hy1
      have e2 : decide (0 + l.length ≤ 63) = true := by rw [decide_eq_true_eq]; omega
      rw [e1, e2]
      rfl
    | cons l2 labels =>
      have e : join1 46 (l :: l2 :: labels) = l ++ 46 :: join1 46 (l2 :: labels) := rfl
      rw [e, loop_label _ l 46 seen 0 h3 (fun h => absurd h h4), hy, Option.getD_some, domainLoop]
      rw [if_neg (by decide), if_neg (by decide), if_neg (by decide), if_pos rfl]
      have e1 : (y != 45) = true := by rw [bne_iff_ne]; exact hy1
      have e1' : (y != 46) = true := by rw [bne_iff_ne]; exact hy2
      have e2 : decide (0 + l.length ≤ 63) = true := by rw [decide_eq_true_eq]; omega
      have e3 : decide (0 < 0 + l.length) = true := by rw [decide_eq_true_eq]; omega
      rw [e1, e1', e2, e3, ih _ (by simp) (fun x hx => hl x (List.mem_cons_of_mem _ hx)), List.any_append, List.any_cons]
      simp [letter, Bool.or_assoc]

theorem join_bytes : ∀ (labels : List Str), (∀ l ∈ labels, Spec.Label l) → Spec.LowerName (join1 46 labels) := by
  intro labels
  induction labels with
  | nil => intro _ c hc; cases hc
  | cons l labels ih =>
    intro hl c hc
    have hl' : c ∈ l → (97 ≤ c ∧ c ≤ 122) ∨ (48 ≤ c ∧ c ≤ 57) ∨ c = 45 ∨ c = 46 := by
      intro h
      rcases (hl l List.mem_cons_self).2.2.1 c h with h | h | h
      · exact Or.inl h
      · exact Or.inr (Or.inl h)
      · exact Or.inr (Or.inr (Or.inl h))
    cases labels with
    | nil => exact hl' hc
    | cons l2 labels =>
      have e : join1 46 (l :: l2 :: labels) = l ++ 46 :: join1 46 (l2 :: labels) := rfl
      rw [e] at hc
      rcases List.mem_append.1 hc with h | h
      · exact hl' h
      · rcases List.mem_cons.1 h with h | h
        · exact Or.inr (Or.inr (Or.inr h))
        · exact ih (fun x hx => hl x (List.mem_cons_of_mem _ hx)) c h

theorem join_head (labels : List Str) (h0 : labels ≠ []) (hl : ∀ l ∈ labels, Spec.Label l) :
    join1 46 labels ≠ [] ∧ (join1 46 labels).head? ≠ some 46 := by
  cases labels with
  | nil => exact absurd rfl h0
  | cons l labels =>
    obtain ⟨h1, _, h3, _, _⟩ := hl l List.mem_cons_self
    cases l with
    | nil => exact absurd rfl h1
    | cons c l =>
      have hc : c ≠ 46 := by
        rintro rfl
        rcases h3 46 List.mem_cons_self with h | h | h <;> revert h <;> decide
      cases labels with
      | nil => exact ⟨by simp [join1], by simp [join1, hc]⟩
      | cons l2 labels => exact ⟨by simp [join1], by simp [join1, hc]⟩

theorem wireDomain_id {d : Str} (h : d.head? ≠ some 46) : wireDomain d = d := (C122_domain d).2 h

/-- a domain name, with or without a leading dot, is accepted and read as itself -/
theorem domain_ok (isIP : Str → Bool) {d : Str} (h : Spec.DomainName d) :
    validDomain isIP d = true ∧ validDomain isIP (46 :: d) = true ∧ d.head? ≠ some 46 ∧ d ≠ [] ∧ Spec.LowerName d ∧
      toLower d = d := by
  obtain ⟨labels, h0, rfl, hl, ⟨c, hc, hcl⟩, hlen⟩ := h
  obtain ⟨hj, hh⟩ := join_head labels h0 hl
  have hany : (join1 46 labels).any letter = true := by
    rw [List.any_eq_true]
    exact ⟨c, hc, by unfold letter; simpa using hcl⟩
  have hloop : domainLoop 46 false 0 (join1 46 labels) = true := by rw [loop_labels labels false h0 hl, hany]; rfl
  have hb := join_bytes labels hl
  refine ⟨?_, ?_, hh, hj, hb, ?_⟩
  · unfold validDomain
    rw [wireDomain_id hh, hloop]
    have : decide ((join1 46 labels).length ≤ 255) = true := by rw [decide_eq_true_eq]; omega
    rw [this]
    simp [hj]
  · unfold validDomain
    rw [show wireDomain (46 :: join1 46 labels) = join1 46 labels from rfl, hloop]
    have : decide ((46 :: join1 46 labels).length ≤ 255) = true := by rw [decide_eq_true_eq, List.length_cons]; omega
    rw [this]
    simp
  · unfold toLower
    rw [List.map_congr_left (fun x hx => (lower_byte x (hb x hx)).2.1), List.map_id'']
    exact fun _ => rfl

/-! ## One browser, over the wire -/

/-- The cookie domain that is configured: none, or a domain name in lower case, perhaps with a leading dot. -/
def Spec.Domain (d : Str) : Prop := d = [] ∨ Spec.DomainName d ∨ ∃ n, d = b!"." ++ n ∧ Spec.DomainName n

theorem domain_read (isIP : Str → Bool) (hip : isIP [] = false) {d : Str} (h : Spec.Domain d) :
    (validDomain isIP d = true → wireDomain d ≠ [] ∧ ∀ c ∈ wireDomain d, plain c = true ∧ c ≠ 59) ∧
    (if validDomain isIP d then toLower (wireDomain (wireDomain d)) else []) = wireDomain d := by
  have key : ∀ n, Spec.DomainName n → (n ≠ [] ∧ ∀ c ∈ n, plain c = true ∧ c ≠ 59) ∧ toLower (wireDomain n) = n := by
    intro n hn
    obtain ⟨_, _, h3, h4, h5, h6⟩ := domain_ok isIP hn
    refine ⟨⟨h4, fun c hc => ⟨(lower_byte c (h5 c hc)).1, (lower_byte c (h5 c hc)).2.2⟩⟩, ?_⟩
    rw [wireDomain_id h3, h6]
  rcases h with rfl | h | ⟨n, rfl, h⟩
  · have : validDomain isIP [] = false := by unfold validDomain; rw [hip]; rfl
    rw [this]
    exact ⟨fun h => absurd h (by decide), rfl⟩
  · obtain ⟨h1, _, h3, _⟩ := domain_ok isIP h
    rw [if_pos h1, wireDomain_id h3]
    exact ⟨fun _ => (key d h).1, (key d h).2⟩
  · obtain ⟨_, h1, _⟩ := domain_ok isIP h
    have e : wireDomain (b!"." ++ n) = n := (C122_domain n).1
    have h1' : validDomain isIP (b!"." ++ n) = true := h1
    rw [e, if_pos h1']
    exact ⟨fun _ => (key n h).1, (key n h).2⟩

theorem store_age (host : Str) (now : Int) (c : HttpCookie) (jar : List Entry) :
    store host now { c with maxAge := Spec.age c.maxAge } jar = store host now c jar := by
  have hpos : (0 < Spec.age c.maxAge) ↔ 0 < c.maxAge := by unfold Spec.age; split <;> omega
  have hneg : (Spec.age c.maxAge < 0) ↔ c.maxAge < 0 := by unfold Spec.age; split <;> omega
  have hval : 0 < c.maxAge → Spec.age c.maxAge = c.maxAge := by intro h; unfold Spec.age; rw [if_neg (by omega)]
  have hentry : entryOf host now { c with maxAge := Spec.age c.maxAge } = entryOf host now c := by
    unfold entryOf
    simp only [gt_iff_lt]
    by_cases h : 0 < c.maxAge
    · rw [if_pos (hpos.2 h), if_pos h, hval h]
    · rw [if_neg (fun x => h (hpos.1 x)), if_neg h]
  unfold store
  rw [hentry]
  simp only
  by_cases h : c.maxAge < 0
  · rw [if_pos (hneg.2 h), if_pos h]
  · rw [if_neg (fun x => h (hneg.1 x)), if_neg h]

theorem mem_store {host : Str} {now : Int} {c : HttpCookie} {jar : List Entry} {e : Entry} (h : e ∈ store host now c jar) :
    e ∈ jar ∨ (e.name = c.name ∧ e.value = c.value) := by
  unfold store at h
  split at h
  · exact Or.inl h
  · split at h
    · exact Or.inl (List.mem_filter.1 h).1
    · split at h
      · obtain ⟨e', he', rfl⟩ := List.mem_map.1 h
        split
        · exact Or.inr ⟨rfl, rfl⟩
        · exact Or.inl he'
      · rcases List.mem_append.1 h with h | h
        · exact Or.inl h
        · rw [List.mem_singleton] at h
          subst h
          exact Or.inr ⟨rfl, rfl⟩

section
variable {σ V : Type} (C : CacheApi σ) (K : Conv V) (cfg : Config) (H : Hmac) (cc : CookieConfig) (at' : Attrs)
variable (isIP : Str → Bool) (date : Int → Str)

/-- what the jar holds can be sent -/
def JarOk (jar : List Entry) : Prop := ∀ e ∈ jar, Spec.Pair (e.name, e.value)

theorem send_pairs {jar : List Entry} (h : JarOk jar) (p : Place) : ∀ c ∈ send p jar, Spec.Pair c := by
  intro c hc
  unfold send at hc
  obtain ⟨e, he, rfl⟩ := List.mem_map.1 hc
  exact h e (List.mem_filter.1 he).1

theorem storeAll_wire (host : Str) (now : Int) (f g : SetCookie → List HttpCookie) : ∀ (set : List SetCookie) (jar : List Entry),
    (∀ c ∈ set, ∃ x : HttpCookie, f c = [{ x with maxAge := Spec.age x.maxAge }] ∧ g c = [x] ∧ Spec.Pair (x.name, x.value)) →
    JarOk jar → storeAll host now (set.flatMap f) jar = storeAll host now (set.flatMap g) jar ∧
      JarOk (storeAll host now (set.flatMap g) jar) := by
  intro set
  induction set with
  | nil => intro jar _ h; exact ⟨rfl, h⟩
  | cons c set ih =>
    intro jar hs hj
    obtain ⟨x, hf, hg, hx⟩ := hs c List.mem_cons_self
    rw [List.flatMap_cons, List.flatMap_cons, hf, hg]
    show storeAll host now (set.flatMap f) (store host now _ jar) = storeAll host now (set.flatMap g) (store host now _ jar) ∧
      JarOk (storeAll host now (set.flatMap g) (store host now _ jar))
    rw [store_age]
    refine ih _ (fun d hd => hs d (List.mem_cons_of_mem _ hd)) ?_
    intro e he
    rcases mem_store he with he | ⟨h1, h2⟩
    · exact hj e he
    · rw [h1, h2]; exact hx

theorem map_flatMap {α β : Type} (f : α → β) (l : List α) : l.map f = l.flatMap (fun a => [f a]) := by
  induction l with
  | nil => rfl
  | cons a l ih => rw [List.map_cons, List.flatMap_cons, ih]; rfl

theorem session_received (hip : isIP [] = false) (hd : Spec.Domain at'.domain) (d : Str) (hdate : 59 ∉ d) (c : SetCookie)
    (hc : Spec.Pair (c.name, c.value)) :
    received isIP (sessionCookie at' d c) = [{ sessionAttrs at' c with maxAge := Spec.age (sessionAttrs at' c).maxAge }] := by
  unfold received sessionCookie
  rw [read_text isIP at' at'.domain d c.name c.value c.maxAge hc.1 hc.2 hdate (domain_read isIP hip hd).1,
    (domain_read isIP hip hd).2]
  rfl

theorem remember_received (hip : isIP [] = false) (c : SetCookie) (hc : Spec.Pair (c.name, c.value)) :
    received isIP (rememberCookie at' c) = [{ rememberAttrs at' c with maxAge := Spec.age (rememberAttrs at' c).maxAge }] := by
  have hd : Spec.Domain [] := Or.inl rfl
  unfold received rememberCookie
  rw [read_text isIP at' [] [] c.name c.value c.maxAge hc.1 hc.2 (by simp) (domain_read isIP hip hd).1,
    (domain_read isIP hip hd).2]
  rfl

theorem written_pair (hn : Spec.Token cc.cookieName) (cs : Cookies) (sid : Str) (t : Int) :
    ∀ c ∈ (writeSessionCookie H cfg cc cs sid t).1, Spec.Pair (c.name, c.value) := by
  intro c hc
  unfold writeSessionCookie at hc
  cases he : encodeSecure H sid cfg.secretKey t with
  | none => rw [he] at hc; cases hc
  | some v =>
    rw [he] at hc
    simp only [List.mem_singleton] at hc
    subst hc
    exact ⟨hn, encode_octets H he⟩

theorem start_pairs (hn : Spec.Token cc.cookieName) (f : Fault) (now : Int) (n : Str) (cs : Cookies) (s s' : σ)
    (r : Except SErr (Handle V)) (set : List SetCookie) (cs' : Cookies)
    (h : start C K cfg H cc f now n cs s = (s', .done r set cs')) : ∀ c ∈ set, Spec.Pair (c.name, c.value) := by
  unfold start at h
  cases hr : readSid H cfg cs cc.cookieName now with
  | none =>
    rw [hr] at h
    cases h
    exact written_pair cfg H cc hn cs _ now
  | some x =>
    obtain ⟨sid, t⟩ := x
    rw [hr] at h
    simp only at h
    split at h <;> cases h <;> intro c hc <;> cases hc

theorem destroy_pairs (hn : Spec.Token cc.cookieName) (f : Fault) (now : Int) (cs : Cookies) (s s' : σ) (set : List SetCookie)
    (h : managerDestroy C cfg H cc f now cs s = (s', set)) : ∀ c ∈ set, Spec.Pair (c.name, c.value) := by
  unfold managerDestroy at h
  cases hr : readSid H cfg cs cc.cookieName now with
  | none => rw [hr] at h; cases h; intro c hc; cases hc
  | some x =>
    rw [hr] at h
    cases h
    intro c hc
    simp only [List.mem_singleton] at hc
    subst hc
    exact ⟨hn, fun c hc => by cases hc⟩

theorem regenerate_pairs (hn : Spec.Token cc.cookieName) (fg fs fd fr : Fault) (now : Int) (n : Str)
    (ps : List (Str → Option V)) (cs : Cookies) (s s' : σ) (r : Except SErr (Handle V)) (set : List SetCookie) (cs' : Cookies)
    (h : managerRegenerate C K cfg H cc fg fs fd fr now n ps cs s = (s', .done r set cs')) :
    ∀ c ∈ set, Spec.Pair (c.name, c.value) := by
  unfold managerRegenerate at h
  cases hr : readSid H cfg cs cc.cookieName now with
  | none =>
    rw [hr] at h
    cases h
    exact written_pair cfg H cc hn cs _ now
  | some x =>
    rw [hr] at h
    simp only at h
    split at h
    · cases h; exact written_pair cfg H cc hn cs _ now
    · cases h; exact written_pair cfg H cc hn cs _ now
    · cases h

variable (hn : Spec.Token cc.cookieName) (hr : Spec.Token cc.rememberName) (hip : isIP [] = false)
  (hd : Spec.Domain at'.domain) (hdate : ∀ t, 59 ∉ date t)
include hn hr hip hd hdate

theorem visit_wire (p : Place) (v : Visit V) (jar : List Entry) (s : σ) (hj : JarOk jar) :
    visitWire C K cfg H cc at' isIP date p v jar s = visit C K cfg H cc at' p v jar s ∧
      JarOk (visit C K cfg H cc at' p v jar s).1 := by
  have hsend := read_header (send p jar) (send_pairs hj p)
  have step : ∀ (d : Str), 59 ∉ d → ∀ (set : List SetCookie), (∀ c ∈ set, Spec.Pair (c.name, c.value)) →
      storeAll p.host p.now (set.flatMap fun c => received isIP (sessionCookie at' d c)) jar =
        storeAll p.host p.now (set.map (sessionAttrs at')) jar ∧
      JarOk (storeAll p.host p.now (set.map (sessionAttrs at')) jar) := by
    intro d hd' set hs
    rw [map_flatMap]
    exact storeAll_wire p.host p.now _ _ set jar (fun c hc =>
      ⟨sessionAttrs at' c, session_received at' isIP hip hd d hd' c (hs c hc), rfl, hs c hc⟩) hj
  have stepR : ∀ (set : List SetCookie), (∀ c ∈ set, Spec.Pair (c.name, c.value)) →
      storeAll p.host p.now (set.flatMap fun c => received isIP (rememberCookie at' c)) jar =
        storeAll p.host p.now (set.map (rememberAttrs at')) jar ∧
      JarOk (storeAll p.host p.now (set.map (rememberAttrs at')) jar) := by
    intro set hs
    rw [map_flatMap]
    exact storeAll_wire p.host p.now _ _ set jar (fun c hc =>
      ⟨rememberAttrs at' c, remember_received at' isIP hip c (hs c hc), rfl, hs c hc⟩) hj
  cases v with
  | start n f =>
    simp only [visitWire, visit]
    rw [hsend]
    cases h : start C K cfg H cc f p.now n (send p jar) s with
    | mk s' r =>
      cases r with
      | panic => exact ⟨rfl, hj⟩
      | done r set cs' =>
        have := step [] (by simp) set (start_pairs C K cfg H cc hn f p.now n _ s s' r set cs' h)
        simp only
        rw [this.1]
        exact ⟨rfl, this.2⟩
  | destroy f =>
    simp only [visitWire, visit]
    rw [hsend]
    cases h : managerDestroy C cfg H cc f p.now (send p jar) s with
    | mk s' set =>
      have := step (date p.now) (hdate p.now) set (destroy_pairs C cfg H cc hn f p.now _ s s' set h)
      simp only
      rw [this.1]
      exact ⟨rfl, this.2⟩
  | regenerate n ps fg fs fd fr =>
    simp only [visitWire, visit]
    rw [hsend]
    cases h : managerRegenerate C K cfg H cc fg fs fd fr p.now n ps (send p jar) s with
    | mk s' r =>
      cases r with
      | panic => exact ⟨rfl, hj⟩
      | done r set cs' =>
        have := step [] (by simp) set (regenerate_pairs C K cfg H cc hn fg fs fd fr p.now n ps _ s s' r set cs' h)
        simp only
        rw [this.1]
        exact ⟨rfl, this.2⟩
  | remember psk salt =>
    simp only [visitWire, visit]
    have := stepR (writeRemember H cfg cc psk salt p.now).toList (by
      intro c hc
      unfold writeRemember createRemember at hc
      split at hc
      · cases hc
      · split at hc
        · cases hc
        · cases he : encodeSecure H (queryEscape psk ++ bar :: queryEscape _) cfg.secretKey p.now with
          | none => rw [he] at hc; cases hc
          | some v =>
            rw [he] at hc
            simp only [Option.map_some, Option.toList_some, List.mem_singleton] at hc
            subst hc
            exact ⟨hr, encode_octets H he⟩)
    rw [this.1]
    exact ⟨rfl, this.2⟩
  | forget =>
    simp only [visitWire, visit]
    have := stepR [destroyRemember cc] (by
      intro c hc
      rw [List.mem_singleton] at hc
      subst hc
      exact ⟨hr, fun c hc => by cases hc⟩)
    rw [List.flatMap_cons, List.flatMap_nil, List.append_nil] at this
    rw [this.1]
    exact ⟨rfl, this.2⟩

theorem visits_wire (vs : List (Place × Visit V)) : ∀ (jar : List Entry) (s : σ), JarOk jar →
    visitsWire C K cfg H cc at' isIP date vs jar s = visits C K cfg H cc at' vs jar s := by
  induction vs with
  | nil => intro jar s _; rfl
  | cons x vs ih =>
    intro jar s hj
    obtain ⟨p, v⟩ := x
    obtain ⟨h1, h2⟩ := visit_wire C K cfg H cc at' isIP date hn hr hip hd hdate p v jar s hj
    simp only [visitsWire, visits]
    rw [h1]
    generalize visit C K cfg H cc at' p v jar s = r at h2 ⊢
    obtain ⟨jar', s', g⟩ := r
    simp only at h2 ⊢
    rw [ih jar' s' h2]

/-! ## C133 -/

/-- **C133**: over the wire, the requests of a browser have the outcomes they have in `Model/Jar`, where cookies need no
text: for every history, every cache and every fault. -/
theorem C133_wire_refines (vs : List (Place × Visit V)) (s : σ) :
    visitsWire C K cfg H cc at' isIP date vs [] s = visits C K cfg H cc at' vs [] s :=
  visits_wire C K cfg H cc at' isIP date hn hr hip hd hdate vs [] s (fun _ h => by cases h)

/-- **C133**: so the browser and the application agree about the session (C122), through the headers. -/
theorem C133_sessions_over_the_wire (hne : cc.cookieName ≠ cc.rememberName) (hk : cfg.secretKey ≠ [])
    (he : 0 ≤ cfg.sessionExpire) (he2 : cfg.sessionExpire ≤ 9223372036) (vs : List (Place × Visit V)) (s : σ)
    (ho : ∀ x ∈ vs, Spec.Ordinary x) :
    ∃ st, Spec.Follows cfg cc at' (fun _ => none) vs (visitsWire C K cfg H cc at' isIP date vs [] s).2.2 st := by
  rw [C133_wire_refines C K cfg H cc at' isIP date hn hr hip hd hdate]
  exact C122_browser_sessions C K cfg H cc at' hne hk he he2 vs s ho

end

/-- **C133**: what a browser makes of the header of a session cookie: the name and value of the code, the whole site, the
configured domain without its leading dot, the age (-1: remove it), `Secure` as configured, hidden from scripts. -/
theorem C133_session_cookie (isIP : Str → Bool) (hip : isIP [] = false) (at' : Attrs) (hd : Spec.Domain at'.domain) (date : Str)
    (hdate : 59 ∉ date) (c : SetCookie) (hn : Spec.Token c.name) (hv : Spec.Octets c.value) :
    ∃ text, setCookieText isIP (sessionCookie at' date c) = some text ∧
      uaRead text = some ⟨c.name, c.value, b!"/", wireDomain at'.domain, if c.maxAge < 0 then -1 else c.maxAge, at'.secure, true⟩ := by
  have h := read_text isIP at' at'.domain date c.name c.value c.maxAge hn hv hdate (domain_read isIP hip hd).1
  rw [(domain_read isIP hip hd).2] at h
  exact Option.bind_eq_some_iff.1 h

/-- **C133**: the values the code signs need no quoting. -/
theorem C133_signed_values (H : Hmac) (raw key v : Str) (t : Int) (h : encodeSecure H raw key t = some v) : Spec.Octets v :=
  encode_octets H h

/-- **C133**: what a browser sends is read by the application as it was sent. -/
theorem C133_request_cookies (cs : Cookies) (h : ∀ c ∈ cs, Spec.Token c.1 ∧ Spec.Octets c.2) :
    readCookies [cookieHeader cs] = cs := read_header cs h

theorem sanitized_name {n : Str} (h : Spec.Token n) : n.map (fun c => if c = 10 ∨ c = 13 then 45 else c) = n := by
  have hvn := (validName_iff n).2 h
  unfold validName at hvn
  rw [Bool.and_eq_true, List.all_eq_true] at hvn
  rw [List.map_congr_left (g := fun c => c), List.map_id'']
  · exact fun _ => rfl
  · intro c hc
    have := token_byte c (hvn.2 c hc)
    rw [if_neg]
    rintro (e | e)
    · exact this.2.2.2.2.1 e
    · exact this.2.2.2.2.2 e

theorem cookieHeader_snoc (c : Str × Str) (cs : Cookies) (d : Str × Str) :
    cookieHeader (c :: cs ++ [d]) = cookieHeader (c :: cs) ++ b!"; " ++ d.1 ++ b!"=" ++ d.2 := by
  simp [cookieHeader, List.append_assoc]

/-- **C133**: the cookie added to the request (sessions/manager.go:157) is read by whoever reads the request after it, and
hides none that was there. -/
theorem C133_add_cookie (cs : Cookies) (h : ∀ c ∈ cs, Spec.Token c.1 ∧ Spec.Octets c.2) (n v : Str) (hn : Spec.Token n)
    (hv : Spec.Octets v) :
    readCookies (addCookie [cookieHeader cs] n v) = cs ++ [(n, v)] ∧ readCookies (addCookie [] n v) = [(n, v)] := by
  have one : readCookies (addCookie [] n v) = [(n, v)] := by
    have : addCookie [] n v = [cookieHeader [(n, v)]] := by
      unfold addCookie
      rw [sanitize_octets hv, sanitized_name hn]
      simp [cookieHeader]
    rw [this]
    exact read_header _ (by intro c hc; rw [List.mem_singleton] at hc; subst hc; exact ⟨hn, hv⟩)
  refine ⟨?_, one⟩
  cases cs with
  | nil => exact one
  | cons c cs =>
    have hne : cookieHeader (c :: cs) ≠ [] := by
      rw [cookieHeader_eq]
      simp [pairText]
    have : addCookie [cookieHeader (c :: cs)] n v = [cookieHeader (c :: cs ++ [(n, v)])] := by
      unfold addCookie
      rw [sanitize_octets hv, sanitized_name hn, cookieHeader_snoc]
      rw [if_neg (show ¬ [cookieHeader (c :: cs)].headD [] = [] from hne)]
      rfl
    rw [this]
    refine read_header _ ?_
    intro d hd
    rcases List.mem_append.1 hd with hd | hd
    · exact h d hd
    · rw [List.mem_singleton] at hd; subst hd; exact ⟨hn, hv⟩

theorem readPart_name {part : Str} {c : Str × Str} (h : readPart part = some c) :
    Spec.Token c.1 ∧ ∀ x ∈ c.2, valueByte x = true := by
  unfold readPart at h
  split at h
  · rename_i hv
    cases hp : parseValue (((trimSpace part).dropWhile (· != 61)).drop 1) with
    | none => rw [hp] at h; cases h
    | some v =>
      rw [hp] at h
      cases h
      refine ⟨(validName_iff _).1 hv, ?_⟩
      unfold parseValue at hp
      split at hp
      · split at hp
        · cases hp
          rename_i ha
          exact List.all_eq_true.1 ha
        · cases hp
      · split at hp
        · cases hp
          rename_i ha
          exact List.all_eq_true.1 ha
        · cases hp
  · cases h

/-- **C133**: whatever the headers of a request are, the application sees only cookies whose names are tokens and whose values
are printable, without quotes, semicolons and backslashes. -/
theorem C133_read_sound (lines : List Str) (c : Str × Str) (h : c ∈ readCookies lines) :
    Spec.Token c.1 ∧ ∀ x ∈ c.2, 32 ≤ x ∧ x ≤ 126 ∧ x ≠ 34 ∧ x ≠ 59 ∧ x ≠ 92 := by
  unfold readCookies at h
  obtain ⟨line, _, h⟩ := List.mem_flatMap.1 h
  obtain ⟨part, _, h⟩ := List.mem_filterMap.1 h
  refine ⟨(readPart_name h).1, fun x hx => ?_⟩
  have := (readPart_name h).2 x hx
  revert this
  exact forall_u8 (P := fun x => valueByte x = true → 32 ≤ x ∧ x ≤ 126 ∧ x ≠ 34 ∧ x ≠ 59 ∧ x ≠ 92) (by decide +kernel) x

/-- **C133**: with a `CookieName` that is no token (say `my session`) there are no sessions at all, and nothing says so:
whatever cookies a request brings, `Start` makes a new session, and no cookie is sent. -/
theorem C133_bad_name_no_session {σ V : Type} (C : CacheApi σ) (K : Conv V) (cfg : Config) (H : Hmac) (cc : CookieConfig)
    (at' : Attrs) (isIP : Str → Bool) (date : Str) (hbad : ¬ Spec.Token cc.cookieName) (f : Fault) (now : Int) (n : Str)
    (lines : List Str) (s : σ) :
    ∃ set cs, start C K cfg H cc f now n (readCookies lines) s = (s, .done (.ok (create n [])) set cs) ∧
      ∀ c ∈ set, setCookieText isIP (sessionCookie at' date c) = none := by
  have hr : readSid H cfg (readCookies lines) cc.cookieName now = none := by
    unfold readSid
    cases hg : getCookie (readCookies lines) cc.cookieName with
    | none => rfl
    | some v =>
      exfalso
      obtain ⟨x, hx, hxn⟩ : ∃ x ∈ readCookies lines, x.1 = cc.cookieName := by
        have hg' := hg
        simp only [getCookie] at hg'
        rcases Option.map_eq_some_iff.1 hg' with ⟨x, hx, _⟩
        exact ⟨x, List.mem_reverse.1 (List.mem_of_find?_eq_some hx), by have := List.find?_some hx; simpa using this⟩
      exact hbad (hxn ▸ (C133_read_sound lines x hx).1)
  unfold start
  rw [hr]
  refine ⟨_, _, rfl, ?_⟩
  intro c hc
  have hcn : c.name = cc.cookieName := by
    unfold writeSessionCookie at hc
    split at hc
    · cases hc
    · rw [List.mem_singleton] at hc; subst hc; rfl
  unfold setCookieText sessionCookie
  rw [if_neg]
  simp only
  rw [hcn, validName_iff]
  exact hbad

theorem loop_bytes : ∀ (s : Str) (last : UInt8) (seen : Bool) (n : Nat), domainLoop last seen n s = true →
    ∀ c ∈ s, (97 ≤ c ∧ c ≤ 122) ∨ (65 ≤ c ∧ c ≤ 90) ∨ (48 ≤ c ∧ c ≤ 57) ∨ c = 45 ∨ c = 46 := by
  intro s
  induction s with
  | nil => intro _ _ _ _ c hc; cases hc
  | cons c s ih =>
    intro last seen n h x hx
    rw [domainLoop] at h
    have fin : ∀ (l2 : UInt8) (s2 : Bool) (n2 : Nat), domainLoop l2 s2 n2 s = true →
        ((97 ≤ c ∧ c ≤ 122) ∨ (65 ≤ c ∧ c ≤ 90) ∨ (48 ≤ c ∧ c ≤ 57) ∨ c = 45 ∨ c = 46) →
        (97 ≤ x ∧ x ≤ 122) ∨ (65 ≤ x ∧ x ≤ 90) ∨ (48 ≤ x ∧ x ≤ 57) ∨ x = 45 ∨ x = 46 := by
      intro l2 s2 n2 h2 hc
      rcases List.mem_cons.1 hx with rfl | hx
      · exact hc
      · exact ih l2 s2 n2 h2 x hx
    split at h
    · rename_i h1
      refine fin _ _ _ h ?_
      simp only [Bool.or_eq_true, Bool.and_eq_true, decide_eq_true_eq] at h1
      rcases h1 with h1 | h1
      · exact Or.inl h1
      · exact Or.inr (Or.inl h1)
    · split at h
      · rename_i h1
        simp only [Bool.and_eq_true, decide_eq_true_eq] at h1
        exact fin _ _ _ h (Or.inr (Or.inr (Or.inl h1)))
      · split at h
        · rename_i h1
          rw [Bool.and_eq_true] at h
          exact fin _ _ _ h.2 (Or.inr (Or.inr (Or.inr (Or.inl h1))))
        · split at h
          · rename_i h1
            rw [Bool.and_eq_true] at h
            exact fin _ _ _ h.2 (Or.inr (Or.inr (Or.inr (Or.inr h1))))
          · cases h

/-- **C133**: with a `CookieDomain` that holds anything but letters, digits, hyphens and dots (say `localhost:8080`), the
cookie goes to the host that set it only, and nothing says so. -/
theorem C133_bad_domain_host_only (isIP : Str → Bool) (at' : Attrs) (date : Str) (hdate : 59 ∉ date) (c : SetCookie)
    (hn : Spec.Token c.name) (hv : Spec.Octets c.value) (hip : isIP at'.domain = false) (x : UInt8) (hx : x ∈ at'.domain)
    (hbad : ¬ ((97 ≤ x ∧ x ≤ 122) ∨ (65 ≤ x ∧ x ≤ 90) ∨ (48 ≤ x ∧ x ≤ 57) ∨ x = 45 ∨ x = 46)) :
    (setCookieText isIP (sessionCookie at' date c)).bind uaRead =
      some ⟨c.name, c.value, b!"/", [], if c.maxAge < 0 then -1 else c.maxAge, at'.secure, true⟩ := by
  have hinv : validDomain isIP at'.domain = false := by
    unfold validDomain
    rw [hip, Bool.false_and, Bool.or_false, Bool.and_eq_false_iff]
    right
    cases hl : domainLoop 46 false 0 (wireDomain at'.domain) with
    | false => rfl
    | true =>
      exfalso
      have hx' : x ∈ wireDomain at'.domain := by
        unfold wireDomain
        split
        · rename_i t ht
          rw [ht] at hx
          rcases List.mem_cons.1 hx with rfl | hx
          · exact absurd (by decide) hbad
          · exact hx
        · exact hx
      exact hbad (loop_bytes _ _ _ _ hl x hx')
  have h := read_text isIP at' at'.domain date c.name c.value c.maxAge hn hv hdate (by rw [hinv]; intro h; cases h)
  rw [hinv] at h
  exact h

/-! ## Examples -/

example : Spec.Token b!"sess_id" ∧ ¬ Spec.Token b!"my session" ∧ ¬ Spec.Token [] := by
  refine ⟨(validName_iff _).1 (by decide), ?_, ?_⟩
  · rw [← validName_iff]; decide
  · rw [← validName_iff]; decide

example : Spec.Domain b!".example.com" := by
  refine Or.inr (Or.inr ⟨b!"example.com", rfl, [b!"example", b!"com"], by simp, rfl, ?_, ?_, by decide⟩)
  · intro l hl
    simp only [List.mem_cons, List.not_mem_nil, or_false] at hl
    rcases hl with rfl | rfl <;> (unfold Spec.Label; decide)
  · exact ⟨101, by decide, by decide⟩

/-- the header of a session cookie, and what a browser reads in it -/
example : setCookieText (fun _ => false) (sessionCookie ⟨true, b!".example.com"⟩ [] ⟨b!"sid", b!"QUJD", 3600⟩) =
      some b!"sid=QUJD; Path=/; Domain=example.com; Max-Age=3600; HttpOnly; Secure" ∧
    (uaRead b!"sid=QUJD; Path=/; Domain=example.com; Max-Age=3600; HttpOnly; Secure" =
      some ⟨b!"sid", b!"QUJD", b!"/", b!"example.com", 3600, true, true⟩) := by
  constructor
  · decide +kernel
  · decide +kernel

/-- `localhost:8080` is dropped -/
example : setCookieText (fun _ => false) (sessionCookie ⟨false, b!"localhost:8080"⟩ [] ⟨b!"sid", b!"QUJD", 0⟩) =
    some b!"sid=QUJD; Path=/; HttpOnly" := by decide +kernel

example : readCookies [b!"a=1; sid=QUJD"] = [(b!"a", b!"1"), (b!"sid", b!"QUJD")] ∧
    readCookies (addCookie [b!"a=1"] b!"sid" b!"QUJD") = [(b!"a", b!"1"), (b!"sid", b!"QUJD")] := by
  constructor
  · decide +kernel
  · decide +kernel

/-- **C133**: a configured domain that is an IP address appears in the header as it is when it is an IPv4 address (no
colon); with a colon (IPv6) no `Domain` is written and the cookie belongs to the host that set it. -/
theorem C133_domain_address (isIP : Str → Bool) (n v d : Str) (hn : validName n = true) (hip : isIP d = true)
    (hdot : d.head? ≠ some 46) (hcol : d.contains 58 = false) :
    setCookieText isIP ⟨n, v, b!"/", d, [], 0, false, true⟩ =
      some (n ++ b!"=" ++ sanitizeValue v ++ b!"; Path=/" ++ (b!"; Domain=" ++ d) ++ b!"; HttpOnly") := by
  have hv : validDomain isIP d = true := by unfold validDomain; rw [hip, hcol]; simp
  have e1 : (b!"/" : Str).filter (fun b => 32 ≤ b && b < 127 && b != 59) = b!"/" := by decide
  unfold setCookieText GoCookie.attrs
  rw [if_pos hn]
  simp only [hv, e1, wireDomain_id hdot]
  simp

/-- no byte of a domain name is a colon -/
theorem domainLoop_colon : ∀ (s : Str) (l : UInt8) (b : Bool) (n : Nat), (58 : UInt8) ∈ s → domainLoop l b n s = false
  | [], _, _, _, h => by simp at h
  | c :: cs, l, b, n, h => by
    rcases List.mem_cons.1 h with e | e
    · subst e; simp [domainLoop]
    · unfold domainLoop
      simp only [domainLoop_colon cs _ _ _ e]
      simp

/-- **C133**: with a colon no `Domain` is written. -/
theorem C133_domain_colon (isIP : Str → Bool) (n v d : Str) (hn : validName n = true) (hcol : (58 : UInt8) ∈ d) :
    setCookieText isIP ⟨n, v, b!"/", d, [], 0, false, true⟩ =
      some (n ++ b!"=" ++ sanitizeValue v ++ b!"; Path=/" ++ b!"; HttpOnly") := by
  have hw : (58 : UInt8) ∈ wireDomain d := by
    by_cases hd : d.head? = some 46
    · cases d with
      | nil => simp at hcol
      | cons c t =>
        simp only [List.head?_cons, Option.some.injEq] at hd
        subst hd
        have : (58 : UInt8) ∈ t := by simpa using hcol
        have e : wireDomain (46 :: t) = t := (C122_domain t).1
        rw [e]; exact this
    · rw [wireDomain_id hd]; exact hcol
  have hv : validDomain isIP d = false := by
    unfold validDomain
    rw [domainLoop_colon _ _ _ _ hw]
    simp [hcol]
  have e1 : (b!"/" : Str).filter (fun b => 32 ≤ b && b < 127 && b != 59) = b!"/" := by decide
  unfold setCookieText GoCookie.attrs
  rw [if_pos hn]
  simp only [hv, e1]
  simp

example : setCookieText (fun _ => true) ⟨b!"sid", b!"x", b!"/", b!"10.0.0.1", [], 0, false, true⟩ =
    some b!"sid=x; Path=/; Domain=10.0.0.1; HttpOnly" := by decide +kernel
example : setCookieText (fun _ => true) ⟨b!"sid", b!"x", b!"/", b!"::1", [], 0, false, true⟩ =
    some b!"sid=x; Path=/; HttpOnly" := by decide +kernel

end Verif.Sess
