import Verif.Model.RealUrl
import Verif.Props.Params
import Verif.Proofs.Enc
/-!
# C131, C132: RealURL
-/
namespace Verif.Params
open Verif.Go

/-! ## Specification -/

/-- `c` is the digit of `x`, `x < 16`, in hexadecimal, of either case. -/
def Spec.HexDigit (c : UInt8) (x : Nat) : Prop :=
  b!"0123456789abcdef"[x]? = some c ∨ b!"0123456789ABCDEF"[x]? = some c

/-- `s` is a percent-encoding of `p`: `%` and two hexadecimal digits for a byte, or the byte itself. -/
inductive Spec.Encodes : Str → Str → Prop where
  | nil : Spec.Encodes [] []
  | plain (c : UInt8) (s p : Str) : c ≠ 37 → Spec.Encodes s p → Spec.Encodes (c :: s) (c :: p)
  | escaped (a b : UInt8) (x y : Nat) (s p : Str) : Spec.HexDigit a x → Spec.HexDigit b y → Spec.Encodes s p →
      Spec.Encodes (37 :: a :: b :: s) (UInt8.ofNat (16 * x + y) :: p)

/-- `t` is `p`, without a query (`q` is empty), or `p?q`. -/
def Spec.WithQuery (p q t : Str) : Prop := (t = p ∧ q = []) ∨ t = p ++ 63 :: q

/-- A URI scheme: a letter, then letters, digits, `+`, `-`, `.`. -/
def Spec.Scheme (s : Str) : Prop :=
  ∃ c r, s = c :: r ∧ ((97 ≤ c ∧ c ≤ 122) ∨ (65 ≤ c ∧ c ≤ 90)) ∧
    ∀ d ∈ r, (97 ≤ d ∧ d ≤ 122) ∨ (65 ≤ d ∧ d ≤ 90) ∨ (48 ≤ d ∧ d ≤ 57) ∨ d = 43 ∨ d = 45 ∨ d = 46

/-- No control characters. -/
def Spec.NoControl (s : Str) : Prop := ∀ c ∈ s, 32 ≤ c ∧ c ≠ 127

/-- `Spec.Reads authority t o p q`: the request target `t` has the opaque part `o`, the (decoded) path `p` and the
query `q`; `authority` says which texts are user information and host. -/
inductive Spec.Reads (authority : Str → Option (Str × Str)) : Str → Str → Str → Str → Prop where
  | star : Spec.Reads authority b!"*" [] b!"*" []
  /-- `/path?query` -/
  | origin (t p q path : Str) : 63 ∉ p → p.head? = some 47 → Spec.Encodes p path → Spec.WithQuery p q t →
      Spec.Reads authority t [] path q
  /-- `scheme:/path?query` -/
  | schemed (s t p q path : Str) : Spec.Scheme s → 63 ∉ p → p.head? = some 47 → (p.drop 1).head? ≠ some 47 →
      Spec.Encodes p path → Spec.WithQuery p q t → Spec.Reads authority (s ++ b!":" ++ t) [] path q
  /-- `scheme://authority/path?query` -/
  | absolute (s a t p q path : Str) (uh : Str × Str) : Spec.Scheme s → 63 ∉ a → 47 ∉ a → authority a = some uh →
      63 ∉ p → (p = [] ∨ p.head? = some 47) → Spec.Encodes p path → Spec.WithQuery p q t →
      Spec.Reads authority (s ++ b!"://" ++ a ++ t) [] path q
  /-- `scheme:opaque?query` -/
  | opaq (s t o q : Str) : Spec.Scheme s → 63 ∉ o → o.head? ≠ some 47 → Spec.WithQuery o q t →
      Spec.Reads authority (s ++ b!":" ++ t) o [] q

/-! ## Lemmas -/

theorem url_unhex_iff (c : UInt8) : ∀ x, unhex c = some x ↔ Spec.HexDigit c x := by
  have h1 : ∀ c : UInt8, ∀ x : Fin 16, unhex c = some x.val ↔ Spec.HexDigit c x.val := by
    intro c
    exact forall_u8 (P := fun c => ∀ x : Fin 16, unhex c = some x.val ↔ Spec.HexDigit c x.val)
      (by unfold Spec.HexDigit; decide +kernel) c
  have h2 : ∀ c : UInt8, ∀ x, unhex c = some x → x < 16 := by
    intro c
    refine forall_u8 (P := fun c => ∀ x, unhex c = some x → x < 16) ?_ c
    intro n x hx
    have h3 : ∀ n : Fin 256, (unhex (UInt8.ofNat n.val)).all (· < 16) = true := by decide +kernel
    have := h3 n
    rw [hx] at this
    simpa using this
  intro x
  constructor
  · intro h; exact (h1 c ⟨x, h2 c x h⟩).1 h
  · intro h
    have : x < 16 := by
      unfold Spec.HexDigit at h
      rcases h with h | h
      · exact (List.getElem?_eq_some_iff.1 h).1
      · exact (List.getElem?_eq_some_iff.1 h).1
    exact (h1 c ⟨x, this⟩).2 h

theorem pathUnescape_iff (s p : Str) : pathUnescape s = some p ↔ Spec.Encodes s p := by
  induction s using pathUnescape.induct generalizing p with
  | case1 => 
    simp only [pathUnescape]
    constructor
    · intro h; cases h; exact .nil
    · intro h; cases h; rfl
  | case2 a b cs x y hy hx ih =>
    simp only [pathUnescape, hx, hy]
    constructor
    · intro h
      obtain ⟨p', h1, h2⟩ := Option.map_eq_some_iff.1 h
      subst h2
      rw [Nat.mul_comm]
      exact .escaped a b x y cs p' ((url_unhex_iff a x).1 hx) ((url_unhex_iff b y).1 hy) ((ih p').1 h1)
    · intro h
      cases h with
      | plain c s p hc _ => exact absurd rfl hc
      | escaped a b x' y' s p h1 h2 h3 =>
        have e1 := (url_unhex_iff a x').2 h1
        have e2 := (url_unhex_iff b y').2 h2
        rw [hx] at e1; rw [hy] at e2
        cases e1; cases e2
        rw [(ih p).2 h3, Nat.mul_comm]; rfl
  | case3 a b cs h =>
    simp only [pathUnescape]
    constructor
    · intro h'
      cases h'
    · intro h'
      cases h' with
      | plain c s p hc _ => exact absurd rfl hc
      | escaped a b x' y' s p h1 h2 h3 =>
        exact (h x' y' ((url_unhex_iff a x').2 h1) ((url_unhex_iff b y').2 h2)).elim
  | case4 cs h =>
    have : pathUnescape (37 :: cs) = none := by
      unfold pathUnescape
      split
      · rename_i heq; cases heq
      · rename_i heq; cases heq; exact (h _ _ _ rfl rfl).elim
      · rename_i heq; cases heq; rw [if_pos rfl]
    rw [this]
    constructor
    · intro h'; cases h'
    · intro h'
      cases h' with
      | plain c s p hc _ => exact absurd rfl hc
      | escaped a b x' y' s p h1 h2 h3 => exact (h a b s rfl rfl).elim
  | case5 c cs h1 h2 ih =>
    have : pathUnescape (c :: cs) = (pathUnescape cs).map (c :: ·) := by
      rw [pathUnescape]
      · rw [if_neg h2]
      · exact h1
    rw [this]
    constructor
    · intro h
      obtain ⟨p', h1, h3⟩ := Option.map_eq_some_iff.1 h
      subst h3
      exact .plain c cs p' h2 ((ih p').1 h1)
    · intro h
      cases h with
      | plain c s p hc h3 => rw [(ih p).2 h3]; rfl
      | escaped a b x' y' s p h1 h2' h3 => exact absurd rfl h2

theorem pathKeep_ne (c : UInt8) : pathKeep c = true → c ≠ 37 ∧ c ≠ 63 ∧ ctlByte c = false := by
  refine forall_u8 (P := fun c => pathKeep c = true → c ≠ 37 ∧ c ≠ 63 ∧ ctlByte c = false) ?_ c
  decide +kernel

theorem pathByte_ne (c : UInt8) : pathByte c = true → c ≠ 63 ∧ ctlByte c = false := by
  refine forall_u8 (P := fun c => pathByte c = true → c ≠ 63 ∧ ctlByte c = false) ?_ c
  decide +kernel

theorem hexUpper_byte : ∀ n : Fin 16, pathByte (hexUpper n.val) = true := by decide

theorem pathEscape_bytes (s : Str) : ∀ c ∈ pathEscape s, pathByte c = true := by
  induction s with
  | nil => intro c h; cases h
  | cons d s ih =>
    intro c hc
    rw [pathEscape] at hc
    split at hc
    · rename_i hk
      rcases List.mem_cons.1 hc with rfl | h
      · unfold pathByte; rw [hk]; rfl
      · exact ih c h
    · have := d.toNat_lt
      rcases List.mem_cons.1 hc with rfl | hc
      · decide
      rcases List.mem_cons.1 hc with rfl | hc
      · exact hexUpper_byte ⟨d.toNat / 16, by omega⟩
      rcases List.mem_cons.1 hc with rfl | hc
      · exact hexUpper_byte ⟨d.toNat % 16, by omega⟩
      · exact ih c hc

theorem path_roundtrip (s : Str) : pathUnescape (pathEscape s) = some s := by
  induction s with
  | nil => rfl
  | cons d s ih =>
    rw [pathEscape]
    split
    · rename_i hk
      rw [pathUnescape_iff]
      exact .plain d _ s (pathKeep_ne d hk).1 ((pathUnescape_iff _ _).1 ih)
    · have hd := d.toNat_lt
      have h1 := unhex_hexUpper ⟨d.toNat / 16, by omega⟩
      have h2 := unhex_hexUpper ⟨d.toNat % 16, by omega⟩
      simp only [pathUnescape, h1, h2, ih, Option.map_some]
      congr 2
      have : d.toNat / 16 * 16 + d.toNat % 16 = d.toNat := by omega
      rw [this]
      exact UInt8.ofNat_toNat

theorem encodes_head {s p : Str} (h : Spec.Encodes s p) (hs : s.head? = some 47) : p.head? = some 47 := by
  cases h with
  | nil => cases hs
  | plain c s p _ _ => simpa using hs
  | escaped a b x y s p _ _ _ => simp at hs

theorem encodes_nil {p : Str} (h : Spec.Encodes [] p) : p = [] := by cases h; rfl

theorem noctl_iff (s : Str) : s.any ctlByte = false ↔ Spec.NoControl s := by
  rw [List.any_eq_false]
  unfold Spec.NoControl
  constructor
  · intro h c hc
    have := h c hc
    unfold ctlByte at this
    simp only [Bool.or_eq_true, decide_eq_true_eq, beq_iff_eq, not_or] at this
    exact ⟨UInt8.not_lt.1 this.1, this.2⟩
  · intro h c hc
    have := h c hc
    unfold ctlByte
    simp only [Bool.or_eq_true, decide_eq_true_eq, beq_iff_eq, not_or]
    exact ⟨UInt8.not_lt.2 this.1, this.2⟩

theorem cut_cases (sep : UInt8) (t : Str) :
    (sep ∉ t ∧ t.takeWhile (· != sep) = t ∧ t.dropWhile (· != sep) = []) ∨ ∃ a r, sep ∉ a ∧ t = a ++ sep :: r := by
  induction t with
  | nil => left; exact ⟨List.not_mem_nil, rfl, rfl⟩
  | cons c t ih =>
    by_cases hc : c = sep
    · subst hc; right; exact ⟨[], t, List.not_mem_nil, rfl⟩
    · rcases ih with ⟨h1, h2, h3⟩ | ⟨a, r, h1, rfl⟩
      · left
        refine ⟨?_, ?_, ?_⟩
        · intro h
          rcases List.mem_cons.1 h with e | e
          · exact hc e.symm
          · exact h1 e
        · rw [List.takeWhile_cons, if_pos (by simpa using hc), h2]
        · rw [List.dropWhile_cons, if_pos (by simpa using hc), h3]
      · right
        refine ⟨c :: a, r, ?_, rfl⟩
        intro h
        rcases List.mem_cons.1 h with e | e
        · exact hc e.symm
        · exact h1 e

theorem cut_none (sep : UInt8) (t : Str) (h : sep ∉ t) :
    t.takeWhile (· != sep) = t ∧ t.dropWhile (· != sep) = [] := by
  rcases cut_cases sep t with h' | ⟨a, r, _, rfl⟩
  · exact h'.2
  · exact absurd (List.mem_append_right _ List.mem_cons_self) h

theorem cutQuery_iff (t p q : Str) : ((cutQuery t).1 = p ∧ (cutQuery t).2.1 = q) ↔ 63 ∉ p ∧ Spec.WithQuery p q t := by
  unfold cutQuery Spec.WithQuery
  simp only
  constructor
  · rintro ⟨rfl, rfl⟩
    rcases cut_cases 63 t with ⟨h1, h2, h3⟩ | ⟨a, r, h1, rfl⟩
    · rw [h2, h3]; exact ⟨h1, .inl ⟨rfl, rfl⟩⟩
    · rw [takeWhile_append_sep 63 a r h1, dropWhile_append_sep 63 a r h1]
      exact ⟨h1, .inr rfl⟩
  · rintro ⟨h1, h2⟩
    rcases h2 with ⟨rfl, rfl⟩ | rfl
    · rw [(cut_none 63 t h1).1, (cut_none 63 t h1).2]; exact ⟨rfl, rfl⟩
    · rw [takeWhile_append_sep 63 p q h1, dropWhile_append_sep 63 p q h1]
      exact ⟨rfl, rfl⟩

theorem scheme_bytes (c : UInt8) : (schemeAlpha c = true ↔ (97 ≤ c ∧ c ≤ 122) ∨ (65 ≤ c ∧ c ≤ 90)) ∧
    ((schemeAlpha c || schemeOther c) = true ↔
      (97 ≤ c ∧ c ≤ 122) ∨ (65 ≤ c ∧ c ≤ 90) ∨ (48 ≤ c ∧ c ≤ 57) ∨ c = 43 ∨ c = 45 ∨ c = 46) := by
  refine forall_u8 (P := fun c => (schemeAlpha c = true ↔ (97 ≤ c ∧ c ≤ 122) ∨ (65 ≤ c ∧ c ≤ 90)) ∧
    ((schemeAlpha c || schemeOther c) = true ↔
      (97 ≤ c ∧ c ≤ 122) ∨ (65 ≤ c ∧ c ≤ 90) ∨ (48 ≤ c ∧ c ≤ 57) ∨ c = 43 ∨ c = 45 ∨ c = 46)) ?_ c
  decide +kernel

theorem schemeLoop_sep (whole : Str) : ∀ (r pre rest : Str),
    (∀ d ∈ r, (schemeAlpha d || schemeOther d) = true) → schemeLoop whole pre (r ++ 58 :: rest) = (pre ++ r, rest) := by
  intro r
  induction r with
  | nil =>
    intro pre rest _
    simp only [List.nil_append, List.append_nil]
    rw [schemeLoop, if_neg (by decide), if_pos rfl]
  | cons d r ih =>
    intro pre rest h
    rw [List.cons_append, schemeLoop, if_pos (h d List.mem_cons_self),
      ih _ _ (fun e he => h e (List.mem_cons_of_mem _ he)), List.append_assoc]
    rfl

theorem schemeLoop_inv (whole : Str) : ∀ (cs pre : Str),
    schemeLoop whole pre cs = ([], whole) ∨
    ∃ r rest, cs = r ++ 58 :: rest ∧ (∀ d ∈ r, (schemeAlpha d || schemeOther d) = true) ∧
      schemeLoop whole pre cs = (pre ++ r, rest) := by
  intro cs
  induction cs with
  | nil => intro pre; left; rfl
  | cons c cs ih =>
    intro pre
    rw [schemeLoop]
    by_cases h1 : (schemeAlpha c || schemeOther c) = true
    · rw [if_pos h1]
      rcases ih (pre ++ [c]) with h | ⟨r, rest, rfl, h2, h3⟩
      · left; exact h
      · right
        refine ⟨c :: r, rest, rfl, ?_, ?_⟩
        · intro d hd
          rcases List.mem_cons.1 hd with rfl | hd
          · exact h1
          · exact h2 d hd
        · rw [h3, List.append_assoc]; rfl
    · rw [if_neg h1]
      by_cases h2 : c = 58
      · rw [if_pos h2]; subst h2
        right
        exact ⟨[], cs, rfl, (fun d hd => nomatch hd), by rw [List.append_nil]⟩
      · rw [if_neg h2]; left; rfl

theorem getScheme_scheme (s rest : Str) (h : Spec.Scheme s) : getScheme (s ++ 58 :: rest) = some (s, rest) := by
  obtain ⟨c, r, rfl, h1, h2⟩ := h
  rw [List.cons_append, getScheme, if_pos ((scheme_bytes c).1.2 h1),
    schemeLoop_sep _ r [c] rest (fun d hd => (scheme_bytes d).2.2 (h2 d hd))]
  rfl

theorem getScheme_inv {t s rest : Str} (h : getScheme t = some (s, rest)) :
    (s = [] ∧ rest = t) ∨ (Spec.Scheme s ∧ t = s ++ 58 :: rest) := by
  cases t with
  | nil => cases h; exact .inl ⟨rfl, rfl⟩
  | cons c cs =>
    rw [getScheme] at h
    by_cases h1 : schemeAlpha c = true
    · rw [if_pos h1] at h
      rcases schemeLoop_inv (c :: cs) cs [c] with e | ⟨r, rest', rfl, h2, e⟩
      · rw [e] at h; cases h; exact .inl ⟨rfl, rfl⟩
      · rw [e] at h; cases h
        exact .inr ⟨⟨c, r, rfl, (scheme_bytes c).1.1 h1, fun d hd => (scheme_bytes d).2.1 (h2 d hd)⟩, rfl⟩
    · rw [if_neg h1] at h
      by_cases h2 : c = 58
      · rw [if_pos h2] at h; cases h
      · rw [if_neg h2] at h; cases h; exact .inl ⟨rfl, rfl⟩

theorem getScheme_slash (t : Str) (h : t.head? = some 47) : getScheme t = some ([], t) := by
  cases t with
  | nil => cases h
  | cons c cs =>
    simp only [List.head?_cons, Option.some.injEq] at h
    subst h
    rw [getScheme, if_neg (by decide), if_neg (by decide)]

theorem scheme_ne_nil {s : Str} (h : Spec.Scheme s) : s ≠ [] := by
  obtain ⟨c, r, rfl, _⟩ := h; exact List.cons_ne_nil _ _

theorem withQuery_head {p q t : Str} (h : Spec.WithQuery p q t) (hp : p ≠ []) : t.head? = p.head? := by
  rcases h with ⟨rfl, _⟩ | rfl
  · rfl
  · cases p with
    | nil => exact absurd rfl hp
    | cons => rfl

theorem hasPrefix_slash (p : Str) : hasPrefix p b!"/" = true ↔ p.head? = some 47 := by
  cases p with
  | nil => decide
  | cons c cs => simp [hasPrefix, List.isPrefixOf]; exact eq_comm

theorem hasPrefix_slash2 (p : Str) (h : p.head? = some 47) :
    hasPrefix p b!"//" = true ↔ (p.drop 1).head? = some 47 := by
  cases p with
  | nil => cases h
  | cons c cs =>
    simp only [List.head?_cons, Option.some.injEq] at h
    subst h
    cases cs with
    | nil => decide
    | cons d cs => simp [hasPrefix, List.isPrefixOf]; exact eq_comm

theorem setPath_some {u v : URL} {p : Str} (h : u.setPath p = some v) :
    Spec.Encodes p v.path ∧ v.opaq = u.opaq ∧ v.rawQuery = u.rawQuery ∧ v.user = u.user ∧
      v.rawPath = (if p = pathEscape v.path then [] else p) ∧ v.forceQuery = u.forceQuery ∧ v.host = u.host ∧
      v.scheme = u.scheme := by
  unfold URL.setPath at h
  obtain ⟨path, h1, h2⟩ := Option.map_eq_some_iff.1 h
  subst h2
  exact ⟨(pathUnescape_iff _ _).1 h1, rfl, rfl, rfl, rfl, rfl, rfl, rfl⟩

theorem setPath_ok (u : URL) {p path : Str} (h : Spec.Encodes p path) :
    u.setPath p = some { u with path := path, rawPath := if p = pathEscape path then [] else p } := by
  unfold URL.setPath
  rw [(pathUnescape_iff _ _).2 h]; rfl

theorem parse_reads {A : Str → Option (Str × Str)} {t : Str} {u : URL} (h : parseRequestURI A t = some u) :
    Spec.NoControl t ∧ Spec.Reads A t u.opaq u.path u.rawQuery := by
  unfold parseRequestURI at h
  by_cases hc : t.any ctlByte = true
  · rw [if_pos hc] at h; cases h
  rw [if_neg hc] at h
  refine ⟨(noctl_iff t).1 (by simpa using hc), ?_⟩
  by_cases h0 : t = []
  · rw [if_pos h0] at h; cases h
  rw [if_neg h0] at h
  by_cases hs : t = b!"*"
  · rw [if_pos hs] at h; cases h; subst hs; exact .star
  rw [if_neg hs] at h
  cases hg : getScheme t with
  | none => rw [hg] at h; cases h
  | some e =>
    obtain ⟨s, rest⟩ := e
    rw [hg] at h
    simp only at h
    obtain ⟨hq1, hq2⟩ := (cutQuery_iff rest _ _).1 ⟨rfl, rfl⟩
    generalize (cutQuery rest).1 = p at *
    generalize (cutQuery rest).2.1 = q at *
    generalize (cutQuery rest).2.2 = force at *
    by_cases hp : hasPrefix p b!"/" = true
    · rw [if_pos hp] at h
      have hp' := (hasPrefix_slash p).1 hp
      by_cases h2 : s ≠ [] ∧ hasPrefix p b!"//" = true
      · rw [if_pos h2] at h
        obtain ⟨h3, h4⟩ := h2
        rcases getScheme_inv hg with ⟨e, _⟩ | ⟨hsch, rfl⟩
        · exact absurd e h3
        have h5 := (hasPrefix_slash2 p hp').1 h4
        obtain ⟨p', rfl⟩ : ∃ p', p = 47 :: 47 :: p' := by
          match p, hp', h5 with
          | a :: b :: p', hp', h5 => simp at hp' h5; subst hp'; subst h5; exact ⟨p', rfl⟩
        simp only [List.drop_succ_cons, List.drop_zero] at h
        cases hA : A (p'.takeWhile (· != 47)) with
        | none => rw [hA] at h; cases h
        | some uh =>
          rw [hA] at h
          simp only at h
          obtain ⟨g1, g2, g3, _⟩ := setPath_some h
          rw [g2, g3]
          simp only
          have hdec : p'.takeWhile (· != 47) ++ p'.dropWhile (· != 47) = p' :=
            List.takeWhile_append_dropWhile
          have hn : 47 ∉ p'.takeWhile (· != 47) ∧
              (p'.dropWhile (· != 47) = [] ∨ (p'.dropWhile (· != 47)).head? = some 47) := by
            rcases cut_cases 47 p' with ⟨k1, k2, k3⟩ | ⟨a, r, k1, rfl⟩
            · rw [k2, k3]; exact ⟨k1, .inl rfl⟩
            · rw [takeWhile_append_sep 47 a r k1, dropWhile_append_sep 47 a r k1]
              exact ⟨k1, .inr rfl⟩
          generalize p'.takeWhile (· != 47) = a at *
          generalize p'.dropWhile (· != 47) = r at *
          subst hdec
          have m1 : 63 ∉ a := fun hm => hq1 (by simp [hm])
          have m2 : 63 ∉ r := fun hm => hq1 (by simp [hm])
          rcases hq2 with ⟨rfl, rfl⟩ | rfl
          · have := Spec.Reads.absolute (authority := A) s a r r [] _ uh hsch m1 hn.1 hA m2 hn.2 g1 (.inl ⟨rfl, rfl⟩)
            simpa using this
          · have := Spec.Reads.absolute (authority := A) s a (r ++ 63 :: q) r q _ uh hsch m1 hn.1 hA m2 hn.2 g1
              (.inr rfl)
            simpa using this
      · rw [if_neg h2] at h
        obtain ⟨g1, g2, g3, _⟩ := setPath_some h
        rw [g2, g3]
        simp only
        rcases getScheme_inv hg with ⟨e, e2⟩ | ⟨hsch, rfl⟩
        · subst e2
          exact .origin _ p q _ hq1 hp' g1 hq2
        · have h5 : (p.drop 1).head? ≠ some 47 := by
            intro e
            exact h2 ⟨scheme_ne_nil hsch, (hasPrefix_slash2 p hp').2 e⟩
          have := Spec.Reads.schemed (authority := A) s rest p q _ hsch hq1 hp' h5 g1 hq2
          simpa using this
    · rw [if_neg hp] at h
      by_cases h3 : s ≠ []
      · rw [if_pos h3] at h
        cases h
        rcases getScheme_inv hg with ⟨e, _⟩ | ⟨hsch, rfl⟩
        · exact absurd e h3
        have := Spec.Reads.opaq (authority := A) s rest p q hsch hq1 (fun e => hp ((hasPrefix_slash p).2 e)) hq2
        simpa using this
      · rw [if_neg h3] at h; cases h

theorem cutQuery_eq {t p q : Str} (h1 : 63 ∉ p) (h2 : Spec.WithQuery p q t) :
    ∃ force, cutQuery t = (p, q, force) := by
  obtain ⟨e1, e2⟩ := (cutQuery_iff t p q).2 ⟨h1, h2⟩
  refine ⟨(cutQuery t).2.2, ?_⟩
  rw [← e1, ← e2]

theorem scheme_not_star {s r : Str} (h : Spec.Scheme s) : s ++ 58 :: r ≠ b!"*" := by
  obtain ⟨c, r', rfl, _⟩ := h
  intro e
  have := congrArg List.length e
  simp at this

theorem parse_of_reads {A : Str → Option (Str × Str)} {t o p q : Str} (hc : Spec.NoControl t)
    (h : Spec.Reads A t o p q) :
    ∃ u, parseRequestURI A t = some u ∧ u.opaq = o ∧ u.path = p ∧ u.rawQuery = q := by
  have hc' : ¬ t.any ctlByte = true := by rw [(noctl_iff t).2 hc]; decide
  unfold parseRequestURI
  rw [if_neg hc']
  cases h with
  | star => exact ⟨_, by rw [if_neg (by decide), if_pos rfl], rfl, rfl, rfl⟩
  | origin _ pp _ _ h1 h2 h3 h4 =>
    have hne : pp ≠ [] := by rintro rfl; cases h2
    have ht : t.head? = some 47 := (withQuery_head h4 hne).trans h2
    rw [if_neg (by rintro rfl; cases ht), if_neg (by rintro rfl; cases ht), getScheme_slash t ht]
    obtain ⟨f, hf⟩ := cutQuery_eq h1 h4
    simp only [hf]
    rw [if_pos ((hasPrefix_slash pp).2 h2), if_neg (by simp), setPath_ok _ h3]
    exact ⟨_, rfl, rfl, rfl, rfl⟩
  | schemed s t' pp _ _ hs h1 h2 h2' h3 h4 =>
    have e : s ++ b!":" ++ t' = s ++ 58 :: t' := by simp
    rw [e, if_neg (by simp), if_neg (scheme_not_star hs), getScheme_scheme s t' hs]
    obtain ⟨f, hf⟩ := cutQuery_eq h1 h4
    simp only [hf]
    rw [if_pos ((hasPrefix_slash pp).2 h2), if_neg (fun e => h2' ((hasPrefix_slash2 pp h2).1 e.2)), setPath_ok _ h3]
    exact ⟨_, rfl, rfl, rfl, rfl⟩
  | absolute s a t' pp _ _ uh hs ha1 ha2 hA h1 h2 h3 h4 =>
    have e : s ++ b!"://" ++ a ++ t' = s ++ 58 :: (47 :: 47 :: a ++ t') := by simp
    rw [e, if_neg (by simp), if_neg (scheme_not_star hs), getScheme_scheme s _ hs]
    have h1' : 63 ∉ (47 :: 47 :: a ++ pp : Str) := by
      simp [ha1, h1]
    have h4' : Spec.WithQuery (47 :: 47 :: a ++ pp) q (47 :: 47 :: a ++ t') := by
      rcases h4 with ⟨rfl, rfl⟩ | rfl
      · exact .inl ⟨rfl, rfl⟩
      · exact .inr (by simp)
    obtain ⟨f, hf⟩ := cutQuery_eq h1' h4'
    simp only [hf]
    have k : (a ++ pp).takeWhile (· != 47) = a ∧ (a ++ pp).dropWhile (· != 47) = pp := by
      rcases h2 with rfl | h2
      · rw [List.append_nil]; exact cut_none 47 a ha2
      · cases pp with
        | nil => cases h2
        | cons c r =>
          simp only [List.head?_cons, Option.some.injEq] at h2
          subst h2
          exact ⟨takeWhile_append_sep 47 a r ha2, dropWhile_append_sep 47 a r ha2⟩
    rw [if_pos (by simp [hasPrefix, List.isPrefixOf]),
      if_pos ⟨scheme_ne_nil hs, by simp [hasPrefix, List.isPrefixOf]⟩]
    have ed : List.drop 2 (47 :: 47 :: a ++ pp) = a ++ pp := rfl
    rw [ed, k.1, k.2, hA]
    simp only
    rw [setPath_ok _ h3]
    exact ⟨_, rfl, rfl, rfl, rfl⟩
  | opaq s t' _ _ hs h1 h2 h4 =>
    have e : s ++ b!":" ++ t' = s ++ 58 :: t' := by simp
    rw [e, if_neg (by simp), if_neg (scheme_not_star hs), getScheme_scheme s t' hs]
    obtain ⟨f, hf⟩ := cutQuery_eq h1 h4
    simp only [hf]
    rw [if_neg (fun e => h2 ((hasPrefix_slash o).1 e)), if_pos (scheme_ne_nil hs)]
    exact ⟨_, rfl, rfl, rfl, rfl⟩

/-! ## C131 -/

/-- The target `RealURL` starts from: the `X-Original-URI` header, without it the request's own. -/
def Spec.target (w : Web) : Str :=
  if w.header b!"X-Original-URI" ≠ [] then w.header b!"X-Original-URI" else w.url.requestURI

/-- The host of the result: the forwarded one if any, without a port. -/
def Spec.hostName (w : Web) : Str :=
  Spec.before 58 (if w.header b!"X-Forwarded-Host" ≠ [] then w.header b!"X-Forwarded-Host" else w.host)

/-- The scheme of the result: the forwarded one, else the URL's, else `http`. -/
def Spec.proto (w : Web) : Str :=
  if w.header b!"X-Forwarded-Proto" ≠ [] then w.header b!"X-Forwarded-Proto"
  else if w.url.scheme ≠ [] then w.url.scheme else b!"http"

theorem realURL_parts (w : Web) : realURI w.req = Spec.target w ∧ realHost w.req = Spec.hostName w ∧
    realProto w.req = Spec.proto w := by
  refine ⟨C56_realURI _, C56_realHost _, ?_⟩
  unfold realProto Spec.proto
  rfl

/-- **C131**: `RealURL`, exactly.  It gives a URL just when the target has no control characters and is one of the five
forms; the opaque part, decoded path and query are the target's, host and scheme are `RealHost` and `RealProto`, and
the user information, the encoded form of the path and the lone `?` are those of the request's own URL. -/
theorem C131_exact (A : Str → Option (Str × Str)) (w : Web) (d : URL) :
    realURL A w = some d ↔
      Spec.NoControl (Spec.target w) ∧ Spec.Reads A (Spec.target w) d.opaq d.path d.rawQuery ∧
      d.host = Spec.hostName w ∧ d.scheme = Spec.proto w ∧
      d.user = w.url.user ∧ d.rawPath = w.url.rawPath ∧ d.forceQuery = w.url.forceQuery := by
  obtain ⟨e1, e2, e3⟩ := realURL_parts w
  unfold realURL
  rw [e1, e2, e3]
  constructor
  · intro h
    cases hp : parseRequestURI A (Spec.target w) with
    | none => rw [hp] at h; cases h
    | some ins =>
      rw [hp] at h
      cases h
      obtain ⟨h1, h2⟩ := parse_reads hp
      exact ⟨h1, h2, rfl, rfl, rfl, rfl, rfl⟩
  · rintro ⟨h1, h2, h3, h4, h5, h6, h7⟩
    obtain ⟨u, k1, k2, k3, k4⟩ := parse_of_reads h1 h2
    rw [k1]
    simp only [k2, k3, k4, ← h3, ← h4, ← h5, ← h6, ← h7]

/-- **C131**: the parts are functions of the target: a request gives at most one URL, whatever the choice of the
readings. -/
theorem C131_unique (A : Str → Option (Str × Str)) (t o p q o' p' q' : Str) (hc : Spec.NoControl t)
    (h : Spec.Reads A t o p q) (h' : Spec.Reads A t o' p' q') : o = o' ∧ p = p' ∧ q = q' := by
  obtain ⟨u, k1, k2, k3, k4⟩ := parse_of_reads hc h
  obtain ⟨u', l1, l2, l3, l4⟩ := parse_of_reads hc h'
  rw [k1] at l1
  cases l1
  exact ⟨k2.symm.trans l2, k3.symm.trans l3, k4.symm.trans l4⟩

/-! ## C132: the URL of a request as it arrived -/

theorem reads_query {A : Str → Option (Str × Str)} {t o p q : Str} (hc : Spec.NoControl t)
    (h : Spec.Reads A t o p q) : Spec.NoControl q := by
  have key : ∀ pp t', Spec.WithQuery pp q t' → (∀ c ∈ t', c ∈ t) → Spec.NoControl q := by
    intro pp t' hw hsub c hcq
    rcases hw with ⟨_, rfl⟩ | rfl
    · cases hcq
    · exact hc c (hsub c (by simp [hcq]))
  cases h with
  | star => intro c hc; cases hc
  | origin _ pp _ _ _ _ _ h4 => exact key pp _ h4 (fun c h => h)
  | schemed s t' pp _ _ _ _ _ _ _ h4 => exact key pp t' h4 (fun c h => by simp [h])
  | absolute s a t' pp _ _ _ _ _ _ _ _ _ _ h4 => exact key pp t' h4 (fun c h => by simp [h])
  | opaq s t' _ _ _ _ _ h4 => exact key _ t' h4 (fun c h => by simp [h])

theorem parsed_path {u v : URL} {p : Str} (h : u.setPath p = some v) (hu : u.opaq = [])
    (hp : p = [] ∨ p.head? = some 47) :
    v.opaq = [] ∧ (v.rawPath = [] ∨ v.rawPath.head? = some 47) ∧
      ((v.path = [] ∧ v.rawPath = []) ∨ v.path.head? = some 47) := by
  obtain ⟨g1, g2, g3, g4, g5, _⟩ := setPath_some h
  refine ⟨g2.trans hu, ?_, ?_⟩
  · rw [g5]
    split
    · exact .inl rfl
    · exact hp
  · rcases hp with rfl | hp
    · left
      have := encodes_nil g1
      rw [this] at g5
      refine ⟨this, g5⟩
    · right; exact encodes_head g1 hp

theorem parsed_shape {A : Str → Option (Str × Str)} {t : Str} {u : URL} (h : parseRequestURI A t = some u) :
    (t = b!"*" ∧ u = { URL.empty with path := b!"*" }) ∨ u.opaq ≠ [] ∨
    ((u.rawPath = [] ∨ u.rawPath.head? = some 47) ∧ ((u.path = [] ∧ u.rawPath = []) ∨ u.path.head? = some 47)) := by
  unfold parseRequestURI at h
  by_cases hc : t.any ctlByte = true
  · rw [if_pos hc] at h; cases h
  rw [if_neg hc] at h
  by_cases h0 : t = []
  · rw [if_pos h0] at h; cases h
  rw [if_neg h0] at h
  by_cases hs : t = b!"*"
  · rw [if_pos hs] at h; cases h; exact .inl ⟨hs, rfl⟩
  rw [if_neg hs] at h
  right
  cases hg : getScheme t with
  | none => rw [hg] at h; cases h
  | some e =>
    obtain ⟨s, rest⟩ := e
    rw [hg] at h
    simp only at h
    generalize (cutQuery rest).1 = p at *
    generalize (cutQuery rest).2.1 = q at *
    generalize (cutQuery rest).2.2 = force at *
    by_cases hp : hasPrefix p b!"/" = true
    · rw [if_pos hp] at h
      right
      have hp' := (hasPrefix_slash p).1 hp
      by_cases h2 : s ≠ [] ∧ hasPrefix p b!"//" = true
      · rw [if_pos h2] at h
        cases hA : A ((p.drop 2).takeWhile (· != 47)) with
        | none => rw [hA] at h; cases h
        | some uh =>
          rw [hA] at h
          simp only at h
          refine (parsed_path h rfl ?_).2
          rcases cut_cases 47 (p.drop 2) with ⟨k1, k2, k3⟩ | ⟨a, r, k1, e⟩
          · rw [k3]; exact .inl rfl
          · rw [e, dropWhile_append_sep 47 a r k1]; exact .inr rfl
      · rw [if_neg h2] at h
        exact (parsed_path h rfl (.inr hp')).2
    · rw [if_neg hp] at h
      by_cases h3 : s ≠ []
      · rw [if_pos h3] at h
        by_cases hpe : p = []
        · cases h; subst hpe; right; exact ⟨.inl rfl, .inl ⟨rfl, rfl⟩⟩
        · cases h; left; exact hpe
      · rw [if_neg h3] at h; cases h

theorem escapedPath_facts (u : URL) (h1 : u.rawPath = [] ∨ u.rawPath.head? = some 47)
    (h2 : u.path.head? = some 47) :
    u.escapedPath.head? = some 47 ∧ 63 ∉ u.escapedPath ∧ Spec.NoControl u.escapedPath ∧
      Spec.Encodes u.escapedPath u.path := by
  have hb : ∀ s : Str, (∀ c ∈ s, pathByte c = true) → 63 ∉ s ∧ Spec.NoControl s := by
    intro s hs
    refine ⟨fun h => (pathByte_ne _ (hs _ h)).1 rfl, ?_⟩
    rw [← noctl_iff, List.any_eq_false]
    intro c hc
    rw [(pathByte_ne c (hs c hc)).2]; decide
  unfold URL.escapedPath
  by_cases hr : u.rawPath ≠ [] ∧ u.rawPath.all pathByte ∧ pathUnescape u.rawPath = some u.path
  · rw [if_pos hr]
    obtain ⟨k1, k2, k3⟩ := hr
    obtain ⟨m1, m2⟩ := hb _ (List.all_eq_true.1 k2)
    rcases h1 with e | e
    · exact absurd e k1
    · exact ⟨e, m1, m2, (pathUnescape_iff _ _).1 k3⟩
  · rw [if_neg hr, if_neg (by intro e; rw [e] at h2; revert h2; decide)]
    obtain ⟨m1, m2⟩ := hb _ (pathEscape_bytes u.path)
    refine ⟨?_, m1, m2, (pathUnescape_iff _ _).1 (path_roundtrip _)⟩
    cases hp : u.path with
    | nil => rw [hp] at h2; cases h2
    | cons c cs =>
      rw [hp] at h2
      simp only [List.head?_cons, Option.some.injEq] at h2
      subst h2
      rw [pathEscape, if_pos (by decide)]; rfl

theorem noControl_append {a b : Str} (ha : Spec.NoControl a) (hb : Spec.NoControl b) : Spec.NoControl (a ++ b) := by
  intro c hc
  rcases List.mem_append.1 hc with h | h
  · exact ha c h
  · exact hb c h

theorem suffix_withQuery (p : Str) (u : URL) : Spec.WithQuery p u.rawQuery (p ++ u.querySuffix) := by
  unfold URL.querySuffix
  split
  · exact .inr rfl
  · rename_i h
    left
    refine ⟨List.append_nil _, ?_⟩
    apply Classical.byContradiction
    intro e
    exact h (.inr e)

theorem suffix_noControl (u : URL) (h : Spec.NoControl u.rawQuery) : Spec.NoControl u.querySuffix := by
  unfold URL.querySuffix
  split
  · intro c hc
    rcases List.mem_cons.1 hc with rfl | hc
    · decide
    · exact h c hc
  · intro c hc; cases hc

/-- the target of a request with an ordinary URL, read again -/
theorem requestURI_reads {A : Str → Option (Str × Str)} {t : Str} {u : URL} (h : parseRequestURI A t = some u)
    (ho : u.opaq = []) :
    Spec.NoControl u.requestURI ∧
      Spec.Reads A u.requestURI [] (if u.path = [] then b!"/" else u.path) u.rawQuery := by
  obtain ⟨hc, hr⟩ := parse_reads h
  have hq := suffix_noControl u (reads_query hc hr)
  unfold URL.requestURI
  rw [if_pos ho]
  rcases parsed_shape h with ⟨_, rfl⟩ | e | ⟨h1, h2⟩
  · refine ⟨?_, ?_⟩
    · rw [← noctl_iff]; decide
    · exact .star
  · exact absurd ho e
  · rcases h2 with ⟨e1, e2⟩ | h2
    · have e3 : u.escapedPath = [] := by
        unfold URL.escapedPath
        rw [if_neg (fun e => e.1 e2), e1]; rfl
      rw [e3, if_pos rfl, if_pos e1]
      refine ⟨noControl_append ((noctl_iff _).1 (by decide)) hq, ?_⟩
      exact .origin _ b!"/" _ _ (by decide) (by decide) (.plain 47 [] [] (by decide) .nil) (suffix_withQuery _ _)
    · obtain ⟨k1, k2, k3, k4⟩ := escapedPath_facts u h1 h2
      rw [if_neg (by intro e; rw [e] at k1; cases k1), if_neg (by intro e; rw [e] at h2; cases h2)]
      exact ⟨noControl_append k3 hq, .origin _ _ _ _ k2 k1 k4 (suffix_withQuery _ _)⟩

/-- **C132**: without an `X-Original-URI` header, for every request the server accepted whose target is no opaque URI,
`RealURL` succeeds and gives the request's own URL with the scheme and the host name filled in (an absolute URL
without a path gets the path `/`). -/
theorem C132_own_url_partial (A : Str → Option (Str × Str)) (t : Str) (w : Web)
    (ht : parseRequestURI A t = some w.url) (ho : w.url.opaq = []) (hh : w.header b!"X-Original-URI" = []) :
    realURL A w = some { w.url with
      scheme := Spec.proto w, host := Spec.hostName w, path := if w.url.path = [] then b!"/" else w.url.path } := by
  have e : Spec.target w = w.url.requestURI := by unfold Spec.target; rw [if_neg (by simpa using hh)]
  obtain ⟨h1, h2⟩ := requestURI_reads ht ho
  rw [C131_exact, e]
  refine ⟨h1, ?_, rfl, rfl, rfl, rfl, rfl⟩
  simp only [ho]
  exact h2

theorem hostEscape_keep (s : Str) (h : ∀ c ∈ s, hostKeep c = true) : hostEscape s = s := by
  induction s with
  | nil => rfl
  | cons c s ih =>
    rw [hostEscape, if_pos (h c List.mem_cons_self), ih (fun d hd => h d (List.mem_cons_of_mem _ hd))]

/-- The characters of a host name: letters, digits, `-`, `.`, `_`. -/
def Spec.NameByte (c : UInt8) : Prop :=
  (97 ≤ c ∧ c ≤ 122) ∨ (65 ≤ c ∧ c ≤ 90) ∨ (48 ≤ c ∧ c ≤ 57) ∨ c = 45 ∨ c = 46 ∨ c = 95

/-- The characters of a path in a URI (RFC 3986): letters, digits, `-._~`, `!$&'()*+,;=`, `:@`, `%` and `/`. -/
def Spec.PathByte (c : UInt8) : Prop :=
  (97 ≤ c ∧ c ≤ 122) ∨ (65 ≤ c ∧ c ≤ 90) ∨ (48 ≤ c ∧ c ≤ 57) ∨ c ∈ b!"-._~!$&'()*+,;=:@%/"

theorem nameByte_keep (c : UInt8) : Spec.NameByte c → hostKeep c = true ∧ c ≠ 58 := by
  refine forall_u8 (P := fun c => Spec.NameByte c → hostKeep c = true ∧ c ≠ 58) ?_ c
  unfold Spec.NameByte; decide +kernel

theorem specPathByte (c : UInt8) : Spec.PathByte c → pathByte c = true := by
  refine forall_u8 (P := fun c => Spec.PathByte c → pathByte c = true) ?_ c
  unfold Spec.PathByte; decide +kernel

/-- for targets `/path?query` the parser keeps enough to print the target again -/
theorem parse_origin_text {A : Str → Option (Str × Str)} {t p q : Str} {u : URL} (h : parseRequestURI A t = some u)
    (hp : p.head? = some 47) (hb : ∀ c ∈ p, Spec.PathByte c) (hw : Spec.WithQuery p q t) :
    u.opaq = [] ∧ u.user = [] ∧ u.scheme = [] ∧ u.path ≠ [] ∧ u.escapedPath = p ∧ u.escapedPath ++ u.querySuffix = t := by
  have hb' : ∀ c ∈ p, pathByte c = true := fun c hc => specPathByte c (hb c hc)
  have hn : 63 ∉ p := fun h => (pathByte_ne _ (hb' _ h)).1 rfl
  have hne : p ≠ [] := by rintro rfl; cases hp
  have htl : t.head? = some 47 := (withQuery_head hw hne).trans hp
  unfold parseRequestURI at h
  by_cases hc : t.any ctlByte = true
  · rw [if_pos hc] at h; cases h
  rw [if_neg hc, if_neg (by rintro rfl; cases htl), if_neg (by rintro rfl; revert htl; decide),
    getScheme_slash t htl] at h
  have hcut : cutQuery t = (p, q, t.dropWhile (· != 63) == [63]) := by
    obtain ⟨e1, e2⟩ := (cutQuery_iff t p q).2 ⟨hn, hw⟩
    unfold cutQuery at e1 e2 ⊢
    simp only at e1 e2
    rw [e1, e2]
  simp only [hcut] at h
  rw [if_pos ((hasPrefix_slash p).2 hp), if_neg (by simp)] at h
  obtain ⟨g1, g2, g3, g4, g5, g6, g7, g8⟩ := setPath_some h
  have g9 : u.path.head? = some 47 := encodes_head g1 hp
  have hesc : u.escapedPath = p := by
    unfold URL.escapedPath
    by_cases hr : u.rawPath ≠ [] ∧ u.rawPath.all pathByte ∧ pathUnescape u.rawPath = some u.path
    · rw [if_pos hr, g5]
      rw [g5] at hr
      split
      · rename_i e; rw [if_pos e] at hr; exact absurd rfl hr.1
      · rfl
    · rw [if_neg hr, if_neg (by intro e; rw [e] at g9; revert g9; decide)]
      apply Classical.byContradiction
      intro hne'
      apply hr
      rw [g5, if_neg (fun e => hne' e.symm)]
      exact ⟨hne, List.all_eq_true.2 hb', (pathUnescape_iff _ _).2 g1⟩
  refine ⟨g2, g4, by rw [g8]; rfl, (by rintro e; rw [e] at g9; cases g9), hesc, ?_⟩
  rw [hesc]
  unfold URL.querySuffix
  rw [g6, g3]
  simp only
  rcases hw with ⟨rfl, rfl⟩ | rfl
  · rw [(cut_none 63 t hn).2]
    rw [if_neg (by decide), List.append_nil]
  · rw [dropWhile_append_sep 63 p q hn]
    by_cases hq : q = []
    · subst hq; rw [if_pos (.inl (by decide))]
    · rw [if_pos (.inr hq)]

/-- **C132**: the text of the URL.  For a target `/path?query` of URI characters, without `X-Original-URI`,
`RealURL(req).String()` is the scheme, `://`, the host name and the target, byte for byte. -/
theorem C132_text_partial (A : Str → Option (Str × Str)) (t p q : Str) (w : Web)
    (ht : parseRequestURI A t = some w.url) (hh : w.header b!"X-Original-URI" = [])
    (hp : p.head? = some 47) (hb : ∀ c ∈ p, Spec.PathByte c) (hw : Spec.WithQuery p q t)
    (hn : ∀ c ∈ Spec.hostName w, Spec.NameByte c) :
    (realURL A w).map URL.text = some (Spec.proto w ++ b!"://" ++ Spec.hostName w ++ t) := by
  obtain ⟨k1, k2, _, k4, k5, k6⟩ := parse_origin_text ht hp hb hw
  rw [C132_own_url_partial A t w ht k1 hh, if_neg k4]
  rw [Option.map_some]
  have e1 : ({ w.url with scheme := Spec.proto w, host := Spec.hostName w, path := w.url.path } : URL).escapedPath = p := k5
  have e2 : ({ w.url with scheme := Spec.proto w, host := Spec.hostName w, path := w.url.path } : URL).querySuffix
      = w.url.querySuffix := rfl
  have hpp : hasPrefix p b!"/" = true := (hasPrefix_slash p).2 hp
  unfold URL.text
  rw [e1, e2]
  simp only [k1, k2, hpp]
  rw [if_neg (by simp), if_pos (.inr (.inl k4)), if_neg (by simp),
    hostEscape_keep _ (fun c hc => (nameByte_keep c (hn c hc)).1), ← k6, k5]
  simp

/-- no absolute targets -/
def Spec.noAuthority : Str → Option (Str × Str) := fun _ => none

/-- A request for the target `t` (`URL.empty` when the server would refuse it). -/
def Spec.arrived (t host : Str) (header : Str → Str) : Web :=
  ⟨header, b!"10.0.0.1:1", host, (parseRequestURI Spec.noAuthority t).getD URL.empty⟩

/-- the hypotheses of `C132_text_partial` are met by `/a%2Fb/c?x=1` -/
example : (realURL Spec.noAuthority (Spec.arrived b!"/a%2Fb/c?x=1" b!"example.com" Spec.noHeaders)).map URL.text =
    some b!"http://example.com/a%2Fb/c?x=1" :=
  C132_text_partial Spec.noAuthority b!"/a%2Fb/c?x=1" b!"/a%2Fb/c" b!"x=1" _ (by decide +kernel) rfl (by decide)
    (by unfold Spec.PathByte; decide) (.inr rfl) (by
      have : Spec.hostName (Spec.arrived b!"/a%2Fb/c?x=1" b!"example.com" Spec.noHeaders) = b!"example.com" := by
        decide +kernel
      rw [this]; unfold Spec.NameByte; decide)

/-- the hypotheses of `C132_own_url_partial`, with bytes that no URI has and a forwarded scheme and host -/
example : realURL Spec.noAuthority (Spec.arrived b!"/a b\"?" b!"in:1"
      (fun n => if n = b!"X-Forwarded-Host" then b!"h.example:99" else if n = b!"X-Forwarded-Proto" then b!"https" else [])) =
    some ⟨b!"https", [], [], b!"h.example", b!"/a b\"", b!"/a b\"", true, []⟩ :=
  (C132_own_url_partial Spec.noAuthority b!"/a b\"?" _ (by decide +kernel) (by decide +kernel) (by decide +kernel)).trans
    (by decide +kernel)

/-- `C131_exact` at work: a forwarded target is decoded, a malformed one refused -/
example : realURL Spec.noAuthority (Spec.arrived b!"/" b!"h" (fun n => if n = b!"X-Original-URI" then b!"/%41?b" else [])) =
      some ⟨b!"http", [], [], b!"h", b!"/A", [], false, b!"b"⟩ ∧
    realURL Spec.noAuthority (Spec.arrived b!"/" b!"h" (fun n => if n = b!"X-Original-URI" then b!"/%4" else [])) = none ∧
    Spec.Reads Spec.noAuthority b!"/%41?b" [] b!"/A" b!"b" := by
  refine ⟨by decide +kernel, by decide +kernel, ?_⟩
  exact .origin _ b!"/%41" _ _ (by decide) (by decide)
    (.plain 47 _ _ (by decide) (.escaped 52 49 4 1 [] [] (.inl (by decide)) (.inl (by decide)) .nil)) (.inr rfl)

/-- **C132 fails** for a port, which is dropped, for an opaque target the server accepted, and for a forwarded target
with an escaped slash, which becomes a plain one. -/
theorem C132_client_url_violated :
    (realURL Spec.noAuthority (Spec.arrived b!"/a" b!"example.com:8080" Spec.noHeaders)).map URL.text =
      some b!"http://example.com/a" ∧
    (∃ u, parseRequestURI Spec.noAuthority b!"http:foo" = some u) ∧
    realURL Spec.noAuthority (Spec.arrived b!"http:foo" b!"example.com" Spec.noHeaders) = none ∧
    (realURL Spec.noAuthority (Spec.arrived b!"/app/a%2Fb" b!"example.com"
      (fun n => if n = b!"X-Original-URI" then b!"/a%2Fb" else []))).map URL.text = some b!"http://example.com/a/b" :=
  ⟨by decide +kernel, ⟨⟨b!"http", b!"foo", [], [], [], [], false, []⟩, by decide +kernel⟩, by decide +kernel, by decide +kernel⟩

end Verif.Params
