import Verif.Model.Static
import Verif.Proofs.RouterBase
import Verif.Props.Router
/-!
# C69, C70, C74, C75: the static file filter
-/
namespace Verif.Static
open Verif.Go Verif.Router

/-! ## Specification -/

/-- `q` is the prefix `p` with a leading slash and without trailing ones. -/
def Spec.Normal (p q : Str) : Prop :=
  (p = [] ∧ q = []) ∨
  (p ≠ [] ∧ ∃ k, (p = q ++ List.replicate k 47 ∧ p.head? = some 47 ∨
    47 :: p = q ++ List.replicate k 47 ∧ p.head? ≠ some 47) ∧ q.getLast? ≠ some 47)

/-- The path `path` is `q` itself, or `q` and then `rest`, which begins with a slash. (`q` empty: any path.) -/
def Spec.Under (q path rest : Str) : Prop :=
  path = q ++ rest ∧ (q = [] ∨ rest = [] ∨ rest.head? = some 47)

/-- The methods a static filter serves. -/
def Spec.methodOk (opt : Opt) (m : Str) : Prop := opt.anyMethod = true ∨ m = b!"GET" ∨ m = b!"HEAD"

/-- The request is the filter's business; the file it asks for. -/
def Spec.Mine (pre : Str) (opt : Opt) (m path file : Str) : Prop :=
  Spec.methodOk opt m ∧ (∃ q, Spec.Normal pre q ∧ Spec.Under q path file) ∧ ∀ p ∈ opt.skipPrefix, ¬ p <+: file

/-- `os` lies in the directory `root`, lexically: its components are those of `root` followed by proper names (no
`..`, no `.`, none with a slash). -/
def Spec.Below (root os : Str) : Prop :=
  ∃ cs : List Str, splitOn1 47 os = [] :: (cleanComps root ++ cs) ∧
    ∀ c ∈ cs, c ≠ [] ∧ c ≠ b!"." ∧ c ≠ b!".." ∧ (47 : UInt8) ∉ c

/-! ## Lemmas -/

theorem dropWhile_slash (l : Str) : ∃ k, l = List.replicate k 47 ++ l.dropWhile (fun c => c == 47) ∧
    (l.dropWhile (fun c => c == 47)).head? ≠ some 47 := by
  induction l with
  | nil => exact ⟨0, rfl, nofun⟩
  | cons c l ih =>
    obtain ⟨k, h1, h2⟩ := ih
    by_cases hc : c = 47
    · subst hc
      refine ⟨k + 1, ?_, by simpa [List.dropWhile] using h2⟩
      rw [List.replicate_succ, List.cons_append]
      simp only [List.dropWhile, beq_self_eq_true]
      rw [← h1]
    · have hb : (c == 47) = false := by simpa using hc
      refine ⟨0, by simp [List.dropWhile, hb], ?_⟩
      simp only [List.dropWhile, hb, List.head?_cons]
      simpa using hc

theorem trimSlashes_spec (p : Str) : ∃ k, p = trimSlashes p ++ List.replicate k 47 ∧ (trimSlashes p).getLast? ≠ some 47 := by
  obtain ⟨k, h1, h2⟩ := dropWhile_slash p.reverse
  refine ⟨k, ?_, ?_⟩
  · have := congrArg List.reverse h1
    rw [List.reverse_reverse, List.reverse_append, List.reverse_replicate] at this
    exact this
  · unfold trimSlashes
    rw [List.getLast?_reverse]
    exact h2

theorem append_replicate_inj {c : UInt8} : ∀ (k1 k2 : Nat) (a b : List UInt8), a.getLast? ≠ some c → b.getLast? ≠ some c →
    a ++ List.replicate k1 c = b ++ List.replicate k2 c → a = b
  | 0, 0, a, b, _, _, h => by simpa using h
  | 0, k + 1, a, b, ha, _, h => by
    exfalso
    apply ha
    rw [List.replicate_zero, List.append_nil] at h
    rw [h, List.replicate_succ', ← List.append_assoc, List.getLast?_append]
    rfl
  | k + 1, 0, a, b, _, hb, h => by
    exfalso
    apply hb
    rw [List.replicate_zero, List.append_nil] at h
    rw [← h, List.replicate_succ', ← List.append_assoc, List.getLast?_append]
    rfl
  | k1 + 1, k2 + 1, a, b, ha, hb, h => by
    rw [List.replicate_succ', List.replicate_succ', ← List.append_assoc, ← List.append_assoc] at h
    exact append_replicate_inj k1 k2 a b ha hb (List.append_cancel_right h)

theorem normal_iff (p q : Str) : Spec.Normal p q ↔ normPrefix p = q := by
  cases p with
  | nil =>
    constructor
    · rintro (⟨_, h⟩ | ⟨h, _⟩)
      · exact h.symm
      · exact absurd rfl h
    · intro h; exact Or.inl ⟨rfl, h.symm⟩
  | cons c r =>
    by_cases hc : c = 47
    · subst hc
      have e : normPrefix (47 :: r) = trimSlashes (47 :: r) := by simp [normPrefix]
      rw [e]
      obtain ⟨k, h1, h2⟩ := trimSlashes_spec (47 :: r)
      constructor
      · rintro (⟨h, _⟩ | ⟨_, k', h, h3⟩)
        · cases h
        · rcases h with ⟨h, _⟩ | ⟨_, h⟩
          · exact append_replicate_inj k k' _ _ h2 h3 (by rw [← h1, ← h])
          · exact absurd rfl h
      · rintro rfl
        exact Or.inr ⟨by simp, k, Or.inl ⟨h1, rfl⟩, h2⟩
    · have e : normPrefix (c :: r) = trimSlashes (47 :: c :: r) := by simp [normPrefix, hc]
      rw [e]
      have hh : (c :: r).head? ≠ some 47 := by simpa using hc
      obtain ⟨k, h1, h2⟩ := trimSlashes_spec (47 :: c :: r)
      constructor
      · rintro (⟨h, _⟩ | ⟨_, k', h, h3⟩)
        · cases h
        · rcases h with ⟨_, h⟩ | ⟨h, _⟩
          · exact absurd h hh
          · exact append_replicate_inj k k' _ _ h2 h3 (by rw [← h1, ← h])
      · rintro rfl
        exact Or.inr ⟨by simp, k, Or.inr ⟨h1, hh⟩, h2⟩

theorem strip_iff (q path file : Str) : stripPrefix q path = some file ↔ Spec.Under q path file := by
  unfold stripPrefix Spec.Under hasPrefix
  by_cases hq : q = []
  · subst hq
    simp [eq_comm]
  · rw [if_pos hq]
    by_cases hp : q.isPrefixOf path = true
    · rw [if_pos hp]
      obtain ⟨t, rfl⟩ := List.isPrefixOf_iff_prefix.1 hp
      rw [List.drop_left]
      cases t with
      | nil =>
        simp only [Option.some.injEq]
        constructor
        · rintro rfl; exact ⟨rfl, Or.inr (Or.inl rfl)⟩
        · rintro ⟨h, _⟩
          exact (List.append_cancel_left h)
      | cons c r =>
        simp only
        by_cases hc : c = 47
        · subst hc
          simp only [ne_eq, not_true_eq_false, if_false, Option.some.injEq]
          constructor
          · rintro rfl; exact ⟨rfl, Or.inr (Or.inr rfl)⟩
          · rintro ⟨h, _⟩
            exact (List.append_cancel_left h)
        · rw [if_pos hc]
          constructor
          · nofun
          · rintro ⟨h, h2⟩
            have := List.append_cancel_left h
            subst this
            rcases h2 with h2 | h2 | h2
            · exact absurd h2 hq
            · cases h2
            · simp at h2; exact absurd h2 hc
    · rw [if_neg hp]
      constructor
      · nofun
      · rintro ⟨h, _⟩
        exact absurd (List.isPrefixOf_iff_prefix.2 ⟨file, h.symm⟩) hp

theorem skip_iff (opt : Opt) (file : Str) : (opt.skipPrefix.any (fun p => hasPrefix file p)) = false ↔
    ∀ p ∈ opt.skipPrefix, ¬ p <+: file := by
  rw [List.any_eq_false]
  constructor
  · intro h p hp hpre
    exact h p hp (List.isPrefixOf_iff_prefix.2 hpre)
  · intro h p hp hpre
    exact h p hp (List.isPrefixOf_iff_prefix.1 hpre)

theorem method_iff (opt : Opt) (m : Str) :
    ((!opt.anyMethod && decide (m ≠ b!"GET") && decide (m ≠ b!"HEAD")) = true) ↔ ¬ Spec.methodOk opt m := by
  unfold Spec.methodOk
  cases opt.anyMethod <;> simp

/-- A request that is the filter's business. -/
theorem serve_mine {pre : Str} {opt : Opt} {m path file : Str} (h : Spec.Mine pre opt m path file) (fs : FS) (root : Str) :
    serve fs pre root opt m path =
      match serveFile fs root file {} with
      | (st, none) => tryThen fs root file opt st
      | (st, some (h, d)) => serveOpened fs root path file h d st := by
  obtain ⟨h1, ⟨q, h2, h3⟩, h4⟩ := h
  unfold serve
  rw [if_neg (fun hh => (method_iff opt m).1 hh h1), (normal_iff pre q).1 h2, (strip_iff q path file).2 h3]
  simp only
  rw [if_neg (by rw [(skip_iff opt file).2 h4]; nofun)]
  rfl

/-- A request that is not. -/
theorem serve_other {pre : Str} {opt : Opt} {m path : Str} (h : ∀ file, ¬ Spec.Mine pre opt m path file) (fs : FS) (root : Str) :
    serve fs pre root opt m path = ({}, .pass) := by
  unfold serve
  by_cases hm : Spec.methodOk opt m
  · rw [if_neg (fun hh => (method_iff opt m).1 hh hm)]
    cases hs : stripPrefix (normPrefix pre) path with
    | none => rfl
    | some file =>
      simp only
      by_cases hk : (opt.skipPrefix.any (fun p => hasPrefix file p)) = true
      · rw [if_pos hk]
      · exfalso
        have hk : (opt.skipPrefix.any (fun p => hasPrefix file p)) = false := by
          cases hx : (opt.skipPrefix.any (fun p => hasPrefix file p)) with
          | false => rfl
          | true => exact absurd hx hk
        exact h file ⟨hm, ⟨_, (normal_iff pre _).2 rfl, (strip_iff _ path file).1 hs⟩, (skip_iff opt file).1 hk⟩
  · rw [if_pos ((method_iff opt m).2 hm)]

/-- The path on the disk that a file name stands for. -/
def Spec.osPath (root name : Str) : Str := 47 :: join1 47 (cleanComps root ++ cleanComps name)

theorem foldl_push (cs : List Str) : (∀ x ∈ cs, x ≠ [] ∧ x ≠ b!"." ∧ x ≠ b!"..") → ∀ st : List Str,
    cs.foldl cleanStep st = cs.reverse ++ st := by
  induction cs with
  | nil => intro _ st; rfl
  | cons c cs ih =>
    intro h st
    have hc := h c (by simp)
    rw [List.foldl_cons, ih (fun x hx => h x (by simp [hx]))]
    unfold cleanStep
    rw [if_neg (by simp [hc.1, hc.2.1]), if_neg hc.2.2]
    simp

theorem open_path (root name : Str) : cleanRooted (root ++ 47 :: cleanRooted (47 :: name)) = Spec.osPath root name := by
  unfold Spec.osPath
  have : cleanComps (root ++ 47 :: cleanRooted (47 :: name)) = cleanComps root ++ cleanComps name := by
    rw [cleanComps_append]
    unfold cleanRooted
    rw [cleanComps_slash]
    have hs : splitOn1 47 (47 :: join1 47 (cleanComps name)) = [] :: splitOn1 47 (join1 47 (cleanComps name)) := by
      simp [splitOn1]
    rw [hs, List.foldl_cons]
    have h0 : ∀ st, cleanStep st [] = st := fun st => by simp [cleanStep]
    rw [h0]
    by_cases hn : cleanComps name = []
    · rw [hn]
      simp [join1, splitOn1, h0]
    · rw [splitOn1_join1 47 _ hn (fun x hx => (cleanComps_ok _ x hx).2.2.2),
        foldl_push _ (fun x hx => ⟨(cleanComps_ok _ x hx).1, (cleanComps_ok _ x hx).2.1, (cleanComps_ok _ x hx).2.2.1⟩)]
      simp
  show 47 :: join1 47 (cleanComps (root ++ 47 :: cleanRooted (47 :: name))) = _
  rw [this]

/-! ## C69 -/

/-- C69: a request whose method is not served, whose path is neither the prefix nor the prefix followed by '/', or whose
file begins with a skipped prefix, is passed on untouched: nothing is opened, nothing is written. -/
theorem C69_others_untouched (fs : FS) (pre root : Str) (opt : Opt) (m path : Str)
    (h : ∀ file, ¬ Spec.Mine pre opt m path file) :
    (serve fs pre root opt m path).2 = .pass ∧ (serve fs pre root opt m path).1.tried = [] := by
  rw [serve_other h]; exact ⟨rfl, rfl⟩

/-- C69: for the others the first thing is to open the file below the prefix. -/
theorem C69_mine_opened (fs : FS) (pre root : Str) (opt : Opt) (m path file : Str) (h : Spec.Mine pre opt m path file) :
    (serve fs pre root opt m path).1.tried.head? = some (Spec.osPath root file) := by
  rw [serve_mine h]
  have grow : ∀ name (st : St), st.tried.head? = some (Spec.osPath root file) →
      (openFile fs root name st).1.tried.head? = some (Spec.osPath root file) := by
    intro name st hst
    unfold openFile
    cases fs (cleanRooted (root ++ 47 :: cleanRooted (47 :: name))) <;> simp [hst]
  have hopen : (openFile fs root file {}).1.tried.head? = some (Spec.osPath root file) := by
    unfold openFile
    rw [open_path]
    cases fs (Spec.osPath root file) <;> simp
  have hsf : ∀ name (st : St), (openFile fs root name st).1.tried.head? = some (Spec.osPath root file) →
      (serveFile fs root name st).1.tried.head? = some (Spec.osPath root file) := by
    intro name st h
    unfold serveFile
    split <;> rename_i he <;> rw [he] at h <;> exact h
  have h0 := hsf file {} hopen
  cases hr : serveFile fs root file {} with
  | mk st o =>
    rw [hr] at h0
    cases o with
    | none =>
      simp only
      unfold tryThen
      split
      · have := hsf opt.tryFilesThen st (grow opt.tryFilesThen st h0)
        split <;> rename_i he <;> rw [he] at this <;> exact this
      · exact h0
    | some p =>
      obtain ⟨hd, d⟩ := p
      simp only
      unfold serveOpened
      split
      · split
        · exact h0
        · have := grow (indexFile file) st h0
          split <;> rename_i he <;> rw [he] at this <;> exact this
      · exact h0

/-- C69: a path that merely begins with the same letters as the prefix is not under it: with the prefix "/pre" the path
"/prefix" is passed on; "pre", "/pre" and "/pre///" are the same prefix; "" and "/" stand for every path. -/
theorem C69_examples :
    Spec.Mine b!"pre/" {} b!"GET" b!"/pre/a.txt" b!"/a.txt" ∧
    (∀ file, ¬ Spec.Mine b!"/pre" {} b!"GET" b!"/prefix" file) ∧
    (∀ file, ¬ Spec.Mine b!"/pre" {} b!"POST" b!"/pre/a.txt" file) ∧
    Spec.Mine b!"/" { skipPrefix := [b!"/api"] } b!"HEAD" b!"/a.txt" b!"/a.txt" ∧
    (∀ file, ¬ Spec.Mine b!"" { skipPrefix := [b!"/api"] } b!"HEAD" b!"/api/x" file) := by
  refine ⟨⟨Or.inr (Or.inl rfl), ⟨b!"/pre", (normal_iff _ _).2 (by decide), by decide +kernel, by decide⟩, nofun⟩, ?_, ?_,
    ⟨Or.inr (Or.inr rfl), ⟨[], (normal_iff _ _).2 (by decide), rfl, Or.inl rfl⟩, by decide⟩, ?_⟩
  · rintro file ⟨_, ⟨q, hq, hu⟩, _⟩
    have := (normal_iff _ _).1 hq
    subst this
    have h2 := (strip_iff _ _ _).2 hu
    have : stripPrefix (normPrefix b!"/pre") b!"/prefix" = none := by decide
    rw [this] at h2; cases h2
  · rintro file ⟨hm, _⟩
    unfold Spec.methodOk at hm
    revert hm; decide
  · rintro file ⟨_, ⟨q, hq, hu⟩, hs⟩
    have := (normal_iff _ _).1 hq
    subst this
    have h2 := (strip_iff _ _ _).2 hu
    have : stripPrefix (normPrefix b!"") b!"/api/x" = some b!"/api/x" := by decide
    rw [this] at h2
    cases h2
    exact hs b!"/api" (by simp) (by decide)

/-! ## C70 -/

/-- A file is opened for `TryFilesThen`: the file asked for is missing and the option names one that opens. -/
def Spec.FellBack (fs : FS) (pre root : Str) (opt : Opt) (m path : Str) : Prop :=
  ∃ file d, Spec.Mine pre opt m path file ∧ (fs (Spec.osPath root file) = none ∨ fs (Spec.osPath root file) = some none) ∧
    opt.tryFilesThen ≠ [] ∧ fs (Spec.osPath root opt.tryFilesThen) = some (some d)

/-- All handles are closed. -/
def Spec.allClosed (st : St) : Prop := ∀ h < st.opened.length, h ∈ st.closed

theorem openFile_eq (fs : FS) (root name : Str) (st : St) : openFile fs root name st =
    match fs (Spec.osPath root name) with
    | none => ({ st with tried := st.tried ++ [Spec.osPath root name] }, none)
    | some d => ({ st with tried := st.tried ++ [Spec.osPath root name], opened := st.opened ++ [Spec.osPath root name] },
        some (st.opened.length, d)) := by
  unfold openFile; rw [open_path]; rfl

/-- C70, in part: every file opened while serving a request is closed, unless it is the `TryFilesThen` file. Missing:
that one (see `C70_fallback_leaks_violated`). -/
theorem C70_files_closed_partial (fs : FS) (pre root : Str) (opt : Opt) (m path : Str)
    (h : ¬ Spec.FellBack fs pre root opt m path) : Spec.allClosed (serve fs pre root opt m path).1 := by
  by_cases hm : ∃ file, Spec.Mine pre opt m path file
  · obtain ⟨file, hm⟩ := hm
    rw [serve_mine hm]
    unfold serveFile
    rw [openFile_eq]
    cases hf : fs (Spec.osPath root file) with
    | none =>
      simp only
      unfold tryThen
      split
      · unfold serveFile
        rw [openFile_eq]
        cases ht : fs (Spec.osPath root opt.tryFilesThen) with
        | none => simp [Spec.allClosed]
        | some d =>
          cases d with
          | none => simp [Spec.allClosed, St.close]
          | some d =>
            rename_i hne
            exact absurd ⟨file, d, hm, Or.inl hf, hne, ht⟩ h
      · simp [Spec.allClosed]
    | some d =>
      cases d with
      | none =>
        simp only
        unfold tryThen
        split
        · unfold serveFile
          rw [openFile_eq]
          cases ht : fs (Spec.osPath root opt.tryFilesThen) with
          | none => simp [Spec.allClosed, St.close]
          | some d =>
            cases d with
            | none =>
              intro k hk
              simp [St.close] at hk ⊢
              omega
            | some d =>
              rename_i hne
              exact absurd ⟨file, d, hm, Or.inr hf, hne, ht⟩ h
        · simp [Spec.allClosed, St.close]
      | some d =>
        simp only
        unfold serveOpened
        split
        · split
          · simp [Spec.allClosed, St.close]
          · rw [openFile_eq]
            cases ht : fs (Spec.osPath root (indexFile file)) with
            | none => simp [Spec.allClosed, St.close]
            | some d2 =>
              rcases d2 with _ | (_ | _) <;>
              · intro k hk
                simp [St.close] at hk ⊢
                omega
        · simp [Spec.allClosed, St.close]
  · rw [serve_other (fun file hf => hm ⟨file, hf⟩)]
    simp [Spec.allClosed]

/-- C70: the `TryFilesThen` file is opened and never closed, whenever it is used. -/
theorem C70_fallback_leaks_violated (fs : FS) (pre root : Str) (opt : Opt) (m path : Str)
    (h : Spec.FellBack fs pre root opt m path) : ¬ Spec.allClosed (serve fs pre root opt m path).1 := by
  obtain ⟨file, d, hm, hf, hne, ht⟩ := h
  rw [serve_mine hm]
  unfold serveFile
  rw [openFile_eq]
  rcases hf with hf | hf
  · rw [hf]
    simp only
    unfold tryThen serveFile
    rw [if_pos hne, openFile_eq, ht]
    intro hc
    have := hc 0 (by simp)
    simp at this
  · rw [hf]
    simp only
    unfold tryThen serveFile
    rw [if_pos hne, openFile_eq, ht]
    intro hc
    have := hc 1 (by simp [St.close])
    simp [St.close] at this

/-- A single-page application: the file is missing, "/index.html" is served instead. -/
theorem C70_fellback_example : Spec.FellBack (fun p => if p = b!"/srv/index.html" then some (some false) else none)
    b!"" b!"/srv" { tryFilesThen := b!"/index.html" } b!"GET" b!"/users/7" :=
  ⟨b!"/users/7", false, ⟨Or.inr (Or.inl rfl), ⟨[], Or.inl ⟨rfl, rfl⟩, rfl, Or.inl rfl⟩, nofun⟩, Or.inl (by decide +kernel), nofun,
    by decide +kernel⟩

/-! ## C74: the directory is not left -/

theorem below_osPath (root name : Str) (hr : cleanComps root ≠ [] ∨ cleanComps name ≠ []) : Spec.Below root (Spec.osPath root name) := by
  refine ⟨cleanComps name, ?_, cleanComps_ok name⟩
  unfold Spec.osPath
  have hs : ∀ l : Str, splitOn1 47 (47 :: l) = [] :: splitOn1 47 l := fun l => by simp [splitOn1]
  rw [hs, splitOn1_join1 47 _ (by simpa [Decidable.or_iff_not_imp_left] using hr)]
  intro x hx
  rcases List.mem_append.1 hx with hx | hx
  · exact (cleanComps_ok _ x hx).2.2.2
  · exact (cleanComps_ok _ x hx).2.2.2

theorem tried_mem (fs : FS) (pre root : Str) (opt : Opt) (m path os : Str) (h : os ∈ (serve fs pre root opt m path).1.tried) :
    ∃ name, os = Spec.osPath root name := by
  have grow : ∀ name (st : St), (∀ x ∈ st.tried, ∃ n, x = Spec.osPath root n) →
      ∀ x ∈ (openFile fs root name st).1.tried, ∃ n, x = Spec.osPath root n := by
    intro name st hst x hx
    rw [openFile_eq] at hx
    cases hf : fs (Spec.osPath root name) <;> rw [hf] at hx <;> simp only [List.mem_append, List.mem_singleton] at hx <;>
      rcases hx with hx | hx
    · exact hst x hx
    · exact ⟨name, hx⟩
    · exact hst x hx
    · exact ⟨name, hx⟩
  have hsf : ∀ name (st : St), (∀ x ∈ st.tried, ∃ n, x = Spec.osPath root n) →
      ∀ x ∈ (serveFile fs root name st).1.tried, ∃ n, x = Spec.osPath root n := by
    intro name st hst
    have := grow name st hst
    unfold serveFile
    split <;> rename_i he <;> rw [he] at this <;> exact this
  by_cases hm : ∃ file, Spec.Mine pre opt m path file
  · obtain ⟨file, hm⟩ := hm
    rw [serve_mine hm] at h
    have h0 := hsf file {} nofun
    cases hr : serveFile fs root file {} with
    | mk st o =>
      rw [hr] at h h0
      cases o with
      | none =>
        simp only at h
        unfold tryThen at h
        split at h
        · have := hsf opt.tryFilesThen st h0
          split at h <;> rename_i he <;> rw [he] at this <;> exact this os h
        · exact h0 os h
      | some p =>
        obtain ⟨hd, d⟩ := p
        simp only at h
        unfold serveOpened at h
        split at h
        · split at h
          · exact h0 os h
          · have := grow (indexFile file) st h0
            split at h <;> rename_i he <;> rw [he] at this <;> exact this os h
        · exact h0 os h
  · rw [serve_other (fun file hf => hm ⟨file, hf⟩)] at h
    cases h

/-- C74: whatever the request's path (with any number of `..`, `.`, empty segments), every path the filter opens lies
lexically in the directory it serves. (Symbolic links are the file system's business.) The directory is not the root
of the file system. -/
theorem C74_directory_not_left (fs : FS) (pre root : Str) (opt : Opt) (m path os : Str) (hroot : cleanComps root ≠ [])
    (h : os ∈ (serve fs pre root opt m path).1.tried) : Spec.Below root os := by
  obtain ⟨name, rfl⟩ := tried_mem fs pre root opt m path os h
  exact below_osPath root name (Or.inl hroot)

/-- A request that tries to leave the directory. -/
theorem C74_example : (serve (fun _ => none) b!"/s" b!"/srv/www" {} b!"GET" b!"/s/../../etc/./passwd").1.tried =
    [b!"/srv/www/etc/passwd"] := by decide +kernel

/-! ## C75: what is answered -/

/-- C75: a regular file is served. -/
theorem C75_file_served (fs : FS) (pre root : Str) (opt : Opt) (m path file : Str) (h : Spec.Mine pre opt m path file)
    (hf : fs (Spec.osPath root file) = some (some false)) :
    serve fs pre root opt m path = (⟨[Spec.osPath root file], [Spec.osPath root file], [0]⟩, .content file 0) := by
  rw [serve_mine h]
  unfold serveFile
  rw [openFile_eq, hf]
  rfl

/-- C75: a directory asked for without a trailing slash is redirected to its path with one; nothing else is redirected. -/
theorem C75_redirect_iff (fs : FS) (pre root : Str) (opt : Opt) (m path dest : Str) :
    (serve fs pre root opt m path).2 = .redirect dest ↔
      dest = path ++ b!"/" ∧ path.getLast? ≠ some 47 ∧
      ∃ file, Spec.Mine pre opt m path file ∧ fs (Spec.osPath root file) = some (some true) := by
  have hsuf : hasSuffix path b!"/" = true ↔ path.getLast? = some 47 := by
    unfold hasSuffix
    rw [List.isSuffixOf_iff_suffix]
    constructor
    · rintro ⟨t, rfl⟩; simp
    · intro h
      refine ⟨path.dropLast, ?_⟩
      cases path with
      | nil => cases h
      | cons c r =>
        have := List.dropLast_concat_getLast (l := c :: r) (by simp)
        rw [List.getLast?_eq_some_getLast (by simp)] at h
        simp only [Option.some.injEq] at h
        rw [h] at this
        exact this
  by_cases hm : ∃ file, Spec.Mine pre opt m path file
  · obtain ⟨file, hm⟩ := hm
    have huniq : ∀ f2, Spec.Mine pre opt m path f2 → f2 = file := by
      rintro f2 ⟨_, ⟨q, h2, h3⟩, _⟩
      obtain ⟨_, ⟨q', h2', h3'⟩, _⟩ := hm
      have := (normal_iff _ _).1 h2
      have := (normal_iff _ _).1 h2'
      subst_vars
      have a := (strip_iff _ _ _).2 h3
      have b := (strip_iff _ _ _).2 h3'
      rw [a] at b
      exact Option.some.inj b
    rw [serve_mine hm]
    unfold serveFile
    rw [openFile_eq]
    cases hf : fs (Spec.osPath root file) with
    | none =>
      constructor
      · intro h
        simp only at h
        unfold tryThen at h
        split at h
        · split at h <;> cases h
        · cases h
      · rintro ⟨_, _, f2, h2, h3⟩
        rw [huniq f2 h2, hf] at h3; cases h3
    | some d =>
      rcases d with _ | (_ | _)
      · constructor
        · intro h
          simp only at h
          unfold tryThen at h
          split at h
          · split at h <;> cases h
          · cases h
        · rintro ⟨_, _, f2, h2, h3⟩
          rw [huniq f2 h2, hf] at h3; cases h3
      · constructor
        · intro h; cases h
        · rintro ⟨_, _, f2, h2, h3⟩
          rw [huniq f2 h2, hf] at h3; cases h3
      · simp only [serveOpened, if_true]
        by_cases hsl : hasSuffix path b!"/" = true
        · rw [if_neg (by simp [hsl])]
          constructor
          · intro h
            split at h <;> cases h
          · rintro ⟨_, h2, _⟩
            exact absurd (hsuf.1 hsl) h2
        · have hsl' : hasSuffix path b!"/" = false := by
            cases hx : hasSuffix path b!"/" with
            | false => rfl
            | true => exact absurd hx hsl
          rw [if_pos (by simp [hsl'])]
          constructor
          · intro h
            cases h
            exact ⟨rfl, fun hh => hsl (hsuf.2 hh), file, hm, hf⟩
          · rintro ⟨rfl, _, _⟩
            rfl
  · rw [serve_other (fun file hf => hm ⟨file, hf⟩)]
    constructor
    · nofun
    · rintro ⟨_, _, f2, h2, _⟩
      exact absurd ⟨f2, h2⟩ hm

/-- A directory with a trailing slash: what is answered. -/
theorem index_answer (fs : FS) (pre root : Str) (opt : Opt) (m path file : Str) (h : Spec.Mine pre opt m path file)
    (hf : fs (Spec.osPath root file) = some (some true)) (hs : path.getLast? = some 47) :
    (fs (Spec.osPath root (file ++ b!"/index.html")) = some (some false) →
      (serve fs pre root opt m path).2 = .content (indexFile file) 1 ∧
        (serve fs pre root opt m path).1.opened = [Spec.osPath root file, Spec.osPath root (file ++ b!"/index.html")]) ∧
    (fs (Spec.osPath root (file ++ b!"/index.html")) = none → (serve fs pre root opt m path).2 = .notFound) ∧
    (fs (Spec.osPath root (file ++ b!"/index.html")) = some (some true) → (serve fs pre root opt m path).2 = .pass) := by
  have hsuf : hasSuffix path b!"/" = true := by
    unfold hasSuffix
    rw [List.isSuffixOf_iff_suffix]
    refine ⟨path.dropLast, ?_⟩
    cases path with
    | nil => cases hs
    | cons c r =>
      have := List.dropLast_concat_getLast (l := c :: r) (by simp)
      rw [List.getLast?_eq_some_getLast (by simp)] at hs
      simp only [Option.some.injEq] at hs
      rw [hs] at this
      exact this
  have hos : Spec.osPath root (indexFile file) = Spec.osPath root (file ++ b!"/index.html") := by
    have : cleanComps (indexFile file) = cleanComps (file ++ b!"/index.html") := by
      unfold indexFile cleanRooted
      rw [cleanComps_slash]
      have h1 : cleanComps (47 :: file ++ b!"/index.html") = cleanComps (file ++ b!"/index.html") :=
        cleanComps_slash _
      rw [h1]
      have hne : cleanComps (file ++ b!"/index.html") ≠ [] := by
        have := cleanComps_append file b!"index.html"
        rw [show file ++ b!"/index.html" = file ++ 47 :: b!"index.html" from rfl, this]
        simp [splitOn1, cleanStep]
      unfold cleanComps
      rw [show ((splitOn1 47 (file ++ b!"/index.html")).foldl cleanStep []).reverse = cleanComps (file ++ b!"/index.html") from rfl,
        splitOn1_join1 47 _ hne (fun x hx => (cleanComps_ok _ x hx).2.2.2),
        foldl_push _ (fun x hx => ⟨(cleanComps_ok _ x hx).1, (cleanComps_ok _ x hx).2.1, (cleanComps_ok _ x hx).2.2.1⟩)]
      simp
    unfold Spec.osPath
    rw [this]
  rw [serve_mine h]
  unfold serveFile
  rw [openFile_eq, hf]
  simp only [serveOpened, if_true]
  rw [if_neg (by simp [hsuf]), openFile_eq, hos]
  refine ⟨fun hx => ?_, fun hx => ?_, fun hx => ?_⟩
  · rw [hx]
    exact ⟨rfl, rfl⟩
  · rw [hx]
  · rw [hx]

/-- C75: a directory with a trailing slash: its index file if it is a regular file, 404 if it cannot be opened. -/
theorem C75_index (fs : FS) (pre root : Str) (opt : Opt) (m path file : Str) (h : Spec.Mine pre opt m path file)
    (hf : fs (Spec.osPath root file) = some (some true)) (hs : path.getLast? = some 47) :
    (fs (Spec.osPath root (file ++ b!"/index.html")) = some (some false) →
      ∃ name, (serve fs pre root opt m path).2 = .content name 1 ∧
        (serve fs pre root opt m path).1.opened = [Spec.osPath root file, Spec.osPath root (file ++ b!"/index.html")]) ∧
    (fs (Spec.osPath root (file ++ b!"/index.html")) = none → (serve fs pre root opt m path).2 = .notFound) :=
  ⟨fun hx => ⟨_, (index_answer fs pre root opt m path file h hf hs).1 hx⟩, (index_answer fs pre root opt m path file h hf hs).2.1⟩

/-- C75: a directory whose "index.html" is itself a directory is passed on, as if it did not exist. -/
theorem C75_index_directory_passed_on : (serve (fun p => if p = b!"/srv" ∨ p = b!"/srv/index.html" then some (some true) else none)
    b!"" b!"/srv" {} b!"GET" b!"/").2 = .pass := by decide +kernel

/-- C75: a missing file is answered 404, or with the `TryFilesThen` file. -/
theorem C75_missing (fs : FS) (pre root : Str) (opt : Opt) (m path file : Str) (h : Spec.Mine pre opt m path file)
    (hf : fs (Spec.osPath root file) = none) :
    (opt.tryFilesThen = [] → (serve fs pre root opt m path).2 = .notFound) ∧
    (∀ d, opt.tryFilesThen ≠ [] → fs (Spec.osPath root opt.tryFilesThen) = some (some d) →
      (serve fs pre root opt m path).2 = .content file 0 ∧
      (serve fs pre root opt m path).1.opened = [Spec.osPath root opt.tryFilesThen]) := by
  rw [serve_mine h]
  unfold serveFile
  rw [openFile_eq, hf]
  simp only
  unfold tryThen
  constructor
  · intro h0
    rw [if_neg (by simp [h0])]
  · intro d h0 h1
    rw [if_pos h0]
    unfold serveFile
    rw [openFile_eq, h1]
    exact ⟨rfl, rfl⟩

/-- A missing file whose `TryFilesThen` file is missing too is answered 404. -/
theorem missing_both (fs : FS) (pre root : Str) (opt : Opt) (m path file : Str) (h : Spec.Mine pre opt m path file)
    (hf : fs (Spec.osPath root file) = none) (ht : fs (Spec.osPath root opt.tryFilesThen) = none) :
    (serve fs pre root opt m path).2 = .notFound := by
  rw [serve_mine h]
  unfold serveFile
  rw [openFile_eq, hf]
  simp only
  unfold tryThen
  split
  · unfold serveFile
    rw [openFile_eq, ht]
  · rfl

end Verif.Static
