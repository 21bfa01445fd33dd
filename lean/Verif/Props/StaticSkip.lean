import Verif.Props.StaticRedirect
import Verif.Proofs.Trim
/-!
# C152: the prefixes a static filter is told to skip
-/
namespace Verif.Static
open Verif.Go Verif.Router

namespace SkipSpec
/-- The file `os`, in the directory `root`, lies under the skipped prefix `p`: below the directory its path begins with
`p`. -/
def Under (root p os : Str) : Prop := ∃ rel, os = cleanRooted root ++ rel ∧ p <+: rel

/-- A file as a client writes it: empty, or names separated by single slashes, none of them `.` or `..`, perhaps with a
slash at the end. -/
def Tidy (file : Str) : Prop :=
  ∃ cs : List Str, (∀ c ∈ cs, c ≠ [] ∧ c ≠ b!"." ∧ c ≠ b!".." ∧ (47 : UInt8) ∉ c) ∧
    (file = cs.flatMap (fun c => 47 :: c) ∨ file = cs.flatMap (fun c => 47 :: c) ++ b!"/")
end SkipSpec
open SkipSpec

/-- The names of the files a request can try. -/
theorem tried_names (fs : FS) (pre root : Str) (opt : Opt) (m path file os : Str) (hm : Spec.Mine pre opt m path file)
    (h : os ∈ (serve fs pre root opt m path).1.tried) :
    os = Spec.osPath root file ∨ os = Spec.osPath root (indexFile file) ∨ os = Spec.osPath root opt.tryFilesThen := by
  have grow : ∀ name (st : St), ∀ x ∈ (openFile fs root name st).1.tried, x ∈ st.tried ∨ x = Spec.osPath root name := by
    intro name st x hx
    rw [openFile_eq] at hx
    cases hf : fs (Spec.osPath root name) <;> rw [hf] at hx <;> simp only [List.mem_append, List.mem_singleton] at hx <;>
      exact hx
  have hsf : ∀ name (st : St), ∀ x ∈ (serveFile fs root name st).1.tried, x ∈ st.tried ∨ x = Spec.osPath root name := by
    intro name st
    have := grow name st
    unfold serveFile
    split <;> rename_i he <;> rw [he] at this <;> exact this
  rw [serve_mine hm] at h
  have h0 := hsf file {}
  cases hr : serveFile fs root file {} with
  | mk st o =>
    rw [hr] at h h0
    have h1 : ∀ x ∈ st.tried, x = Spec.osPath root file := by
      intro x hx
      rcases h0 x hx with h | h
      · cases h
      · exact h
    cases o with
    | none =>
      simp only at h
      unfold tryThen at h
      split at h
      · have h2 := hsf opt.tryFilesThen st
        split at h
        · rename_i he
          rw [he] at h2
          rcases h2 os h with h | h
          · exact Or.inl (h1 os h)
          · exact Or.inr (Or.inr h)
        · rename_i he
          rw [he] at h2
          rcases h2 os h with h | h
          · exact Or.inl (h1 os h)
          · exact Or.inr (Or.inr h)
      · exact Or.inl (h1 os h)
    | some p =>
      obtain ⟨hd, d⟩ := p
      simp only at h
      unfold serveOpened at h
      split at h
      · split at h
        · exact Or.inl (h1 os h)
        · have h2 := grow (indexFile file) st
          split at h <;> rename_i he <;> rw [he] at h2 <;> rcases h2 os h with h | h <;>
            first | exact Or.inl (h1 os h) | exact Or.inr (Or.inl h)
      · exact Or.inl (h1 os h)

theorem flat_join : ∀ (cs : List Str), cs ≠ [] → cs.flatMap (fun c => 47 :: c) = 47 :: join1 47 cs := by
  intro cs
  induction cs with
  | nil => intro h; exact absurd rfl h
  | cons c cs ih =>
    intro _
    cases cs with
    | nil => simp [join1]
    | cons d ds =>
      rw [List.flatMap_cons, ih (by simp)]
      rfl

theorem flat_append (a b : List Str) (ha : a ≠ []) :
    47 :: join1 47 (a ++ b) = (47 :: join1 47 a) ++ b.flatMap (fun c => 47 :: c) := by
  rw [← flat_join (a ++ b) (by simp [ha]), ← flat_join a ha, List.flatMap_append]

theorem cleanComps_flat (cs : List Str) (h : ∀ c ∈ cs, c ≠ [] ∧ c ≠ b!"." ∧ c ≠ b!".." ∧ (47 : UInt8) ∉ c) :
    cleanComps (cs.flatMap (fun c => 47 :: c)) = cs := by
  by_cases hn : cs = []
  · subst hn; rfl
  · rw [flat_join cs hn, cleanComps_slash]
    unfold cleanComps
    rw [splitOn1_join1 47 cs hn (fun x hx => (h x hx).2.2.2),
      foldl_push cs (fun x hx => ⟨(h x hx).1, (h x hx).2.1, (h x hx).2.2.1⟩)]
    simp

/-- the path on the disk of a tidy file -/
theorem osPath_tidy (root : Str) (hroot : cleanComps root ≠ []) (cs : List Str)
    (h : ∀ c ∈ cs, c ≠ [] ∧ c ≠ b!"." ∧ c ≠ b!".." ∧ (47 : UInt8) ∉ c) {file : Str}
    (hf : file = cs.flatMap (fun c => 47 :: c) ∨ file = cs.flatMap (fun c => 47 :: c) ++ b!"/") :
    Spec.osPath root file = cleanRooted root ++ cs.flatMap (fun c => 47 :: c) := by
  have hc : cleanComps file = cs := by
    rcases hf with rfl | rfl
    · exact cleanComps_flat cs h
    · rw [cleanComps_snoc, cleanComps_flat cs h]
  unfold Spec.osPath cleanRooted
  rw [hc, flat_append _ _ hroot]

/-- C152 (the part that holds): asked with a tidy path, the filter touches no file under a skipped prefix, unless it is
the directory's index file or the `TryFilesThen` file.  Missing: paths that are not tidy, and those two files.  The
directory served is not the root of the file system. -/
theorem C152_tidy_partial (fs : FS) (pre root : Str) (opt : Opt) (m path file os p : Str) (hroot : cleanComps root ≠ [])
    (hm : Spec.Mine pre opt m path file) (ht : Tidy file) (h : os ∈ (serve fs pre root opt m path).1.tried)
    (hp : p ∈ opt.skipPrefix) (hu : Under root p os) :
    os = Spec.osPath root (file ++ b!"/index.html") ∨ os = Spec.osPath root opt.tryFilesThen := by
  obtain ⟨cs, hcs, hf⟩ := ht
  have hos := osPath_tidy root hroot cs hcs hf
  rcases tried_names fs pre root opt m path file os hm h with rfl | rfl | rfl
  · exfalso
    obtain ⟨rel, h1, h2⟩ := hu
    rw [hos] at h1
    have := List.append_cancel_left h1
    subst this
    refine hm.2.2 p hp ?_
    rcases hf with rfl | rfl
    · exact h2
    · exact h2.trans (List.prefix_append _ _)
  · left
    have : cleanComps (indexFile file) = cleanComps (file ++ b!"/index.html") := by
      have hfile : file = cs.flatMap (fun c => 47 :: c) ∨ file = cs.flatMap (fun c => 47 :: c) ++ b!"/" := hf
      have hi : ∀ c ∈ cs ++ [b!"index.html"], c ≠ [] ∧ c ≠ b!"." ∧ c ≠ b!".." ∧ (47 : UInt8) ∉ c := by
        intro c hc
        rcases List.mem_append.1 hc with hc | hc
        · exact hcs c hc
        · rw [List.mem_singleton] at hc; subst hc; decide
      have e1 : cleanComps (file ++ b!"/index.html") = cs ++ [b!"index.html"] := by
        rw [show file ++ b!"/index.html" = file ++ 47 :: b!"index.html" from rfl, cleanComps_append]
        have hc : cleanComps file = cs := by
          rcases hf with rfl | rfl
          · exact cleanComps_flat cs hcs
          · rw [cleanComps_snoc, cleanComps_flat cs hcs]
        rw [hc]
        have hs : splitOn1 47 b!"index.html" = [b!"index.html"] := by decide
        rw [hs]
        show (cleanStep cs.reverse b!"index.html").reverse = _
        have : cleanStep cs.reverse b!"index.html" = b!"index.html" :: cs.reverse := rfl
        rw [this]
        simp
      have e2 : indexFile file = (cs ++ [b!"index.html"]).flatMap (fun c => 47 :: c) := by
        unfold indexFile cleanRooted
        have : cleanComps (47 :: file ++ b!"/index.html") = cleanComps (file ++ b!"/index.html") := cleanComps_slash _
        rw [this, e1, flat_join _ (by simp)]
      rw [e2, cleanComps_flat _ hi, e1]
    unfold Spec.osPath
    rw [this]
  · exact Or.inr rfl

/-- C152 fails: one more slash in front defeats every skipped prefix that begins with a single one.  Whatever file the
directory holds, `//file` is served although `/file` is skipped. -/
theorem C152_second_slash_violated (fs : FS) (root file : Str) (opt : Opt)
    (hskip : ∀ p ∈ opt.skipPrefix, ∃ c r, p = 47 :: c :: r ∧ c ≠ 47)
    (h0 : file.head? = some 47) (hf : fs (Spec.osPath root file) = some (some false)) :
    (serve fs [] root opt b!"GET" (47 :: file)).1.opened = [Spec.osPath root file] ∧
    (serve fs [] root opt b!"GET" (47 :: file)).2 = .content (47 :: file) 0 := by
  have hm : Spec.Mine [] opt b!"GET" (47 :: file) (47 :: file) := by
    refine ⟨Or.inr (Or.inl rfl), ⟨[], Or.inl ⟨rfl, rfl⟩, rfl, Or.inl rfl⟩, ?_⟩
    intro p hp hpre
    obtain ⟨c, r, rfl, hc⟩ := hskip p hp
    cases file with
    | nil => cases h0
    | cons x xs =>
      have hx : x = 47 := by simpa using h0
      subst hx
      obtain ⟨t, ht⟩ := hpre
      simp only [List.cons_append, List.cons.injEq, true_and] at ht
      exact hc ht.1
  have hos : Spec.osPath root (47 :: file) = Spec.osPath root file := by
    unfold Spec.osPath
    rw [cleanComps_slash]
  rw [C75_file_served fs [] root opt b!"GET" (47 :: file) (47 :: file) hm (by rw [hos]; exact hf), hos]
  exact ⟨rfl, rfl⟩

theorem rune_no_slash {x : Str} (h : SpaceRune x) : ∃ c r, x = c :: r ∧ c ≠ 47 := by
  cases h with
  | ascii c h => exact ⟨c, [], rfl, by rcases h with rfl | rfl | rfl | rfl | rfl | rfl <;> decide⟩
  | latin c h => exact ⟨_, _, rfl, by decide⟩
  | ogham => exact ⟨_, _, rfl, by decide⟩
  | general c h => exact ⟨_, _, rfl, by decide⟩
  | math => exact ⟨_, _, rfl, by decide⟩
  | ideographic => exact ⟨_, _, rfl, by decide⟩

theorem spaces_no_slash {w : Str} (h : Spaces w) : w.head? ≠ some 47 := by
  obtain ⟨rs, h1, rfl⟩ := h
  cases rs with
  | nil => simp
  | cons r rs =>
    obtain ⟨c, t, rfl, hc⟩ := rune_no_slash (h1 r (by simp))
    simpa using hc

theorem trim_slash (path : Str) (h0 : path.head? = some 47) : trimSpace (47 :: path) = 47 :: trimSpace path := by
  obtain ⟨w, w', hw, hw', he, h1, h2⟩ := trimSpace_spec path
  have hwn : w = [] := by
    cases w with
    | nil => rfl
    | cons c w =>
      exfalso
      have := spaces_no_slash hw
      rw [he] at h0
      exact this (by simpa using h0)
  subst hwn
  have hlen : ∀ x a, SpaceRune x → (47 :: trimSpace path) ++ w' ≠ x ++ a := by
    intro x a hx he
    obtain ⟨c, r, rfl, hc⟩ := rune_no_slash hx
    simp only [List.cons_append, List.cons.injEq] at he
    exact hc he.1.symm
  have hrev : ∀ x a, SpaceRune x → 47 :: trimSpace path ≠ a ++ x := by
    intro x a hx he
    cases a with
    | nil =>
      obtain ⟨c, r, rfl, hc⟩ := rune_no_slash hx
      simp only [List.nil_append, List.cons.injEq] at he
      exact hc he.1.symm
    | cons b a =>
      simp only [List.cons_append, List.cons.injEq] at he
      exact h2 x hx ⟨a, he.2.symm⟩
  have := trimSpace_unique (w := []) (t := 47 :: trimSpace path) (w' := w') spaces_nil hw' (by simp)
    (spaceLen_zero hlen) (spaceLenRev_zero hrev)
  rw [← this]
  congr 1
  conv => lhs; rw [he]
  rfl

/-- C152 fails the other way too: a skipped path is left to the routes, but with one more slash in front (the routes take
both for the same path) the filter answers 404 and the handler is never reached. -/
theorem C152_routes_cut_off_violated (fs : FS) (root : Str) (opt : Opt) (path : Str) (rt : Route)
    (hskip : ∀ p ∈ opt.skipPrefix, ∃ c r, p = 47 :: c :: r ∧ c ≠ 47) (h0 : path.head? = some 47)
    (htry : opt.tryFilesThen = []) (hf : fs (Spec.osPath root path) = none) :
    (serve fs [] root opt b!"GET" (47 :: path)).2 = .notFound ∧
    selectRoute rt (47 :: path) = selectRoute rt path ∧
    ∀ p ∈ opt.skipPrefix, p <+: path → (serve fs [] root opt b!"GET" path).2 = .pass := by
  refine ⟨?_, ?_, ?_⟩
  · have hm : Spec.Mine [] opt b!"GET" (47 :: path) (47 :: path) := by
      refine ⟨Or.inr (Or.inl rfl), ⟨[], Or.inl ⟨rfl, rfl⟩, rfl, Or.inl rfl⟩, ?_⟩
      intro p hp hpre
      obtain ⟨c, r, rfl, hc⟩ := hskip p hp
      cases path with
      | nil => cases h0
      | cons x xs =>
        have hx : x = 47 := by simpa using h0
        subst hx
        obtain ⟨t, ht⟩ := hpre
        simp only [List.cons_append, List.cons.injEq, true_and] at ht
        exact hc ht.1
    have hos : Spec.osPath root (47 :: path) = Spec.osPath root path := by
      unfold Spec.osPath
      rw [cleanComps_slash]
    exact (C75_missing fs [] root opt b!"GET" (47 :: path) (47 :: path) hm (by rw [hos]; exact hf)).1 htry
  · unfold selectRoute
    rw [splitRoutePath_eq, splitRoutePath_eq]
    have : Router.Spec.pathSegs (47 :: path) = Router.Spec.pathSegs path := by
      unfold Router.Spec.pathSegs
      rw [trim_slash path h0, cleanComps_slash]
    rw [this]
  · intro p hp hpre
    refine (C69_others_untouched fs [] root opt b!"GET" path ?_).1
    rintro file ⟨-, ⟨q, hn, hu⟩, h3⟩
    have : q = [] := by
      have := (normal_iff [] q).1 hn
      rw [← this]; rfl
    subst this
    have he : path = file := by simpa using hu.1
    subst he
    exact h3 p hp hpre

/-- C152: the index file of a directory is served although its own path is skipped. -/
theorem C152_index_violated :
    (serve RedirEx.disk b!"" b!"/srv" { skipPrefix := [b!"/d/index.html"] } b!"GET" b!"/d/").1.opened =
      [b!"/srv/d", b!"/srv/d/index.html"] ∧
    Under b!"/srv" b!"/d/index.html" b!"/srv/d/index.html" ∧
    (serve RedirEx.disk b!"" b!"/srv" { skipPrefix := [b!"/d/index.html"] } b!"GET" b!"/d/index.html").2 = .pass := by
  refine ⟨by decide +kernel, ⟨b!"/d/index.html", by decide +kernel, List.prefix_refl _⟩, by decide +kernel⟩

/-- A tidy path below a skipped prefix, and one that is not tidy. -/
example : Tidy b!"/d/" ∧ Spec.Mine b!"" { skipPrefix := [b!"/p"] } b!"GET" b!"/d/" b!"/d/" :=
  ⟨⟨[b!"d"], by decide, Or.inr rfl⟩, Or.inr (Or.inl rfl), ⟨[], Or.inl ⟨rfl, rfl⟩, rfl, Or.inl rfl⟩, by decide⟩
example : (serve RedirEx.disk b!"" b!"/srv" { skipPrefix := [b!"/d"] } b!"GET" b!"//d/index.html").1.opened =
    [b!"/srv/d/index.html"] := by decide +kernel
example : (serve RedirEx.disk b!"" b!"/srv" { skipPrefix := [b!"/d"] } b!"GET" b!"/d/index.html").2 = .pass := by
  decide +kernel

end Verif.Static
