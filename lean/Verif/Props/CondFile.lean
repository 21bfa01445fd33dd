import Verif.Model.CondFile
import Verif.Props.Download
/-!
# C184: conditional requests for files that have no entity tags
-/
namespace Verif.Down
open Verif.Go Verif.Gz

variable {C : Codec}

/-! ## Specification -/

/-- An entity tag: `"…"` or `W/"…"`, with bytes between the quotation marks that are neither quotation marks, white space nor control
characters (RFC 7232, 2.3). -/
def Spec.Tag (t : Str) : Prop :=
  ∃ w s : Str, (w = [] ∨ w = b!"W/") ∧ (∀ c ∈ s, 33 ≤ c.toNat ∧ c ≠ 34 ∧ c ≠ 127) ∧ t = w ++ [34] ++ s ++ [34]

/-- A list of entity tags, as it is written in a header. -/
def Spec.tagList : List Str → Str
  | [] => []
  | [t] => t
  | t :: l => t ++ b!", " ++ Spec.tagList l

/-- The answer 412, without contents. -/
def Spec.Refused (g : GS C) : Prop := Spec.status g = some 412 ∧ Gz.Spec.body g = []

/-- The answer 304, without contents. -/
def Spec.Unchanged (g : GS C) : Prop := Spec.status g = some 304 ∧ Gz.Spec.body g = []

/-! ## The answers -/

theorem opsCond_content {N : Net} {S : Site} {d : Disk} {r : CReq} {f : File} {name p : Str} {h : Nat} (enc : Bool)
    (e1 : (Static.serve (fsOf d) S.pre S.root S.opt r.method r.path).2 = .content name h)
    (e2 : (Static.serve (fsOf d) S.pre S.root S.opt r.method r.path).1.opened[h]? = some p) (e3 : d p = some (.file f)) :
    opsCond N S enc d r = serveCond N enc r name f ∧ ∀ m, ops N S enc d { r.toReq with ifModifiedSince := m } =
      serveContent N enc { r.toReq with ifModifiedSince := m } name f := by
  unfold opsCond ops
  dsimp only
  generalize Static.serve (fsOf d) S.pre S.root S.opt r.method r.path = z at e1 e2
  obtain ⟨st, rep⟩ := z
  dsimp only at e1 e2
  subst e1
  simp [e2, e3]

theorem opsCond_serves {N : Net} {S : Site} {d : Disk} {r : CReq} {f : File} (h : Spec.Serves S d r.method r.path f) :
    ∃ name, ∀ enc, opsCond N S enc d r = serveCond N enc r name f ∧ ∀ m, ops N S enc d { r.toReq with ifModifiedSince := m } =
      serveContent N enc { r.toReq with ifModifiedSince := m } name f := by
  obtain ⟨file, h1, h⟩ := h
  rcases h with h2 | ⟨h2, h3, h4⟩ | ⟨h2, h3, h4⟩
  · refine ⟨file, fun enc => ?_⟩
    have e := Static.C75_file_served (fsOf d) S.pre S.root S.opt r.method r.path file h1 (fsOf_file h2)
    exact opsCond_content (h := 0) enc (by rw [e]) (by rw [e]; rfl) h2
  · refine ⟨Static.indexFile file, fun enc => ?_⟩
    obtain ⟨e1, e2⟩ := (Static.index_answer (fsOf d) S.pre S.root S.opt r.method r.path file h1 (fsOf_dir h2) h3).1 (fsOf_file h4)
    exact opsCond_content enc e1 (by rw [e2]; rfl) h4
  · refine ⟨file, fun enc => ?_⟩
    obtain ⟨e1, e2⟩ := (Static.C75_missing (fsOf d) S.pre S.root S.opt r.method r.path file h1 (fsOf_none h2)).2 false h3 (fsOf_file h4)
    exact opsCond_content enc e1 (by rw [e2]; rfl) h4

theorem respondCond_same {N : Net} {S : Site} {d : Disk} {r : CReq} {r' : Req} (ha : r'.accept = r.accept)
    (h : opsCond N S (S.enc r.toReq) d r = ops N S (S.enc r') d r') : respondCond C N S d r = respond C N S d r' := by
  unfold respondCond respond
  rw [h, ha]

/-- An answer without a body. -/
theorem respondCond_out (hC : C.Lawful) {N : Net} {S : Site} {d : Disk} {r : CReq} {sets : List (Str × Str)} {s : Nat} (hs : s ≠ 0)
    (h : opsCond N S (S.enc r.toReq) d r = shape sets s []) :
    Spec.status (respondCond C N S d r) = some s ∧ Gz.Spec.body (respondCond C N S d r) = [] := by
  unfold respondCond
  rw [h]
  by_cases he : Spec.Zipped S r.accept
  · rw [if_pos he.1]
    obtain ⟨b, h1, -, h3, h4, -⟩ := out_gz hC S.detect he.2 hs sets []
    exact ⟨h1, by rw [h3, h4 rfl]⟩
  · have e : (if S.gz = true then filter S.detect r.accept ({} : GS C) (shape sets s []) else (shape sets s []).foldl GS.rawOp {}) =
        (shape sets s []).foldl GS.rawOp {} := by
      split
      · rename_i hg
        unfold filter
        rw [if_neg (fun hc => he ⟨hg, (contains_iff _ _).1 hc⟩)]
      · rfl
    rw [e]
    have o := out_plain (C := C) hs sets []
    exact ⟨o.status, o.body⟩

theorem cond_refused (hC : C.Lawful) {N : Net} {S : Site} {d : Disk} {r : CReq} {f : File} (hf : Spec.Serves S d r.method r.path f)
    (h : matchFails r f = true) : Spec.Refused (respondCond C N S d r) := by
  obtain ⟨name, hn⟩ := opsCond_serves (N := N) hf
  refine respondCond_out hC (sets := lmSets N f) (by decide) ?_
  rw [(hn _).1]
  unfold serveCond shape
  rw [if_pos h, lastModified_eq]
  rfl

theorem cond_unchanged (hC : C.Lawful) {N : Net} {S : Site} {d : Disk} {r : CReq} {f : File} (hf : Spec.Serves S d r.method r.path f)
    (h : matchFails r f = false) (hne : r.ifNoneMatch ≠ []) (hs : hasStar (r.ifNoneMatch.length + 1) r.ifNoneMatch = true) :
    if reads r.method then Spec.Unchanged (respondCond C N S d r) else Spec.Refused (respondCond C N S d r) := by
  obtain ⟨name, hn⟩ := opsCond_serves (N := N) hf
  have e := (hn (S.enc r.toReq)).1
  unfold serveCond at e
  rw [h, if_neg Bool.false_ne_true, if_neg hne, if_pos hs] at e
  by_cases hr : reads r.method = true
  · rw [if_pos hr] at e ⊢
    refine respondCond_out hC (sets := lmSets N f ++ [(b!"Content-Type", []), (b!"Content-Length", [])]) (by decide) ?_
    rw [e]
    unfold shape
    rw [lastModified_eq]
    simp
  · rw [if_neg hr] at e ⊢
    refine respondCond_out hC (sets := lmSets N f) (by decide) ?_
    rw [e]
    unfold shape
    rw [lastModified_eq]
    rfl

theorem cond_plain {N : Net} {S : Site} {d : Disk} {r : CReq} {f : File} (hf : Spec.Serves S d r.method r.path f)
    (h : matchFails r f = false) (he : r.ifNoneMatch = []) : respondCond C N S d r = respond C N S d r.toReq := by
  obtain ⟨name, hn⟩ := opsCond_serves (N := N) hf
  refine respondCond_same rfl ?_
  obtain ⟨e1, e2⟩ := hn (S.enc r.toReq)
  rw [e1]
  unfold serveCond
  rw [h, if_neg Bool.false_ne_true, if_pos he]
  exact (e2 r.ifModifiedSince).symm

theorem cond_full {N : Net} {S : Site} {d : Disk} {r : CReq} {f : File} (hf : Spec.Serves S d r.method r.path f)
    (h : matchFails r f = false) (hne : r.ifNoneMatch ≠ []) (hs : hasStar (r.ifNoneMatch.length + 1) r.ifNoneMatch = false) :
    respondCond C N S d r = respond C N S d { r.toReq with ifModifiedSince := none } := by
  obtain ⟨name, hn⟩ := opsCond_serves (N := N) hf
  refine respondCond_same rfl ?_
  obtain ⟨e1, e2⟩ := hn (S.enc r.toReq)
  rw [e1]
  unfold serveCond
  rw [h, if_neg Bool.false_ne_true, if_neg hne, hs, if_neg Bool.false_ne_true]
  exact (e2 none).symm

/-! ## Lists of entity tags -/

theorem etagc : ∀ c : UInt8, (33 ≤ c.toNat ∧ c ≠ 34 ∧ c ≠ 127) → (c = 33 ∨ (35 ≤ c ∧ c ≤ 126) ∨ 128 ≤ c) := forall_u8 (by decide +kernel)

theorem scanTag_spec : ∀ (s rest : Str), (∀ c ∈ s, 33 ≤ c.toNat ∧ c ≠ 34 ∧ c ≠ 127) → scanTag (s ++ 34 :: rest) = some rest
  | [], rest, _ => rfl
  | c :: s, rest, h => by
    rw [List.cons_append]
    unfold scanTag
    rw [if_pos (etagc c (h c (List.mem_cons_self ..)))]
    exact scanTag_spec s rest fun c hc => h c (List.mem_cons_of_mem _ hc)

/-- A text with no white space at its ends. -/
theorem trimText_ends {s : Str} {a : UInt8} {t : Str} {b : UInt8} {u : Str} (h1 : s = a :: t) (h2 : s = u ++ [b])
    (ha : blank a = false) (hb : blank b = false) : trimText s = s := by
  have e1 : s.dropWhile blank = s := by rw [h1, List.dropWhile_cons, ha]; rfl
  unfold trimText
  rw [e1, h2, List.reverse_append, List.reverse_singleton, List.singleton_append, List.dropWhile_cons, hb]
  simp

theorem tag_ends {t : Str} (h : Spec.Tag t) : (∃ a u, t = a :: u ∧ blank a = false ∧ a ≠ 44 ∧ a ≠ 42) ∧ ∃ u, t = u ++ [34] := by
  obtain ⟨w, s, hw, -, rfl⟩ := h
  refine ⟨?_, w ++ [34] ++ s, by simp⟩
  rcases hw with rfl | rfl
  · exact ⟨34, s ++ [34], by simp, by decide, by decide, by decide⟩
  · exact ⟨87, 47 :: 34 :: (s ++ [34]), rfl, by decide, by decide, by decide⟩

theorem tagList_ends : ∀ (l : List Str), l ≠ [] → (∀ t ∈ l, Spec.Tag t) →
    (∃ t l', l = t :: l' ∧ Spec.tagList l = t ++ (if l' = [] then [] else b!", " ++ Spec.tagList l')) ∧ ∃ u, Spec.tagList l = u ++ [34]
  | [t], _, h => ⟨⟨t, [], rfl, by simp [Spec.tagList]⟩, by simpa [Spec.tagList] using (tag_ends (h t (by simp))).2⟩
  | t :: t' :: l, _, h => by
    obtain ⟨-, u, hu⟩ := tagList_ends (t' :: l) (by simp) fun x hx => h x (List.mem_cons_of_mem _ hx)
    refine ⟨⟨t, t' :: l, rfl, by simp [Spec.tagList]⟩, t ++ b!", " ++ u, ?_⟩
    show t ++ b!", " ++ Spec.tagList (t' :: l) = _
    rw [hu]; simp only [List.append_assoc]

theorem scanETag_tag {t rest : Str} (h : Spec.Tag t) (hr : trimText (t ++ rest) = t ++ rest) : scanETag (t ++ rest) = some rest := by
  unfold scanETag
  rw [hr]
  obtain ⟨w, s, hw, hs, rfl⟩ := h
  rcases hw with rfl | rfl
  · simpa using scanTag_spec s rest hs
  · have := scanTag_spec s rest hs
    simpa using this

theorem trimText_list {l : List Str} (hne : l ≠ []) (h : ∀ t ∈ l, Spec.Tag t) : trimText (Spec.tagList l) = Spec.tagList l := by
  obtain ⟨⟨t, l', rfl, e⟩, u, hu⟩ := tagList_ends l hne h
  obtain ⟨⟨a, v, hv, ha, -, -⟩, -⟩ := tag_ends (h t (by simp))
  refine trimText_ends (a := a) (t := v ++ (if l' = [] then [] else b!", " ++ Spec.tagList l')) ?_ hu ha (by decide)
  rw [e, hv]; rfl

theorem hasStar_list : ∀ (n : Nat) (l : List Str), (∀ t ∈ l, Spec.Tag t) →
    hasStar n (Spec.tagList l) = false ∧ (l ≠ [] → hasStar n (b!", " ++ Spec.tagList l) = false ∧ hasStar n (b!" " ++ Spec.tagList l) = false)
  | 0, _, _ => ⟨rfl, fun _ => ⟨rfl, rfl⟩⟩
  | n + 1, l, h => by
    have key : ∀ s, trimText s = Spec.tagList l → hasStar (n + 1) s = false := by
      intro s hs
      unfold hasStar
      rw [hs]
      by_cases hl : l = []
      · subst hl; rfl
      · have ht := trimText_list hl h
        obtain ⟨⟨t, l', e0, e⟩, -⟩ := tagList_ends l hl h
        have htag : Spec.Tag t := h t (by rw [e0]; simp)
        obtain ⟨⟨a, v, hv, -, h44, h42⟩, -⟩ := tag_ends htag
        have hsc : scanETag (Spec.tagList l) = some (if l' = [] then [] else b!", " ++ Spec.tagList l') := by
          rw [e]; exact scanETag_tag htag (by rw [← e]; exact ht)
        have hcons : Spec.tagList l = a :: (v ++ (if l' = [] then [] else b!", " ++ Spec.tagList l')) := by rw [e, hv]; rfl
        rw [hcons] at hsc ⊢
        simp only [if_neg h44, if_neg h42, hsc]
        have hl' : ∀ t ∈ l', Spec.Tag t := fun x hx => h x (by rw [e0]; exact List.mem_cons_of_mem _ hx)
        by_cases h0 : l' = []
        · rw [if_pos h0]
          exact (hasStar_list n [] (by simp)).1
        · rw [if_neg h0]
          exact ((hasStar_list n l' hl').2 h0).1
    refine ⟨?_, fun hl => ⟨?_, ?_⟩⟩
    · by_cases hl : l = []
      · subst hl; exact key [] rfl
      · exact key _ (trimText_list hl h)
    · obtain ⟨-, u, hu⟩ := tagList_ends l hl h
      have : trimText (b!", " ++ Spec.tagList l) = 44 :: 32 :: Spec.tagList l :=
        trimText_ends (a := 44) (t := 32 :: Spec.tagList l) (b := 34) (u := 44 :: 32 :: u) rfl (by rw [hu]; rfl) (by decide) (by decide)
      unfold hasStar
      rw [this]
      exact ((hasStar_list n l h).2 hl).2
    · refine key _ ?_
      have e := trimText_list hl h
      unfold trimText at e ⊢
      have : (b!" " ++ Spec.tagList l).dropWhile blank = (Spec.tagList l).dropWhile blank := rfl
      rw [this]; exact e

theorem tagList_ne {l : List Str} (hne : l ≠ []) (h : ∀ t ∈ l, Spec.Tag t) : Spec.tagList l ≠ [] := by
  obtain ⟨-, u, hu⟩ := tagList_ends l hne h
  rw [hu]; simp

/-! ## The theorems -/

/-- **C184, one of three.** A request for a file that is served gets the answer 412 without contents, or 304 without contents, or exactly what it gets
without the headers If-Match, If-None-Match and If-Unmodified-Since (with If-None-Match: and without If-Modified-Since) — whatever is in them. -/
theorem C184_kinds (hC : C.Lawful) (N : Net) {S : Site} {d : Disk} {r : CReq} {f : File} (hf : Spec.Serves S d r.method r.path f) :
    Spec.Refused (respondCond C N S d r) ∨ Spec.Unchanged (respondCond C N S d r) ∨
    respondCond C N S d r = respond C N S d (if r.ifNoneMatch = [] then r.toReq else { r.toReq with ifModifiedSince := none }) := by
  cases hm : matchFails r f with
  | true => exact .inl (cond_refused hC hf hm)
  | false =>
    by_cases hn : r.ifNoneMatch = []
    · rw [if_pos hn]; exact .inr (.inr (cond_plain hf hm hn))
    · rw [if_neg hn]
      cases hs : hasStar (r.ifNoneMatch.length + 1) r.ifNoneMatch with
      | true =>
        have := cond_unchanged hC (N := N) hf hm hn hs
        split at this
        · exact .inr (.inl this)
        · exact .inl this
      | false => exact .inr (.inr (cond_full hf hm hn hs))

/-- **C184, If-Match.** With a list of entity tags the answer is 412 and no contents, whatever else is in the request: the file has no entity
tag. With `*` it is as if the request had neither this header nor If-Unmodified-Since. -/
theorem C184_if_match (hC : C.Lawful) (N : Net) {S : Site} {d : Disk} {r : CReq} {f : File} (hf : Spec.Serves S d r.method r.path f) :
    (∀ l : List Str, l ≠ [] → (∀ t ∈ l, Spec.Tag t) → r.ifMatch = Spec.tagList l → Spec.Refused (respondCond C N S d r)) ∧
    (r.ifMatch = b!"*" → respondCond C N S d r = respondCond C N S d { r with ifMatch := [], ifUnmodifiedSince := none }) := by
  refine ⟨fun l hne hl h => cond_refused hC hf ?_, fun h => ?_⟩
  · unfold matchFails
    rw [if_pos (by rw [h]; exact tagList_ne hne hl), h, (hasStar_list _ l hl).1]
    rfl
  · have h1 : matchFails r f = false := by
      unfold matchFails
      rw [h, if_pos (by decide)]; decide
    have h2 : matchFails { r with ifMatch := [], ifUnmodifiedSince := none } f = false := rfl
    obtain ⟨name, hn⟩ := opsCond_serves (N := N) hf
    obtain ⟨name', hn'⟩ := opsCond_serves (N := N) (r := { r with ifMatch := [], ifUnmodifiedSince := none }) hf
    by_cases hi : r.ifNoneMatch = []
    · rw [cond_plain hf h1 hi, cond_plain (r := { r with ifMatch := [], ifUnmodifiedSince := none }) hf h2 hi]
    · cases hs : hasStar (r.ifNoneMatch.length + 1) r.ifNoneMatch with
      | false =>
        rw [cond_full hf h1 hi hs, cond_full (r := { r with ifMatch := [], ifUnmodifiedSince := none }) hf h2 hi hs]
      | true =>
        have hname : opsCond N S (S.enc r.toReq) d r = opsCond N S (S.enc r.toReq) d { r with ifMatch := [], ifUnmodifiedSince := none } := by
          rw [(hn _).1, (hn' _).1]
          unfold serveCond
          rw [h1, h2]
          simp only [Bool.false_eq_true, if_false, if_neg hi, hs, if_true]
        unfold respondCond
        rw [hname]

/-- **C184, If-None-Match.** With a list of entity tags the request is answered as without this header and without If-Modified-Since; with `*` the
answer is 304 and no contents (unless the other two headers have it refused). -/
theorem C184_if_none_match (hC : C.Lawful) (N : Net) {S : Site} {d : Disk} {r : CReq} {f : File} (hf : Spec.Serves S d r.method r.path f)
    (h1 : r.ifMatch = [] ∨ r.ifMatch = b!"*") (h2 : r.ifMatch = [] → ∀ t, r.ifUnmodifiedSince = some t → f.mtime = 0 ∨ f.unix ≤ t) :
    (∀ l : List Str, l ≠ [] → (∀ t ∈ l, Spec.Tag t) → r.ifNoneMatch = Spec.tagList l →
      respondCond C N S d r = respond C N S d { r.toReq with ifModifiedSince := none }) ∧
    (r.ifNoneMatch = b!"*" → r.method = b!"GET" ∨ r.method = b!"HEAD" → Spec.Unchanged (respondCond C N S d r)) ∧
    (r.ifNoneMatch = b!"*" → r.method ≠ b!"GET" → r.method ≠ b!"HEAD" → Spec.Refused (respondCond C N S d r)) ∧
    (r.ifNoneMatch = [] → respondCond C N S d r = respond C N S d r.toReq) := by
  have hm : matchFails r f = false := by
    unfold matchFails
    rcases h1 with h | h
    · rw [if_neg (by simp [h])]
      cases hu : r.ifUnmodifiedSince with
      | none => rfl
      | some t =>
        rcases h2 h t hu with h0 | h0
        · simp [h0]
        · simp [h0]
    · rw [h, if_pos (by decide)]; decide
  refine ⟨fun l hne hl h => cond_full hf hm (by rw [h]; exact tagList_ne hne hl) (by rw [h]; exact (hasStar_list _ l hl).1), fun h hg => ?_,
    fun h hg hh => ?_, fun h => cond_plain hf hm h⟩
  · have := cond_unchanged hC (N := N) hf hm (by rw [h]; decide) (by rw [h]; decide)
    rwa [if_pos (by unfold reads; rcases hg with h | h <;> rw [h] <;> decide)] at this
  · have := cond_unchanged hC (N := N) hf hm (by rw [h]; decide) (by rw [h]; decide)
    rwa [if_neg (by unfold reads; simp [hg, hh])] at this

/-- **C184, If-Unmodified-Since.** Without If-Match the answer is 412 and no contents if the file has a time and its second is after that date,
otherwise as without the header. -/
theorem C184_if_unmodified (hC : C.Lawful) (N : Net) {S : Site} {d : Disk} {r : CReq} {f : File} {t : Nat}
    (hf : Spec.Serves S d r.method r.path f) (h1 : r.ifMatch = []) (h2 : r.ifUnmodifiedSince = some t) :
    (f.mtime ≠ 0 → t < f.unix → Spec.Refused (respondCond C N S d r)) ∧
    (f.mtime = 0 ∨ f.unix ≤ t → r.ifNoneMatch = [] → respondCond C N S d r = respond C N S d r.toReq) := by
  refine ⟨fun h0 ht => cond_refused hC hf ?_, fun h hn => (C184_if_none_match hC N hf (.inl h1) fun _ t' ht' => ?_).2.2.2 hn⟩
  · unfold matchFails
    rw [if_neg (by simp [h1]), h2]
    simp [h0, ht]
  · rw [h2] at ht'
    cases ht'
    exact h

/-- **C184, no old copies.** A client that asks with the entity tags of its copies (from a proxy, say) is given the contents of the file as they are,
even if its copy's date is not older than the file. -/
theorem C184_fresh (hC : C.Lawful) {N : Net} (hN : Spec.Reads N) {S : Site} {path accept : Str} {d : Disk} {f : File}
    (hs : Spec.Serves S d b!"GET" path f) (hz : Spec.Zipped S accept → f.data ≠ []) (since : Option Nat) {l : List Str} (hne : l ≠ [])
    (hl : ∀ t ∈ l, Spec.Tag t) :
    Spec.status (respondCond C N S d { method := b!"GET", path, accept, ifModifiedSince := since, ifNoneMatch := Spec.tagList l }) = some 200 ∧
    Spec.contents (respondCond C N S d { method := b!"GET", path, accept, ifModifiedSince := since, ifNoneMatch := Spec.tagList l }) =
      some f.data := by
  have e := (C184_if_none_match hC N (r := { method := b!"GET", path, accept, ifModifiedSince := since, ifNoneMatch := Spec.tagList l }) hs
    (.inl rfl) (fun _ t h => by cases h)).1 l hne hl rfl
  rw [e]
  have := (C159_exact hC hN (rd := fun _ => none) (path := path) (accept := accept) hs hz none).2 (fun x t h => by cases h)
  unfold Spec.shows at this
  have hv : Spec.visit (fun _ => none) path accept none = { method := b!"GET", path, accept, ifModifiedSince := none } := rfl
  rw [hv] at this
  split at this
  · rename_i h200
    exact ⟨h200, (Prod.mk.inj this).1⟩
  · split at this <;> cases (Prod.mk.inj this).1

open Ex in
/-- **C184, examples.** Entity tags; a request with them for a file of the second 5. -/
theorem C184_example :
    Spec.Tag b!"\"v1\"" ∧ Spec.Tag b!"W/\"2\"" ∧ ¬ Spec.Tag b!"v1" ∧ Spec.tagList [b!"\"v1\"", b!"W/\"2\""] = b!"\"v1\", W/\"2\"" ∧
    Spec.Serves (site true) (disk f1) b!"GET" b!"/s/f" f1 ∧
    Spec.status (respondCond escCodec net (site true) (disk f1)
      { method := b!"GET", path := b!"/s/f", ifMatch := b!"\"v1\"", ifUnmodifiedSince := some 9 }) = some 412 ∧
    Spec.status (respondCond escCodec net (site true) (disk f1)
      { method := b!"GET", path := b!"/s/f", ifUnmodifiedSince := some 4 }) = some 412 ∧
    Spec.status (respondCond escCodec net (site true) (disk f1)
      { method := b!"GET", path := b!"/s/f", ifMatch := b!"\"v1\", *", ifUnmodifiedSince := some 4 }) = some 200 ∧
    Spec.status (respondCond escCodec net (site true) (disk f1)
      { method := b!"GET", path := b!"/s/f", ifNoneMatch := b!" ,*" }) = some 304 ∧
    Spec.status (respondCond escCodec net (site true) (disk f1)
      { method := b!"GET", path := b!"/s/f", ifNoneMatch := b!"\"v1\", W/\"2\"", ifModifiedSince := some 9 }) = some 200 ∧
    Spec.status (respondCond escCodec net (site true) (disk f1)
      { method := b!"GET", path := b!"/s/f", ifModifiedSince := some 9 }) = some 304 := by
  refine ⟨⟨[], b!"v1", .inl rfl, by decide, rfl⟩, ⟨b!"W/", b!"2", .inr rfl, by decide, rfl⟩, ?_, by decide, serves _ _, ?_⟩
  · rintro ⟨w, s, rfl | rfl, -, h⟩ <;> cases h
  · decide +kernel

end Verif.Down
