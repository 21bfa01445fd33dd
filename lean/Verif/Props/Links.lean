import Verif.Props.StaticSkip
import Verif.Props.RouterExact
import Verif.Props.RealUrl
import Verif.Proofs.Trim
/-!
# C155: links to a route with parameters bring the values back
-/
namespace Verif.Router
open Verif.Go Spec

/-! ## Specification -/

/-- There is a value for every parameter of the pattern, and a wildcard is its last segment. -/
inductive Spec.Fits : List Seg → List Str → Prop where
  | nil : Spec.Fits [] []
  | lit (s : Str) (ss : List Seg) (vs : List Str) : Spec.Fits ss vs → Spec.Fits (.lit s :: ss) vs
  | param (n v x : Str) (ss : List Seg) (vs : List Str) : Spec.Fits ss vs → Spec.Fits (.param n v :: ss) (x :: vs)
  | wild (n x : Str) : Spec.Fits [.wild n] [x]

/-- The segments of the address: the values are put in the place of the parameters. -/
def Spec.fill : List Seg → List Str → List Str
  | .lit s :: ss, vs => s :: Spec.fill ss vs
  | .param _ v :: ss, x :: vs => (x ++ v) :: Spec.fill ss vs
  | .wild _ :: _, x :: _ => splitOn1 47 x
  | _, _ => []

/-- Every value under the name of its parameter. -/
def Spec.named : List Seg → List Str → Params
  | .lit _ :: ss, vs => Spec.named ss vs
  | .param n _ :: ss, x :: vs => (n, x) :: Spec.named ss vs
  | .wild n :: _, x :: _ => [(n, x)]
  | _, _ => []

/-- The address of the page: every segment behind a slash. -/
def Spec.address (segs : List Str) : Str := segs.flatMap (fun s => 47 :: s)

/-- A segment that is one step down. -/
def Spec.Step (s : Str) : Prop := s ≠ [] ∧ s ≠ b!"." ∧ s ≠ b!".." ∧ (47 : UInt8) ∉ s

/-- `url.PathEscape`, which a page uses to put a text into a link: letters, digits, `-_.~$&+=:@` stay. -/
def Spec.segEscape (s : Str) : Str :=
  s.flatMap (fun c => if unreserved c || c == 36 || c == 38 || c == 43 || c == 61 || c == 58 || c == 64 then [c]
    else [37, hexUpper (c.toNat / 16), hexUpper (c.toNat % 16)])

/-- The text of the link. -/
def Spec.href (segs : List Str) : Str := segs.flatMap (fun s => 47 :: Spec.segEscape s)

/-! ## The link is read back -/

theorem encodes_append {a b p q : Str} (h : Verif.Params.Spec.Encodes a p) (h' : Verif.Params.Spec.Encodes b q) :
    Verif.Params.Spec.Encodes (a ++ b) (p ++ q) := by
  induction h with
  | nil => exact h'
  | plain c s p hc _ ih => exact .plain c _ _ hc ih
  | escaped a b x y s p ha hb _ ih => exact .escaped a b x y _ _ ha hb ih

theorem segEscape_encodes (s : Str) : Verif.Params.Spec.Encodes (segEscape s) s := by
  induction s with
  | nil => exact .nil
  | cons c s ih =>
    have e : segEscape (c :: s) = (segEscape [c]) ++ segEscape s := by simp [segEscape]
    rw [e]
    have h1 : Verif.Params.Spec.Encodes (segEscape [c]) [c] := by
      rw [← Verif.Params.pathUnescape_iff]
      exact forall_u8 (P := fun c => pathUnescape (segEscape [c]) = some [c]) (by decide +kernel) c
    exact encodes_append h1 ih

theorem C155_read (segs : List Str) : pathUnescape (href segs) = some (address segs) := by
  rw [Verif.Params.pathUnescape_iff]
  induction segs with
  | nil => exact .nil
  | cons s segs ih =>
    have e1 : href (s :: segs) = 47 :: (segEscape s ++ href segs) := by simp [href]
    have e2 : address (s :: segs) = 47 :: (s ++ address segs) := by simp [address]
    rw [e1, e2]
    exact .plain 47 _ _ (by decide) (encodes_append (segEscape_encodes s) ih)

/-! ## Exactly which links keep their segments -/

theorem rune_not_slash {r : Str} (h : SpaceRune r) : r.head? ≠ some 47 := by
  cases h with
  | ascii c h => rcases h with rfl | rfl | rfl | rfl | rfl | rfl <;> decide
  | _ => simp

theorem spaces_head {w s : Str} (h : Spaces w) (hs : (w ++ s).head? = some 47) : w = [] := by
  obtain ⟨rs, hr, rfl⟩ := h
  cases rs with
  | nil => rfl
  | cons r rs =>
    have h1 := hr r (by simp)
    have h2 := rune_len h1
    have h3 := rune_not_slash h1
    cases r with
    | nil => simp at h2
    | cons a r => simp at hs h3; exact absurd hs h3

theorem spaces_last {w : Str} (h : Spaces w) (hw : w ≠ []) : ∃ r, SpaceRune r ∧ r <:+ w := by
  obtain ⟨rs, hr, rfl⟩ := h
  have hn : rs ≠ [] := by rintro rfl; exact hw rfl
  have e := List.dropLast_concat_getLast hn
  refine ⟨rs.getLast hn, hr _ (List.getLast_mem hn), rs.dropLast.flatten, ?_⟩
  have := congrArg List.flatten e
  simpa using this

theorem trim_address (segs : List Str) : ∃ w, address segs = trimSpace (address segs) ++ w ∧ Spaces w := by
  obtain ⟨w, w', hw, hw', he, -, -⟩ := trimSpace_spec (address segs)
  cases segs with
  | nil => exact ⟨[], by decide, spaces_nil⟩
  | cons s segs =>
    have : w = [] := by
      refine spaces_head (s := trimSpace (address (s :: segs)) ++ w') hw ?_
      rw [← List.append_assoc, ← he]; simp [address]
    subst this
    exact ⟨w', by simpa using he, hw'⟩

theorem trim_address_iff (segs : List Str) :
    trimSpace (address segs) = address segs ↔ ∀ r, SpaceRune r → ¬ r <:+ address segs := by
  constructor
  · intro h
    obtain ⟨-, -, -, -, -, -, h2⟩ := trimSpace_spec (address segs)
    rwa [h] at h2
  · intro h
    obtain ⟨w, he, hw⟩ := trim_address segs
    by_cases hn : w = []
    · rw [hn, List.append_nil] at he; exact he.symm
    · obtain ⟨r, hr, hs⟩ := spaces_last hw hn
      refine absurd ?_ (h r hr)
      rw [he]
      obtain ⟨p, rfl⟩ := hs
      exact ⟨trimSpace (address segs) ++ p, by simp⟩

/-- the room the components take -/
def room (cs : List Str) : Nat := (cs.map (fun c => c.length + 1)).sum

theorem room_cleanStep (st : List Str) (c : Str) : room (cleanStep st c) ≤ room st + room [c] := by
  unfold cleanStep
  split
  · simp [room]
  · split
    · cases st <;> simp [room]; omega
    · simp [room]; omega

theorem room_fold (cs st : List Str) : room (cs.foldl cleanStep st) ≤ room st + room cs := by
  induction cs generalizing st with
  | nil => simp [room]
  | cons c cs ih =>
    have h1 := ih (cleanStep st c)
    have h2 := room_cleanStep st c
    have h3 : room (c :: cs) = room [c] + room cs := by simp [room]
    rw [List.foldl_cons, h3]
    omega

theorem room_join (cs : List Str) (h : cs ≠ []) : room cs = (join1 47 cs).length + 1 := by
  induction cs with
  | nil => exact absurd rfl h
  | cons c cs ih =>
    cases cs with
    | nil => simp [room, join1]
    | cons d cs =>
      have := ih (by simp)
      have e : room (c :: d :: cs) = c.length + 1 + room (d :: cs) := by simp [room]
      rw [e, this]
      simp [join1]
      omega

theorem room_reverse (cs : List Str) : room cs.reverse = room cs := by
  simp [room, List.map_reverse, List.sum_reverse]

theorem room_address (cs : List Str) : room cs = (address cs).length := by
  induction cs with
  | nil => rfl
  | cons c cs ih =>
    have e1 : room (c :: cs) = c.length + 1 + room cs := by simp [room]
    have e2 : address (c :: cs) = 47 :: (c ++ address cs) := by simp [address]
    rw [e1, e2, ih]; simp; omega

/-- cleaning a rooted path never makes it longer -/
theorem clean_shorter (p : Str) : (address (cleanComps (47 :: p))).length ≤ (47 :: p).length := by
  rw [← room_address, cleanComps_slash]
  unfold cleanComps
  rw [room_reverse]
  have h1 := room_fold (splitOn1 47 p) []
  have h2 := room_join (splitOn1 47 p) (splitOn1_ne_nil 47 p)
  rw [join1_splitOn1] at h2
  have h3 : room [] = 0 := rfl
  simp only [List.length_cons]
  omega

/-- C155: exactly which addresses reach the router with the segments they were made of: every segment is one step down
and the last one does not end in white space. -/
theorem C155_exact (segs : List Str) :
    pathSegs (address segs) = segs ↔ (∀ s ∈ segs, Step s) ∧ ∀ r, SpaceRune r → ¬ r <:+ address segs := by
  rw [← trim_address_iff]
  constructor
  · intro h
    refine ⟨fun s hs => ?_, ?_⟩
    · rw [← h] at hs; exact cleanComps_ok _ s hs
    · obtain ⟨w, he, hw⟩ := trim_address segs
      have hl : (address segs).length ≤ (trimSpace (address segs)).length := by
        cases segs with
        | nil => simp [address]
        | cons s segs =>
          cases ht : trimSpace (address (s :: segs)) with
          | nil =>
            unfold pathSegs at h
            rw [ht] at h
            exact absurd h (by simp [cleanComps, splitOn1, cleanStep])
          | cons a t =>
            have ha : a = 47 := by
              rw [ht] at he
              have := congrArg List.head? he
              simpa [address] using this.symm
            subst ha
            have := clean_shorter t
            unfold pathSegs at h
            rw [ht] at h
            rw [h] at this
            exact this
      have hw0 : w = [] := by
        have := congrArg List.length he
        rw [List.length_append] at this
        exact List.eq_nil_of_length_eq_zero (by omega)
      rw [hw0, List.append_nil] at he
      exact he.symm
  · rintro ⟨h1, h2⟩
    unfold pathSegs
    rw [h2]
    exact Static.cleanComps_flat segs h1

/-! ## The values come back -/

theorem fill_matches {ss : List Seg} {vs : List Str} (h : Fits ss vs) : Matches ss (fill ss vs) (named ss vs) := by
  induction h with
  | nil => exact .nil
  | lit s ss vs _ ih => exact .lit ih
  | param n v x ss vs _ ih => exact .param ih
  | wild n x =>
    have hj := join1_splitOn1 47 x
    have hn := splitOn1_ne_nil 47 x
    show Matches [.wild n] (splitOn1 47 x) [(n, x)]
    cases hx : splitOn1 47 x with
    | nil => exact absurd hx hn
    | cons a l =>
      rw [hx] at hj
      rw [← hj]
      exact .wild


/-- C155: when the request for a link is answered by the route the link was made for, the parameters the action gets are
the values of the link, each under its name. -/
theorem C155_values {hss : List (List Handler)} {root : Route} {q vs : List Str} {m : Str} {a : Answer}
    (h : registerAll hss newRoot = some root) (hq : Served hss q) (hf : Fits (q.map segOf) vs)
    (hs : ∀ s ∈ fill (q.map segOf) vs, Step s)
    (ht : ∀ r, SpaceRune r → ¬ r <:+ address (fill (q.map segOf) vs))
    (ha : (handle root m (address (fill (q.map segOf) vs))).answer = some a) (hp : a.path = renderPattern q) :
    a.params = named (q.map segOf) vs := by
  have hpath := (C155_exact (fill (q.map segOf) vs)).2 ⟨hs, ht⟩
  cases hd : handle root m (address (fill (q.map segOf) vs)) with
  | notFound => rw [hd] at ha; cases ha
  | dispatch rt ra f ps info =>
    rw [hd] at ha
    cases ha
    obtain ⟨q', hq', hm, hi, -⟩ := C01_route_match_sound h hd
    have : q' = q := renderPattern_inj (served_seg_ok hq') (served_seg_ok hq) (hi.symm.trans hp)
    subst this
    rw [hpath] at hm
    exact C01_params_unique hm (fill_matches hf)

/-- C155 (the part that holds): the link is answered by its own route, with its own values, when no other declared
pattern matches it.  Missing: values that are not one step down, values with white space at the end of the address, and
addresses another route matches or that run into a dead end of the tree. -/
theorem C155_link_partial {hss : List (List Handler)} {root : Route} {q vs : List Str}
    (h : registerAll hss newRoot = some root) (hw : PlainWilds hss) (hq : Served hss q) (hf : Fits (q.map segOf) vs)
    (hs : ∀ s ∈ fill (q.map segOf) vs, Step s)
    (ht : ∀ r, SpaceRune r → ¬ r <:+ address (fill (q.map segOf) vs))
    (hd : NoDeadEnd hss (fill (q.map segOf) vs))
    (hu : ∀ q' ps, Served hss q' → Matches (q'.map segOf) (fill (q.map segOf) vs) ps → q' = q) :
    ∃ t, tableAt (allRegs hss) q {} = some t ∧
      ∀ m, (handle root m (address (fill (q.map segOf) vs))).answer =
        (chooseAction t (toUpper m)).map (fun c => ⟨c.1, c.2, named (q.map segOf) vs, renderPattern q⟩) := by
  have hpath := (C155_exact (fill (q.map segOf) vs)).2 ⟨hs, ht⟩
  have hm := fill_matches hf
  obtain ⟨⟨rt, ps⟩, hsel⟩ := C02_route_completeness_partial (path := address (fill (q.map segOf) vs)) h hw
    (by rw [hpath]; exact hd) hq (by rw [hpath]; exact hm)
  obtain ⟨q', hq', hm', hn, -⟩ := select_sound h hsel
  rw [hpath] at hm'
  have := hu q' ps hq' hm'
  subst this
  obtain ⟨hW, hF, -, -⟩ := registerAll_obs (P := (· ≠ [])) hss newRoot root (allRegs_seg_ne hss) newRoot_WF h
  have hchain : rt.chain = q' := by
    have := (nodeAt_chain hW hn).1
    rw [this, hF.chain]; rfl
  refine ⟨rt.tbl, table_of_node h hw hn, fun m => ?_⟩
  unfold handle
  rw [hsel]
  simp only []
  cases hc : chooseAction rt.tbl (toUpper m) with
  | none => rfl
  | some c =>
    obtain ⟨a, f⟩ := c
    show some _ = some _
    rw [calcPath_render hchain (served_seg_ne hq'), C01_params_unique hm' hm]

/-! ## Where it fails -/

theorem address_append (a b : List Str) : address (a ++ b) = address a ++ address b := by simp [address]

/-- the components of an address, segment by segment -/
theorem clean_address (segs : List Str) (h : ∀ s ∈ segs, (47 : UInt8) ∉ s) :
    cleanComps (address segs) = (segs.foldl cleanStep []).reverse := by
  cases segs with
  | nil => rfl
  | cons s segs =>
    have e : address (s :: segs) = 47 :: join1 47 (s :: segs) := Static.flat_join _ (by simp)
    rw [e, cleanComps_slash]
    unfold cleanComps
    rw [splitOn1_join1 47 _ (by simp) h]

/-- two addresses with the same end -/
theorem same_route {root : Route} {m : Str} {a b : List Str} (ha : ∀ s ∈ a, (47 : UInt8) ∉ s)
    (hb : ∀ s ∈ b, (47 : UInt8) ∉ s) (ta : ∀ r, SpaceRune r → ¬ r <:+ address a)
    (tb : ∀ r, SpaceRune r → ¬ r <:+ address b)
    (h : a.foldl cleanStep [] = b.foldl cleanStep []) : handle root m (address a) = handle root m (address b) := by
  refine (C04_depends_on_segments root m _ _ ?_).1
  unfold pathSegs
  rw [(trim_address_iff a).2 ta, (trim_address_iff b).2 tb, clean_address a ha, clean_address b hb, h]

theorem rune_no_slash {r : Str} (h : SpaceRune r) : (47 : UInt8) ∉ r := by
  cases h with
  | ascii c h => rcases h with rfl | rfl | rfl | rfl | rfl | rfl <;> decide
  | latin c h => rcases h with rfl | rfl <;> decide
  | general c h =>
    intro hm
    simp only [List.mem_cons, List.not_mem_nil, or_false] at hm
    rcases hm with hm | hm | hm
    · exact absurd hm (by decide)
    · exact absurd hm (by decide)
    · subst hm; exact absurd h (by decide)
  | _ => decide

/-- how an address ends is how its last segments end -/
theorem tail_free {post : List Str} (hn : post ≠ []) (ht : ∀ r, SpaceRune r → ¬ r <:+ address post) (pre : List Str) :
    ∀ r, SpaceRune r → ¬ r <:+ address (pre ++ post) := by
  intro r hr hs
  rw [address_append] at hs
  rcases List.suffix_or_suffix_of_suffix hs (List.suffix_append (address pre) (address post)) with h | h
  · exact ht r hr h
  · have h47 : (47 : UInt8) ∈ address post := by
      cases post with
      | nil => exact absurd rfl hn
      | cons x l => simp [address]
    exact rune_no_slash hr (h.subset h47)

/-- C155 fails: a value `..` takes away the segment before it.  Whatever the application, the link made of
`/pre/s/:id/post` and the value `..` is answered as `/pre/post` is. -/
theorem C155_dotdot_violated (root : Route) (m s : Str) (pre post : List Str) (hpre : ∀ x ∈ pre, Step x) (hs : Step s)
    (hpost : ∀ x ∈ post, Step x) (hn : post ≠ []) (ht : ∀ r, SpaceRune r → ¬ r <:+ address post) :
    handle root m (address (pre ++ [s, b!".."] ++ post)) = handle root m (address (pre ++ post)) := by
  refine same_route ?_ ?_ (tail_free hn ht _) (tail_free hn ht _) ?_
  · intro x hx
    simp only [List.mem_append, List.mem_cons, List.not_mem_nil, or_false] at hx
    rcases hx with (hx | rfl | rfl) | hx
    · exact (hpre x hx).2.2.2
    · exact hs.2.2.2
    · decide
    · exact (hpost x hx).2.2.2
  · intro x hx
    rcases List.mem_append.1 hx with hx | hx
    · exact (hpre x hx).2.2.2
    · exact (hpost x hx).2.2.2
  · rw [List.foldl_append, List.foldl_append, List.foldl_append, List.foldl_cons, List.foldl_cons, List.foldl_nil]
    congr 1
    obtain ⟨h1, h2, h3, -⟩ := hs
    simp [cleanStep, h1, h2, h3]

/-- C155 fails: an empty value, or `.`, is not there at all.  Whatever the application, the link made of `/pre/:id/post`
and such a value is answered as `/pre/post` is. -/
theorem C155_empty_violated (root : Route) (m v : Str) (pre post : List Str) (hv : v = [] ∨ v = b!".")
    (hpre : ∀ x ∈ pre, Step x) (hpost : ∀ x ∈ post, Step x) (hn : post ≠ [])
    (ht : ∀ r, SpaceRune r → ¬ r <:+ address post) :
    handle root m (address (pre ++ [v] ++ post)) = handle root m (address (pre ++ post)) := by
  refine same_route ?_ ?_ (tail_free hn ht _) (tail_free hn ht _) ?_
  · intro x hx
    simp only [List.mem_append, List.mem_cons, List.not_mem_nil, or_false] at hx
    rcases hx with (hx | rfl) | hx
    · exact (hpre x hx).2.2.2
    · rcases hv with rfl | rfl <;> decide
    · exact (hpost x hx).2.2.2
  · intro x hx
    rcases List.mem_append.1 hx with hx | hx
    · exact (hpre x hx).2.2.2
    · exact (hpost x hx).2.2.2
  · rw [List.foldl_append, List.foldl_append, List.foldl_append, List.foldl_cons, List.foldl_nil]
    congr 1
    unfold cleanStep
    rw [if_pos hv]

/-- C155 fails: escaping does not help.  The link escapes a slash inside a value, and still reads as the link with one
more segment. -/
theorem C155_slash_violated (v w : Str) (pre post : List Str) :
    pathUnescape (href (pre ++ [v ++ 47 :: w] ++ post)) = pathUnescape (href (pre ++ [v, w] ++ post)) ∧
    href (pre ++ [v ++ 47 :: w] ++ post) ≠ href (pre ++ [v, w] ++ post) := by
  constructor
  · rw [C155_read, C155_read]; simp [address]
  · intro h
    have h1 := congrArg List.length h
    have h2 : segEscape (v ++ 47 :: w) = segEscape v ++ b!"%2F" ++ segEscape w := by
      simp only [segEscape, List.flatMap_append, List.flatMap_cons, List.append_assoc]
      rfl
    simp [href, h2] at h1
    omega

/-- C155 fails: white space at the end of the address is not seen.  Whatever the application, `/pre/x` and `/pre/x%20`
are answered alike, so two values that differ there are one. -/
theorem C155_blank_violated (root : Route) (m x w : Str) (pre : List Str) (hw : Spaces w) :
    handle root m (address (pre ++ [x ++ w])) = handle root m (address (pre ++ [x])) := by
  refine (C04_depends_on_segments root m _ _ ?_).1
  refine congrArg cleanComps ?_
  have e : address (pre ++ [x ++ w]) = address (pre ++ [x]) ++ w := by simp [address]
  obtain ⟨w', he, hw'⟩ := trim_address (pre ++ [x])
  obtain ⟨-, -, -, -, -, -, h2⟩ := trimSpace_spec (address (pre ++ [x]))
  have hne : address (pre ++ [x]) ≠ [] := by simp [address]
  have h47 : (address (pre ++ [x])).head? = some 47 := by
    cases pre <;> simp [address]
  have hn : trimSpace (address (pre ++ [x])) ≠ [] := by
    intro h0
    rw [h0, List.nil_append] at he
    have := spaces_head (s := []) hw' (by rw [List.append_nil, ← he]; exact h47)
    exact hne (he.trans this)
  have h3 : ∃ t, trimSpace (address (pre ++ [x])) = 47 :: t := by
    cases ht : trimSpace (address (pre ++ [x])) with
    | nil => exact absurd ht hn
    | cons a t =>
      rw [he, ht] at h47
      simp at h47
      exact ⟨t, by rw [h47]⟩
  obtain ⟨t, ht⟩ := h3
  have key := trimSpace_unique (w := []) (t := trimSpace (address (pre ++ [x]))) (w' := w' ++ w) spaces_nil
    (spaces_append hw' hw) hn
    (by
      rw [ht]
      refine spaceLen_zero ?_
      intro r a hr h
      have := rune_not_slash hr
      have hl := rune_len hr
      cases r with
      | nil => simp at hl
      | cons c r => simp at h this; exact this h.1.symm)
    (spaceLenRev_zero (fun r a hr h => h2 r hr ⟨a, h.symm⟩))
  rw [List.nil_append, ← List.append_assoc, ← he, ← e] at key
  exact key

/-! ### Concrete cases -/

/-- pages of users, and a page anyone may ask for -/
def Ex.users : List (List Handler) :=
  [[ .router b!"/users" [ .router b!"/:id" [ .router b!"/posts" [Ex.get (Ex.fn 1)], .router b!"/delete" [Ex.get (Ex.fn 2)] ] ],
     .router b!"/files/*:path" [Ex.get (Ex.fn 3)],
     .router b!"/posts" [Ex.get (Ex.fn 4)] ]]

example : (fill ([b!"users", b!":id", b!"posts"].map segOf) [b!"a b?"] = [b!"users", b!"a b?", b!"posts"]) ∧
    href [b!"users", b!"a b?", b!"posts"] = b!"/users/a%20b%3F/posts" ∧
    (answer (allRegs Ex.users) b!"GET" b!"/users/a b?/posts").map Answer.brief =
      some ⟨1, b!"Get", [(b!"id", b!"a b?")], b!"/users/:id/posts"⟩ ∧
    (answer (allRegs Ex.users) b!"GET" b!"/users/../posts").map Answer.brief = some ⟨4, b!"Get", [], b!"/posts"⟩ ∧
    (answer (allRegs Ex.users) b!"GET" b!"/users//posts").isNone = true ∧
    (answer (allRegs Ex.users) b!"GET" b!"/files/a/b.c").map Answer.brief =
      some ⟨3, b!"Get", [(b!"path", b!"a/b.c")], b!"/files/*:path"⟩ := by decide +kernel

-- the hypotheses of `C155_link_partial` are met
example : ∃ root t, registerAll Ex.users newRoot = some root ∧ tableAt (allRegs Ex.users) [b!"users", b!":id", b!"posts"] {} = some t ∧
    ∀ m, (handle root m b!"/users/7/posts").answer =
      (chooseAction t (toUpper m)).map (fun c => ⟨c.1, c.2, [(b!"id", b!"7")], b!"/users/:id/posts"⟩) := by
  have hacc : (registerAll Ex.users newRoot).isSome = true := by decide +kernel
  cases h : registerAll Ex.users newRoot with
  | none => rw [h] at hacc; cases hacc
  | some root =>
    have hq : [b!"users", b!":id", b!"posts"].map segOf = [.lit b!"users", .param b!"id" [], .lit b!"posts"] := by
      decide +kernel
    have hfill : fill ([b!"users", b!":id", b!"posts"].map segOf) [b!"7"] = [b!"users", b!"7", b!"posts"] := by
      decide +kernel
    have hw : PlainWilds Ex.users := by
      have : ∀ e ∈ allRegs Ex.users, ∀ s ∈ e.pattern, (match segOf s with
        | .wild n => decide (s = 42 :: 58 :: n) | _ => true) = true := by decide +kernel
      intro e he s hs n hn
      have := this e he s hs
      rw [hn] at this
      simpa using this
    have hpat : ∀ e ∈ allRegs Ex.users, e.pattern ∈ [[], [b!"users"], [b!"users", b!":id"],
        [b!"users", b!":id", b!"posts"], [b!"users", b!":id", b!"delete"], [b!"files", b!"*:path"], [b!"posts"]] := by
      decide +kernel
    have hserved : Served Ex.users [b!"users", b!":id", b!"posts"] := Or.inr (by decide +kernel)
    obtain ⟨t, h1, h2⟩ := C155_link_partial (q := [b!"users", b!":id", b!"posts"]) (vs := [b!"7"]) h hw hserved
      (by rw [hq]; exact .lit _ _ _ (.param _ _ _ _ _ (.lit _ _ _ .nil)))
      (by rw [hfill]; unfold Step; decide +kernel)
      (by
        rw [← trim_address_iff]
        decide +kernel)
      (by
        rw [hfill]
        intro q hq0 he hm
        obtain ⟨ps, hm⟩ := hm
        have hlen : ∀ e ∈ allRegs Ex.users, e.pattern.length < 4 := by decide +kernel
        have key : ∀ e ∈ allRegs Ex.users, ∀ k ∈ List.range 5, let q := e.pattern.take k; q ≠ [] → q ≠ [b!"files"] →
            ∃ e' ∈ allRegs Ex.users, e'.pattern = q := by decide +kernel
        obtain ⟨e, he, hpre⟩ := he
        by_cases hf : q = [b!"files"]
        · subst hf
          have hseg : [b!"files"].map segOf = [.lit b!"files"] := by decide +kernel
          rw [hseg] at hm
          cases hm
        · have htake := List.prefix_iff_eq_take.1 hpre
          have := key e he q.length (by
            have := hlen e he
            have := hpre.length_le
            simp; omega)
          simp only [← htake] at this
          exact Or.inr (this hq0 hf))
      (by
        rw [hfill]
        intro q ps hs hm
        have hmem : q ∈ [[], [b!"users"], [b!"users", b!":id"],
          [b!"users", b!":id", b!"posts"], [b!"users", b!":id", b!"delete"], [b!"files", b!"*:path"], [b!"posts"]] := by
          rcases hs with rfl | ⟨e, he, rfl⟩
          · decide
          · exact hpat e he
        have hsegs : ∀ q ∈ [[], [b!"users"], [b!"users", b!":id"],
          [b!"users", b!":id", b!"delete"], [b!"files", b!"*:path"], [b!"posts"]],
          q.map segOf ∈ [[], [Seg.lit b!"users"], [.lit b!"users", .param b!"id" []],
          [.lit b!"users", .param b!"id" [], .lit b!"delete"], [.lit b!"files", .wild b!"path"], [.lit b!"posts"]] := by
          decide +kernel
        by_cases hne : q = [b!"users", b!":id", b!"posts"]
        · exact hne
        · exfalso
          have h3 := hsegs q (by
            simp only [List.mem_cons, List.not_mem_nil, or_false] at hmem ⊢
            rcases hmem with h | h | h | h | h | h | h <;> first | exact absurd h hne | simp [h])
          simp only [List.mem_cons, List.not_mem_nil, or_false] at h3
          rcases h3 with h3 | h3 | h3 | h3 | h3 | h3
          all_goals
            rw [h3] at hm
          · cases hm
          · cases hm with | lit hm => cases hm
          · cases hm with | lit hm => generalize hx : [b!"7", b!"posts"] = y at hm; cases hm with | param hm => simp only [List.cons.injEq] at hx; rw [← hx.2] at hm; cases hm
          · cases hm with | lit hm => generalize hx : [b!"7", b!"posts"] = y at hm; cases hm with | param hm => simp only [List.cons.injEq] at hx; rw [← hx.2] at hm; cases hm
          · cases hm
          · cases hm)
    refine ⟨root, t, rfl, h1, fun m => ?_⟩
    have h4 := h2 m
    rw [hfill] at h4
    have e1 : address [b!"users", b!"7", b!"posts"] = b!"/users/7/posts" := by decide +kernel
    have e2 : named ([b!"users", b!":id", b!"posts"].map segOf) [b!"7"] = [(b!"id", b!"7")] := by decide +kernel
    have e3 : renderPattern [b!"users", b!":id", b!"posts"] = b!"/users/:id/posts" := by decide +kernel
    rw [e1, e2, e3] at h4
    exact h4

-- the hypotheses of the refutations are met
example : Step b!"users" ∧ Step b!"posts" ∧ ∀ r, SpaceRune r → ¬ r <:+ address [b!"posts"] := by
  refine ⟨by unfold Step; decide, by unfold Step; decide, ?_⟩
  rw [← trim_address_iff]
  decide +kernel

end Verif.Router
