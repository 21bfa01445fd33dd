import Verif.Model.Params
import Verif.Proofs.Bytes
/-!
# C53, C56: merged parameters; client address, host, scheme
-/
namespace Verif.Params
open Verif.Go

/-! ## C56 -/

/-- text before the first `sep` (all of it when there is none) -/
def Spec.before (sep : UInt8) (s : Str) : Str := s.takeWhile (fun c => c ≠ sep)

theorem firstPart_eq (sep : UInt8) (s : Str) : firstPart sep s = Spec.before sep s := by
  unfold firstPart Spec.before
  induction s with
  | nil => rfl
  | cons c s ih =>
    by_cases h : c = sep
    · subst h; simp [splitOn1]
    · rw [splitOn1, if_neg (by simpa using h)]
      cases hs : splitOn1 sep s with
      | nil => exact absurd hs (splitOn1_ne_nil sep s)
      | cons x xs =>
        rw [hs] at ih
        simp only [List.headD_cons] at ih
        simp [h, ih]

/-- **C56** (`RealIp`), complete: the `X-Real-Ip` header if set; else the first entry of `X-Forwarded-For` if it is
not empty, up to a colon; else the remote address up to a colon, except that an address whose first character
is `[` directly followed by a colon becomes 127.0.0.1. -/
theorem C56_realIp (r : Req) :
    realIp r =
      if r.header b!"X-Real-Ip" ≠ [] then r.header b!"X-Real-Ip"
      else if Spec.before 44 (r.header b!"X-Forwarded-For") ≠ [] then
        Spec.before 58 (Spec.before 44 (r.header b!"X-Forwarded-For"))
      else if Spec.before 58 r.remoteAddr = b!"[" then b!"127.0.0.1"
      else Spec.before 58 r.remoteAddr := by
  unfold realIp
  rw [firstPart_eq, firstPart_eq, firstPart_eq]
  split
  · rfl
  · split
    · rfl
    · by_cases h : Spec.before 58 r.remoteAddr = b!"["
      · rw [if_neg (by simpa using h), if_pos h]
      · rw [if_pos h, if_neg h]

/-- **C56**: the connection's own address, without its port, when no forwarding header is present — for
addresses without colons (IPv4). -/
theorem C56_realIp_ipv4_partial (r : Req) (h1 : r.header b!"X-Real-Ip" = []) (h2 : r.header b!"X-Forwarded-For" = [])
    (addr port : Str) (ha : (58 : UInt8) ∉ addr) (hb : addr ≠ b!"[") (hr : r.remoteAddr = addr ++ 58 :: port) :
    realIp r = addr := by
  rw [C56_realIp, if_neg (by simp [h1]), if_neg (by rw [h2]; simp [Spec.before])]
  have : Spec.before 58 r.remoteAddr = addr := by
    rw [← firstPart_eq, hr, firstPart, splitOn1_append_sep 58 addr port ha]; rfl
  rw [this, if_neg hb]

/-- **C56**: the first address of the forwarding chain (IPv4, with or without a port). -/
theorem C56_realIp_forwarded_partial (r : Req) (h1 : r.header b!"X-Real-Ip" = []) (addr port rest : Str)
    (ha : (58 : UInt8) ∉ addr) (hc : (44 : UInt8) ∉ addr) (hp : (44 : UInt8) ∉ port) (hne : addr ≠ [])
    (hr : r.header b!"X-Forwarded-For" = addr ∨ r.header b!"X-Forwarded-For" = addr ++ 44 :: rest ∨
      r.header b!"X-Forwarded-For" = addr ++ 58 :: port ∨
      r.header b!"X-Forwarded-For" = addr ++ 58 :: port ++ 44 :: rest) :
    realIp r = addr := by
  unfold realIp
  rw [if_neg (by simp [h1])]
  have hcp : (44 : UInt8) ∉ addr ++ 58 :: port := by simp [hc, hp]
  rcases hr with hr | hr | hr | hr
  · have e : firstPart 44 (r.header b!"X-Forwarded-For") = addr := by
      rw [hr, firstPart, splitOn1_of_not_mem 44 addr hc]; rfl
    rw [e, if_pos hne, firstPart, splitOn1_of_not_mem 58 addr ha]; rfl
  · have e : firstPart 44 (r.header b!"X-Forwarded-For") = addr := by
      rw [hr, firstPart, splitOn1_append_sep 44 addr rest hc]; rfl
    rw [e, if_pos hne, firstPart, splitOn1_of_not_mem 58 addr ha]; rfl
  · have e : firstPart 44 (r.header b!"X-Forwarded-For") = addr ++ 58 :: port := by
      rw [hr, firstPart, splitOn1_of_not_mem 44 _ hcp]; rfl
    rw [e, if_pos (by simp), firstPart, splitOn1_append_sep 58 addr port ha]; rfl
  · have e : firstPart 44 (r.header b!"X-Forwarded-For") = addr ++ 58 :: port := by
      rw [hr, firstPart, splitOn1_append_sep 44 _ rest hcp]; rfl
    rw [e, if_pos (by simp), firstPart, splitOn1_append_sep 58 addr port ha]; rfl

def Spec.noHeaders : Str → Str := fun _ => []

/-- **C56 fails** for IPv6: the address is cut at its first colon, or replaced by the IPv4 loopback address. -/
theorem C56_ipv6_violated :
    realIp ⟨Spec.noHeaders, b!"[2001:db8::1]:443", [], [], []⟩ = b!"[2001" ∧
    realIp ⟨Spec.noHeaders, b!"[::ffff:10.0.0.1]:443", [], [], []⟩ = b!"127.0.0.1" ∧
    realIp ⟨fun n => if n = b!"X-Forwarded-For" then b!"2001:db8::1" else [], b!"10.0.0.1:1", [], [], []⟩ = b!"2001" ∧
    realHost ⟨Spec.noHeaders, [], b!"[2001:db8::1]:8080", [], []⟩ = b!"[2001" := by decide +kernel

/-- **C56** (`RealHost`): the forwarded host if set, else the request's, without the port. -/
theorem C56_realHost (r : Req) :
    realHost r = Spec.before 58
      (if r.header b!"X-Forwarded-Host" ≠ [] then r.header b!"X-Forwarded-Host" else r.host) := by
  unfold realHost
  rw [firstPart_eq]
  by_cases h : r.header b!"X-Forwarded-Host" = []
  · rw [if_pos h, if_neg (by simpa using h)]
  · rw [if_neg h, if_pos h]

/-- **C56** (`RealHost`): name and port. -/
theorem C56_realHost_no_port_partial (r : Req) (name port : Str) (h : (58 : UInt8) ∉ name)
    (hr : r.header b!"X-Forwarded-Host" = name ++ 58 :: port ∨
      (r.header b!"X-Forwarded-Host" = [] ∧ (r.host = name ∨ r.host = name ++ 58 :: port))) : realHost r = name := by
  unfold realHost
  rcases hr with hr | ⟨h0, hr | hr⟩
  · rw [if_neg (by rw [hr]; simp), hr, firstPart, splitOn1_append_sep 58 name port h]; rfl
  · rw [if_pos h0, hr, firstPart, splitOn1_of_not_mem 58 name h]; rfl
  · rw [if_pos h0, hr, firstPart, splitOn1_append_sep 58 name port h]; rfl

/-- **C56** (`RealProto`): forwarded scheme, else the URL's, else http; never empty. -/
theorem C56_realProto (r : Req) :
    realProto r = ([r.header b!"X-Forwarded-Proto", r.scheme, b!"http"].find? (fun s => s ≠ [])).getD [] ∧
    realProto r ≠ [] := by
  unfold realProto
  by_cases h1 : r.header b!"X-Forwarded-Proto" = [] <;> by_cases h2 : r.scheme = [] <;> simp [h1, h2]

/-- **C56** (`RealURI`): the original URI if forwarded, else the request's. -/
theorem C56_realURI (r : Req) :
    realURI r = if r.header b!"X-Original-URI" ≠ [] then r.header b!"X-Original-URI" else r.requestURI := by
  unfold realURI
  by_cases h : r.header b!"X-Original-URI" = []
  · rw [if_pos h, if_neg (by simpa using h)]
  · rw [if_neg h, if_pos h]

example : realIp ⟨fun n => if n = b!"X-Forwarded-For" then b!"1.2.3.4:55, 10.0.0.1" else [], b!"10.0.0.1:1", [], [], []⟩
      = b!"1.2.3.4" ∧
    realIp ⟨Spec.noHeaders, b!"10.0.0.1:1", [], [], []⟩ = b!"10.0.0.1" ∧
    realHost ⟨Spec.noHeaders, [], b!"example.com:8080", [], []⟩ = b!"example.com" := by decide +kernel

/-! ## C53 -/

/-- Keys of a Go map are distinct. -/
def Spec.IsMap (m : Values) : Prop := (m.map (fun e => e.1)).Nodup

/-- Values of a key, none when absent. -/
def Spec.valuesOf (m : Values) (k : Str) : List Str := (lookup m k).getD []

/-- Is there an entry for the key? -/
def Spec.hasKey (m : Values) (k : Str) : Prop := ∃ v, (k, v) ∈ m

theorem lookup_none (m : Values) (k : Str) : lookup m k = none ↔ ¬ Spec.hasKey m k := by
  unfold lookup Spec.hasKey
  simp only [Option.map_eq_none_iff, List.find?_eq_none, decide_eq_true_eq]
  constructor
  · rintro h ⟨v, hm⟩; exact h _ hm rfl
  · rintro h ⟨a, v⟩ hm rfl; exact h ⟨v, hm⟩

theorem lookup_nil (k : Str) : lookup [] k = none := rfl

theorem lookup_cons (a : Str) (v : List Str) (m : Values) (k : Str) :
    lookup ((a, v) :: m) k = if a = k then some v else lookup m k := by
  unfold lookup
  rw [List.find?_cons]
  by_cases h : a = k
  · simp [h]
  · simp [h]

theorem any_iff (m : Values) (k : Str) : (m.any (fun e => e.1 = k)) = true ↔ lookup m k ≠ none := by
  induction m with
  | nil => simp [lookup_nil]
  | cons e m ih =>
    obtain ⟨a, v⟩ := e
    rw [lookup_cons, List.any_cons]
    by_cases h : a = k
    · simp [h]
    · simp only [h, decide_false, Bool.false_or, if_false]
      exact ih

theorem lookup_append (m : Values) (a : Str) (v : List Str) (k : Str) (h : lookup m a = none) :
    lookup (m ++ [(a, v)]) k = if k = a then some v else lookup m k := by
  induction m with
  | nil =>
    rw [List.nil_append, lookup_cons, lookup_nil]
    by_cases e : a = k
    · rw [if_pos e, if_pos e.symm]
    · rw [if_neg e, if_neg (Ne.symm e)]
  | cons e m ih =>
    obtain ⟨b, w⟩ := e
    rw [lookup_cons] at h
    by_cases hb : b = a
    · rw [if_pos hb] at h; cases h
    · rw [if_neg hb] at h
      rw [List.cons_append, lookup_cons, lookup_cons, ih h]
      by_cases hk : b = k
      · rw [if_pos hk, if_pos hk, if_neg (fun e => hb (hk.trans e))]
      · rw [if_neg hk, if_neg hk]

theorem lookup_mapUpdate (m : Values) (a : Str) (v : List Str) (k : Str) :
    lookup (m.map (fun e => if e.1 = a then (e.1, e.2 ++ v) else e)) k =
      if k = a then (lookup m k).map (fun w => w ++ v) else lookup m k := by
  induction m with
  | nil => simp [lookup_nil]
  | cons e m ih =>
    obtain ⟨b, w⟩ := e
    rw [List.map_cons]
    by_cases hb : b = a
    · simp only [hb, if_true]
      rw [lookup_cons, lookup_cons, ih]
      by_cases hk : a = k
      · rw [if_pos hk, if_pos hk, if_pos hk.symm]; rfl
      · rw [if_neg hk, if_neg hk]
    · simp only [hb, if_false]
      rw [lookup_cons, lookup_cons, ih]
      by_cases hk : b = k
      · rw [if_pos hk, if_pos hk, if_neg (fun e => hb (hk.trans e))]
      · rw [if_neg hk, if_neg hk]

theorem lookup_appendAt (m : Values) (a : Str) (v : List Str) (k : Str) :
    lookup (appendAt m a v) k = if k = a then some ((lookup m k).getD [] ++ v) else lookup m k := by
  unfold appendAt
  by_cases h : (m.any (fun e => e.1 = a)) = true
  · rw [if_pos h, lookup_mapUpdate]
    by_cases hk : k = a
    · rw [if_pos hk, if_pos hk]
      have := (any_iff m a).1 h
      rw [hk]
      cases hl : lookup m a with
      | none => exact absurd hl this
      | some w => rfl
    · rw [if_neg hk, if_neg hk]
  · rw [if_neg h]
    have h' : lookup m a = none := by
      cases hl : lookup m a with
      | none => rfl
      | some w => exact absurd ((any_iff m a).2 (by rw [hl]; simp)) h
    rw [lookup_append m a v k h']
    by_cases hk : k = a
    · rw [if_pos hk, if_pos hk, hk, h']; rfl
    · rw [if_neg hk, if_neg hk]

/-- entries of `b` appended to `a`, key by key -/
def joinLookup (x y : Option (List Str)) : Option (List Str) :=
  match x, y with
  | x, none => x
  | none, some b => some b
  | some a, some b => some (a ++ b)

theorem lookup_fold (l m : Values) (k : Str) (h : Spec.IsMap l) :
    lookup (l.foldl (fun m e => appendAt m e.1 e.2) m) k = joinLookup (lookup m k) (lookup l k) := by
  induction l generalizing m with
  | nil =>
    rw [List.foldl_nil, lookup_nil]; cases lookup m k <;> rfl
  | cons e l ih =>
    obtain ⟨a, v⟩ := e
    unfold Spec.IsMap at h
    rw [List.map_cons, List.nodup_cons] at h
    rw [List.foldl_cons, ih _ h.2, lookup_appendAt, lookup_cons]
    by_cases hk : k = a
    · subst hk
      have hn : lookup l k = none := by
        rw [lookup_none]
        rintro ⟨w, hw⟩
        exact h.1 (List.mem_map.2 ⟨_, hw, rfl⟩)
      rw [if_pos rfl, if_pos rfl, hn]
      cases lookup m k <;> rfl
    · rw [if_neg hk, if_neg (Ne.symm hk)]

theorem len0 {m : Values} (h : m.length = 0) : m = [] := List.length_eq_zero_iff.1 h

theorem join_none (x : Option (List Str)) : joinLookup none x = x := by cases x <;> rfl
theorem join_none' (x : Option (List Str)) : joinLookup x none = x := by cases x <;> rfl

theorem lookup_calc (q r f : Values) (hq : Spec.IsMap q) (hr : Spec.IsMap r) (hf : Spec.IsMap f) (k : Str) :
    lookup (calcValues q r f) k = joinLookup (joinLookup (lookup q k) (lookup r k)) (lookup f k) := by
  unfold calcValues
  by_cases h0 : q.length + r.length + f.length = 0
  · rw [if_pos h0, len0 (m := q) (by omega), len0 (m := r) (by omega), len0 (m := f) (by omega)]; rfl
  · rw [if_neg h0]
    by_cases h1 : q.length + r.length + f.length = q.length
    · rw [if_pos h1, len0 (m := r) (by omega), len0 (m := f) (by omega), lookup_nil, join_none', join_none']
    · rw [if_neg h1]
      by_cases h2 : q.length + r.length + f.length = r.length
      · rw [if_pos h2, len0 (m := q) (by omega), len0 (m := f) (by omega), lookup_nil, join_none', join_none]
      · rw [if_neg h2]
        by_cases h3 : q.length + r.length + f.length = f.length
        · rw [if_pos h3, len0 (m := q) (by omega), len0 (m := r) (by omega), lookup_nil, join_none', join_none]
        · rw [if_neg h3, lookup_fold f _ k hf, lookup_fold r _ k hr, lookup_fold q _ k hq, lookup_nil, join_none]

theorem getD_join (x y : Option (List Str)) : (joinLookup x y).getD [] = x.getD [] ++ y.getD [] := by
  cases x <;> cases y <;> simp [joinLookup]

/-- **C53**: the merged values of each key are exactly the query's, then the route's, then the form's, whatever
order the maps are visited in; a key is present exactly when it is in one of them. -/
theorem C53_merge (q r f : Values) (hq : Spec.IsMap q) (hr : Spec.IsMap r) (hf : Spec.IsMap f) (k : Str) :
    Spec.valuesOf (calcValues q r f) k = Spec.valuesOf q k ++ Spec.valuesOf r k ++ Spec.valuesOf f k ∧
    (Spec.hasKey (calcValues q r f) k ↔ Spec.hasKey q k ∨ Spec.hasKey r k ∨ Spec.hasKey f k) := by
  constructor
  · unfold Spec.valuesOf
    rw [lookup_calc q r f hq hr hf, getD_join, getD_join]
  · have e := lookup_calc q r f hq hr hf k
    have hn : ∀ m : Values, Spec.hasKey m k ↔ lookup m k ≠ none := by
      intro m
      have := lookup_none m k
      constructor
      · intro h e; exact this.1 e h
      · intro h; exact Classical.byContradiction fun e => h (this.2 e)
    rw [hn, hn, hn, hn, e]
    cases lookup q k <;> cases lookup r k <;> cases lookup f k <;> simp [joinLookup]

theorem appendAt_isMap (m : Values) (a : Str) (v : List Str) (h : Spec.IsMap m) : Spec.IsMap (appendAt m a v) := by
  unfold appendAt Spec.IsMap at *
  by_cases ha : (m.any (fun e => e.1 = a)) = true
  · rw [if_pos ha, List.map_map]
    have : ((fun e : Str × List Str => e.1) ∘ fun e => if e.1 = a then (e.1, e.2 ++ v) else e) = fun e => e.1 := by
      funext e
      simp only [Function.comp]
      split <;> rfl
    rw [this]
    exact h
  · rw [if_neg ha, List.map_append, List.nodup_append]
    refine ⟨h, by simp, ?_⟩
    intro x hx y hy
    simp at hy
    subst hy
    rintro rfl
    obtain ⟨e, he, rfl⟩ := List.mem_map.1 hx
    exact ha (List.any_eq_true.2 ⟨e, he, by simp⟩)

theorem fold_isMap (l m : Values) (h : Spec.IsMap m) :
    Spec.IsMap (l.foldl (fun m e => appendAt m e.1 e.2) m) := by
  induction l generalizing m with
  | nil => exact h
  | cons e l ih => exact ih _ (appendAt_isMap m _ _ h)

/-- **C53** for whole requests whose body is not url-encoded: the query's values, then the route's, then those of
a multipart body. -/
theorem C53_request_partial (ct : Str) (q r : Values) (b : Body) (hq : Spec.IsMap q) (hr : Spec.IsMap r)
    (hm : ∀ f, b.multipart = some f → Spec.IsMap f)
    (hct : mediaType ct ≠ b!"application/x-www-form-urlencoded") (vs : Values)
    (h : parseParams ct q r b = some vs) (k : Str) :
    Spec.valuesOf vs k = Spec.valuesOf q k ++ Spec.valuesOf r k ++
      (if mediaType ct = b!"multipart/form-data" then (b.multipart.map (fun f => Spec.valuesOf f k)).getD [] else []) := by
  unfold parseParams at h
  rw [if_neg hct] at h
  by_cases hm' : mediaType ct = b!"multipart/form-data"
  · rw [if_pos hm'] at h ⊢
    cases hb : b.multipart with
    | none => rw [hb] at h; cases h
    | some f =>
      rw [hb] at h
      cases h
      rw [(C53_merge q r f hq hr (hm f hb) k).1]
      rfl
  · rw [if_neg hm'] at h ⊢
    cases h
    rw [(C53_merge q r [] hq hr (by simp [Spec.IsMap]) k).1]
    rfl

/-- **C53 fails** for every url-encoded form: the query's values appear twice, once before the route's and once
after the body's. -/
theorem C53_query_twice_violated (ct : Str) (q r b : Values) (mp : Option Values) (hq : Spec.IsMap q)
    (hr : Spec.IsMap r) (hb : Spec.IsMap b) (hct : mediaType ct = b!"application/x-www-form-urlencoded") :
    ∃ vs, parseParams ct q r ⟨some b, mp⟩ = some vs ∧ ∀ k,
      Spec.valuesOf vs k = Spec.valuesOf q k ++ Spec.valuesOf r k ++ (Spec.valuesOf b k ++ Spec.valuesOf q k) := by
  refine ⟨calcValues q r (httpForm b q), by unfold parseParams; rw [if_pos hct], fun k => ?_⟩
  have hf : Spec.IsMap (httpForm b q) := fold_isMap _ _ (fold_isMap _ _ (by simp [Spec.IsMap]))
  rw [(C53_merge q r _ hq hr hf k).1]
  congr 1
  unfold Spec.valuesOf httpForm
  rw [lookup_fold q _ k hq, lookup_fold b _ k hb, lookup_nil, join_none, getD_join]

/-- **C53 fails** when the body (or, for forms, the query) cannot be parsed: query and route values are lost too. -/
theorem C53_parse_error_loses_all_violated (ct : Str) (q r : Values) (b : Body)
    (h : (mediaType ct = b!"application/x-www-form-urlencoded" ∧ b.postForm = none) ∨
      (mediaType ct = b!"multipart/form-data" ∧ b.multipart = none)) : parseParams ct q r b = none := by
  unfold parseParams
  rcases h with ⟨h1, h2⟩ | ⟨h1, h2⟩
  · rw [if_pos h1, h2]
  · rw [if_neg (by rw [h1]; decide), if_pos h1, h2]

example : mediaType b!" Application/X-WWW-Form-Urlencoded ; charset=utf-8" = b!"application/x-www-form-urlencoded" ∧
    calcValues [(b!"a", [b!"1"])] [(b!"id", [b!"7"])] [(b!"b", [b!"2"]), (b!"a", [b!"3", b!"4"])] =
      [(b!"a", [b!"1", b!"3", b!"4"]), (b!"id", [b!"7"]), (b!"b", [b!"2"])] := by decide +kernel

end Verif.Params
