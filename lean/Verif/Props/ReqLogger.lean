import Verif.Model.ReqLogger
import Verif.Proofs.Enc
import Verif.Proofs.Trim
import Verif.Props.Params
/-!
# C57, C58: request ids
-/
namespace Verif.ReqLog
open Verif.Go Verif.Params

/-! ## C57 -/

theorem getLE_putLE : ∀ (k v : Nat), v < 256 ^ k → getLE (putLE k v) = v
  | 0, v, h => by simp at h; simp [putLE, getLE, h]
  | k + 1, v, h => by
    have h2 : v / 256 < 256 ^ k := by
      rw [Nat.div_lt_iff_lt_mul (by omega)]
      rw [Nat.pow_succ] at h; exact h
    simp only [putLE, getLE, getLE_putLE k _ h2]
    have : (UInt8.ofNat (v % 256)).toNat = v % 256 := by simp
    rw [this]; omega

theorem putLE_length : ∀ (k v : Nat), (putLE k v).length = k
  | 0, _ => rfl
  | k + 1, v => by simp [putLE, putLE_length k]

theorem wrap_round (nano : Int) (h1 : -2 ^ 63 ≤ nano) (h2 : nano < 2 ^ 63) :
    wrapS 64 ((wrapU 64 nano).toNat : Int) = nano := by
  have hn : 0 ≤ wrapU 64 nano := by unfold wrapU; omega
  rw [Int.toNat_of_nonneg hn]
  unfold wrapS wrapU
  omega

/-- **C57**: decoding a request id gives back the process number and the time it was made from, for every process
number and every time that `UnixNano` represents. -/
theorem C57_round_trip (rnd : UInt32) (nano : Int) (h1 : -2 ^ 63 ≤ nano) (h2 : nano < 2 ^ 63) :
    decodeReqId (newReqId rnd nano) = (rnd.toNat, nano) := by
  unfold decodeReqId newReqId
  rw [b64_roundtrip]
  have hl : (putLE 4 rnd.toNat ++ putLE 8 (wrapU 64 nano).toNat).length = 12 := by
    simp [putLE_length]
  have hw : (wrapU 64 nano).toNat < 256 ^ 8 := by unfold wrapU; omega
  rw [if_neg (by rw [hl]; simp)]
  simp only
  rw [List.take_left' (putLE_length 4 _), List.drop_left' (putLE_length 4 _),
    List.take_of_length_le (by rw [putLE_length]; omega), getLE_putLE 8 _ hw,
    getLE_putLE 4 _ (by have := rnd.toNat_lt; omega), wrap_round nano h1 h2]

/-- **C57**: ids made at different times, or by processes with different numbers, differ. -/
theorem C57_distinct (rnd rnd' : UInt32) (nano nano' : Int) (h1 : -2 ^ 63 ≤ nano) (h2 : nano < 2 ^ 63)
    (h1' : -2 ^ 63 ≤ nano') (h2' : nano' < 2 ^ 63) (h : rnd ≠ rnd' ∨ nano ≠ nano') :
    newReqId rnd nano ≠ newReqId rnd' nano' := by
  intro e
  have a := C57_round_trip rnd nano h1 h2
  rw [e, C57_round_trip rnd' nano' h1' h2', Prod.mk.injEq] at a
  rcases h with h | h
  · exact h (UInt32.toNat_inj.1 a.1.symm)
  · exact h a.2.symm

/-- A byte of the URL-safe alphabet. -/
def Spec.urlSafe (c : UInt8) : Prop :=
  (65 ≤ c ∧ c ≤ 90) ∨ (97 ≤ c ∧ c ≤ 122) ∨ (48 ≤ c ∧ c ≤ 57) ∨ c = 45 ∨ c = 95

instance : DecidablePred Spec.urlSafe := fun c => by unfold Spec.urlSafe; infer_instance

theorem b64Char_safe : ∀ n : Fin 64, Spec.urlSafe (b64Char n.val) := by decide

theorem b64Encode_shape : ∀ (n : Nat) (s : Str), s.length = 3 * n →
    (b64Encode s).length = 4 * n ∧ ∀ c ∈ b64Encode s, Spec.urlSafe c
  | 0, s, h => by
    have : s = [] := List.length_eq_zero_iff.1 h
    subst this
    simp [b64Encode]
  | n + 1, [], h => by simp at h
  | n + 1, [_], h => by simp at h; omega
  | n + 1, [_, _], h => by simp at h; omega
  | n + 1, a :: b :: c :: r, h => by
    have hr : r.length = 3 * n := by simp at h; omega
    obtain ⟨i1, i2⟩ := b64Encode_shape n r hr
    refine ⟨by simp [b64Encode, i1]; omega, ?_⟩
    intro x hx
    have ha := a.toNat_lt
    have hb := b.toNat_lt
    have hc := c.toNat_lt
    simp only [b64Encode, List.mem_cons] at hx
    rcases hx with rfl | rfl | rfl | rfl | hx
    · exact b64Char_safe ⟨_, by omega⟩
    · exact b64Char_safe ⟨_, by omega⟩
    · exact b64Char_safe ⟨_, by omega⟩
    · exact b64Char_safe ⟨_, by omega⟩
    · exact i2 x hx

/-- **C57**: every generated id is 16 letters, digits, `-` or `_`. -/
theorem C57_shape (rnd : UInt32) (nano : Int) :
    (newReqId rnd nano).length = 16 ∧ ∀ c ∈ newReqId rnd nano, Spec.urlSafe c :=
  b64Encode_shape 4 _ (by simp [putLE_length])

/-- **C57**: anything that is not the base64 form of at least twelve bytes decodes to zeros. -/
theorem C57_malformed (s : Str) (h : (b64Decode s).2 = true ∨ (b64Decode s).1.length < 12) :
    decodeReqId s = (0, 0) := by
  unfold decodeReqId; rw [if_pos h]

example : decodeReqId (newReqId 77 (-3)) = (77, -3) :=
  C57_round_trip 77 (-3) (by decide) (by decide)

example : newReqId 0 0 = b!"AAAAAAAAAAAAAAAA" := by decide +kernel

/-! ## C58 -/

theorem lookup_append (a b : Values) (k : Str) :
    lookup (a ++ b) k = (lookup a k).or (lookup b k) := by
  unfold lookup
  rw [List.find?_append]
  cases List.find? (fun e => decide (e.1 = k)) a <;> simp

theorem lookup_del_self (h : Values) (k : Str) : lookup (hdrDel h k) k = none := by
  unfold lookup hdrDel
  rw [Option.map_eq_none_iff, List.find?_eq_none]
  intro e he
  simp at he
  simp [he.2]

theorem lookup_del_ne (h : Values) {k k' : Str} (hk : k' ≠ k) : lookup (hdrDel h k) k' = lookup h k' := by
  unfold lookup hdrDel
  congr 1
  induction h with
  | nil => rfl
  | cons e r ih =>
    rw [List.filter_cons]
    by_cases hc : e.1 = k
    · rw [if_neg (by simp [hc]), ih, List.find?_cons_of_neg (by simp [hc]; exact Ne.symm hk)]
    · rw [if_pos (by simp [hc])]
      by_cases hc' : e.1 = k'
      · rw [List.find?_cons_of_pos (by simp [hc']), List.find?_cons_of_pos (by simp [hc'])]
      · rw [List.find?_cons_of_neg (by simp [hc']), List.find?_cons_of_neg (by simp [hc']), ih]

theorem lookup_set_self (h : Values) (k v : Str) : lookup (hdrSet h k v) k = some [v] := by
  unfold hdrSet
  rw [lookup_append, lookup_del_self]
  simp [lookup]

theorem lookup_set_ne (h : Values) {k k' : Str} (v : Str) (hk : k' ≠ k) : lookup (hdrSet h k v) k' = lookup h k' := by
  unfold hdrSet
  rw [lookup_append, lookup_del_ne h hk]
  have : lookup [(k, [v])] k' = none := by
    unfold lookup
    rw [List.find?_cons_of_neg (by simp; exact Ne.symm hk)]; rfl
  rw [this]; simp

/-- The id that the documentation promises: the inbound one when it has 10 to 32 characters, else a new one, then
passed through the configured filter. -/
def Spec.id (inbound : Option Str) (fresh : Str) (flt : Str → Str) : Str :=
  match inbound with
  | some s => if 10 ≤ s.length ∧ s.length ≤ 32 then flt s else flt fresh
  | none => flt fresh

/-- The first `X-Reqid` value of a request, if any. -/
def Spec.inbound (h : Values) : Option Str := (lookup h b!"X-Reqid").bind (fun l => l.head?)

theorem chooseId_spec (s : RS) (fresh : Str) (flt : Option (Str → Str)) :
    chooseId (hdrGet s.req headerReqid) fresh flt = Spec.id (Spec.inbound s.req) fresh (flt.getD (fun x => x)) := by
  unfold chooseId Spec.id Spec.inbound hdrGet headerReqid
  cases hl : lookup s.req b!"X-Reqid" with
  | none => cases flt <;> simp
  | some l =>
    cases l with
    | nil => cases flt <;> simp
    | cons a r =>
      by_cases hc : 10 ≤ a.length ∧ a.length ≤ 32
      · have hc' : ¬(a.length < 10 ∨ a.length > 32) := by omega
        cases flt <;> simp [hc, hc']
      · cases flt <;> simp [hc] <;> rw [if_pos (by omega)]

/-- **C58**: the handlers behind the filter see, in the request and in the response, exactly one id, and it is the
inbound one iff that has 10 to 32 characters. -/
theorem C58_handler_sees_id (s : RS) (fresh times : Str) (flt : Option (Str → Str)) :
    lookup (filterIn fresh times flt s).req b!"X-Reqid" =
        some [Spec.id (Spec.inbound s.req) fresh (flt.getD (fun x => x))] ∧
    lookup (filterIn fresh times flt s).resp b!"X-Reqid" =
        some [Spec.id (Spec.inbound s.req) fresh (flt.getD (fun x => x))] ∧
    (∀ k, k ≠ b!"X-Reqid" → lookup (filterIn fresh times flt s).req k = lookup s.req k) := by
  refine ⟨?_, ?_, fun k hk => lookup_set_ne _ _ hk⟩
  · rw [← chooseId_spec]; exact lookup_set_self _ _ _
  · rw [← chooseId_spec]; exact lookup_set_self _ _ _

/-- **C58**: whatever the handlers do to the response headers (`hdrs`) and whatever callbacks they register
(`later`), the response is sent with exactly the one id, provided the callbacks registered before the filter leave
that header alone. -/
theorem C58_response_carries_id (s : RS) (fresh times : Str) (flt : Option (Str → Str)) (hdrs : Values)
    (later : List (Values → Values))
    (hb : ∀ f ∈ s.befores, ∀ h, lookup (f h) b!"X-Reqid" = lookup h b!"X-Reqid") :
    lookup (sent { filterIn fresh times flt s with
        resp := hdrs, befores := (filterIn fresh times flt s).befores ++ later }) b!"X-Reqid" =
      some [Spec.id (Spec.inbound s.req) fresh (flt.getD (fun x => x))] := by
  unfold sent filterIn
  simp only [List.reverse_append, List.foldl_append, List.reverse_cons, List.reverse_nil, List.nil_append,
    List.foldl_cons, List.foldl_nil]
  rw [← chooseId_spec]
  generalize later.reverse.foldl (fun h f => f h) hdrs = h0
  have h1 : lookup (stampHook (chooseId (hdrGet s.req headerReqid) fresh flt) times h0) b!"X-Reqid" =
      some [chooseId (hdrGet s.req headerReqid) fresh flt] := by
    unfold stampHook
    rw [lookup_set_ne _ _ (by decide)]
    exact lookup_set_self _ _ _
  rw [← h1]
  generalize stampHook (chooseId (hdrGet s.req headerReqid) fresh flt) times h0 = h2
  have hb' : ∀ f ∈ s.befores.reverse, ∀ h, lookup (f h) b!"X-Reqid" = lookup h b!"X-Reqid" :=
    fun f hf => hb f (List.mem_reverse.1 hf)
  generalize s.befores.reverse = l at hb'
  induction l generalizing h2 with
  | nil => rfl
  | cons f l ih =>
    rw [List.foldl_cons, ih _ (fun g hg => hb' g (by simp [hg])), hb' f (by simp)]

/-- **C58**: and it carries exactly one response time, that of the moment the headers are sent, whatever the handlers put
there; no other header is touched. -/
theorem C58_response_time (s : RS) (fresh times : Str) (flt : Option (Str → Str)) (hdrs : Values) :
    lookup (sent { filterIn fresh times flt { s with befores := [] } with resp := hdrs }) b!"X-Response-Time" = some [times] ∧
    ∀ k, k ≠ b!"X-Response-Time" → k ≠ b!"X-Reqid" →
      lookup (sent { filterIn fresh times flt { s with befores := [] } with resp := hdrs }) k = lookup hdrs k := by
  unfold sent filterIn
  simp only [List.nil_append, List.reverse_cons, List.reverse_nil, List.foldl_cons, List.foldl_nil]
  unfold stampHook
  refine ⟨lookup_set_self _ _ _, fun k h1 h2 => ?_⟩
  have h1' : k ≠ headerTime := h1
  have h2' : k ≠ headerReqid := h2
  rw [lookup_set_ne _ _ h1', lookup_set_ne _ _ h2']
  exact lookup_del_ne _ h2'

/-- **C58**: a generated id is itself acceptable, so a second service that receives it (in a request with that one
header value) keeps it: one id for the whole chain. -/
theorem C58_chain_keeps_id (rnd : UInt32) (nano : Int) (s s2 : RS) (times fresh2 times2 : Str)
    (h : lookup s2.req b!"X-Reqid" = lookup (filterIn (newReqId rnd nano) times none s).req b!"X-Reqid") :
    lookup (filterIn fresh2 times2 none s2).req b!"X-Reqid" =
      lookup (filterIn (newReqId rnd nano) times none s).req b!"X-Reqid" := by
  rw [(C58_handler_sees_id s2 fresh2 times2 none).1]
  have e := (C58_handler_sees_id s (newReqId rnd nano) times none).1
  rw [e] at h ⊢
  have hi : Spec.inbound s2.req = some (Spec.id (Spec.inbound s.req) (newReqId rnd nano) (fun x => x)) := by
    unfold Spec.inbound; rw [h]; rfl
  rw [hi]
  have hl : 10 ≤ (Spec.id (Spec.inbound s.req) (newReqId rnd nano) (fun x => x)).length ∧
      (Spec.id (Spec.inbound s.req) (newReqId rnd nano) (fun x => x)).length ≤ 32 := by
    have hf := (C57_shape rnd nano).1
    unfold Spec.id
    split
    · split
      · assumption
      · simp only; omega
    · simp only; omega
  simp only [Option.getD_none]
  generalize Spec.id (Spec.inbound s.req) (newReqId rnd nano) (fun x => x) = i at hl ⊢
  simp only [Spec.id]
  rw [if_pos hl]

/-- **C58**: boundaries. -/
theorem C58_bounds (id fresh times : Str) (hdr : Values) (resp : Values) (bs : List (Values → Values)) :
    lookup (filterIn fresh times none ⟨hdrSet hdr b!"X-Reqid" id, resp, bs⟩).req b!"X-Reqid" =
      some [if id.length < 10 then fresh else if 32 < id.length then fresh else id] := by
  rw [(C58_handler_sees_id _ _ _ _).1]
  have : Spec.inbound (hdrSet hdr b!"X-Reqid" id) = some id := by
    unfold Spec.inbound; rw [lookup_set_self]; rfl
  simp only [this, Spec.id, Option.getD_none]
  congr 2
  by_cases a : id.length < 10
  · rw [if_pos a, if_neg (by omega)]
  · by_cases b : 32 < id.length
    · rw [if_neg a, if_pos b, if_neg (by omega)]
    · rw [if_neg a, if_neg b, if_pos (by omega)]

example : lookup (filterIn b!"AAAAAAAAAAAAAAAA" b!"1ms" none
      ⟨[(b!"X-Reqid", [b!"abcdefghij", b!"other"]), (b!"Host", [b!"h"])], [], [fun h => hdrSet h b!"Server" b!"s"]⟩).req b!"X-Reqid"
      = some [b!"abcdefghij"] ∧
    lookup (filterIn b!"AAAAAAAAAAAAAAAA" b!"1ms" none ⟨[(b!"X-Reqid", [b!"abcdefghi"])], [], []⟩).req b!"X-Reqid"
      = some [b!"AAAAAAAAAAAAAAAA"] := by decide +kernel

example : ∀ f ∈ [fun h => hdrSet h b!"Server" b!"s"], ∀ h, lookup (f h) b!"X-Reqid" = lookup h b!"X-Reqid" := by
  intro f hf h
  simp only [List.mem_singleton] at hf
  subst hf
  exact lookup_set_ne _ _ (by decide)

/-! ## C56, second copy -/

/-- **C56** (the request logger's own `realIp`): the address of the connection without its port, IPv4 or IPv6, when
no forwarding header is present. -/
theorem C56_logged_ip (r : Req) (h1 : r.header b!"X-Real-Ip" = []) (h2 : r.header b!"X-Forwarded-For" = [])
    (addr port : Str) (hp : (58 : UInt8) ∉ port) (hr : r.remoteAddr = addr ++ 58 :: port) : logRealIp r = addr := by
  unfold logRealIp
  rw [if_neg (by simp [h1]), if_neg (by rw [h2]; decide), if_pos (by rw [hr]; simp), hr]
  have e : (addr ++ 58 :: port).reverse = port.reverse ++ 58 :: addr.reverse := by simp
  rw [e, dropWhile_append_sep 58 _ _ (by simpa using hp)]
  simp

/-- **C56** (the logger's copy): an `X-Real-Ip` wins, without the white space around it; otherwise the first entry of
`X-Forwarded-For`, without its port and without the white space around it; a connection address without a port is taken
as it is. -/
theorem C56_logged_ip_headers (r : Req) :
    (∀ w t w' : Str, Spaces w → Spaces w' → (∀ x a, SpaceRune x → t ++ w' ≠ x ++ a) → (∀ x a, SpaceRune x → t ≠ a ++ x) → t ≠ [] →
      r.header b!"X-Real-Ip" = w ++ t ++ w' → logRealIp r = t) ∧
    (∀ w t w' rest : Str, Spaces w → Spaces w' → (∀ x a, SpaceRune x → t ++ w' ≠ x ++ a) → (∀ x a, SpaceRune x → t ≠ a ++ x) →
      t ≠ [] → r.header b!"X-Real-Ip" = [] → (58 : UInt8) ∉ w ++ t ++ w' → (44 : UInt8) ∉ w ++ t ++ w' →
      (rest = [] ∨ ∃ q, rest = 44 :: q ∨ (∃ port, (44 : UInt8) ∉ port ∧ (rest = 58 :: port ∨ rest = 58 :: port ++ 44 :: q))) →
      r.header b!"X-Forwarded-For" = w ++ t ++ w' ++ rest → logRealIp r = t) ∧
    (r.header b!"X-Real-Ip" = [] → r.header b!"X-Forwarded-For" = [] → (58 : UInt8) ∉ r.remoteAddr →
      logRealIp r = r.remoteAddr) := by
  refine ⟨?_, ?_, ?_⟩
  · intro w t w' hw hw' hl hr h0 he
    unfold logRealIp
    rw [if_pos (by rw [he]; simp [h0]), he]
    exact trimSpace_unique hw hw' h0 (spaceLen_zero hl) (spaceLenRev_zero hr)
  · intro w t w' rest hw hw' hl hr h0 hx h58 h44 hrest he
    have e1 : firstPart 58 (firstPart 44 (r.header b!"X-Forwarded-For")) = w ++ t ++ w' ∧
        firstPart 44 (r.header b!"X-Forwarded-For") ≠ [] := by
      have hne : w ++ t ++ w' ≠ [] := by simp [h0]
      rw [he]
      generalize w ++ t ++ w' = u at h58 h44 hne
      have p58 : firstPart 58 u = u := by unfold firstPart; rw [splitOn1_of_not_mem 58 u h58]; rfl
      rcases hrest with rfl | ⟨q, rfl | ⟨port, hp, rfl | rfl⟩⟩
      · have : firstPart 44 (u ++ []) = u := by
          rw [List.append_nil]; unfold firstPart; rw [splitOn1_of_not_mem 44 u h44]; rfl
        rw [this]; exact ⟨p58, hne⟩
      · have : firstPart 44 (u ++ 44 :: q) = u := by unfold firstPart; rw [splitOn1_append_sep 44 u q h44]; rfl
        rw [this]; exact ⟨p58, hne⟩
      · have hm : (44 : UInt8) ∉ u ++ 58 :: port := by simp [h44, hp]
        have : firstPart 44 (u ++ 58 :: port) = u ++ 58 :: port := by
          unfold firstPart; rw [splitOn1_of_not_mem 44 _ hm]; rfl
        rw [this]
        refine ⟨?_, by simp⟩
        unfold firstPart; rw [splitOn1_append_sep 58 u port h58]; rfl
      · have hm : (44 : UInt8) ∉ u ++ 58 :: port := by simp [h44, hp]
        have : firstPart 44 (u ++ (58 :: port ++ 44 :: q)) = u ++ 58 :: port := by
          unfold firstPart
          rw [show u ++ (58 :: port ++ 44 :: q) = (u ++ 58 :: port) ++ 44 :: q by simp, splitOn1_append_sep 44 _ q hm]; rfl
        rw [this]
        refine ⟨?_, by simp⟩
        unfold firstPart; rw [splitOn1_append_sep 58 u port h58]; rfl
    unfold logRealIp
    rw [if_neg (by simp [hx]), if_pos e1.2, e1.1]
    exact trimSpace_unique hw hw' h0 (spaceLen_zero hl) (spaceLenRev_zero hr)
  · intro hx hf hm
    unfold logRealIp
    rw [if_neg (by simp [hx]), if_neg (by rw [hf]; decide), if_neg hm]

/-- The hypotheses of the second part are met. -/
theorem C56_logged_ip_headers_example :
    logRealIp ⟨fun n => if n = b!"X-Forwarded-For" then b!" 1.2.3.4 :80, 10.0.0.1" else [], [], [], [], []⟩ = b!"1.2.3.4" ∧
    logRealIp ⟨fun n => if n = b!"X-Real-Ip" then b!"\t5.6.7.8 " else b!"9", [], [], [], []⟩ = b!"5.6.7.8" := by
  decide +kernel

/-- **C56 fails**: the logged address and `RealIp` differ, for IPv6 connections and for padded headers. -/
theorem C56_two_copies_differ_violated :
    logRealIp ⟨Spec.noHeaders, b!"[2001:db8::1]:443", [], [], []⟩ = b!"[2001:db8::1]" ∧
    realIp ⟨Spec.noHeaders, b!"[2001:db8::1]:443", [], [], []⟩ = b!"[2001" ∧
    logRealIp ⟨fun n => if n = b!"X-Forwarded-For" then b!" 1.2.3.4, 10.0.0.1" else [], [], [], [], []⟩ = b!"1.2.3.4" ∧
    realIp ⟨fun n => if n = b!"X-Forwarded-For" then b!" 1.2.3.4, 10.0.0.1" else [], [], [], [], []⟩ = b!" 1.2.3.4" := by
  decide +kernel

end Verif.ReqLog
