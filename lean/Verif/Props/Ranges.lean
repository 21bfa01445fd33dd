import Verif.Props.Download
/-!
# C163: the answer to a request for a part of a static file
-/
namespace Verif.Down
open Verif.Go Verif.Gz

variable {C : Codec}

/-! ## Specification -/

/-- The three ways to ask for a part of a file (RFC 7233, 2.1): bytes `a` to `b`, from byte `a` on, the last `n` bytes. -/
inductive Spec.Part where
  | fromTo (a b : Nat)
  | since (a : Nat)
  | last (n : Nat)

/-- How it is written. -/
def Spec.Part.text : Spec.Part → Str
  | .fromTo a b => b!"bytes=" ++ natDec a ++ b!"-" ++ natDec b
  | .since a => b!"bytes=" ++ natDec a ++ b!"-"
  | .last n => b!"bytes=-" ++ natDec n

/-- Numbers of 63 bits, the first not after the last, not the last 0 bytes. -/
def Spec.Part.Valid : Spec.Part → Prop
  | .fromTo a b => a ≤ b ∧ b < 2 ^ 63
  | .since a => a < 2 ^ 63
  | .last n => 0 < n ∧ n < 2 ^ 63

/-- Does byte `i` of a file of `size` bytes belong to it? -/
def Spec.Part.Has (size : Nat) (p : Spec.Part) (i : Nat) : Prop :=
  i < size ∧ match p with
    | .fromTo a b => a ≤ i ∧ i ≤ b
    | .since a => a ≤ i
    | .last n => size ≤ i + n

/-! ## One range -/

theorem parse_one {x y : Str} (hx : ∀ c ∈ x, 48 ≤ c.toNat ∧ c.toNat ≤ 57) (hy : ∀ c ∈ y, 48 ≤ c.toNat ∧ c.toNat ≤ 57) (size : Nat) :
    parseRange (b!"bytes=" ++ x ++ b!"-" ++ y) size =
      match oneRange size x y with
      | none => .bad
      | some none => .beyond
      | some (some p) => .ok [p] := by
  have hpx : ∀ c ∈ x, plain c = true := fun c hc => (dig_plain c (hx c hc)).1
  have hpy : ∀ c ∈ y, plain c = true := fun c hc => (dig_plain c (hy c hc)).1
  have hne : ∀ c ∈ x, (c != 45) = true := fun c hc => (dig_plain c (hx c hc)).2.1
  have e0 : x ++ b!"-" ++ y = x ++ 45 :: y := by simp
  have e1 : (x ++ 45 :: y).takeWhile (· != 45) = x := by
    rw [List.takeWhile_append_of_pos hne]; simp
  have e2 : ((x ++ 45 :: y).dropWhile (· != 45)).drop 1 = y := by
    rw [List.dropWhile_append_of_pos hne]; simp
  have hm : ∀ c ∈ x ++ 45 :: y, plain c = true ∧ c ≠ 44 := by
    intro c hc
    rcases List.mem_append.1 hc with h | h
    · exact ⟨hpx c h, (dig_plain c (hx c h)).2.2⟩
    · rcases List.mem_cons.1 h with rfl | h
      · decide
      · exact ⟨hpy c h, (dig_plain c (hy c h)).2.2⟩
  have e3 : trimSpace (x ++ 45 :: y) = x ++ 45 :: y := trimSpace_plain _ fun c hc => (hm c hc).1
  have e4 : splitOn1 44 (x ++ 45 :: y) = [x ++ 45 :: y] := splitOn1_of_not_mem _ _ fun h => (hm 44 h).2 rfl
  unfold parseRange
  rw [if_neg (by simp), if_neg (by
    simp only [Bool.not_eq_true, Bool.not_eq_false]
    unfold hasPrefix
    rw [List.isPrefixOf_iff_prefix, List.append_assoc, List.append_assoc]
    exact List.prefix_append _ _)]
  have ed : (b!"bytes=" ++ x ++ b!"-" ++ y).drop 6 = x ++ 45 :: y := by
    rw [List.append_assoc, List.append_assoc]; rfl
  rw [ed, e4]
  unfold rangesGo
  rw [e3, if_neg (by simp), if_neg (by simp), e1, e2, trimSpace_plain _ hpx, trimSpace_plain _ hpy]
  cases oneRange size x y with
  | none => rfl
  | some o => cases o <;> rfl

theorem one_part {p : Spec.Part} (hv : p.Valid) {size : Nat} (hs : 0 < size) :
    (∃ i, p.Has size i ∧ (∀ j, p.Has size j → i ≤ j) ∧ ∃ n, 0 < n ∧ i + n ≤ size ∧ (∀ j, p.Has size j ↔ i ≤ j ∧ j < i + n) ∧
      parseRange p.text size = .ok [(i, n)]) ∨
    (∀ i, ¬ p.Has size i) ∧ parseRange p.text size = .beyond := by
  have pi : ∀ n, n < 2 ^ 63 → parseInt 64 (natDec n) = ((n : Int), none) := fun n hn => parseInt_fmtInt_nat (by decide) (by simpa using hn)
  cases p with
  | fromTo a b =>
    obtain ⟨h1, h2⟩ := hv
    have hp := parse_one (natDec_digits a) (natDec_digits b) size
    have ho : oneRange size (natDec a) (natDec b) = some (if size ≤ a then none else some (a, (if size ≤ b then size - 1 else b) - a + 1)) := by
      unfold oneRange
      rw [if_neg (natDec_ne_nil a), if_neg (natDec_ne_nil b), pi a (by omega), pi b h2]
      simp only [ne_eq, not_true_eq_false, false_or, Int.toNat_natCast]
      rw [if_neg (by omega), if_neg (show ¬ ((b : Int) < a) by omega)]
      split <;> rfl
    rw [ho] at hp
    by_cases ha : size ≤ a
    · right
      rw [if_pos ha] at hp
      exact ⟨fun i h => by have h1 := h.1; have h2 := h.2.1; omega, hp⟩
    · left
      rw [if_neg ha] at hp
      refine ⟨a, ⟨by omega, Nat.le_refl a, h1⟩, fun j h => h.2.1, _, ?_, ?_, ?_, hp⟩
      · omega
      · split <;> omega
      · intro j
        simp only [Spec.Part.Has]
        split <;> omega
  | since a =>
    have hp := parse_rest hv size
    by_cases ha : size ≤ a
    · right
      rw [if_pos ha] at hp
      exact ⟨fun i h => by have h1 := h.1; have h2 := h.2; simp only at h2; omega, hp⟩
    · left
      rw [if_neg ha] at hp
      refine ⟨a, ⟨by omega, Nat.le_refl a⟩, fun j h => h.2, size - a, by omega, by omega, ?_, hp⟩
      intro j
      simp only [Spec.Part.Has]
      omega
  | last n =>
    obtain ⟨h1, h2⟩ := hv
    have hp := parse_one (x := []) (by simp) (natDec_digits n) size
    have ho : oneRange size [] (natDec n) = some (some (size - n, size - (size - n))) := by
      unfold oneRange
      have hh := natDec_head_ne n
      rw [if_pos rfl, pi n h2]
      simp only [ne_eq, not_true_eq_false, or_false, Int.toNat_natCast]
      rw [if_neg]
      intro h
      have hd : (45 : UInt8) ∈ natDec n := List.mem_of_mem_head? h
      exact absurd (dig_plain 45 (natDec_digits n 45 hd)).2.1 (by decide)
    rw [ho] at hp
    left
    refine ⟨size - n, ⟨by omega, by simp only; omega⟩, fun j h => by have := h.2; simp only at this; omega, _, ?_, ?_, ?_, hp⟩
    · omega
    · omega
    · intro j
      simp only [Spec.Part.Has]
      omega

/-- What a request for one part is answered with. -/
theorem part_answer (hC : C.Lawful) {N : Net} (hN : Spec.Reads N) {S : Site} {d : Disk} {r : Req} {f : File} (hr : r.method = b!"GET")
    (hf : Spec.Serves S d r.method r.path f) (hm : notModified r f = false) (ho : rangeOff r f = false) :
    (parseRange r.range f.data.length = .beyond → Spec.status (respond C N S d r) = some 416 ∧
      Spec.header (respond C N S d r) b!"Content-Range" = b!"bytes */" ++ natDec f.data.length) ∧
    (parseRange r.range f.data.length = .bad → Spec.status (respond C N S d r) = some 416 ∧
      Spec.header (respond C N S d r) b!"Content-Range" = []) ∧
    (∀ i n, parseRange r.range f.data.length = .ok [(i, n)] → n ≤ f.data.length → Spec.status (respond C N S d r) = some 206 ∧
      Spec.header (respond C N S d r) b!"Content-Range" = contentRange i n f.data.length ∧
      (S.enc r = false → Gz.Spec.body (respond C N S d r) = (f.data.drop i).take n)) := by
  obtain ⟨name, hn⟩ := ops_serves (N := N) hf
  have e : ops N S (S.enc r) d r = lastModified N f ++ [.setHeader b!"Content-Type" (N.ctype name f.data)] ++
      sendRanges N (S.enc r) r r.range f.data := by
    rw [hn]
    unfold serveContent
    rw [hm, if_neg Bool.false_ne_true, if_neg (by rw [ho]; simp)]
  unfold sendRanges at e
  refine ⟨fun h => ?_, fun h => ?_, fun i n h hle => ?_⟩
  · rw [h] at e
    have e' := e.trans (beyond_shape N name f [(b!"Content-Range", b!"bytes */" ++ natDec f.data.length)] b!"invalid range: failed to overlap")
    refine ⟨(respond_out hC (by decide) e').1, ?_⟩
    rw [header_keep hC (by decide) e' _ (by decide) (by decide), setAll_append, setAll_skip _ _ _ (by simp), setAll_append]
    simp [setAll, Hdr.set]
  · rw [h] at e
    have e' := e.trans (beyond_shape N name f [] b!"invalid range")
    refine ⟨(respond_out hC (by decide) e').1, ?_⟩
    rw [header_keep hC (by decide) e' _ (by decide) (by decide), setAll_skip]
    · split <;> rfl
    · unfold lmSets
      by_cases h0 : f.mtime = 0 <;> simp [h0]
  · rw [h] at e
    simp only [List.map_cons, List.map_nil, List.sum_cons, List.sum_nil, Nat.add_zero] at e
    rw [if_neg (by omega)] at e
    have e0 := send_shape N (S.enc r) r name f 206 [(b!"Content-Range", contentRange i n f.data.length)] ((f.data.drop i).take n)
    rw [if_neg (by rw [hr]; decide)] at e0
    have e' := e.trans e0
    have o := respond_out hC (by decide) e'
    refine ⟨o.1, ?_, fun he => ?_⟩
    · rw [header_keep hC (by decide) e' _ (by decide) (by decide)]
      unfold sendSets
      rw [setAll_append, setAll_skip _ _ _ (by cases S.enc r <;> simp), setAll_append, setAll_skip _ _ _ (by simp), setAll_append]
      simp [setAll, Hdr.set]
    · rw [o.2.2.1 he, hN.all]

/-- **C163**, for answers that are not compressed, a file that is not empty, and a part other than the last 0 bytes: if the
file has bytes of the part, the answer is 206, `Content-Range` names the first and the last of them and the size of the file, and the
body is exactly these bytes; if it has none, the answer is 416 with the size of the file. -/
theorem C163_parts_partial (hC : C.Lawful) {N : Net} (hN : Spec.Reads N) {S : Site} {d : Disk} {r : Req} {f : File} (hr : r.method = b!"GET")
    (hf : Spec.Serves S d r.method r.path f) (h0 : f.data ≠ []) (hz : ¬ Spec.Zipped S r.accept)
    (hc : r.ifModifiedSince = none) (hi : r.ifRange = none) (p : Spec.Part) (hp : r.range = p.text) (hv : p.Valid) :
    (∀ i j, p.Has f.data.length i → p.Has f.data.length j → (∀ k, p.Has f.data.length k → i ≤ k ∧ k ≤ j) →
      Spec.status (respond C N S d r) = some 206 ∧
      Spec.header (respond C N S d r) b!"Content-Range" = b!"bytes " ++ natDec i ++ b!"-" ++ natDec j ++ b!"/" ++ natDec f.data.length ∧
      Gz.Spec.body (respond C N S d r) = (f.data.drop i).take (j - i + 1)) ∧
    ((∀ i, ¬ p.Has f.data.length i) → Spec.status (respond C N S d r) = some 416 ∧
      Spec.header (respond C N S d r) b!"Content-Range" = b!"bytes */" ++ natDec f.data.length) := by
  have hm : notModified r f = false := by unfold notModified; rw [hc]; simp
  have ho : rangeOff r f = false := by unfold rangeOff; rw [hi]; simp
  obtain ⟨a1, _, a3⟩ := part_answer hC hN hr hf hm ho (N := N) (d := d)
  rw [hp] at a1 a3
  have he : S.enc r = false := by
    cases h : S.enc r with
    | false => rfl
    | true => exact absurd ((enc_iff S r).1 h) hz
  rcases one_part hv (size := f.data.length) (by cases hd : f.data with | nil => exact absurd hd h0 | cons => simp) with
    ⟨i0, h1, h2, n, hn, hle, h3, h4⟩ | ⟨h1, h2⟩
  · refine ⟨fun i j hi hj hk => ?_, fun h => absurd h1 (h i0)⟩
    obtain ⟨b1, b2, b3⟩ := a3 i0 n h4 (by omega)
    have e1 : i = i0 := by have := h2 i hi; have := (hk i0 h1).1; omega
    have e2 : j + 1 = i0 + n := by
      have := (h3 j).1 hj
      have := (hk (i0 + n - 1) ((h3 _).2 (by omega))).2
      omega
    subst e1
    refine ⟨b1, ?_, ?_⟩
    · rw [b2]
      unfold contentRange
      have : (i : Int) + (n : Int) - 1 = (j : Int) := by omega
      rw [this, fmtInt_nat]
    · rw [b3 he]
      congr 1
      omega
  · exact ⟨fun i j hi _ _ => absurd hi (h1 i), fun _ => a1 h2⟩

/-- **C163** is false of the code for the last 0 bytes: no byte of the file belongs to it, but the answer is 206, with a
`Content-Range` whose last byte is before the first. -/
theorem C163_last_zero_violated (hC : C.Lawful) {N : Net} (hN : Spec.Reads N) {S : Site} {d : Disk} {r : Req} {f : File} (hr : r.method = b!"GET")
    (hf : Spec.Serves S d r.method r.path f) (hc : r.ifModifiedSince = none) (hi : r.ifRange = none) (hp : r.range = (Spec.Part.last 0).text) :
    (∀ i, ¬ (Spec.Part.last 0).Has f.data.length i) ∧ Spec.status (respond C N S d r) = some 206 ∧
    Spec.header (respond C N S d r) b!"Content-Range" =
      b!"bytes " ++ natDec f.data.length ++ b!"-" ++ fmtInt ((f.data.length : Int) - 1) ++ b!"/" ++ natDec f.data.length := by
  have hm : notModified r f = false := by unfold notModified; rw [hc]; simp
  have ho : rangeOff r f = false := by unfold rangeOff; rw [hi]; simp
  have hx := parse_one (x := []) (by simp) (natDec_digits 0) f.data.length
  have h1 : oneRange f.data.length [] (natDec 0) = some (some (f.data.length, 0)) := by
    have h1 : (parseInt 64 (natDec 0)) = (0, none) := by decide +kernel
    have h2 : (natDec 0).head? ≠ some 45 := by decide +kernel
    unfold oneRange
    rw [if_pos rfl, h1]
    simp [h2]
  rw [h1] at hx
  refine ⟨fun i h => by have h1 := h.1; have h2 := h.2; simp only at h2; omega, ?_⟩
  have h3 := (part_answer hC hN hr hf hm ho (N := N) (d := d)).2.2 f.data.length 0 (by rw [hp]; exact hx) (by omega)
  refine ⟨h3.1, ?_⟩
  rw [h3.2.1]
  unfold contentRange
  simp

/-- A range whose last byte is before its first: 416, without the size (the answer to a malformed header). -/
theorem C163_reversed (hC : C.Lawful) {N : Net} (hN : Spec.Reads N) {S : Site} {d : Disk} {r : Req} {f : File} (hr : r.method = b!"GET")
    (hf : Spec.Serves S d r.method r.path f) (hc : r.ifModifiedSince = none) (hi : r.ifRange = none) (a b : Nat) (hab : b < a)
    (ha : a < f.data.length) (ha2 : a < 2 ^ 63) (hp : r.range = (Spec.Part.fromTo a b).text) :
    Spec.status (respond C N S d r) = some 416 ∧ Spec.header (respond C N S d r) b!"Content-Range" = [] := by
  have hm : notModified r f = false := by unfold notModified; rw [hc]; simp
  have ho : rangeOff r f = false := by unfold rangeOff; rw [hi]; simp
  have pi : ∀ n, n < 2 ^ 63 → parseInt 64 (natDec n) = ((n : Int), none) := fun n hn => parseInt_fmtInt_nat (by decide) (by simpa using hn)
  have hx := parse_one (natDec_digits a) (natDec_digits b) f.data.length
  have h1 : oneRange f.data.length (natDec a) (natDec b) = none := by
    unfold oneRange
    rw [if_neg (natDec_ne_nil a), if_neg (natDec_ne_nil b), pi a ha2, pi b (by omega)]
    simp only [ne_eq, not_true_eq_false, false_or, Int.toNat_natCast]
    rw [if_neg (by omega), if_neg (by omega), if_pos (by omega)]
  rw [h1] at hx
  exact (part_answer hC hN hr hf hm ho (N := N) (d := d)).2.1 (by rw [hp]; exact hx)

/-- `If-Range` with another date than the file's, or with something that is not a date: the whole file. -/
theorem C163_if_range (hC : C.Lawful) {N : Net} (hN : Spec.Reads N) {S : Site} {d : Disk} {r : Req} {f : File} (hr : r.method = b!"GET")
    (hf : Spec.Serves S d r.method r.path f) (hz : ¬ Spec.Zipped S r.accept) (hc : r.ifModifiedSince = none)
    (hi : r.ifRange = some none ∨ ∃ t, r.ifRange = some (some t) ∧ t ≠ f.unix) :
    Spec.status (respond C N S d r) = some 200 ∧ Gz.Spec.body (respond C N S d r) = f.data := by
  have hm : notModified r f = false := by unfold notModified; rw [hc]; simp
  have ho : rangeOff r f = true := by
    unfold rangeOff reads
    rw [hr]
    rcases hi with h | ⟨t, h, hne⟩
    · rw [h]; rfl
    · rw [h]
      have : f.unix ≠ t := fun e => hne e.symm
      simp [this]
  have he : S.enc r = false := by
    cases h : S.enc r with
    | false => rfl
    | true => exact absurd ((enc_iff S r).1 h) hz
  have := full_answer hC hN hr hf hm (by rw [ho]; split <;> simp_all)
  exact ⟨this.1, (this.2.2.2.1 he).1⟩

/-- bytes 7 to 11 and the last 5 bytes of "hello, world", and bytes 20 to 30 -/
theorem C163_example : ∀ C : Codec, C.Lawful →
    Gz.Spec.body (respond C Ex.net (Ex.site false) (Ex.disk Ex.f1) { method := b!"GET", path := b!"/s/f", range := b!"bytes=7-40" }) = b!"world" ∧
    Gz.Spec.body (respond C Ex.net (Ex.site false) (Ex.disk Ex.f1) { method := b!"GET", path := b!"/s/f", range := b!"bytes=-5" }) = b!"world" ∧
    Spec.status (respond C Ex.net (Ex.site false) (Ex.disk Ex.f1) { method := b!"GET", path := b!"/s/f", range := b!"bytes=20-30" }) = some 416 := by
  intro C hC
  have hz : ¬ Spec.Zipped (Ex.site false) [] := fun h => by cases h.1
  refine ⟨?_, ?_, ?_⟩
  · exact ((C163_parts_partial hC Ex.net_reads rfl (Ex.serves false Ex.f1) (by decide) hz rfl rfl (.fromTo 7 40)
      (by decide +kernel) ⟨by decide, by decide⟩).1 7 11 ⟨by decide, by decide, by decide⟩ ⟨by decide, by decide, by decide⟩
      (fun k hk => ⟨hk.2.1, by have := hk.1; rw [show Ex.f1.data.length = 12 from rfl] at this; omega⟩)).2.2.trans (by decide)
  · exact ((C163_parts_partial hC Ex.net_reads rfl (Ex.serves false Ex.f1) (by decide) hz rfl rfl (.last 5)
      (by decide +kernel) ⟨by decide, by decide⟩).1 7 11 ⟨by decide, by decide⟩ ⟨by decide, by decide⟩
      (fun k hk => by
        have h1 := hk.1; have h2 := hk.2
        rw [show Ex.f1.data.length = 12 from rfl] at h1 h2
        simp only at h2
        omega)).2.2.trans (by decide)
  · refine ((C163_parts_partial hC Ex.net_reads rfl (Ex.serves false Ex.f1) (by decide) hz rfl rfl (.fromTo 20 30)
      (by decide +kernel) ⟨by decide, by decide⟩).2 ?_).1
    intro i hi
    have h1 := hi.1; have h2 := hi.2.1
    rw [show Ex.f1.data.length = 12 from rfl] at h1
    omega

end Verif.Down
