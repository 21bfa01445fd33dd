import Verif.Proofs.Bson
import Verif.Props.ValueConv
import Verif.Props.Session
/-!
# C140: what is put into a session is what the next request reads
-/
namespace Verif.Bson
open Verif.Go
open Verif.Go.NumSpec
open Verif.Conv (IntKind Src Any)

/-! ## Specification -/

mutual
/-- A value as the next request finds it: integers are an `int` if their type is not `int64` or `uint64` and they fit into 32 bits, and
an `int64` otherwise; a `[]string` is a `[]interface{}` of strings; a time is cut to
whole milliseconds; everything else is as it was. -/
def Spec.reload : GV → GV
  | .int k i => if k ≠ .int64 ∧ k ≠ .uint64 ∧ -2147483648 ≤ i ∧ i < 2147483648 then .int .int i else .int .int64 i
  | .strings l => .list (l.map .str)
  | .list l => .list (Spec.reloads l)
  | .doc ks vs => .doc ks (Spec.reloads vs)
  | .nil => .nil
  | .bool b => .bool b
  | .float b => .float b
  | .str s => .str s
  | .bytes s => .bytes s
  | .time sec nsec => .time sec (nsec / 1000000 * 1000000)
  | .bad => .bad
def Spec.reloads : List GV → List GV
  | [] => []
  | v :: l => Spec.reload v :: Spec.reloads l
end

mutual
/-- A Go value: numbers are in the range of their type, maps have as many values as keys; no key of a map contains a zero byte (BSON
has no such keys); times are less than 292 million years from 1970. -/
def Spec.Ok : GV → Prop
  | .int k i => Fits k.signed k.width i
  | .time sec nsec => nsec < 1000000000 ∧ -9223372036854775 ≤ sec ∧ sec < 9223372036854775
  | .list l => Spec.OkAll l
  | .doc ks vs => ks.length = vs.length ∧ (∀ k ∈ ks, (0 : UInt8) ∉ k) ∧ Spec.OkAll vs
  | _ => True
def Spec.OkAll : List GV → Prop
  | [] => True
  | v :: l => Spec.Ok v ∧ Spec.OkAll l
end

mutual
/-- The values that cannot be stored: functions, channels, unsigned numbers of 2^63 and more, and lists and maps of such. -/
def Spec.Unstorable : GV → Prop
  | .bad => True
  | .int k i => k.signed = false ∧ 9223372036854775808 ≤ i
  | .list l => Spec.AnyUnstorable l
  | .doc _ vs => Spec.AnyUnstorable vs
  | _ => False
def Spec.AnyUnstorable : List GV → Prop
  | [] => False
  | v :: l => Spec.Unstorable v ∨ Spec.AnyUnstorable l
end

/-! ## Reading back -/

theorem decDoc_frame (n : Nat) (b r : Str) (es : List (Str × GV)) (h : b.length + 5 < 2147483648)
    (hd : decElems n (b ++ [0]) = some (es, [])) : decDoc (n + 1) (frame b ++ r) = some (es, r) := by
  have hl : (frame b).length = b.length + 5 := by simp [frame, leBytes_length]; omega
  have hf : frame b ++ r = leBytes 4 (b.length + 5) ++ ((b ++ [0]) ++ r) := by simp [frame]
  have ht : (frame b ++ r).take (b.length + 5) = frame b := by rw [← hl, List.take_left]
  have hdr : (frame b ++ r).drop (b.length + 5) = r := by rw [← hl, List.drop_left]
  have hb : (frame b).drop 4 = b ++ [0] := by
    unfold frame
    rw [List.append_assoc, leBytes_drop]
  unfold decDoc
  have hr : readInt 4 (frame b ++ r) = some (((b.length + 5 : Nat) : Int), (b ++ [0]) ++ r) := by
    rw [hf]; exact readInt_len _ h _
  rw [hr]
  simp only
  rw [if_neg (by rw [List.length_append, hl]; omega)]
  have e : (((b.length + 5 : Nat) : Int)).toNat = b.length + 5 := by omega
  rw [e, ht, hdr, hb, hd]
  simp

theorem decDoc_frame_nil (n : Nat) (b : Str) (es : List (Str × GV)) (h : b.length + 5 < 2147483648)
    (hd : decElems n (b ++ [0]) = some (es, [])) : decDoc (n + 1) (frame b) = some (es, []) := by
  have := decDoc_frame n b [] es h hd
  rwa [List.append_nil] at this

theorem decElems_cons (n : Nat) (t : UInt8) (k p r : Str) (v : GV) (es : List (Str × GV)) (r3 : Str) (ht : t ≠ 0) (hk : (0 : UInt8) ∉ k)
    (hv : decVal n t (p ++ r) = some (v, r)) (hr : decElems n r = some (es, r3)) :
    decElems (n + 1) (t :: (k ++ 0 :: p) ++ r) = some ((k, v) :: es, r3) := by
  have e : t :: (k ++ 0 :: p) ++ r = t :: (k ++ 0 :: (p ++ r)) := by simp
  rw [e, decElems, if_neg ht, cutNul_name _ _ hk]
  simp only [hv, hr]

theorem decStrings : ∀ (ks l : List Str) (n : Nat), ks.length = l.length → (∀ k ∈ ks, (0 : UInt8) ∉ k) →
    (encStrings ks l).length + 1 ≤ n → (encStrings ks l).length < 2147483648 →
    decElems n (encStrings ks l ++ [0]) = some (ks.zip (l.map GV.str), [])
  | [], [], n, _, _, hn, _ => by
    obtain ⟨m, rfl⟩ : ∃ m, n = m + 1 := ⟨n - 1, by omega⟩
    simp [encStrings, decElems]
  | k :: ks, s :: l, n, hl, hz, hn, hb => by
    obtain ⟨m, rfl⟩ : ∃ m, n = m + 1 := ⟨n - 1, by omega⟩
    have hes : (encStr s).length = s.length + 5 := by simp [encStr, leBytes_length]; omega
    have e : encStrings (k :: ks) (s :: l) = 2 :: (k ++ 0 :: encStr s) ++ encStrings ks l := by simp [encStrings]
    have hlen : (encStrings (k :: ks) (s :: l)).length = 2 + k.length + (encStr s).length + (encStrings ks l).length := by
      rw [e]; simp only [List.length_append, List.length_cons]; omega
    rw [hlen] at hn hb
    rw [e, List.append_assoc]
    refine decElems_cons m 2 k (encStr s) (encStrings ks l ++ [0]) (.str s) _ [] (by decide) (hz k (by simp)) ?_ ?_
    · obtain ⟨q, rfl⟩ : ∃ q, m = q + 1 := ⟨m - 1, by omega⟩
      rw [decVal, if_neg (by decide), if_neg (by decide), if_neg (by decide), if_neg (by decide), if_neg (by decide), if_pos rfl,
        readStr_encStr _ _ (by omega)]
      rfl
    · exact decStrings ks l m (by simpa using hl) (fun k hk => hz k (by simp [hk])) (by omega) (by omega)
  | [], _ :: _, _, hl, _, _, _ => by simp at hl
  | _ :: _, [], _, hl, _, _, _ => by simp at hl

theorem width_le (k : IntKind) : k.width ≤ 64 := by cases k <;> decide

theorem fits_i64 {k : IntKind} {i : Int} (h : Fits k.signed k.width i) (hu : ¬ (k.signed = false ∧ 9223372036854775808 ≤ i)) :
    -9223372036854775808 ≤ i ∧ i < 9223372036854775808 := by
  cases k <;> simp [Fits, IntKind.signed, IntKind.width] at h hu ⊢ <;> omega

theorem readTime_ms (sec : Int) (nsec : Nat) (h : nsec < 1000000000) :
    readTime (sec * 1000 + (nsec / 1000000 : Nat)) = .time sec (nsec / 1000000 * 1000000) := by
  have ht : ∀ i : Int, i.tdiv 1000 = (if 0 ≤ i then i / 1000 else -((-i) / 1000)) ∧
      i.tmod 1000 = (if 0 ≤ i then i % 1000 else -((-i) % 1000)) := by
    intro i
    by_cases hi : 0 ≤ i
    · rw [if_pos hi, if_pos hi]
      exact ⟨Int.tdiv_eq_ediv_of_nonneg hi, Int.tmod_eq_emod_of_nonneg hi⟩
    · rw [if_neg hi, if_neg hi, ← Int.tdiv_eq_ediv_of_nonneg (by omega : (0 : Int) ≤ -i), Int.neg_tdiv, Int.neg_neg,
        ← Int.tmod_eq_emod_of_nonneg (by omega : (0 : Int) ≤ -i), Int.neg_tmod, Int.neg_neg]
      exact ⟨rfl, rfl⟩
  generalize hi : sec * 1000 + ((nsec / 1000000 : Nat) : Int) = i
  unfold readTime timeUnix
  rw [(ht i).1, (ht i).2]
  by_cases h0 : i = -62135596800000
  · rw [if_pos h0]
    congr 1 <;> omega
  · rw [if_neg h0]
    by_cases hn : 0 ≤ i
    · rw [if_pos hn, if_pos hn, if_neg (by omega)]
      congr 1 <;> omega
    · rw [if_neg hn, if_neg hn]
      by_cases hm : -((-i) % 1000) * 1000000 < 0
      · rw [if_pos hm]; congr 1 <;> omega
      · rw [if_neg hm]; congr 1 <;> omega

mutual
theorem decVal_enc (v : GV) (t : UInt8) (p : Str) (he : enc v = some (t, p)) (hok : Spec.Ok v) (hlen : p.length < 2147483648)
    (n : Nat) (hn : p.length + 1 ≤ n) (r : Str) : t ≠ 0 ∧ decVal n t (p ++ r) = some (Spec.reload v, r) := by
  obtain ⟨m, rfl⟩ : ∃ m, n = m + 1 := ⟨n - 1, by omega⟩
  match v with
  | .nil => simp only [enc, Option.some.injEq, Prod.mk.injEq] at he; obtain ⟨rfl, rfl⟩ := he; exact ⟨by decide, by simp [decVal, Spec.reload]⟩
  | .bool b =>
    simp only [enc, Option.some.injEq, Prod.mk.injEq] at he; obtain ⟨rfl, rfl⟩ := he
    exact ⟨by decide, by cases b <;> simp [decVal, Spec.reload, readBool]⟩
  | .int k i =>
    simp only [enc] at he
    simp only [Spec.Ok] at hok
    by_cases hu : k.signed = false ∧ 9223372036854775808 ≤ i
    · rw [if_pos hu] at he; cases he
    · rw [if_neg hu] at he
      have hf := fits_i64 hok hu
      by_cases hs : small k i = true
      · rw [if_pos hs] at he
        simp only [Option.some.injEq, Prod.mk.injEq] at he; obtain ⟨rfl, rfl⟩ := he
        simp only [small, Bool.and_eq_true, decide_eq_true_eq] at hs
        refine ⟨by decide, ?_⟩
        rw [decVal, if_neg (by decide), if_neg (by decide), if_pos rfl, readInt_i32 i (by omega) (by omega), Spec.reload,
          if_pos ⟨hs.1.1.1, hs.1.1.2, hs.1.2, hs.2⟩]
        rfl
      · rw [if_neg hs] at he
        simp only [Option.some.injEq, Prod.mk.injEq] at he; obtain ⟨rfl, rfl⟩ := he
        simp only [small, Bool.and_eq_true, decide_eq_true_eq] at hs
        refine ⟨by decide, ?_⟩
        rw [decVal, if_neg (by decide), if_neg (by decide), if_neg (by decide), if_pos rfl, readInt_i64 i hf.1 hf.2, Spec.reload,
          if_neg (fun h => hs ⟨⟨⟨h.1, h.2.1⟩, h.2.2.1⟩, h.2.2.2⟩)]
        rfl
  | .float b =>
    simp only [enc, Option.some.injEq, Prod.mk.injEq] at he; obtain ⟨rfl, rfl⟩ := he
    refine ⟨by decide, ?_⟩
    have h8 := takeN_append (leBytes 8 b.toNat) r
    rw [leBytes_length] at h8
    rw [decVal, if_neg (by decide), if_neg (by decide), if_neg (by decide), if_neg (by decide), if_pos rfl, h8]
    simp only [Option.map_some, leVal_leBytes, Spec.reload]
    have : b.toNat % 256 ^ 8 = b.toNat := Nat.mod_eq_of_lt (by have := b.toNat_lt; simpa using this)
    rw [this, UInt64.ofNat_toNat]
  | .str s =>
    simp only [enc, Option.some.injEq, Prod.mk.injEq] at he; obtain ⟨rfl, rfl⟩ := he
    have hes : (encStr s).length = s.length + 5 := by simp [encStr, leBytes_length]; omega
    refine ⟨by decide, ?_⟩
    rw [decVal, if_neg (by decide), if_neg (by decide), if_neg (by decide), if_neg (by decide), if_neg (by decide), if_pos rfl,
      readStr_encStr _ _ (by omega)]
    rfl
  | .bytes s =>
    simp only [enc, Option.some.injEq, Prod.mk.injEq] at he; obtain ⟨rfl, rfl⟩ := he
    have hes : (leBytes 4 s.length ++ 0 :: s).length = s.length + 5 := by simp [leBytes_length]; omega
    refine ⟨by decide, ?_⟩
    have e : leBytes 4 s.length ++ 0 :: s ++ r = leBytes 4 s.length ++ (0 :: (s ++ r)) := by simp
    rw [e, decVal, if_neg (by decide), if_neg (by decide), if_neg (by decide), if_neg (by decide), if_neg (by decide), if_neg (by decide),
      if_pos rfl, readBinary, readInt_len _ (by omega)]
    simp only
    rw [if_neg (by omega), if_pos trivial, Int.toNat_natCast, takeN_append]
    rfl
  | .time sec nsec =>
    simp only [enc, Option.some.injEq, Prod.mk.injEq] at he; obtain ⟨rfl, rfl⟩ := he
    simp only [Spec.Ok] at hok
    refine ⟨by decide, ?_⟩
    rw [decVal, if_neg (by decide), if_neg (by decide), if_neg (by decide), if_neg (by decide), if_neg (by decide), if_neg (by decide),
      if_neg (by decide), if_neg (by decide), if_neg (by decide), if_pos rfl, readInt_i64 _ (by omega) (by omega)]
    simp only [Option.map_some, Spec.reload]
    rw [readTime_ms sec nsec hok.1]
  | .strings l =>
    simp only [enc, Option.some.injEq, Prod.mk.injEq] at he; obtain ⟨rfl, rfl⟩ := he
    have hl : (frame (encStrings (indexNames 0 l.length) l)).length = (encStrings (indexNames 0 l.length) l).length + 5 := by
      simp [frame, leBytes_length]; omega
    rw [hl] at hlen hn
    refine ⟨by decide, ?_⟩
    obtain ⟨q, rfl⟩ : ∃ q, m = q + 1 := ⟨m - 1, by omega⟩
    have hd := decStrings (indexNames 0 l.length) l q (indexNames_length _ _) (indexNames_nz _ _) (by omega) (by omega)
    rw [decVal, if_neg (by decide), if_neg (by decide), if_neg (by decide), if_neg (by decide), if_neg (by decide), if_neg (by decide),
      if_neg (by decide), if_pos rfl, decDoc_frame q _ r _ (by omega) hd]
    simp only [Option.map_some, Spec.reload]
    rw [List.map_snd_zip (by simp [indexNames_length])]
  | .list l =>
    simp only [enc, Option.map_eq_some_iff, Prod.mk.injEq] at he
    obtain ⟨b, hb, rfl, rfl⟩ := he
    have hl : (frame b).length = b.length + 5 := by simp [frame, leBytes_length]; omega
    rw [hl] at hlen hn
    refine ⟨by decide, ?_⟩
    obtain ⟨q, rfl⟩ : ∃ q, m = q + 1 := ⟨m - 1, by omega⟩
    simp only [Spec.Ok] at hok
    have hd := decElems_enc l (indexNames 0 l.length) b hb (indexNames_length _ _) (indexNames_nz _ _) hok (by omega) q (by omega)
    rw [decVal, if_neg (by decide), if_neg (by decide), if_neg (by decide), if_neg (by decide), if_neg (by decide), if_neg (by decide),
      if_neg (by decide), if_pos rfl, decDoc_frame q _ r _ (by omega) hd.1]
    simp only [Option.map_some, Spec.reload]
    rw [List.map_snd_zip (by rw [hd.2, indexNames_length]; exact Nat.le_refl _)]
  | .doc ks vs =>
    simp only [enc, Option.map_eq_some_iff, Prod.mk.injEq] at he
    obtain ⟨b, hb, rfl, rfl⟩ := he
    have hl : (frame b).length = b.length + 5 := by simp [frame, leBytes_length]; omega
    rw [hl] at hlen hn
    refine ⟨by decide, ?_⟩
    obtain ⟨q, rfl⟩ : ∃ q, m = q + 1 := ⟨m - 1, by omega⟩
    simp only [Spec.Ok] at hok
    have hd := decElems_enc vs ks b hb hok.1 hok.2.1 hok.2.2 (by omega) q (by omega)
    rw [decVal, if_neg (by decide), if_neg (by decide), if_neg (by decide), if_neg (by decide), if_neg (by decide), if_neg (by decide),
      if_neg (by decide), if_neg (by decide), if_pos rfl, decDoc_frame q _ r _ (by omega) hd.1]
    simp only [Option.map_some, Spec.reload]
    rw [List.map_snd_zip (by rw [hd.2, hok.1]; exact Nat.le_refl _), List.map_fst_zip (by rw [hd.2, hok.1]; exact Nat.le_refl _)]
  | .bad => simp [enc] at he
theorem decElems_enc (vs : List GV) (ks : List Str) (b : Str) (he : encElems ks vs = some b) (hl : ks.length = vs.length)
    (hz : ∀ k ∈ ks, (0 : UInt8) ∉ k) (hok : Spec.OkAll vs) (hb : b.length < 2147483648) (n : Nat) (hn : b.length + 1 ≤ n) :
    decElems n (b ++ [0]) = some (ks.zip (Spec.reloads vs), []) ∧ (Spec.reloads vs).length = vs.length := by
  obtain ⟨m, rfl⟩ : ∃ m, n = m + 1 := ⟨n - 1, by omega⟩
  match vs, ks with
  | [], [] =>
    simp only [encElems, Option.some.injEq] at he
    subst he
    simp [decElems, Spec.reloads]
  | v :: vs, k :: ks =>
    simp only [encElems] at he
    cases h1 : enc v with
    | none => rw [h1] at he; simp at he
    | some tp =>
      obtain ⟨t, p⟩ := tp
      rw [h1] at he
      cases h2 : encElems ks vs with
      | none => rw [h2] at he; simp at he
      | some r =>
        rw [h2] at he
        simp only [Option.some.injEq] at he
        have hlen : b.length = 2 + k.length + p.length + r.length := by
          rw [← he]; simp only [List.length_append, List.length_cons]; omega
        simp only [Spec.OkAll] at hok
        have i1 := decVal_enc v t p h1 hok.1 (by omega) m (by omega) (r ++ [0])
        have i2 := decElems_enc vs ks r h2 (by simpa using hl) (fun k hk => hz k (by simp [hk])) hok.2 (by omega) m (by omega)
        refine ⟨?_, by simp only [Spec.reloads, List.length_cons, i2.2]⟩
        rw [← he, List.append_assoc]
        simp only [Spec.reloads, List.zip_cons_cons]
        exact decElems_cons m t k p (r ++ [0]) _ _ [] i1.1 (hz k (by simp)) i1.2 i2.1
  | [], _ :: _ => simp at hl
  | _ :: _, [] => simp at hl
end

/-! ## What cannot be stored -/

mutual
theorem enc_none (v : GV) (hok : Spec.Ok v) : enc v = none ↔ Spec.Unstorable v := by
  match v with
  | .nil => simp [enc, Spec.Unstorable]
  | .bool b => simp [enc, Spec.Unstorable]
  | .int k i =>
    simp only [enc, Spec.Unstorable]
    by_cases hu : k.signed = false ∧ 9223372036854775808 ≤ i
    · rw [if_pos hu]; simp [hu]
    · rw [if_neg hu]
      split <;> simp_all
  | .float b => simp [enc, Spec.Unstorable]
  | .str s => simp [enc, Spec.Unstorable]
  | .bytes s => simp [enc, Spec.Unstorable]
  | .time _ _ => simp [enc, Spec.Unstorable]
  | .strings l => simp [enc, Spec.Unstorable]
  | .list l =>
    simp only [Spec.Ok] at hok
    simp only [enc, Spec.Unstorable, Option.map_eq_none_iff]
    exact encElems_none l (indexNames 0 l.length) (indexNames_length _ _) hok
  | .doc ks vs =>
    simp only [Spec.Ok] at hok
    simp only [enc, Spec.Unstorable, Option.map_eq_none_iff]
    exact encElems_none vs ks hok.1 hok.2.2
  | .bad => simp [enc, Spec.Unstorable]
theorem encElems_none (vs : List GV) (ks : List Str) (hl : ks.length = vs.length) (hok : Spec.OkAll vs) :
    encElems ks vs = none ↔ Spec.AnyUnstorable vs := by
  match vs, ks with
  | [], [] => simp [encElems, Spec.AnyUnstorable]
  | v :: vs, k :: ks =>
    simp only [Spec.OkAll] at hok
    have i1 := enc_none v hok.1
    have i2 := encElems_none vs ks (by simpa using hl) hok.2
    simp only [encElems, Spec.AnyUnstorable]
    rw [← i1, ← i2]
    cases h1 : enc v with
    | none => simp
    | some tp =>
      cases h2 : encElems ks vs with
      | none => simp
      | some r => simp
  | [], _ :: _ => simp at hl
  | _ :: _, [] => simp at hl
end

/-! ## Whole sessions -/

/-- A session's values: finitely many, all of them Go values under keys without zero bytes. -/
structure Spec.Storable (vs : Str → Option GV) : Prop where
  finite : ∃ l : List Str, ∀ k, vs k ≠ none → k ∈ l
  keys : ∀ k, vs k ≠ none → (0 : UInt8) ∉ k
  values : ∀ k v, vs k = some v → Spec.Ok v

theorem okAll_filterMap {vs : Str → Option GV} (h : ∀ k v, vs k = some v → Spec.Ok v) : ∀ ks : List Str, Spec.OkAll (ks.filterMap vs)
  | [] => by simp [Spec.OkAll]
  | k :: ks => by
    have ih := okAll_filterMap h ks
    cases hk : vs k with
    | none => rw [List.filterMap_cons, hk]; exact ih
    | some v => rw [List.filterMap_cons, hk]; exact ⟨h k v hk, ih⟩

theorem filterMap_length {vs : Str → Option GV} : ∀ ks : List Str, (∀ k ∈ ks, vs k ≠ none) → (ks.filterMap vs).length = ks.length
  | [], _ => rfl
  | k :: ks, h => by
    have ih := filterMap_length ks (fun k hk => h k (by simp [hk]))
    cases hk : vs k with
    | none => exact absurd hk (h k (by simp))
    | some v => rw [List.filterMap_cons, hk]; simp [ih]

theorem anyUnstorable_filterMap {vs : Str → Option GV} : ∀ ks : List Str,
    Spec.AnyUnstorable (ks.filterMap vs) ↔ ∃ k ∈ ks, ∃ v, vs k = some v ∧ Spec.Unstorable v
  | [] => by simp [Spec.AnyUnstorable]
  | k :: ks => by
    have ih := anyUnstorable_filterMap (vs := vs) ks
    cases hk : vs k with
    | none => rw [List.filterMap_cons, hk]; simp [ih, hk]
    | some v => rw [List.filterMap_cons, hk]; simp [Spec.AnyUnstorable, ih, hk]

theorem mem_zip_reload {vs : Str → Option GV} : ∀ (ks : List Str) (k : Str) (x : GV), (∀ k ∈ ks, vs k ≠ none) →
    (k, x) ∈ ks.zip (Spec.reloads (ks.filterMap vs)) → (vs k).map Spec.reload = some x
  | [], k, x, _, h => by simp at h
  | a :: ks, k, x, hne, h => by
    cases ha : vs a with
    | none => exact absurd ha (hne a (by simp))
    | some v =>
      rw [List.filterMap_cons, ha] at h
      simp only [Spec.reloads, List.zip_cons_cons, List.mem_cons, Prod.mk.injEq] at h
      rcases h with ⟨rfl, rfl⟩ | h
      · rw [ha]; rfl
      · exact mem_zip_reload ks k x (fun k hk => hne k (by simp [hk])) h

theorem find_zip {vs : Str → Option GV} (ks : List Str) (hk : ∀ k, k ∈ ks ↔ vs k ≠ none) (k : Str)
    (hl : (Spec.reloads (ks.filterMap vs)).length = (ks.filterMap vs).length) :
    (((ks.zip (Spec.reloads (ks.filterMap vs))).reverse.find? (fun e => decide (e.1 = k))).map Prod.snd) = (vs k).map Spec.reload := by
  have hne : ∀ k ∈ ks, vs k ≠ none := fun k h => (hk k).1 h
  cases hf : (ks.zip (Spec.reloads (ks.filterMap vs))).reverse.find? (fun e => decide (e.1 = k)) with
  | some e =>
    have h1 := List.find?_some hf
    have h2 := List.mem_of_find?_eq_some hf
    simp only [decide_eq_true_eq] at h1
    obtain ⟨k', x⟩ := e
    simp only at h1
    subst h1
    rw [mem_zip_reload ks k' x hne (by simpa using h2)]
    rfl
  | none =>
    rw [List.find?_eq_none] at hf
    cases hv : vs k with
    | none => rfl
    | some v =>
      exfalso
      have hmem : k ∈ ks := (hk k).2 (by rw [hv]; simp)
      obtain ⟨i, hi⟩ := List.mem_iff_getElem?.1 hmem
      have hlt : i < ks.length := by
        obtain ⟨h, _⟩ := List.getElem?_eq_some_iff.1 hi; exact h
      have hlz : (ks.zip (Spec.reloads (ks.filterMap vs))).length = ks.length := by
        rw [List.length_zip, hl, filterMap_length ks hne]; omega
      have hm := List.getElem_mem (l := ks.zip (Spec.reloads (ks.filterMap vs))) (n := i) (by omega)
      refine hf _ (by simpa using hm) ?_
      obtain ⟨_, h3⟩ := List.getElem?_eq_some_iff.1 hi
      simp [h3]

theorem conv_marshal (o : Order) (vs : Str → Option GV) : (conv o).marshal vs = marshal (o.keys vs) ((o.keys vs).filterMap vs) := by
  unfold conv; rfl

theorem conv_unmarshal (o : Order) : (conv o).unmarshal = unmarshal := by
  unfold conv; rfl

theorem unmarshal_frame (c : Str) (vs : Str → Option GV) (ks : List Str) (hk : ∀ k, k ∈ ks ↔ vs k ≠ none)
    (hl : (Spec.reloads (ks.filterMap vs)).length = (ks.filterMap vs).length)
    (hdd : decDoc ((frame c).length + 1) (frame c) = some (ks.zip (Spec.reloads (ks.filterMap vs)), [])) :
    unmarshal (frame c) = some (fun k => (vs k).map Spec.reload) := by
  unfold unmarshal
  refine (congrArg toMap hdd).trans ?_
  unfold toMap
  simp only [if_true]
  refine congrArg some ?_
  funext k
  exact find_zip ks hk k hl

/-- C140: what was marshalled is unmarshalled: the same keys, each with its value as `Spec.reload` says, whatever the order in which the
map was visited. -/
theorem C140_round_trip (o : Order) (vs : Str → Option GV) (b : Str) (hs : Spec.Storable vs) (hm : (conv o).marshal vs = some b)
    (hb : b.length < 2147483648) : (conv o).unmarshal b = some (fun k => (vs k).map Spec.reload) := by
  obtain ⟨-, hk⟩ := o.listed vs hs.finite
  rw [conv_marshal] at hm
  simp only [marshal, Option.map_eq_some_iff] at hm
  obtain ⟨c, hc, rfl⟩ := hm
  have hne : ∀ k ∈ o.keys vs, vs k ≠ none := fun k h => (hk k).1 h
  have hl : (frame c).length = c.length + 5 := by simp [frame, leBytes_length]; omega
  have hd := decElems_enc ((o.keys vs).filterMap vs) (o.keys vs) c hc (filterMap_length _ hne).symm
    (fun k h => hs.keys k (hne k h)) (okAll_filterMap hs.values _) (by omega) ((frame c).length) (by omega)
  have hdd := decDoc_frame_nil (frame c).length c _ (by omega) hd.1
  rw [conv_unmarshal]
  exact unmarshal_frame c vs _ hk hd.2 hdd

/-- C140: a session is saved unless it contains a value that cannot be stored. -/
theorem C140_marshal_fails_iff (o : Order) (vs : Str → Option GV) (hs : Spec.Storable vs) :
    (conv o).marshal vs = none ↔ ∃ k v, vs k = some v ∧ Spec.Unstorable v := by
  obtain ⟨-, hk⟩ := o.listed vs hs.finite
  have hne : ∀ k ∈ o.keys vs, vs k ≠ none := fun k h => (hk k).1 h
  rw [conv_marshal]
  simp only [marshal, Option.map_eq_none_iff]
  rw [encElems_none _ _ (filterMap_length _ hne).symm (okAll_filterMap hs.values _), anyUnstorable_filterMap]
  constructor
  · rintro ⟨k, -, v, h1, h2⟩; exact ⟨k, v, h1, h2⟩
  · rintro ⟨k, v, h1, h2⟩; exact ⟨k, (hk k).2 (by rw [h1]; simp), v, h1, h2⟩

section
variable {σ : Type} {C : Sess.CacheApi σ} {cfg : Sess.Config} {good : Str → Prop}

/-- C140: as C33, with the converter the code uses: after any history of a session store that ends with a flush that returned no error,
reading the session within its time gives a store with the values last set, each as `Spec.reload` says. -/
theorem C140_next_request (L : Sess.Lawful C cfg.sessionExpire good) (o : Order) (h : List (Int × Sess.HOp GV)) (t0 t1 t2 : Int)
    (st : Sess.Handle GV × σ) (hg : good st.1.sid) (hc : st.1.closed = false) (hch : st.1.changed = true)
    (f : Sess.Fault) (hw : Sess.Spec.Within t0 (t0 + cfg.sessionExpire * Cache.second) (h ++ [(t1, .flush f)]))
    (hu : Sess.Spec.Undisturbed st.1.sid h) (hnd : Sess.Spec.NoDestroy h)
    (hok : Sess.FlushesOk C (conv o) cfg (h ++ [(t1, .flush f)]) st)
    (h12 : t1 ≤ t2) (h2 : t2 < t0 + cfg.sessionExpire * Cache.second)
    (hs : Spec.Storable (Sess.Spec.lastSaid h st.1.values))
    (hsize : ∀ b, (conv o).marshal (Sess.Spec.lastSaid h st.1.values) = some b → b.length < 2147483648) :
    ∃ hd, Sess.read C (conv o) .none t2 st.1.sid (Sess.hrun C (conv o) cfg (h ++ [(t1, .flush f)]) st).2 =
        ((Sess.hrun C (conv o) cfg (h ++ [(t1, .flush f)]) st).2, .ok hd) ∧
      hd.sid = st.1.sid ∧ hd.changed = false ∧ hd.closed = false ∧
      ∀ k, hd.get k = (Sess.Spec.lastSaid h st.1.values k).map Spec.reload := by
  have hh := (Sess.flushed_holds (conv o) L h t0 t1 st hg hc (.inl hch) f hw hu hnd hok).later (conv o) L h12
  have hv : (Sess.hrun C (conv o) cfg (h ++ [(t1, .flush f)]) st).1.values = Sess.Spec.lastSaid h st.1.values := by
    funext k
    have := Sess.C33_get_last_set C (conv o) cfg (h ++ [(t1, .flush f)]) st k
    rw [Sess.Handle.get] at this
    rw [this]
    unfold Sess.Spec.lastSaid
    simp [Sess.Spec.says]
  obtain ⟨b, h3, h4⟩ := hh
  rw [hv] at h3
  have hrt := C140_round_trip o _ b hs h3 (hsize b h3)
  refine ⟨{ sid := st.1.sid, values := fun k => (Sess.Spec.lastSaid h st.1.values k).map Spec.reload, changed := false, closed := false },
    ?_, rfl, rfl, rfl, fun k => rfl⟩
  unfold Sess.read
  simp only [Sess.call]
  rw [L.get_spec _ t2 st.1.sid hg, h4 t2 (Int.le_refl _) h2]
  simp only [hrt]
end

/-! ## What the program sees -/

theorem int_src (k k' : IntKind) (i : Int) :
    (Fits k.signed (Conv.Spec.valueBits k) i → Src.int k (.plain (.int k' i)) = (i, none)) ∧
    (k' ≠ k → Src.int k (.plain (.int k' i)) = Src.int k (.named (.int k' i))) := by
  have h1 := Conv.C124_int_of_int k _ (some k') i (.plain k' i)
  have h2 := Conv.C124_int_of_int k _ none i (.named k' i)
  constructor
  · intro hf
    rw [h1]
    by_cases e : some k' = some k
    · rw [if_pos e]
    · rw [if_neg e, if_pos hf]
  · intro hne
    rw [h1, h2, if_neg (show ¬ some k' = some k by simp [hne]), if_neg (show ¬ none = some k by simp)]

theorem named_int (k k' k'' : IntKind) (i : Int) : Src.int k (.named (.int k' i)) = Src.int k (.named (.int k'' i)) := rfl

/-- C140: the methods of `Value` return for the reloaded value what they returned for the value that was put in (floats and times apart) - except
`Uint` for a `uint` of 2^32 and more, and `MustSliceString`. -/
theorem C140_reads_same (v : GV) (sv sw : Src) (hok : Spec.Ok v) (hst : ¬ Spec.Unstorable v) (hv : v.src = some sv)
    (hw : (Spec.reload v).src = some sw) :
    sw.string = sv.string ∧ sw.bool = sv.bool ∧ sw.isNil = sv.isNil ∧ sw.mustBytes = sv.mustBytes ∧
    (∀ k, (k = .uint → ∀ i, v = .int .uint i → i < 4294967296) → sw.int k = sv.int k ∧ sw.mustInt k = sv.mustInt k) := by
  cases v with
  | nil => cases hv; cases hw; exact ⟨rfl, rfl, rfl, rfl, fun _ _ => ⟨rfl, rfl⟩⟩
  | bool b => cases hv; cases hw; exact ⟨rfl, rfl, rfl, rfl, fun _ _ => ⟨rfl, rfl⟩⟩
  | float b => cases hv
  | time _ _ => cases hv
  | str s => cases hv; cases hw; exact ⟨rfl, rfl, rfl, rfl, fun _ _ => ⟨rfl, rfl⟩⟩
  | bytes s => cases hv; cases hw; exact ⟨rfl, rfl, rfl, rfl, fun _ _ => ⟨rfl, rfl⟩⟩
  | strings l => cases hv; cases hw; exact ⟨rfl, rfl, rfl, rfl, fun _ _ => ⟨rfl, rfl⟩⟩
  | list l => cases hv; cases hw; exact ⟨rfl, rfl, rfl, rfl, fun _ _ => ⟨rfl, rfl⟩⟩
  | doc ks vs => cases hv; cases hw; exact ⟨rfl, rfl, rfl, rfl, fun _ _ => ⟨rfl, rfl⟩⟩
  | bad => exact absurd (by simp [Spec.Unstorable]) hst
  | int k' i =>
    cases hv
    simp only [Spec.Ok] at hok
    simp only [Spec.Unstorable] at hst
    have h64 := fits_i64 hok hst
    obtain ⟨k2, hk2, hsw⟩ : ∃ k2, (k2 = .int ∨ k2 = .int64) ∧ sw = .plain (.int k2 i) := by
      simp only [Spec.reload] at hw
      split at hw <;> cases hw
      · exact ⟨_, .inl rfl, rfl⟩
      · exact ⟨_, .inr rfl, rfl⟩
    subst hsw
    refine ⟨rfl, rfl, rfl, rfl, fun k hu => ?_⟩
    suffices h : Src.int k (.plain (.int k2 i)) = Src.int k (.plain (.int k' i)) by
      refine ⟨h, ?_⟩
      unfold Src.mustInt; rw [h]
    by_cases hf : Fits k.signed (Conv.Spec.valueBits k) i
    · rw [(int_src k k2 i).1 hf, (int_src k k' i).1 hf]
    · have h2 : k2 ≠ k := by
        rintro rfl
        rcases hk2 with rfl | rfl <;>
          exact hf (by simp only [Fits, IntKind.signed, Conv.Spec.valueBits, IntKind.width, if_true]; omega)
      have h1 : k' ≠ k := by
        rintro rfl
        by_cases hku : k' = .uint
        · subst hku
          have := hu rfl i rfl
          simp only [Fits, IntKind.signed, IntKind.width, Bool.false_eq_true, if_false] at hok
          exact hf (by simp only [Fits, IntKind.signed, Conv.Spec.valueBits, Bool.false_eq_true, if_false]; omega)
        · have e : Conv.Spec.valueBits k' = k'.width := by cases k' <;> first | rfl | exact absurd rfl hku
          rw [e] at hf
          exact hf hok
      rw [(int_src k k2 i).2 h2, (int_src k k' i).2 h1, named_int k k2 k' i]

mutual
theorem reload_idem (v : GV) : Spec.reload (Spec.reload v) = Spec.reload v := by
  match v with
  | .nil | .bool b | .float b | .str s | .bytes s | .bad => simp [Spec.reload]
  | .time sec nsec =>
    simp only [Spec.reload]
    rw [show nsec / 1000000 * 1000000 / 1000000 = nsec / 1000000 by omega]
  | .int k i =>
    simp only [Spec.reload]
    by_cases h : k ≠ .int64 ∧ k ≠ .uint64 ∧ -2147483648 ≤ i ∧ i < 2147483648
    · rw [if_pos h]
      simp only [Spec.reload]
      rw [if_pos ⟨by decide, by decide, h.2.2⟩]
    · rw [if_neg h]
      simp only [Spec.reload]
      rw [if_neg (by simp)]
  | .strings l =>
    simp only [Spec.reload]
    have : ∀ l : List Str, Spec.reloads (l.map GV.str) = l.map GV.str := by
      intro l
      induction l with
      | nil => rfl
      | cons s l ih => simp [Spec.reloads, Spec.reload, ih]
    rw [this]
  | .list l => simp only [Spec.reload]; rw [reloads_idem l]
  | .doc ks vs => simp only [Spec.reload]; rw [reloads_idem vs]
theorem reloads_idem (l : List GV) : Spec.reloads (Spec.reloads l) = Spec.reloads l := by
  match l with
  | [] => rfl
  | v :: l => simp only [Spec.reloads]; rw [reload_idem v, reloads_idem l]
end

/-- C140: values that were loaded are saved and loaded again unchanged. -/
theorem C140_stable (v : GV) : Spec.reload (Spec.reload v) = Spec.reload v := reload_idem v

/-! ## Sessions of values that come back as they were -/

/-- A value that is the same after saving and loading: text, bytes, `int`s of 32 bits, other numbers as `int64`, lists and maps of such. -/
def Spec.Native (v : GV) : Prop := Spec.Ok v ∧ Spec.reload v = v

def raw (vs : Str → Option {v // Spec.Native v}) : Str → Option GV := fun k => (vs k).map Subtype.val

open Classical in
/-- The converter restricted to sessions of such values (sessions/provider_mgo.go:30-38): finite, with keys BSON has, below 2 GB. -/
noncomputable def nativeConv (o : Order) : Sess.Conv {v // Spec.Native v} where
  marshal vs := if Spec.Storable (raw vs) then ((conv o).marshal (raw vs)).filter (fun b => decide (b.length < 2147483648)) else none
  unmarshal b := ((conv o).unmarshal b).map (fun m k => (m k).bind fun v => if h : Spec.Native v then some ⟨v, h⟩ else none)

/-- C140: on such sessions the converter is faithful, which is what C33-C36, C105, C122, C134 and C135 assume of a converter. -/
theorem C140_faithful (o : Order) : (nativeConv o).Faithful := by
  intro vs b h
  unfold nativeConv at h ⊢
  simp only at h ⊢
  by_cases hs : Spec.Storable (raw vs)
  · rw [if_pos hs, Option.filter_eq_some_iff] at h
    obtain ⟨h1, h2⟩ := h
    simp only [decide_eq_true_eq] at h2
    rw [C140_round_trip o _ b hs h1 h2]
    refine congrArg some ?_
    funext k
    cases hk : vs k with
    | none => simp [raw, hk]
    | some v => simp [raw, hk, v.2.2, v.2]
  · rw [if_neg hs] at h; cases h

/-! ## Where the claim fails -/

/-- C140: a `[]string` put into a session is there until the end of the request; afterwards `MustSliceString` returns nil. -/
theorem C140_strings_violated (l : List Str) : (GV.strings l).src.bind Src.mustStrings = some l ∧
    (Spec.reload (.strings l)).src.bind Src.mustStrings = none := ⟨rfl, rfl⟩

/-- C140: `Uint` returns a `uint` of 2^32 or more, and on the next request 2^32 - 1 with an error. -/
theorem C140_uint_violated : (GV.int .uint 4294967296).src.map (Src.int .uint) = some (4294967296, none) ∧
    (Spec.reload (.int .uint 4294967296)).src.map (Src.int .uint) = some (4294967295, some .rng) := by
  decide +kernel

/-! ## The hypotheses are met -/

def dedup : List Str → List Str
  | [] => []
  | a :: l => if a ∈ dedup l then dedup l else a :: dedup l

theorem mem_dedup (k : Str) : ∀ l : List Str, k ∈ dedup l ↔ k ∈ l
  | [] => Iff.rfl
  | a :: l => by
    have ih := mem_dedup k l
    unfold dedup
    by_cases h : a ∈ dedup l
    · rw [if_pos h, ih, List.mem_cons]
      constructor
      · exact .inr
      · rintro (rfl | h2)
        · exact (mem_dedup k l).1 h
        · exact h2
    · rw [if_neg h, List.mem_cons, List.mem_cons, ih]

theorem nodup_dedup : ∀ l : List Str, (dedup l).Nodup
  | [] => List.nodup_nil
  | a :: l => by
    unfold dedup
    by_cases h : a ∈ dedup l
    · rw [if_pos h]; exact nodup_dedup l
    · rw [if_neg h]; exact List.nodup_cons.2 ⟨h, nodup_dedup l⟩

open Classical in
/-- Some order of the keys of every map. -/
noncomputable def someOrder : Order where
  keys vs := if h : ∃ l : List Str, ∀ k, vs k ≠ none → k ∈ l then (dedup (choose h)).filter (fun k => (vs k).isSome) else []
  listed vs h := by
    rw [dif_pos h]
    have hc := choose_spec h
    refine ⟨List.Pairwise.filter _ (nodup_dedup _), fun k => ?_⟩
    rw [List.mem_filter, mem_dedup, Option.isSome_iff_ne_none]
    exact ⟨fun h => h.2, fun h => ⟨hc k h, h⟩⟩

/-- The session `n = uint8(5)`. -/
def exValues : Str → Option GV := Cache.upd (fun _ => none) b!"n" (some (.int .uint8 5))

theorem exValues_key (k : Str) : exValues k ≠ none ↔ k = b!"n" := by
  unfold exValues Cache.upd
  by_cases h : k = b!"n"
  · simp [h]
  · simp [h]

theorem exValues_storable : Spec.Storable exValues where
  finite := ⟨[b!"n"], fun k h => by simp [(exValues_key k).1 h]⟩
  keys k h := by rw [(exValues_key k).1 h]; decide
  values k v h := by
    have hk := (exValues_key k).1 (by rw [h]; simp)
    subst hk
    have : v = .int .uint8 5 := by
      have e : exValues b!"n" = some (.int .uint8 5) := by rfl
      rw [e] at h; cases h; rfl
    subst this
    simp [Spec.Ok, Fits, IntKind.signed, IntKind.width]

theorem exValues_keys (o : Order) : o.keys exValues = [b!"n"] := by
  obtain ⟨h1, h2⟩ := o.listed exValues exValues_storable.finite
  have h3 : ∀ k, k ∈ o.keys exValues ↔ k = b!"n" := fun k => (h2 k).trans (exValues_key k)
  cases hk : o.keys exValues with
  | nil => rw [hk] at h3; exact absurd ((h3 b!"n").2 rfl) (by simp)
  | cons a l =>
    rw [hk] at h1 h3
    have ha := (h3 a).1 (by simp)
    subst ha
    cases l with
    | nil => rfl
    | cons c l =>
      have hc := (h3 c).1 (by simp)
      subst hc
      exact absurd h1 (by simp)

/-- C140 on a concrete session: the bytes, and what is read back. -/
theorem C140_example (o : Order) : (conv o).marshal exValues = some [12, 0, 0, 0, 0x10, 110, 0, 5, 0, 0, 0, 0] ∧
    ((conv o).unmarshal [12, 0, 0, 0, 0x10, 110, 0, 5, 0, 0, 0, 0]) = some (fun k => (exValues k).map Spec.reload) ∧
    ((exValues b!"n").map Spec.reload).bind GV.src = some (.plain (.int .int 5)) := by
  have h1 : (conv o).marshal exValues = some [12, 0, 0, 0, 0x10, 110, 0, 5, 0, 0, 0, 0] := by
    show marshal (o.keys exValues) ((o.keys exValues).filterMap exValues) = _
    rw [exValues_keys o]
    decide +kernel
  exact ⟨h1, C140_round_trip o exValues _ exValues_storable h1 (by decide), by decide +kernel⟩

/-- A session that `nativeConv` saves. -/
theorem C140_faithful_example (o : Order) : ∃ b, (nativeConv o).marshal (fun k => if k = b!"n" then some ⟨.int .int 5, by
    simp [Spec.Native, Spec.Ok, Spec.reload, Fits, IntKind.signed, IntKind.width]⟩ else none) = some b := by
  unfold nativeConv
  simp only
  have e : raw (fun k => if k = b!"n" then some ⟨.int .int 5, by
    simp [Spec.Native, Spec.Ok, Spec.reload, Fits, IntKind.signed, IntKind.width]⟩ else none) =
      fun k => if k = b!"n" then some (.int .int 5) else none := by
    funext k; unfold raw; by_cases h : k = b!"n" <;> simp [h]
  rw [e]
  have hs : Spec.Storable (fun k => if k = b!"n" then some (GV.int .int 5) else none) := by
    refine ⟨⟨[b!"n"], fun k h => ?_⟩, fun k h => ?_, fun k v h => ?_⟩
    · by_cases hk : k = b!"n" <;> simp_all
    · by_cases hk : k = b!"n"
      · rw [hk]; decide
      · simp [hk] at h
    · by_cases hk : k = b!"n"
      · simp [hk] at h; subst h; simp [Spec.Ok, Fits, IntKind.signed, IntKind.width]
      · simp [hk] at h
  have hk : o.keys (fun k => if k = b!"n" then some (GV.int .int 5) else none) = [b!"n"] := by
    obtain ⟨h1, h2⟩ := o.listed _ hs.finite
    have h3 : ∀ k, k ∈ o.keys (fun k => if k = b!"n" then some (GV.int .int 5) else none) ↔ k = b!"n" := fun k =>
      (h2 k).trans (by by_cases h : k = b!"n" <;> simp [h])
    cases hk : o.keys (fun k => if k = b!"n" then some (GV.int .int 5) else none) with
    | nil => rw [hk] at h3; exact absurd ((h3 b!"n").2 rfl) (by simp)
    | cons a l =>
      rw [hk] at h1 h3
      have ha := (h3 a).1 (by simp)
      subst ha
      cases l with
      | nil => rfl
      | cons c l =>
        have hc := (h3 c).1 (by simp)
        subst hc
        exact absurd h1 (by simp)
  refine ⟨[12, 0, 0, 0, 0x10, 110, 0, 5, 0, 0, 0, 0], ?_⟩
  rw [if_pos hs, conv_marshal, hk]
  decide +kernel

/-- C140: what the methods of `Value` return for a value as it was put into the session, before it is reloaded. -/
theorem C140_reads_fresh (v : GV) :
    (∀ s, v = .str s → v.src.map Src.string = some s) ∧
    (∀ s, v = .bytes s → v.src.map Src.mustBytes = some (some s)) ∧
    (∀ s, v.src.map Src.mustBytes = some (some s) → v = .bytes s) ∧
    (∀ b, v = .bool b → v.src.map Src.bool = some (b, true)) ∧
    (∀ k i, v = .int k i → v.src.map (Src.int k) = some (i, none)) ∧
    (∀ l, v.src.map Src.mustStrings = some (some l) ↔ v = .strings l) ∧
    (v.src.map Src.isNil = some true ↔ v = .nil) := by
  refine ⟨?_, ?_, ?_, ?_, ?_, ?_, ?_⟩
  · rintro s rfl; rfl
  · rintro s rfl; rfl
  · intro s h
    cases v <;> simp [GV.src, Src.mustBytes] at h
    rw [h]
  · rintro b rfl; rfl
  · rintro k i rfl; simp [GV.src, Src.int]
  · intro l
    cases v <;> simp [GV.src, Src.mustStrings]
  · cases v <;> simp [GV.src, Src.isNil]

end Verif.Bson
