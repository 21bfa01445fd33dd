import Verif.Model.TimeJson
import Verif.Props.TimeParam
import Verif.Proofs.Enc
/-!
# C187: times in answers, sent back as parameters
-/
namespace Verif.Params
open Verif.Go Verif.Go.NumSpec

/-! ## Specification -/

/-- What every version of Go makes of zones and fractions of at most nine digits. -/
structure Spec.Honest (x : TimeExt) : Prop where
  hour : ∀ ds n, Spec.Num 2 n ds → n < 24 → x.zoneHour ds = some (n : Int)
  min : ∀ ds n, Spec.Num 2 n ds → n < 60 → x.zoneMin ds = some (n : Int)
  fraction : ∀ ds : Str, ds ≠ [] → ds.length ≤ 9 → (∀ c ∈ ds, 48 ≤ c.toNat ∧ c.toNat ≤ 57) →
    x.fraction ds = some (decimal ds * 10 ^ (9 - ds.length))

/-- A moment of the calendar, with an offset of less than a day. -/
def Spec.Moment (y m d h mi s ns : Nat) (off : Int) : Prop :=
  y < 10000 ∧ Spec.Calendar y m d ∧ h < 24 ∧ mi < 60 ∧ s < 60 ∧ ns < 1000000000 ∧ -86400 < off ∧ off < 86400

/-- The offset in whole minutes, cut towards zero. -/
def Spec.wholeMinutes (off : Int) : Int := if 0 ≤ off then off - off % 60 else -(-off - -off % 60)

/-! ## The text -/

theorem decimal_snoc (a : Str) (c : UInt8) : decimal (a ++ [c]) = decimal a * 10 + (c.toNat - 48) := by
  simp [decimal, List.foldl_append]

theorem padded_num : ∀ (w n : Nat), n < 10 ^ w → Spec.Num w n (padded w n)
  | 0, n, h => ⟨rfl, by simp [padded], by have : n = 0 := by simpa using h
                                          subst this; rfl⟩
  | w + 1, n, h => by
    obtain ⟨h1, h2, h3⟩ := padded_num w (n / 10) (by rw [Nat.pow_succ] at h; omega)
    have hd : (digit (n % 10)).toNat = 48 + n % 10 := digit_toNat (Nat.mod_lt _ (by decide))
    refine ⟨by simp [padded, h1], ?_, ?_⟩
    · intro c hc
      rcases List.mem_append.1 hc with hc | hc
      · exact h2 c hc
      · rw [List.mem_singleton.1 hc, hd]; omega
    · show decimal (padded w (n / 10) ++ [digit (n % 10)]) = n
      rw [decimal_snoc, h3, hd]; omega

theorem decimal_zeros (s : Str) : ∀ k, decimal (s ++ List.replicate k 48) = decimal s * 10 ^ k
  | 0 => by simp
  | k + 1 => by
    rw [List.replicate_succ', ← List.append_assoc, decimal_snoc, decimal_zeros s k, Nat.pow_succ]
    simp [Nat.mul_assoc]

/-- A text without the zeros at its end. -/
theorem unzero (s : Str) : ∃ k, s = (s.reverse.dropWhile (· = 48)).reverse ++ List.replicate k 48 := by
  refine ⟨(s.reverse.takeWhile (· = 48)).length, ?_⟩
  have h := List.takeWhile_append_dropWhile (p := fun c : UInt8 => decide (c = 48)) (l := s.reverse)
  have hr : s.reverse.takeWhile (· = 48) = List.replicate (s.reverse.takeWhile (· = 48)).length 48 := by
    refine List.eq_replicate_of_mem fun c hc => ?_
    have := List.all_eq_true.1 (List.all_takeWhile (p := fun c : UInt8 => decide (c = 48)) (l := s.reverse)) c hc
    exact of_decide_eq_true this
  have h2 := congrArg List.reverse h
  rw [List.reverse_append, List.reverse_reverse] at h2
  rw [← List.reverse_replicate, ← hr]
  exact h2.symm

theorem fraction_ok {x : TimeExt} (hx : Spec.Honest x) {ns : Nat} (h : ns < 1000000000) : Spec.Fraction x ns (fractionText ns) := by
  unfold fractionText
  by_cases h0 : ns = 0
  · rw [if_pos h0]; exact .inl ⟨h0, rfl⟩
  · rw [if_neg h0]
    obtain ⟨h1, h2, h3⟩ := padded_num 9 ns h
    obtain ⟨k, hk⟩ := unzero (padded 9 ns)
    generalize hq : ((padded 9 ns).reverse.dropWhile (· = 48)).reverse = q at hk ⊢
    have hlen : q.length + k = 9 := by
      have := congrArg List.length hk
      rw [h1] at this
      simpa using this.symm
    have hdec : decimal q * 10 ^ k = ns := by rw [← decimal_zeros, ← hk, h3]
    have hne : q ≠ [] := by
      rintro rfl
      exact h0 (by rw [← hdec]; simp [decimal])
    have hdig : ∀ c ∈ q, 48 ≤ c.toNat ∧ c.toNat ≤ 57 := fun c hc => h2 c (by rw [hk]; exact List.mem_append_left _ hc)
    refine .inr ⟨46, q, .inl rfl, hne, hdig, rfl, ?_⟩
    rw [hx.fraction q hne (by omega) hdig, show 9 - q.length = k by omega, hdec]

theorem wholeMinutes_eq (off : Int) : Spec.wholeMinutes off = off.tdiv 60 * 60 := by
  unfold Spec.wholeMinutes
  split
  · rename_i h
    rw [Int.tdiv_eq_ediv_of_nonneg h]; omega
  · rename_i h
    have e : off = -(-off) := by omega
    rw [e, Int.neg_tdiv, Int.tdiv_eq_ediv_of_nonneg (by omega)]
    omega

theorem zone_ok {x : TimeExt} (hx : Spec.Honest x) {off : Int} (h1 : -86400 < off) (h2 : off < 86400) :
    Spec.ZoneText x (Spec.wholeMinutes off) (zoneText off) := by
  rw [wholeMinutes_eq]
  unfold zoneText
  by_cases h0 : off = 0
  · rw [if_pos h0, h0]; exact .inl ⟨rfl, rfl⟩
  · rw [if_neg h0]
    have hz : -1440 < off.tdiv 60 ∧ off.tdiv 60 < 1440 := by
      have := wholeMinutes_eq off
      unfold Spec.wholeMinutes at this
      split at this <;> omega
    generalize off.tdiv 60 = z at hz ⊢
    have ha : z.natAbs < 1440 := by omega
    have n1 := padded_num 2 (z.natAbs / 60) (by omega)
    have n2 := padded_num 2 (z.natAbs % 60) (by omega)
    refine .inr ⟨((z.natAbs / 60 : Nat) : Int), ((z.natAbs % 60 : Nat) : Int), _, _, n1.1, n2.1, hx.hour _ _ n1 (by omega),
      hx.min _ _ n2 (by omega), ?_⟩
    by_cases hn : z < 0
    · rw [if_pos hn]; exact .inr ⟨rfl, by omega⟩
    · rw [if_neg hn]; exact .inl ⟨rfl, by omega⟩

theorem calendar_small {y m d : Nat} (h : Spec.Calendar y m d) : m < 100 ∧ d < 100 := by
  obtain ⟨-, h⟩ := h
  rcases h with ⟨h, h'⟩ | ⟨h, h'⟩ | ⟨h, h'⟩
  · simp at h; omega
  · simp at h; omega
  · rcases h' with h' | h' <;> omega

/-- What the text means. -/
theorem rfc_means {x : TimeExt} (hx : Spec.Honest x) {y m d h mi s ns : Nat} {off : Int} (hm : Spec.Moment y m d h mi s ns off) :
    Spec.TimeMeans x (rfc3339 y m d h mi s ns off) (.date y m d h mi s ns (.offset (Spec.wholeMinutes off))) := by
  obtain ⟨h1, h2, h3, h4, h5, h6, h7, h8⟩ := hm
  have hc := calendar_small h2
  have hd : Spec.Day y m d (padded 4 y ++ b!"-" ++ padded 2 m ++ b!"-" ++ padded 2 d) :=
    ⟨_, _, _, padded_num 4 y h1, padded_num 2 m hc.1, padded_num 2 d hc.2, rfl, h2⟩
  have := Spec.TimeMeans.rfc (x := x) hd ⟨h3, .inl (padded_num 2 h (by omega))⟩ ⟨h4, padded_num 2 mi (by omega)⟩ ⟨h5, padded_num 2 s (by omega)⟩
    (fraction_ok hx h6) (zone_ok hx h7 h8)
  have e : rfc3339 y m d h mi s ns off = padded 4 y ++ b!"-" ++ padded 2 m ++ b!"-" ++ padded 2 d ++ b!"T" ++ padded 2 h ++ b!":" ++ padded 2 mi ++
      b!":" ++ padded 2 s ++ fractionText ns ++ zoneText off := by
    simp [rfc3339]
  rw [e]
  exact this

/-! ## The theorems -/

/-- **C187, the round trip.** A time whose year has at most four digits is written into an answer as a JSON string; as a time parameter this text is bound
to the same date and clock, down to the nanosecond, with the offset it has in whole minutes. -/
theorem C187_roundtrip {x : TimeExt} (hx : Spec.Honest x) {y m d h mi s ns : Nat} {off : Int} (hm : Spec.Moment y m d h mi s ns off) :
    ∃ text, timeJson y m d h mi s ns off = some (b!"\"" ++ text ++ b!"\"") ∧
      bindTime x timeFormats text = some (.date y m d h mi s ns (.offset (Spec.wholeMinutes off))) := by
  refine ⟨rfc3339 y m d h mi s ns off, ?_, (C148_exact x _ _).2 (rfc_means hx hm)⟩
  unfold timeJson
  rw [if_neg (by have := hm.1; omega)]
  rfl

/-- **C187, nothing is lost** for offsets of whole minutes: the time is the one that was written. -/
theorem C187_same {x : TimeExt} (hx : Spec.Honest x) {y m d h mi s ns : Nat} {off : Int} (hm : Spec.Moment y m d h mi s ns off)
    (ho : (60 : Int) ∣ off) : bindTime x timeFormats (rfc3339 y m d h mi s ns off) = some (.date y m d h mi s ns (.offset off)) := by
  have e : Spec.wholeMinutes off = off := by unfold Spec.wholeMinutes; split <;> omega
  have := (C148_exact x _ _).2 (rfc_means hx hm)
  rwa [e] at this

/-- An extension that every moment's text can be read with. -/
def honestExt : TimeExt where
  comma := false
  zoneHour ds := some (decimal ds : Nat)
  zoneMin ds := some (decimal ds : Nat)
  fraction ds := some (decimal ds * 10 ^ (9 - ds.length))

theorem honestExt_ok : Spec.Honest honestExt :=
  ⟨fun ds n h _ => by rw [← h.2.2]; rfl, fun ds n h _ => by rw [← h.2.2]; rfl, fun ds _ _ _ => rfl⟩

/-- **C187, different times have different texts**, if their offsets are whole minutes. -/
theorem C187_injective {y m d h mi s ns y' m' d' h' mi' s' ns' : Nat} {off off' : Int} (hm : Spec.Moment y m d h mi s ns off)
    (hm' : Spec.Moment y' m' d' h' mi' s' ns' off') (ho : (60 : Int) ∣ off) (ho' : (60 : Int) ∣ off')
    (h0 : timeJson y m d h mi s ns off = timeJson y' m' d' h' mi' s' ns' off') :
    (y, m, d, h, mi, s, ns, off) = (y', m', d', h', mi', s', ns', off') := by
  unfold timeJson at h0
  rw [if_neg (by have := hm.1; omega), if_neg (by have := hm'.1; omega)] at h0
  have h1 := List.append_cancel_right (List.cons.inj (Option.some.inj h0)).2
  have a := C187_same honestExt_ok hm ho
  rw [h1, C187_same honestExt_ok hm' ho'] at a
  simp only [Option.some.injEq, TimeV.date.injEq, Zone.offset.injEq] at a
  obtain ⟨rfl, rfl, rfl, rfl, rfl, rfl, rfl, rfl⟩ := a
  rfl

/-- **C187, years of five digits** are an error (and the answer is the text of an error, see C68). -/
theorem C187_years (y m d h mi s ns : Nat) (off : Int) : timeJson y m d h mi s ns off = none ↔ 10000 ≤ y := by
  unfold timeJson
  split <;> simp_all

theorem query_blanks : ∀ (s : Str), (∀ c ∈ s, c ≠ 37) → queryUnescape s = some (s.map fun c => if c = 43 then 32 else c)
  | [], _ => rfl
  | c :: s, h => by
    rw [queryUnescape_other (h c (List.mem_cons_self ..)), query_blanks s fun c hc => h c (List.mem_cons_of_mem _ hc)]
    rfl

theorem map_blanks (s : Str) (h : ∀ c ∈ s, c ≠ 43) : (s.map fun c => if c = 43 then 32 else c) = s := by
  conv => rhs; rw [← List.map_id s]
  exact List.map_congr_left fun c hc => by rw [if_neg (h c hc)]; rfl

theorem dig_no : ∀ c : UInt8, (48 ≤ c.toNat ∧ c.toNat ≤ 57) → c ≠ 37 ∧ c ≠ 43 ∧ c ≠ 90 := forall_u8 (by decide +kernel)

/-- **C187, the plus sign.** If the text of a time with an offset of a minute or more is put into a query as it is, nothing is bound (the parameter is the
zero time): its plus sign is read as a blank. -/
theorem C187_plus_lost (x : TimeExt) {y m d h mi s ns : Nat} {off : Int} (hm : Spec.Moment y m d h mi s ns off) (ho : 60 ≤ off) :
    ∃ text, queryUnescape (rfc3339 y m d h mi s ns off) = some text ∧ bindTime x timeFormats text = none := by
  obtain ⟨h1, h2, h3, h4, h5, h6, h7, h8⟩ := hm
  have hc := calendar_small h2
  have hd : Spec.Day y m d (padded 4 y ++ b!"-" ++ padded 2 m ++ b!"-" ++ padded 2 d) :=
    ⟨_, _, _, padded_num 4 y h1, padded_num 2 m hc.1, padded_num 2 d hc.2, rfl, h2⟩
  have hf : ∀ c ∈ fractionText ns, c ≠ 37 ∧ c ≠ 43 := by
    intro c hc
    rcases fraction_ok honestExt_ok h6 with ⟨-, h⟩ | ⟨e, ds, he, -, h, h', -⟩
    · rw [h] at hc; cases hc
    · rw [h'] at hc
      rcases List.mem_cons.1 hc with rfl | hc
      · rcases he with rfl | ⟨-, rfl⟩ <;> decide
      · exact ⟨(dig_no c (h c hc)).1, (dig_no c (h c hc)).2.1⟩
  have hz : -1440 < off.tdiv 60 ∧ off.tdiv 60 < 1440 ∧ 0 < off.tdiv 60 := by
    have := wholeMinutes_eq off
    unfold Spec.wholeMinutes at this
    rw [if_pos (by omega)] at this
    omega
  have ez : zoneText off = 43 :: (padded 2 ((off.tdiv 60).natAbs / 60) ++ 58 :: padded 2 ((off.tdiv 60).natAbs % 60)) := by
    unfold zoneText
    rw [if_neg (by omega), if_neg (by omega)]
  have n1 := padded_num 2 ((off.tdiv 60).natAbs / 60) (by omega)
  have n2 := padded_num 2 ((off.tdiv 60).natAbs % 60) (by omega)
  generalize padded 2 ((off.tdiv 60).natAbs / 60) = hh at ez n1
  generalize padded 2 ((off.tdiv 60).natAbs % 60) = mm at ez n2
  have nh := padded_num 2 h (by omega)
  have ni := padded_num 2 mi (by omega)
  have nsx := padded_num 2 s (by omega)
  generalize hday : padded 4 y ++ b!"-" ++ padded 2 m ++ b!"-" ++ padded 2 d = day at hd
  have hdayc : ∀ c ∈ day, c ≠ 37 ∧ c ≠ 43 := by
    obtain ⟨a, b, e, na, nb, ne, rfl, -⟩ := hd
    intro c hc
    simp only [List.mem_append, List.mem_singleton] at hc
    rcases hc with (((hc | rfl) | hc) | rfl) | hc
    · exact ⟨(dig_no c (na.2.1 c hc)).1, (dig_no c (na.2.1 c hc)).2.1⟩
    · decide
    · exact ⟨(dig_no c (nb.2.1 c hc)).1, (dig_no c (nb.2.1 c hc)).2.1⟩
    · decide
    · exact ⟨(dig_no c (ne.2.1 c hc)).1, (dig_no c (ne.2.1 c hc)).2.1⟩
  have hnum : ∀ {n : Nat} {t : Str}, Spec.Num 2 n t → ∀ c ∈ t, c ≠ 37 ∧ c ≠ 43 := fun hn c hc =>
    ⟨(dig_no c (hn.2.1 c hc)).1, (dig_no c (hn.2.1 c hc)).2.1⟩
  have ec : rfc3339 y m d h mi s ns off = (day ++ 84 :: (padded 2 h ++ 58 :: (padded 2 mi ++ 58 :: (padded 2 s ++ fractionText ns)))) ++
      43 :: (hh ++ 58 :: mm) := by
    rw [← hday]
    simp [rfc3339, ez]
  generalize hclk : 84 :: (padded 2 h ++ 58 :: (padded 2 mi ++ 58 :: (padded 2 s ++ fractionText ns))) = clock at ec
  have hclkc : ∀ c ∈ clock, c ≠ 37 ∧ c ≠ 43 := by
    rw [← hclk]
    intro c hc
    simp only [List.mem_append, List.mem_cons] at hc
    rcases hc with rfl | hc | rfl | hc | rfl | hc | hc
    · decide
    · exact hnum nh c hc
    · decide
    · exact hnum ni c hc
    · decide
    · exact hnum nsx c hc
    · exact hf c hc
  have hzc : ∀ c ∈ hh ++ 58 :: mm, c ≠ 37 ∧ c ≠ 43 := by
    intro c hc
    simp only [List.mem_append, List.mem_cons] at hc
    rcases hc with hc | rfl | hc
    · exact hnum n1 c hc
    · decide
    · exact hnum n2 c hc
  refine ⟨(day ++ clock) ++ 32 :: (hh ++ 58 :: mm), ?_, none_of fun t ht => ?_⟩
  · rw [ec, query_blanks]
    · rw [List.map_append, List.map_cons, map_blanks (day ++ clock), map_blanks (hh ++ 58 :: mm) fun c hc => (hzc c hc).2]
      · rfl
      · intro c hc
        rcases List.mem_append.1 hc with hc | hc
        · exact (hdayc c hc).2
        · exact (hclkc c hc).2
    · intro c hc
      rcases List.mem_append.1 hc with hc | hc
      · rcases List.mem_append.1 hc with hc | hc
        · exact (hdayc c hc).1
        · exact (hclkc c hc).1
      · rcases List.mem_cons.1 hc with rfl | hc
        · decide
        · exact (hzc c hc).1
  · have hm := (C148_exact x _ t).1 ht
    have e10 : ((day ++ clock) ++ 32 :: (hh ++ 58 :: mm))[10]? = some 84 := by
      rw [← hclk, List.append_assoc, List.cons_append]
      exact at10 hd 84
    have hlen : ((day ++ clock) ++ 32 :: (hh ++ 58 :: mm)).length = 10 + clock.length + 6 := by
      have := (day_facts hd).1
      have := n1.1
      have := n2.1
      simp only [List.length_append, List.length_cons]
      omega
    generalize hT : (day ++ clock) ++ 32 :: (hh ++ 58 :: mm) = T at hm e10 hlen
    cases hm with
    | date hd' =>
      have := (day_facts hd').1
      omega
    | short hd' hb hb' _ =>
      rw [List.append_assoc _ _ b!":0", at10_blank hd' hb hb'] at e10
      cases e10
    | full hd' hb hb' _ _ _ _ =>
      simp only [List.append_assoc] at e10
      rw [← List.append_assoc, at10_blank hd' hb hb'] at e10
      cases e10
    | rfc _ _ _ _ _ hz' =>
      have hl6 : (32 :: (hh ++ 58 :: mm) : Str).length = 6 := by
        have := n1.1
        have := n2.1
        simp only [List.length_append, List.length_cons]
        omega
      rcases hz' with ⟨rfl, -⟩ | ⟨_, _, h2', m2', l1, l2, -, -, hz' | hz'⟩
      · have := congrArg List.getLast? hT
        obtain ⟨a, b, rfl, -, hb, -⟩ := num_two_inv n2
        simp only [List.getLast?_append, List.getLast?_cons, List.getLast?_nil, Option.getD_some, Option.some_or] at this
        exact (dig_no b hb).2.2 (by simpa using this)
      · have := (List.append_inj' hT (by rw [hl6, hz'.1]; simp [l1, l2])).2
        rw [hz'.1] at this
        cases this
      · have := (List.append_inj' hT (by rw [hl6, hz'.1]; simp [l1, l2])).2
        rw [hz'.1] at this
        cases this
    | unix hn _ =>
      exact unix_no_day (r := clock ++ 32 :: (hh ++ 58 :: mm)) hd hn (by rw [← hT, List.append_assoc])

/-- `toyTime` is honest; a time, its text, and what becomes of it. -/
theorem C187_example : Spec.Honest toyTime ∧ Spec.Moment 2024 2 29 17 5 9 250000000 7200 ∧
    timeJson 2024 2 29 17 5 9 250000000 7200 = some b!"\"2024-02-29T17:05:09.25+02:00\"" ∧
    timeJson 99 12 31 0 0 0 0 (-16221) = some b!"\"0099-12-31T00:00:00-04:30\"" ∧
    bindTime toyTime timeFormats b!"2024-02-29T17:05:09.25+02:00" = some (.date 2024 2 29 17 5 9 250000000 (.offset 7200)) ∧
    bindTime toyTime timeFormats b!"0099-12-31T00:00:00-04:30" = some (.date 99 12 31 0 0 0 0 (.offset (-16200))) ∧
    bindTime toyTime timeFormats b!"2024-02-29T17:05:09.25 02:00" = none := by
  refine ⟨⟨?_, ?_, ?_⟩, ⟨by decide, ⟨by decide, .inr (.inr ⟨rfl, .inr ⟨rfl, .inl ⟨⟨506, rfl⟩, by decide⟩⟩⟩)⟩, by decide, by decide, by decide,
    by decide, by decide, by decide⟩, by decide +kernel⟩
  · intro ds n h _
    have : ds.all (fun c => 48 ≤ c && c ≤ 57) = true := List.all_eq_true.2 fun c hc => (dig_iff c).2 (h.2.1 c hc)
    show (if ds.all (fun c => 48 ≤ c && c ≤ 57) then _ else _) = _
    rw [if_pos this, h.2.2]
  · intro ds n h _
    have : ds.all (fun c => 48 ≤ c && c ≤ 57) = true := List.all_eq_true.2 fun c hc => (dig_iff c).2 (h.2.1 c hc)
    show (if ds.all (fun c => 48 ≤ c && c ≤ 57) then _ else _) = _
    rw [if_pos this, h.2.2]
  · intro ds _ h _
    show (if ds.length ≤ 9 then _ else _) = _
    rw [if_pos h]

end Verif.Params
