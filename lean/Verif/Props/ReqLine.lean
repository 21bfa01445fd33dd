import Verif.Model.ReqLine
import Verif.Props.Log
import Verif.Props.Params
import Verif.Proofs.Trim
import Verif.Proofs.Num
/-!
# The lines of the request log (C149)
-/
namespace Verif.ReqLog
open Verif.Go Verif.Params

namespace LineSpec

/-- What stands before the text: the tag, the request id and the prefix, in blue if colors are on. -/
def head (o : LineOpts) (id : Str) : Str :=
  if o.color then b!"\x1b[1;34m[INFO][" ++ id ++ b!"]" ++ o.pref ++ b!"\x1b[0m" else b!"[INFO][" ++ id ++ b!"]" ++ o.pref

/-- A text without line breaks. -/
def OneLine (s : Str) : Prop := (10 : UInt8) ∉ s

/-- A text without blanks. -/
def NoBlank (s : Str) : Prop := (32 : UInt8) ∉ s

/-- What handlers do with the logger of a request without changing its settings. -/
def OnlyCalls (mid : List Log.Ev) : Prop := ∀ e ∈ mid, ∃ c, e = .call c

/-- `s` is the decimal notation of `q` thousandths with three decimals. -/
def Thousandths (s : Str) (q : Nat) : Prop :=
  ∃ a b, s = a ++ b!"." ++ b ∧ NumSpec.Digits a ∧ NumSpec.Digits b ∧ b.length = 3 ∧ NumSpec.decimal a * 1000 + NumSpec.decimal b = q

end LineSpec
open LineSpec

/-! ## Settings -/

theorem set_calls (mid : List Log.Ev) (h : OnlyCalls mid) : ∀ s, Log.states mid s = s := by
  induction mid with
  | nil => intro s; rfl
  | cons e mid ih =>
    intro s
    obtain ⟨c, rfl⟩ := h e (by simp)
    exact ih (fun e he => h e (by simp [he])) s

theorem states_setUp (o : LineOpts) (id : Str) : Log.states (setUp o) (Log.start (Log.newReqLogger id)) =
    ⟨⟨b!"[" ++ id ++ b!"]" ++ o.pref, 8, o.stack, o.color, o.line, o.short, 4, o.flat, false, some (b!"[" ++ id ++ b!"]")⟩, 8⟩ := rfl

theorem states_line (flt : Option (Str → Str)) (t : Str) (caller : Bool → Int → Str) (trace : Int → Str) (s : Log.St) :
    Log.states (lineCall flt t caller trace) s = s := by
  unfold lineCall
  split <;> rfl

theorem run_setUp (o : LineOpts) (s : Log.St) : Log.run (setUp o) s = [] := rfl

/-- the line of a text -/
theorem info_write (o : LineOpts) (id t : Str) (hs : o.stack < 7) (caller : Bool → Int → Str) (trace : Int → Str) :
    Log.write 8 ⟨b!"[" ++ id ++ b!"]" ++ o.pref, 8, o.stack, o.color, o.line, o.short, 4, o.flat, false, some (b!"[" ++ id ++ b!"]")⟩
      ⟨.info, false, t, some { hidden := true }, [], caller, trace⟩ =
    .printed (if o.flat then Log.flatten (head o id ++ b!" " ++ t ++ b!"\n") else head o id ++ b!" " ++ t ++ b!"\n") := by
  have hw : Log.wantsStack ⟨b!"[" ++ id ++ b!"]" ++ o.pref, 8, o.stack, o.color, o.line, o.short, 4, o.flat, false, some (b!"[" ++ id ++ b!"]")⟩ 7
      (⟨4, false, true⟩ : Log.LineOpt) (t ++ [10]) = false := by
    unfold Log.wantsStack
    have : ¬ (7 : Int) ≤ o.stack := by omega
    simp [this]
  unfold Log.write
  rw [if_neg (by simp [Log.Method.level])]
  show (match Log.print _ 7 (b!"[" ++ id ++ b!"]" ++ o.pref) (t ++ [10]) _ (⟨4, false, true⟩ : Log.LineOpt) with
    | some s => Log.Res.printed s
    | none => Log.Res.panics) = _
  unfold Log.print
  rw [if_neg (by decide), hw]
  cases hcol : o.color <;> cases hfl : o.flat <;> simp [head, hcol, Log.levelTag, Log.colors, Log.brush]

/-- **C149.** In a request with the request logger and without content filters, the log gets a line with the text of REQ_BEG, the lines of
the handlers behind it, and a line with the text of REQ_END: each the tag, the request id and the prefix, a blank and the text. -/
theorem C149_lines (id : Str) (o : LineOpts) (h1 : o.beg = none) (h2 : o.fin = none) (hs : o.stack < 7) (method host url addr : Str)
    (status : Int) (size : Nat) (times : Str) (mid : List Log.Ev) (hm : OnlyCalls mid) (caller : Bool → Int → Str) (trace : Int → Str) :
    ∃ lines : List Log.Res, lines.length = mid.length ∧
      lineRun id o (begText method host url addr) (endText status size times) mid caller trace =
        [.printed (Log.Spec.shown o.flat (head o id ++ b!" [REQ_BEG] " ++ method ++ b!" " ++ host ++ url ++ b!" " ++ addr ++ b!"\n"))] ++ lines ++
        [.printed (Log.Spec.shown o.flat (head o id ++ b!" [REQ_END] " ++ fmtInt (if status = 0 then 200 else status) ++ b!" " ++
          fixed3 (kilo size) ++ b!"k " ++ times ++ b!"\n"))] := by
  refine ⟨(Log.run mid (Log.states (setUp o) (Log.start (Log.newReqLogger id)))).map Prod.snd, ?_, ?_⟩
  · rw [List.length_map]
    generalize Log.states (setUp o) (Log.start (Log.newReqLogger id)) = s
    induction mid generalizing s with
    | nil => rfl
    | cons e mid ih =>
      obtain ⟨c, rfl⟩ := hm e (by simp)
      simp [Log.run, ih (fun e he => hm e (by simp [he])) s]
  · unfold lineRun lineEvents
    simp only [Log.run_append, Log.states_append, states_line, set_calls mid hm, run_setUp, states_setUp]
    have hc : ∀ t, t ≠ [] → (Log.run (lineCall none t caller trace)
        ⟨⟨b!"[" ++ id ++ b!"]" ++ o.pref, 8, o.stack, o.color, o.line, o.short, 4, o.flat, false, some (b!"[" ++ id ++ b!"]")⟩, 8⟩).map Prod.snd =
        [.printed (Log.Spec.shown o.flat (head o id ++ b!" " ++ t ++ b!"\n"))] := by
      intro t ht
      have : lineCall none t caller trace = [.call ⟨.info, false, t, some { hidden := true }, [], caller, trace⟩] := by
        unfold lineCall
        exact if_neg ht
      rw [this]
      simp only [Log.run, List.map_cons, List.map_nil]
      rw [info_write o id t hs]
      rfl
    simp only [List.map_append, List.nil_append, h1, h2]
    rw [hc _ (by simp [begText]), hc _ (by simp [endText])]
    simp [begText, endText]

/-- **C149.** A text without line breaks is one line of the log, the same whether lines are flattened or not. -/
theorem C149_one_line (hdr id t : Str) (o : LineOpts) (hh : OneLine hdr) (hi : OneLine id) (hp : OneLine o.pref) (ht : OneLine t) :
    Log.stdPrint hdr (Log.Spec.shown o.flat (head o id ++ b!" " ++ t ++ b!"\n")) = hdr ++ head o id ++ b!" " ++ t ++ b!"\n" ∧
    OneLine (hdr ++ head o id ++ b!" " ++ t) := by
  have hn : (10 : UInt8) ∉ head o id ++ b!" " ++ t := by
    unfold head
    unfold OneLine at *
    split <;> simp [hi, hp, ht]
  constructor
  · unfold Log.Spec.shown
    split
    · have : Log.flatten (head o id ++ b!" " ++ t ++ b!"\n") = head o id ++ b!" " ++ t := by
        unfold Log.flatten trimSuffix
        rw [if_pos (by unfold hasSuffix; rw [List.isSuffixOf_iff_suffix]; exact ⟨_, rfl⟩)]
        rw [show (head o id ++ b!" " ++ t ++ b!"\n").take ((head o id ++ b!" " ++ t ++ b!"\n").length - b!"\n".length) = head o id ++ b!" " ++ t by
          generalize head o id ++ b!" " ++ t = x; simp]
        exact Log.escapeNL_id hn
      rw [this]
      unfold Log.stdPrint
      rw [if_neg]
      · simp
      · intro h
        exact hn (List.mem_of_getLast? h)
    · unfold Log.stdPrint
      rw [if_pos (by rw [List.getLast?_append]; rfl)]
      simp
  · unfold OneLine at *
    simp only [List.append_assoc] at hn ⊢
    simp only [List.mem_append, not_or] at hn ⊢
    exact ⟨hh, hn⟩

/-! ## The parts a client controls -/

theorem mem_before {sep : UInt8} {s : Str} {c : UInt8} (h : c ∈ firstPart sep s) : c ∈ s := by
  rw [firstPart_eq] at h
  unfold Spec.before at h
  exact (List.takeWhile_sublist _).subset h

theorem mem_trim {s : Str} {c : UInt8} (h : c ∈ trimSpace s) : c ∈ s := by
  obtain ⟨w, w', _, _, hs, _⟩ := trimSpace_spec s
  rw [hs]
  simp [h]

theorem addr_one_line (r : Req) (h1 : ∀ k, OneLine (r.header k)) (h2 : OneLine r.remoteAddr) : OneLine (logRealIp r) := by
  intro hm
  unfold logRealIp at hm
  split at hm
  · exact h1 _ (mem_trim hm)
  · split at hm
    · exact h1 _ (mem_before (mem_before (mem_trim hm)))
    · split at hm
      · rw [List.mem_reverse] at hm
        have := (List.dropWhile_sublist _).subset (List.mem_of_mem_drop hm)
        rw [List.mem_reverse] at this
        exact h2 this
      · exact h2 hm

theorem natDec_quiet (n : Nat) (c : UInt8) (hc : c.toNat < 48 ∨ 57 < c.toNat) : c ∉ natDec n := by
  intro h
  have := (natDec_Digits n).2 c h
  omega

theorem fmtInt_quiet (i : Int) (c : UInt8) (hc : c.toNat < 45 ∨ 57 < c.toNat) : c ∉ fmtInt i := by
  cases i with
  | ofNat n => exact natDec_quiet n c (by omega)
  | negSucc n =>
    intro h
    rcases List.mem_cons.1 h with rfl | h
    · revert hc; decide
    · exact natDec_quiet _ c (by omega) h

theorem digit_val (n : Nat) (h : n < 10) : (digit n).toNat = 48 + n := by
  unfold digit
  rw [UInt8.toNat_ofNat']
  omega

theorem fixed3_quiet (q : Nat) (c : UInt8) (hc : c.toNat < 46 ∨ 57 < c.toNat) : c ∉ fixed3 q := by
  unfold fixed3
  intro h
  have d : ∀ n, n < 10 → c ≠ digit n := by
    intro n hn e
    have := digit_val n hn
    rw [← e] at this
    omega
  simp only [List.mem_append, List.mem_cons, List.not_mem_nil, or_false] at h
  rcases h with h | h | h | h | h
  · exact natDec_quiet _ c (by omega) h
  · subst h; revert hc; decide
  · exact d _ (by omega) h
  · exact d _ (by omega) h
  · exact d _ (by omega) h

/-- **C149.** Whatever a client sends, its request adds exactly two lines to the log besides those of the handlers: if header values, method,
host, URL and the address of the connection have no line breaks (the server refuses others), REQ_BEG and REQ_END are each one line. -/
theorem C149_no_forged_lines (hdr times prefT : Str) (o : LineOpts) (hp : o.pref = prefT) (r : Req) (method url fresh : Str) (flt : Option (Str → Str))
    (status : Int) (size : Nat) (hh : OneLine hdr) (hpr : OneLine prefT) (hf : ∀ f, flt = some f → ∀ s, OneLine s → OneLine (f s))
    (h1 : ∀ k, OneLine (r.header k)) (h2 : OneLine r.remoteAddr) (h3 : OneLine method) (h4 : OneLine r.host) (h5 : OneLine url)
    (h6 : OneLine fresh) (ht : OneLine times) :
    ∃ a b, OneLine a ∧ OneLine b ∧
      Log.stdPrint hdr (Log.Spec.shown o.flat (head o (chooseId (r.header b!"X-Reqid") fresh flt) ++ b!" " ++ begText method r.host url (logRealIp r) ++ b!"\n")) = a ++ b!"\n" ∧
      Log.stdPrint hdr (Log.Spec.shown o.flat (head o (chooseId (r.header b!"X-Reqid") fresh flt) ++ b!" " ++ endText status size times ++ b!"\n")) = b ++ b!"\n" := by
  have hid : OneLine (chooseId (r.header b!"X-Reqid") fresh flt) := by
    unfold chooseId
    have hbase : OneLine (if (r.header b!"X-Reqid").length < 10 ∨ (r.header b!"X-Reqid").length > 32 then fresh else r.header b!"X-Reqid") := by
      split
      · exact h6
      · exact h1 _
    cases flt with
    | none => exact hbase
    | some f => exact hf f rfl _ hbase
  have ha := addr_one_line r h1 h2
  have hb : OneLine (begText method r.host url (logRealIp r)) := by
    unfold OneLine at *
    unfold begText
    simp only [List.mem_append, not_or]
    refine ⟨⟨⟨⟨⟨⟨by decide, h3⟩, by decide⟩, h4⟩, h5⟩, by decide⟩, ha⟩
  have he : OneLine (endText status size times) := by
    unfold OneLine at *
    unfold endText
    simp only [List.mem_append, not_or]
    exact ⟨⟨⟨⟨⟨by decide, fmtInt_quiet _ 10 (by decide)⟩, by decide⟩, fixed3_quiet _ 10 (by decide)⟩, by decide⟩, ht⟩
  have e1 := C149_one_line hdr _ _ o hh hid (hp ▸ hpr) hb
  have e2 := C149_one_line hdr _ _ o hh hid (hp ▸ hpr) he
  exact ⟨_, _, e1.2, e2.2, e1.1, e2.1⟩

/-! ## Reading the lines -/

theorem cut_inj {c : UInt8} {a a' b b' : Str} (h1 : c ∉ a) (h2 : c ∉ a') (h : a ++ c :: b = a' ++ c :: b') : a = a' ∧ b = b' := by
  induction a generalizing a' with
  | nil =>
    cases a' with
    | nil => simpa using h
    | cons d a' =>
      simp at h
      exact absurd (by simp [h.1]) h2
  | cons d a ih =>
    cases a' with
    | nil =>
      simp at h
      exact absurd (by simp [h.1]) h1
    | cons e a' =>
      simp at h
      obtain ⟨r1, r2⟩ := ih (a' := a') (fun hm => h1 (by simp [hm])) (fun hm => h2 (by simp [hm])) h.2
      exact ⟨by rw [h.1, r1], r2⟩

/-- **C149.** The text of REQ_BEG tells the method, the host with the URL and the address apart; with hosts without a slash and URLs that
begin with one, also host and URL. -/
theorem C149_begin_readable (m h u a m' h' u' a' : Str) (hm : NoBlank m) (hm' : NoBlank m') (hu : NoBlank (h ++ u)) (hu' : NoBlank (h' ++ u'))
    (e : begText m h u a = begText m' h' u' a') :
    m = m' ∧ h ++ u = h' ++ u' ∧ a = a' ∧
    (∀ w w', (47 : UInt8) ∉ h → (47 : UInt8) ∉ h' → u = 47 :: w → u' = 47 :: w' → h = h' ∧ u = u') := by
  have e1 : m ++ 32 :: ((h ++ u) ++ 32 :: a) = m' ++ 32 :: ((h' ++ u') ++ 32 :: a') := by
    unfold begText at e
    have : b!"[REQ_BEG] " ++ (m ++ 32 :: ((h ++ u) ++ 32 :: a)) = b!"[REQ_BEG] " ++ (m' ++ 32 :: ((h' ++ u') ++ 32 :: a')) := by simpa using e
    exact List.append_cancel_left this
  obtain ⟨r1, r2⟩ := cut_inj hm hm' e1
  obtain ⟨r3, r4⟩ := cut_inj hu hu' r2
  refine ⟨r1, r3, r4, ?_⟩
  rintro w w' n1 n2 rfl rfl
  obtain ⟨s1, s2⟩ := cut_inj n1 n2 r3
  exact ⟨s1, by rw [s2]⟩

theorem fmtInt_inj {i j : Int} (h : fmtInt i = fmtInt j) : i = j := by
  have h1 := fmtInt_denotes true i (Or.inl rfl)
  have h2 := fmtInt_denotes true j (Or.inl rfl)
  cases i with
  | ofNat m =>
    cases j with
    | ofNat n => rw [natDec_inj h]
    | negSucc n =>
      exfalso
      have : (45 : UInt8) ∈ natDec m := by
        show (45 : UInt8) ∈ fmtInt (.ofNat m)
        rw [h]; simp [fmtInt]
      exact natDec_quiet m 45 (by decide) this
  | negSucc m =>
    cases j with
    | ofNat n =>
      exfalso
      have : (45 : UInt8) ∈ natDec n := by
        show (45 : UInt8) ∈ fmtInt (.ofNat n)
        rw [← h]; simp [fmtInt]
      exact natDec_quiet n 45 (by decide) this
    | negSucc n =>
      have := natDec_inj (List.cons.inj h).2
      have : m = n := by omega
      rw [this]

theorem fixed3_spec (q : Nat) : Thousandths (fixed3 q) q := by
  refine ⟨natDec (q / 1000), [digit (q % 1000 / 100), digit (q % 100 / 10), digit (q % 10)], by simp [fixed3], natDec_Digits _, ⟨by simp, ?_⟩, rfl, ?_⟩
  · intro c hc
    simp only [List.mem_cons, List.not_mem_nil, or_false] at hc
    rcases hc with rfl | rfl | rfl <;> rw [digit_val _ (by omega)] <;> omega
  · rw [natDec_decimal]
    unfold NumSpec.decimal
    simp only [List.foldl_cons, List.foldl_nil]
    rw [digit_val _ (by omega), digit_val _ (by omega), digit_val _ (by omega)]
    omega

theorem thousandths_unique {s : Str} {q q' : Nat} (h : Thousandths s q) (h' : Thousandths s q') : q = q' := by
  obtain ⟨a, b, rfl, ha, hb, _, rfl⟩ := h
  obtain ⟨a', b', e, ha', hb', _, rfl⟩ := h'
  have nd : ∀ l : Str, NumSpec.Digits l → (46 : UInt8) ∉ l := by
    intro l hl hm
    have := hl.2 _ hm
    revert this; decide
  have e : a ++ 46 :: b = a' ++ 46 :: b' := by simpa using e
  obtain ⟨rfl, rfl⟩ := cut_inj (nd a ha) (nd a' ha') e
  rfl

/-- **C149.** The size in REQ_END is the size in units of 1024 bytes with three decimals, off by at most half of the last one (ties to even); of two
sizes the larger is never shown smaller, and two sizes shown alike differ by at most one byte. -/
theorem C149_size (n : Nat) : ∃ q, Thousandths (fixed3 (kilo n)) q ∧ 1024 * q ≤ 1000 * n + 512 ∧ 1000 * n ≤ 1024 * q + 512 ∧
    (1024 * q = 1000 * n + 512 ∨ 1000 * n = 1024 * q + 512 → q % 2 = 0) ∧
    (∀ n' q', Thousandths (fixed3 (kilo n')) q' → (n ≤ n' → q ≤ q') ∧ (q = q' → n ≤ n' + 1 ∧ n' ≤ n + 1)) := by
  have hk : ∀ n, 1024 * kilo n ≤ 1000 * n + 512 ∧ 1000 * n ≤ 1024 * kilo n + 512 := by
    intro n
    unfold kilo
    split <;> omega
  have hmono : ∀ n n', n ≤ n' → kilo n ≤ kilo n' := by
    intro n n' h
    by_cases he : n = n'
    · subst he; exact Nat.le_refl _
    · have h1 := hk n
      have h2 := hk n'
      omega
  refine ⟨kilo n, fixed3_spec _, (hk n).1, (hk n).2, ?_, ?_⟩
  · unfold kilo
    split <;> omega
  intro n' q' h'
  obtain rfl := thousandths_unique h' (fixed3_spec _)
  refine ⟨hmono n n', fun e => ?_⟩
  have h1 := hk n
  have h2 := hk n'
  rw [e] at h1
  omega

/-- **C149.** The text of REQ_END tells status, size and duration apart. -/
theorem C149_end_readable (s s' : Int) (n n' : Nat) (t t' : Str) (e : endText s n t = endText s' n' t') :
    (if s = 0 then 200 else s) = (if s' = 0 then 200 else s') ∧ kilo n = kilo n' ∧ t = t' := by
  unfold endText at e
  generalize (if s = 0 then 200 else s) = i at e ⊢
  generalize (if s' = 0 then 200 else s') = i' at e ⊢
  have e1 : b!"[REQ_END] " ++ (fmtInt i ++ 32 :: (fixed3 (kilo n) ++ 107 :: (32 :: t))) =
      b!"[REQ_END] " ++ (fmtInt i' ++ 32 :: (fixed3 (kilo n') ++ 107 :: (32 :: t'))) := by simpa using e
  obtain ⟨r1, r2⟩ := cut_inj (fmtInt_quiet i 32 (by decide)) (fmtInt_quiet i' 32 (by decide)) (List.append_cancel_left e1)
  obtain ⟨r3, r4⟩ := cut_inj (fixed3_quiet _ 107 (by decide)) (fixed3_quiet _ 107 (by decide)) r2
  refine ⟨fmtInt_inj r1, ?_, by simpa using r4⟩
  have := fixed3_spec (kilo n)
  rw [r3] at this
  exact thousandths_unique this (fixed3_spec _)

/-! ## Filters of the text -/

/-- **C149.** A content filter decides the text of its line, and an empty text means no line. -/
theorem C149_filters (id : Str) (o : LineOpts) (hs : o.stack < 7) (bt et : Str) (mid : List Log.Ev) (hm : OnlyCalls mid)
    (caller : Bool → Int → Str) (trace : Int → Str) :
    ∃ lines : List Log.Res, lines.length = mid.length ∧
      lineRun id o bt et mid caller trace =
        (if (o.beg.getD (fun t => t)) bt = [] then [] else [.printed (Log.Spec.shown o.flat (head o id ++ b!" " ++ (o.beg.getD (fun t => t)) bt ++ b!"\n"))]) ++ lines ++
        (if (o.fin.getD (fun t => t)) et = [] then [] else [.printed (Log.Spec.shown o.flat (head o id ++ b!" " ++ (o.fin.getD (fun t => t)) et ++ b!"\n"))]) := by
  refine ⟨(Log.run mid (Log.states (setUp o) (Log.start (Log.newReqLogger id)))).map Prod.snd, ?_, ?_⟩
  · rw [List.length_map]
    generalize Log.states (setUp o) (Log.start (Log.newReqLogger id)) = s
    induction mid generalizing s with
    | nil => rfl
    | cons e mid ih =>
      obtain ⟨c, rfl⟩ := hm e (by simp)
      simp [Log.run, ih (fun e he => hm e (by simp [he])) s]
  · have hc : ∀ (flt : Option (Str → Str)) t, (Log.run (lineCall flt t caller trace)
        ⟨⟨b!"[" ++ id ++ b!"]" ++ o.pref, 8, o.stack, o.color, o.line, o.short, 4, o.flat, false, some (b!"[" ++ id ++ b!"]")⟩, 8⟩).map Prod.snd =
        (if (flt.getD (fun t => t)) t = [] then [] else [.printed (Log.Spec.shown o.flat (head o id ++ b!" " ++ (flt.getD (fun t => t)) t ++ b!"\n"))]) := by
      intro flt t
      by_cases ht : (flt.getD (fun t => t)) t = []
      · have : lineCall flt t caller trace = [] := by unfold lineCall; exact if_pos ht
        rw [this, if_pos ht]; rfl
      · have : lineCall flt t caller trace = [.call ⟨.info, false, (flt.getD (fun t => t)) t, some { hidden := true }, [], caller, trace⟩] := by
          unfold lineCall
          exact if_neg ht
        rw [this, if_neg ht]
        simp only [Log.run, List.map_cons, List.map_nil]
        rw [info_write o id _ hs]
        rfl
    unfold lineRun lineEvents
    simp only [Log.run_append, Log.states_append, states_line, set_calls mid hm, run_setUp, states_setUp]
    simp only [List.map_append, List.nil_append]
    rw [hc, hc]

/-! ## Cases -/

example : fixed3 (kilo 1536) = b!"1.500" := by decide +kernel
example : fixed3 (kilo 64) = b!"0.062" := by decide +kernel
example : fixed3 (kilo 192) = b!"0.188" := by decide +kernel
example : kilo 21 = kilo 21 ∧ fixed3 (kilo 0) = b!"0.000" ∧ kilo 42 = kilo 43 - 1 := by decide +kernel
example : ∃ n, kilo n = kilo (n + 1) := ⟨21, by decide +kernel⟩

example : lineRun b!"req-0123456789" {} (begText b!"GET" b!"example.com" b!"/a?b=c" b!"10.0.0.1") (endText 0 5 b!"0.250ms") [] (fun _ _ => []) (fun _ => []) =
    [.printed b!"[INFO][req-0123456789] [REQ_BEG] GET example.com/a?b=c 10.0.0.1\n", .printed b!"[INFO][req-0123456789] [REQ_END] 200 0.005k 0.250ms\n"] := by
  decide +kernel

end Verif.ReqLog
