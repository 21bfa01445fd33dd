import Verif.Model.WireCode
import Verif.Props.ResponseExact
import Verif.Props.Context
/-!
# C120: invalid status codes
-/
namespace Verif.Resp
open Spec

/-! ## Specification -/

/-- A status code HTTP servers accept: three digits. -/
def Spec.Valid (c : Nat) : Prop := 100 ≤ c ∧ c ≤ 999

instance (c : Nat) : Decidable (Spec.Valid c) := inferInstanceAs (Decidable (_ ∧ _))

/-- The code sent by the first write on a response of status `c` with these callbacks. -/
def Spec.code (c : Nat) (bs : List BF) : Nat :=
  if (Spec.callbacks c bs.reverse).1 = 0 then 200 else (Spec.callbacks c bs.reverse).1

/-- The first write panics: in a callback, or because its code is refused — which can only happen while no header was sent
(by a flush) and the connection is not hijacked. -/
def Spec.Refused (c : Nat) (bs : List BF) (hijacked flushed : Bool) : Prop :=
  (Spec.callbacks c bs.reverse).2 = true ∨ (hijacked = false ∧ flushed = false ∧ ¬ Spec.Valid (Spec.code c bs))

instance (c bs h f) : Decidable (Spec.Refused c bs h f) := inferInstanceAs (Decidable (_ ∨ _))

/-- The status line the client gets; a refused first write sends none, and the next output sends 200. -/
def Spec.wireV (c : Nat) (bs : List BF) (hijacked : Bool) : List Op → Option Nat
  | [] => none
  | .flush :: _ => some 200
  | .writeHeader s :: os => Spec.wireV (if s = 0 then c else s) bs hijacked os
  | .before b :: os => Spec.wireV c (bs ++ [b]) hijacked os
  | .hijack :: os => Spec.wireV c bs true os
  | .write _ _ :: os =>
    if Spec.Refused c bs hijacked false then (if os.any Spec.isOut then some 200 else none)
    else if hijacked then some 200
    else some (Spec.code c bs)

/-- What `Status()` reports. A refused code stays in `Status()`. -/
def Spec.reportedV (c : Nat) (bs : List BF) : List Op → Nat
  | [] => c
  | .flush :: os => Spec.reportedV c bs os
  | .writeHeader s :: os => Spec.reportedV (if s = 0 then c else s) bs os
  | .before b :: os => Spec.reportedV c (bs ++ [b]) os
  | .hijack :: os => Spec.reportedV c bs os
  | .write _ _ :: os =>
    if lastCode os ≠ 0 then lastCode os
    else if (Spec.callbacks c bs.reverse).2 then (Spec.callbacks c bs.reverse).1
    else Spec.code c bs

/-- The body: everything accepted, except by a refused first write. -/
def Spec.bodyV (c : Nat) (bs : List BF) (hijacked flushed : Bool) : List Op → Str
  | [] => []
  | .flush :: os => Spec.bodyV c bs hijacked true os
  | .writeHeader s :: os => Spec.bodyV (if s = 0 then c else s) bs hijacked flushed os
  | .before b :: os => Spec.bodyV c (bs ++ [b]) hijacked flushed os
  | .hijack :: os => Spec.bodyV c bs true flushed os
  | .write x n :: os => (if Spec.Refused c bs hijacked flushed then [] else x.take n) ++ Spec.accepted os

/-! ## Proofs -/

theorem okCode_iff (c : Nat) : okCode c = true ↔ Spec.Valid c := by simp [okCode, Spec.Valid]

theorem okCode_false (c : Nat) : okCode c = false ↔ ¬ Spec.Valid c := by
  rw [← okCode_iff]; simp

theorem sent_append (a b : List Ev) : sent (a ++ b) = (sent a || sent b) := by simp [sent]

theorem sent_befores (ids : List Nat) : sent (ids.map Ev.before) = false := by
  induction ids with
  | nil => rfl
  | cons i ids ih => exact ih

theorem sent_wire (es : List Ev) : sent es = (wireStatus es).isSome := by
  induction es with
  | nil => rfl
  | cons e es ih =>
    cases e with
    | before i => exact ih
    | header c => rfl
    | body bs => rfl
    | flush => rfl

/-- Once done, the two writers agree. -/
theorem opV_once (w : RW) (o : Op) (h : w.once = true) : w.opV o = w.op o := by
  cases o with
  | write bs n => simp [RW.opV, RW.op, RW.writeV, RW.write, h]
  | writeHeader s => rfl
  | flush => rfl
  | before b => rfl
  | hijack => rfl

theorem op_once (w : RW) (o : Op) (h : w.once = true) : (w.op o).1.once = true := by
  cases o with
  | write bs n => simp [RW.op, RW.write, h, writeBody]
  | writeHeader s => simp only [RW.op, RW.writeHeader]; split <;> exact h
  | flush => exact h
  | before b => exact h
  | hijack => exact h

theorem runOpsV_once (os : List Op) : ∀ w : RW, w.once = true → runOpsV os w = runOps os w := by
  induction os with
  | nil => intro w _; rfl
  | cons o os ih =>
    intro w h
    simp only [runOpsV, runOps, opV_once w o h]
    exact ih _ (op_once w o h)

/-- The first write. -/
theorem firstV (w : RW) (bs : Str) (n : Nat) (hw : w.once = false) : ∃ es,
    (w.opV (.write bs n)).1.once = true ∧ (w.opV (.write bs n)).1.events = w.events ++ es ∧
    ((w.opV (.write bs n)).2 = true ↔ Spec.Refused w.status w.befores w.hijacked (sent w.events)) ∧
    wireStatus es = (if Spec.Refused w.status w.befores w.hijacked (sent w.events) then none else if w.hijacked then some 200
      else some (Spec.code w.status w.befores)) ∧
    bodyBytes es = (if Spec.Refused w.status w.befores w.hijacked (sent w.events) then [] else bs.take n) ∧
    (w.opV (.write bs n)).1.status = (if (Spec.callbacks w.status w.befores.reverse).2 then (Spec.callbacks w.status w.befores.reverse).1
      else Spec.code w.status w.befores) := by
  obtain ⟨ids, h⟩ := callBefore_exact w.befores.reverse { w with once := true }
  simp only at h
  have hcode : Spec.code w.status w.befores = if (Spec.callbacks w.status w.befores.reverse).1 = 0 then 200 else (Spec.callbacks w.status w.befores.reverse).1 := rfl
  have hR : Spec.Refused w.status w.befores w.hijacked (sent w.events) ↔ (Spec.callbacks w.status w.befores.reverse).2 = true ∨
    (w.hijacked = false ∧ sent w.events = false ∧ ¬ Spec.Valid (Spec.code w.status w.befores)) := Iff.rfl
  generalize hcb : Spec.callbacks w.status w.befores.reverse = cb at h hcode hR ⊢
  obtain ⟨c, p⟩ := cb
  simp only [RW.opV, RW.writeV, hw, Bool.false_eq_true, if_false, commitV, h]
  cases p with
  | true =>
    have hr := hR.2 (Or.inl rfl)
    simp only [if_pos hr, hr]
    exact ⟨ids.map Ev.before, trivial, rfl, by simp, by simp [wire_befores], by simp [body_befores], by simp⟩
  | false =>
    simp only [← hcode]
    by_cases hj : w.hijacked = true
    · have hr : ¬ Spec.Refused w.status w.befores true (sent w.events) := by rw [← hj, hR]; simp [hj]
      simp only [if_neg hr, hr, hj, if_true]
      exact ⟨ids.map Ev.before ++ [.body (bs.take n)], rfl, by simp [writeBody], by simp, by simp [wireStatus_append, wire_befores, wireStatus],
        by simp [bodyBytes_append, body_befores, bodyBytes], rfl⟩
    · have hj' : w.hijacked = false := by simpa using hj
      cases hs : sent w.events with
      | true =>
        have hr : ¬ Spec.Refused w.status w.befores false true := by rw [hs, hj'] at hR; rw [hR]; simp
        simp only [if_neg hr, hr, hj', Bool.false_eq_true, if_false, sent_append, sent_befores, Bool.or_false, hs, Bool.not_true, Bool.false_and]
        exact ⟨ids.map Ev.before ++ [.header (Spec.code w.status w.befores)] ++ [.body (bs.take n)], rfl, by simp [writeBody], by simp,
          by simp [wireStatus_append, wire_befores, wireStatus], by simp [bodyBytes_append, body_befores, bodyBytes], rfl⟩
      | false =>
        by_cases hv : Spec.Valid (Spec.code w.status w.befores)
        · have ho := (okCode_iff _).2 hv
          have hr : ¬ Spec.Refused w.status w.befores false false := by rw [hs, hj'] at hR; rw [hR]; simp [hv]
          simp only [if_neg hr, hr, hj', Bool.false_eq_true, if_false, sent_append, sent_befores, Bool.or_false, hs, ho, Bool.not_true, Bool.and_false]
          exact ⟨ids.map Ev.before ++ [.header (Spec.code w.status w.befores)] ++ [.body (bs.take n)], rfl, by simp [writeBody], by simp,
            by simp [wireStatus_append, wire_befores, wireStatus], by simp [bodyBytes_append, body_befores, bodyBytes], rfl⟩
        · have ho := (okCode_false _).2 hv
          have hr : Spec.Refused w.status w.befores false false := Or.inr ⟨rfl, rfl, hv⟩
          simp only [if_pos hr, hr, hj', Bool.false_eq_true, if_false, sent_append, sent_befores, Bool.or_false, hs, ho, Bool.not_false, Bool.and_true, if_true]
          exact ⟨ids.map Ev.before, trivial, rfl, by simp, by simp [wire_befores], by simp [body_befores], by simp⟩

theorem exactV (os : List Op) : ∀ w : RW, w.once = false →
    ∃ es, (runOpsV os w).events = w.events ++ es ∧
      (sent w.events = false → wireStatus es = Spec.wireV w.status w.befores w.hijacked os) ∧
      bodyBytes es = Spec.bodyV w.status w.befores w.hijacked (sent w.events) os ∧
      (runOpsV os w).status = Spec.reportedV w.status w.befores os := by
  induction os with
  | nil => intro w _; exact ⟨[], by simp [runOpsV], fun _ => rfl, rfl, rfl⟩
  | cons o os ih =>
    intro w hw
    cases o with
    | writeHeader s =>
      by_cases h0 : s = 0
      · obtain ⟨es, h1, h2, h3, h4⟩ := ih w hw
        refine ⟨es, ?_, ?_, ?_, ?_⟩
        · simpa [runOpsV, RW.opV, RW.op, RW.writeHeader, h0] using h1
        · simpa [Spec.wireV, h0] using h2
        · simpa [Spec.bodyV, h0] using h3
        · simpa [runOpsV, RW.opV, RW.op, RW.writeHeader, Spec.reportedV, h0] using h4
      · obtain ⟨es, h1, h2, h3, h4⟩ := ih { w with status := s } hw
        refine ⟨es, ?_, ?_, ?_, ?_⟩
        · simpa [runOpsV, RW.opV, RW.op, RW.writeHeader, h0] using h1
        · simpa [Spec.wireV, h0] using h2
        · simpa [Spec.bodyV, h0] using h3
        · simpa [runOpsV, RW.opV, RW.op, RW.writeHeader, Spec.reportedV, h0] using h4
    | write bs n =>
      obtain ⟨es1, g0, g1, _, g2, g3, g4⟩ := firstV w bs n hw
      obtain ⟨es2, h1, h2, h3, h4⟩ := committed os (w.opV (.write bs n)).1 g0
      refine ⟨es1 ++ es2, ?_, ?_, ?_, ?_⟩
      · show (runOpsV os (w.opV (.write bs n)).1).events = _
        rw [runOpsV_once _ _ g0, h1, g1, List.append_assoc]
      · intro hs
        rw [hs] at g2
        rw [wireStatus_append, g2, h2]
        unfold Spec.wireV
        split
        · rfl
        · split <;> rfl
      · rw [bodyBytes_append, g3, h3]; rfl
      · show (runOpsV os (w.opV (.write bs n)).1).status = _
        rw [runOpsV_once _ _ g0, h4, g4]
        unfold Spec.reportedV
        by_cases hl : lastCode os = 0 <;> simp [hl]
    | flush =>
      obtain ⟨es, h1, h2, h3, h4⟩ := ih { w with events := w.events ++ [.flush] } hw
      refine ⟨.flush :: es, ?_, fun _ => rfl, ?_, h4⟩
      · show (runOpsV os { w with events := w.events ++ [.flush] }).events = _
        rw [h1]; simp
      · show bodyBytes es = _
        rw [h3, sent_append]
        show _ = Spec.bodyV w.status w.befores w.hijacked true os
        simp [sent]
    | before b => exact ih { w with befores := w.befores ++ [b] } hw
    | hijack => exact ih { w with hijacked := true } hw

/-- **C120.** The status line, the body and the reported status of every sequence of calls, invalid codes included. -/
theorem C120_wire_status (os : List Op) : wireStatus (runOpsV os newRW).events = Spec.wireV 0 [] false os := by
  obtain ⟨es, h1, h2, _⟩ := exactV os newRW rfl
  rw [h1]
  exact h2 rfl

theorem C120_body (os : List Op) : bodyBytes (runOpsV os newRW).events = Spec.bodyV 0 [] false false os := by
  obtain ⟨es, h1, _, h3, _⟩ := exactV os newRW rfl
  rw [h1]
  exact h3

theorem C120_reported_status (os : List Op) : (runOpsV os newRW).status = Spec.reportedV 0 [] os := by
  obtain ⟨es, _, _, _, h4⟩ := exactV os newRW rfl
  exact h4

theorem wireV_valid (os : List Op) : ∀ (c : Nat) (bs : List BF) (hj : Bool) (k : Nat), Spec.wireV c bs hj os = some k → Spec.Valid k := by
  have h200 : Spec.Valid 200 := by decide
  induction os with
  | nil => intro c bs hj k h; cases h
  | cons o os ih =>
    intro c bs hj k h
    cases o with
    | writeHeader s => exact ih _ _ _ _ h
    | before b => exact ih _ _ _ _ h
    | hijack => exact ih _ _ _ _ h
    | flush => cases h; exact h200
    | write x n =>
      unfold Spec.wireV at h
      split at h
      · split at h
        · cases h; exact h200
        · cases h
      · rename_i hr
        split at h
        · cases h; exact h200
        · rename_i hj'
          cases h
          by_cases hv : Spec.Valid (Spec.code c bs)
          · exact hv
          · exact absurd (Or.inr ⟨by simpa using hj', rfl, hv⟩) hr

/-- **C120.** No sequence of calls makes the client see an invalid status code. -/
theorem C120_client_sees_valid (os : List Op) (c : Nat) (h : wireStatus (runOpsV os newRW).events = some c) : Spec.Valid c := by
  rw [C120_wire_status] at h
  exact wireV_valid os 0 [] false c h

theorem runOpsV_append (a b : List Op) : ∀ w : RW, runOpsV (a ++ b) w = runOpsV b (runOpsV a w) := by
  induction a with
  | nil => intro w; rfl
  | cons o a ih => intro w; exact ih _

/-! ### Agreement with the permissive writer -/

/-- The codes a call mentions are valid (0 is rejected by the wrapper itself). -/
def Spec.opCodes : Op → Prop
  | .writeHeader s => s = 0 ∨ Spec.Valid s
  | .before b => ∀ s, b.status = some s → s = 0 ∨ Spec.Valid s
  | _ => True

def Good (w : RW) : Prop := (w.status = 0 ∨ Spec.Valid w.status) ∧ ∀ b ∈ w.befores, ∀ s, b.status = some s → s = 0 ∨ Spec.Valid s

theorem callBefore_good (bs : List BF) : ∀ w : RW, (∀ b ∈ bs, ∀ s, b.status = some s → s = 0 ∨ Spec.Valid s) → Good w →
    Good (callBefore bs w).1 := by
  induction bs with
  | nil => intro w _ h; exact h
  | cons b bs ih =>
    intro w hb h
    unfold callBefore
    have hb' : ∀ b ∈ bs, ∀ s, b.status = some s → s = 0 ∨ Spec.Valid s := fun b hm => hb b (by simp [hm])
    cases hs : b.status with
    | none =>
      simp only
      split
      · exact h
      · exact ih { w with events := w.events ++ [.before b.id] } hb' h
    | some s =>
      simp only [RW.writeHeader]
      by_cases h0 : s = 0
      · simp only [h0, if_true]; exact h
      · simp only [h0, if_false]
        have hg : Good { w with status := s, events := w.events ++ [.before b.id] } := ⟨hb b (by simp) s hs, h.2⟩
        split
        · exact hg
        · exact ih _ hb' hg

theorem commit_good (w : RW) (h : Good w) : commitV w = commit w ∧ Good (commitV w).1 := by
  have hg := callBefore_good w.befores.reverse { w with once := true } (fun b hb => h.2 b (List.mem_reverse.1 hb)) h
  unfold commitV commit
  generalize callBefore w.befores.reverse { w with once := true } = r at hg ⊢
  obtain ⟨w1, p⟩ := r
  cases p with
  | true => exact ⟨rfl, hg⟩
  | false =>
    simp only at hg ⊢
    have hv : Spec.Valid (if w1.status = 0 then 200 else w1.status) := by
      split
      · decide
      · rcases hg.1 with h0 | hv
        · contradiction
        · exact hv
    have ho := (okCode_iff _).2 hv
    have hg' : ∀ es, Good { w1 with status := if w1.status = 0 then 200 else w1.status, events := es } := fun es => ⟨Or.inr hv, hg.2⟩
    by_cases h0 : w1.status = 0
    · simp only [h0, if_true] at ho hg' ⊢
      by_cases hj : w1.hijacked = true
      · simp only [hj, if_true]
        exact ⟨trivial, hg' w1.events⟩
      · simp only [hj, Bool.false_eq_true, if_false, ho, Bool.not_true, Bool.and_false]
        exact ⟨trivial, hg' (w1.events ++ [.header 200])⟩
    · simp only [h0, if_false] at ho hg' ⊢
      by_cases hj : w1.hijacked = true
      · simp only [hj, if_true]
        exact ⟨by rw [← hj], hg' w1.events⟩
      · simp only [hj, Bool.false_eq_true, if_false, ho, Bool.not_true, Bool.and_false]
        exact ⟨trivial, hg' (w1.events ++ [.header w1.status])⟩

theorem opV_good (w : RW) (o : Op) (h : Good w) (ho : Spec.opCodes o) : w.opV o = w.op o ∧ Good (w.op o).1 := by
  cases o with
  | writeHeader s =>
    refine ⟨rfl, ?_⟩
    simp only [RW.op, RW.writeHeader]
    split
    · exact h
    · exact ⟨ho, h.2⟩
  | write bs n =>
    simp only [RW.opV, RW.op, RW.writeV, RW.write]
    by_cases hw : w.once = true
    · simp only [hw, if_true]; exact ⟨trivial, h⟩
    · simp only [hw, Bool.false_eq_true, if_false]
      obtain ⟨h1, h2⟩ := commit_good w h
      rw [h1] at h2 ⊢
      generalize commit w = r at h2 ⊢
      obtain ⟨w1, p⟩ := r
      cases p with
      | true => exact ⟨rfl, h2⟩
      | false => exact ⟨rfl, h2⟩
  | flush => exact ⟨rfl, h⟩
  | before b =>
    refine ⟨rfl, h.1, ?_⟩
    intro b' hb'
    rcases List.mem_append.1 hb' with hb' | hb'
    · exact h.2 b' hb'
    · rw [List.mem_singleton.1 hb']; exact ho
  | hijack => exact ⟨rfl, h⟩

end Verif.Resp

namespace Verif.Ctx
open Verif.Resp

/-! ### Requests -/

/-- All codes a handler program mentions are valid. -/
def Spec.codesOk : Act → Prop
  | .done => True
  | .panic _ => True
  | .next k => Spec.codesOk k
  | .tryNext k => ∀ r, Spec.codesOk (k r)
  | .op o k => Resp.Spec.opCodes o ∧ Spec.codesOk k
  | .written k => ∀ b, Spec.codesOk (k b)
  | .stat k => ∀ s z, Spec.codesOk (k s z)
  | .eff _ k => Spec.codesOk k
  | .nest n hs k => (∀ i : Fin n, Spec.codesOk (hs i)) ∧ Spec.codesOk k

/-- Two bodies agree on good responses and keep them good. -/
def AgreeB (b1 b2 : Nat → (S → Out) → S → Out) : Prop :=
  ∀ i (n1 n2 : S → Out) s, Good s.rw → (∀ s, Good s.rw → n1 s = n2 s ∧ Good (n2 s).1.rw) →
    b1 i n1 s = b2 i n2 s ∧ Good (b2 i n2 s).1.rw

theorem loop_agree (n : Nat) (b1 b2 : Nat → (S → Out) → S → Out) (hb : AgreeB b1 b2) : ∀ f s, Good s.rw →
    loop n b1 f s = loop n b2 f s ∧ Good (loop n b2 f s).1.rw := by
  intro f
  induction f with
  | zero => intro s h; exact ⟨rfl, h⟩
  | succ f ih =>
    intro s h
    unfold loop
    by_cases hi : s.idx < n
    · rw [if_pos hi, if_pos hi]
      obtain ⟨h1, h2⟩ := hb s.idx (fun s' => loop n b1 f s'.bump) (fun s' => loop n b2 f s'.bump) (s.push (.start s.idx)) h
        (fun s' hs' => ih s'.bump hs')
      rw [h1]
      generalize b2 s.idx (fun s' => loop n b2 f s'.bump) (s.push (.start s.idx)) = r at h2 ⊢
      obtain ⟨s1, v⟩ := r
      cases v with
      | some v => exact ⟨rfl, h2⟩
      | none =>
        simp only
        split
        · exact ⟨rfl, h2⟩
        · exact ih _ h2
    · rw [if_neg hi, if_neg hi]; exact ⟨rfl, h⟩

theorem interp_agree (a : Act) : Spec.codesOk a → ∀ i (n1 n2 : S → Out) s, Good s.rw →
    (∀ s, Good s.rw → n1 s = n2 s ∧ Good (n2 s).1.rw) →
    interpV a i n1 s = interp a i n2 s ∧ Good (interp a i n2 s).1.rw := by
  induction a with
  | done => intro _ i n1 n2 s hs hn; exact ⟨rfl, hs⟩
  | panic v => intro _ i n1 n2 s hs hn; exact ⟨rfl, hs⟩
  | next k ih =>
    intro hc i n1 n2 s hs hn
    obtain ⟨h1, h2⟩ := hn (s.push (.nextBeg i s.rw.written)) hs
    simp only [interpV, interp, h1]
    generalize n2 (s.push (.nextBeg i s.rw.written)) = r at h2 ⊢
    obtain ⟨s1, v⟩ := r
    cases v with
    | none => exact ih hc i n1 n2 _ h2 hn
    | some v => exact ⟨rfl, h2⟩
  | tryNext k ih =>
    intro hc i n1 n2 s hs hn
    obtain ⟨h1, h2⟩ := hn (s.push (.nextBeg i s.rw.written)) hs
    simp only [interpV, interp, h1]
    generalize n2 (s.push (.nextBeg i s.rw.written)) = r at h2 ⊢
    obtain ⟨s1, v⟩ := r
    cases v with
    | none => exact ih _ (hc _) i n1 n2 _ h2 hn
    | some v => exact ih _ (hc _) i n1 n2 _ h2 hn
  | op o k ih =>
    intro hc i n1 n2 s hs hn
    obtain ⟨h1, h2⟩ := opV_good s.rw o hs hc.1
    simp only [interpV, interp, h1]
    generalize s.rw.op o = r at h2 ⊢
    obtain ⟨w, p⟩ := r
    cases p with
    | true => exact ⟨rfl, h2⟩
    | false => exact ih hc.2 i n1 n2 _ h2 hn
  | written k ih => intro hc i n1 n2 s hs hn; exact ih _ (hc _) i n1 n2 s hs hn
  | stat k ih => intro hc i n1 n2 s hs hn; exact ih _ _ (hc _ _) i n1 n2 s hs hn
  | eff e k ih => intro hc i n1 n2 s hs hn; exact ih hc i n1 n2 _ hs hn
  | nest n hs k ihs ih =>
    intro hc i n1 n2 s hs' hn
    simp only [interpV, interp]
    have := loop_agree n (fun j nx s => if h : j < n then interpV (hs ⟨j, h⟩) j nx s else (s, none))
      (fun j nx s => if h : j < n then interp (hs ⟨j, h⟩) j nx s else (s, none)) (by
        intro j m1 m2 t ht hm
        simp only
        by_cases hj : j < n
        · rw [dif_pos hj, dif_pos hj]
          exact ihs ⟨j, hj⟩ (hc.1 _) j m1 m2 t ht hm
        · rw [dif_neg hj, dif_neg hj]
          exact ⟨rfl, ht⟩) n ⟨0, s.rw, []⟩ hs'
    obtain ⟨h1, h2⟩ := this
    rw [h1]
    generalize loop n (fun j nx s => if h : j < n then interp (hs ⟨j, h⟩) j nx s else (s, none)) n ⟨0, s.rw, []⟩ = r at h2 ⊢
    obtain ⟨s1, v⟩ := r
    cases v with
    | none => exact ih hc.2 i n1 n2 _ h2 hn
    | some v => exact ⟨rfl, h2⟩

/-- **C120.** As long as handlers and callbacks only mention valid codes, the server's refusal makes no difference: every
theorem about requests over the permissive writer holds. -/
theorem C120_valid_codes_same (hs : List Act) (h : ∀ a ∈ hs, Spec.codesOk a) : serveV hs = serveHTTP hs := by
  have hrun := loop_agree hs.length (handlerOfV hs) (handlerOf hs) (by
    intro i n1 n2 s hgs hn
    unfold handlerOfV handlerOf
    cases ha : hs[i]? with
    | none => exact ⟨rfl, hgs⟩
    | some a => exact interp_agree a (h a (List.mem_of_getElem? ha)) i n1 n2 s hgs hn) hs.length ⟨0, newRW, []⟩
      ⟨Or.inl rfl, fun b hb => by cases hb⟩
  obtain ⟨h1, h2⟩ := hrun
  unfold serveV serveHTTP runV run
  rw [h1]
  generalize loop hs.length (handlerOf hs) hs.length ⟨0, newRW, []⟩ = r at h2 ⊢
  obtain ⟨s, v⟩ := r
  cases v with
  | some v => rfl
  | none =>
    obtain ⟨h3, _⟩ := opV_good s.rw (.write [] 0) h2 trivial
    simp only [RW.opV, RW.op] at h3
    simp only [h3]
    rfl

/-- The response is only changed by calls on it. -/
def ByOps (w w' : RW) : Prop := ∃ os, w' = runOpsV os w

theorem ByOps.rfl' (w : RW) : ByOps w w := ⟨[], rfl⟩
theorem ByOps.trans {a b c : RW} (h1 : ByOps a b) (h2 : ByOps b c) : ByOps a c := by
  obtain ⟨o1, h1⟩ := h1
  obtain ⟨o2, h2⟩ := h2
  exact ⟨o1 ++ o2, by rw [runOpsV_append, ← h1, h2]⟩

theorem loop_ops (n : Nat) (b : Nat → (S → Out) → S → Out)
    (hb : ∀ i nx s, (∀ s, ByOps s.rw (nx s).1.rw) → ByOps s.rw (b i nx s).1.rw) : ∀ f s, ByOps s.rw (loop n b f s).1.rw := by
  intro f
  induction f with
  | zero => intro s; exact ByOps.rfl' _
  | succ f ih =>
    intro s
    unfold loop
    by_cases hi : s.idx < n
    · rw [if_pos hi]
      have h2 : ByOps s.rw (b s.idx (fun s' => loop n b f s'.bump) (s.push (.start s.idx))).1.rw :=
        hb s.idx (fun s' => loop n b f s'.bump) (s.push (.start s.idx)) (fun s' => ih s'.bump)
      generalize b s.idx (fun s' => loop n b f s'.bump) (s.push (.start s.idx)) = r at h2 ⊢
      obtain ⟨s1, v⟩ := r
      cases v with
      | some v => exact h2
      | none =>
        simp only
        split
        · exact h2
        · exact h2.trans (ih (s1.bump.push (.fin s.idx s1.rw.written)))
    · rw [if_neg hi]; exact ByOps.rfl' _

theorem interp_ops (a : Act) : ∀ i (nx : S → Out) s, (∀ s, ByOps s.rw (nx s).1.rw) → ByOps s.rw (interpV a i nx s).1.rw := by
  induction a with
  | done => intro i nx s _; exact ByOps.rfl' _
  | panic v => intro i nx s _; exact ByOps.rfl' _
  | next k ih =>
    intro i nx s hn
    have h2 : ByOps s.rw (nx (s.push (.nextBeg i s.rw.written))).1.rw := hn (s.push (.nextBeg i s.rw.written))
    simp only [interpV]
    generalize nx (s.push (.nextBeg i s.rw.written)) = r at h2 ⊢
    obtain ⟨s1, v⟩ := r
    cases v with
    | none => exact h2.trans (ih i nx (s1.push (.nextEnd i)) hn)
    | some v => exact h2
  | tryNext k ih =>
    intro i nx s hn
    have h2 : ByOps s.rw (nx (s.push (.nextBeg i s.rw.written))).1.rw := hn (s.push (.nextBeg i s.rw.written))
    simp only [interpV]
    generalize nx (s.push (.nextBeg i s.rw.written)) = r at h2 ⊢
    obtain ⟨s1, v⟩ := r
    cases v with
    | none => exact h2.trans (ih _ i nx (s1.push (.nextEnd i)) hn)
    | some v => exact h2.trans (ih _ i nx (s1.push (.nextRec i v s1.rw)) hn)
  | op o k ih =>
    intro i nx s hn
    have h2 : ByOps s.rw (s.rw.opV o).1 := ⟨[o], rfl⟩
    simp only [interpV]
    generalize s.rw.opV o = r at h2 ⊢
    obtain ⟨w, p⟩ := r
    cases p with
    | true => exact h2
    | false => exact h2.trans (ih i nx { s with rw := w } hn)
  | written k ih => intro i nx s hn; exact ih _ i nx s hn
  | stat k ih => intro i nx s hn; exact ih _ _ i nx s hn
  | eff e k ih => intro i nx s hn; exact ih i nx (s.push (.eff i e)) hn
  | nest n hs k ihs ih =>
    intro i nx s hn
    simp only [interpV]
    have h2 : ByOps s.rw (loop n (fun j nx s => if h : j < n then interpV (hs ⟨j, h⟩) j nx s else (s, none)) n ⟨0, s.rw, []⟩).1.rw :=
      loop_ops n _ (by
        intro j m t hm
        by_cases hj : j < n
        · rw [dif_pos hj]; exact ihs ⟨j, hj⟩ j m t hm
        · rw [dif_neg hj]; exact ByOps.rfl' _) n ⟨0, s.rw, []⟩
    generalize loop n (fun j nx s => if h : j < n then interpV (hs ⟨j, h⟩) j nx s else (s, none)) n ⟨0, s.rw, []⟩ = r at h2 ⊢
    obtain ⟨s1, v⟩ := r
    cases v with
    | none => exact h2.trans (ih i nx { s with rw := s1.rw } hn)
    | some v => exact h2

theorem runV_ops (hs : List Act) (w : RW) : ByOps w (runV hs w).1.rw := by
  unfold runV
  exact loop_ops hs.length (handlerOfV hs) (by
    intro i nx s hn
    unfold handlerOfV
    cases hs[i]? with
    | none => exact ByOps.rfl' _
    | some a => exact interp_ops a i nx s hn) hs.length ⟨0, w, []⟩

theorem serveV_ops (hs : List Act) : ByOps newRW (serveV hs).1 := by
  have h := runV_ops hs newRW
  unfold serveV
  generalize runV hs newRW = r at h ⊢
  obtain ⟨s, v⟩ := r
  cases v with
  | some v => exact h
  | none =>
    have h2 : ByOps s.rw (s.rw.writeV [] 0).1 := ⟨[.write [] 0], rfl⟩
    simp only
    generalize s.rw.writeV [] 0 = r at h2 ⊢
    obtain ⟨w, p⟩ := r
    cases p with
    | true => exact h.trans h2
    | false => exact h.trans h2

/-- **C120.** Whatever the handlers do, the client of a request never sees an invalid code. -/
theorem C120_request_valid (hs : List Act) (c : Nat) (h : Resp.Spec.wireStatus (serveV hs).1.events = some c) : Resp.Spec.Valid c := by
  obtain ⟨os, e⟩ := serveV_ops hs
  rw [e] at h
  exact C120_client_sees_valid os c h

/-- **C120.** A request whose handlers return normally after setting an invalid code, and write nothing (no flush, no
hijacking; callbacks neither set a valid status nor panic): the panic escapes to the server, behind every filter, and the
client gets no response. -/
theorem C120_unanswered (hs : List Act) (hr : (runV hs newRW).2 = none) (ho : (runV hs newRW).1.rw.once = false)
    (hh : (runV hs newRW).1.rw.hijacked = false) (hs' : Resp.Spec.wireStatus (runV hs newRW).1.rw.events = none)
    (hc : ¬ Resp.Spec.Valid (Resp.Spec.code (runV hs newRW).1.rw.status (runV hs newRW).1.rw.befores)) :
    (serveV hs).2 = some (some 0) ∧ Resp.Spec.wireStatus (serveV hs).1.events = none := by
  unfold serveV
  generalize runV hs newRW = r at *
  obtain ⟨s, v⟩ := r
  simp only at hr ho hh hs' hc
  subst hr
  have hsent : sent s.rw.events = false := by rw [sent_wire, hs']; rfl
  obtain ⟨es, g0, g1, g2, g3, _⟩ := firstV s.rw [] 0 ho
  have href : Resp.Spec.Refused s.rw.status s.rw.befores s.rw.hijacked (sent s.rw.events) := Or.inr ⟨hh, hsent, hc⟩
  have hp := g2.2 href
  rw [if_pos href] at g3
  have hw : Resp.Spec.wireStatus (s.rw.opV (.write [] 0)).1.events = none := by rw [g1, wireStatus_append, hs', g3]; rfl
  simp only [RW.opV] at hp hw
  simp only
  generalize s.rw.writeV [] 0 = r at hp hw ⊢
  obtain ⟨w, p⟩ := r
  simp only at hp hw
  subst hp
  exact ⟨rfl, hw⟩

/-- **C120.** Behind the recovery filter, an action that sets an invalid code: if it writes nothing, the panic escapes and
there is no response; if it writes, the client gets 200 with an empty body and nothing escapes. -/
theorem C120_behind_recovery (c : Nat) (h0 : c ≠ 0) (hc : ¬ Resp.Spec.Valid c) (dev : Option Str) (x : Str) (n : Nat) :
    ((serveV [recovery true dev, .op (.writeHeader c) .done]).2 = some (some 0) ∧
      Resp.Spec.wireStatus (serveV [recovery true dev, .op (.writeHeader c) .done]).1.events = none) ∧
    ((serveV [recovery true dev, .op (.writeHeader c) (.op (.write x n) .done)]).2 = none ∧
      Resp.Spec.wireStatus (serveV [recovery true dev, .op (.writeHeader c) (.op (.write x n) .done)]).1.events = some 200 ∧
      Resp.Spec.bodyBytes (serveV [recovery true dev, .op (.writeHeader c) (.op (.write x n) .done)]).1.events = []) := by
  have ho := (okCode_false c).2 hc
  have hw : (⟨c, 0, [], true, false, []⟩ : RW).written = true := by simp [RW.written, h0]
  constructor
  · constructor
    · simp [serveV, runV, loop, handlerOfV, recovery, interpV, S.push, S.bump, RW.opV, RW.op, RW.writeHeader, RW.written, h0, newRW, RW.writeV,
        commitV, callBefore, sent, ho]
    · simp [serveV, runV, loop, handlerOfV, recovery, interpV, S.push, S.bump, RW.opV, RW.op, RW.writeHeader, RW.written, h0, newRW, RW.writeV,
        commitV, callBefore, sent, ho, Resp.Spec.wireStatus]
  · refine ⟨?_, ?_, ?_⟩ <;>
    simp [serveV, runV, loop, handlerOfV, recovery, interpV, S.push, S.bump, RW.opV, RW.op, RW.writeHeader, RW.written, h0, newRW, RW.writeV,
        commitV, callBefore, sent, ho, Resp.Spec.wireStatus, writeBody, Resp.Spec.bodyBytes]

/-- Valid and invalid cases. -/
example : Spec.codesOk (.op (.writeHeader 404) (.op (.before ⟨1, some 500, false⟩) .done)) :=
  ⟨Or.inr (by decide), (by intro s h; cases h; exact Or.inr (by decide)), trivial⟩
example : Spec.codesOk (recovery true (some b!"page")) := by
  intro r
  rcases r with _ | r
  · exact trivial
  · rcases r with _ | r
    · exact trivial
    · intro b
      cases b
      · exact ⟨Or.inr (by decide), trivial, trivial⟩
      · exact trivial
example : (42 : Nat) ≠ 0 ∧ ¬ Resp.Spec.Valid 42 ∧ ¬ Resp.Spec.Valid 1000 ∧ Resp.Spec.Valid 999 ∧ Resp.Spec.Valid 100 := by decide
example : Resp.Spec.wireV 0 [] false [.writeHeader 42, .write b!"x" 1] = none ∧
    Resp.Spec.wireV 0 [] false [.writeHeader 42, .write b!"x" 1, .write b!"y" 1] = some 200 ∧
    Resp.Spec.wireV 0 [] false [.writeHeader 42, .before ⟨1, some 404, false⟩, .write b!"x" 1] = some 404 ∧
    Resp.Spec.bodyV 0 [] false false [.writeHeader 42, .flush, .write b!"x" 1] = b!"x" ∧
    Resp.Spec.reportedV 0 [] [.writeHeader 42, .write b!"x" 1] = 42 := by decide

end Verif.Ctx
