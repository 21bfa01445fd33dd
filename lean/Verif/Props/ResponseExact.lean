import Verif.Props.Response
/-!
# C88: what the client gets, for every sequence of calls on the response
-/
namespace Verif.Resp
open Spec

/-! ## Specification -/

/-- The callbacks, in the order they are called, on a response whose status is `c`: the status after them, and whether one
of them panicked (by itself or by `WriteHeader(0)`); the rest is not called then. -/
def Spec.callbacks (c : Nat) : List BF → Nat × Bool
  | [] => (c, false)
  | b :: bs =>
    if b.status = some 0 then (c, true)
    else if b.panics then (b.status.getD c, true)
    else Spec.callbacks (b.status.getD c) bs

/-- A call that produces output by itself. -/
def Spec.isOut (o : Op) : Bool := match o with | .write _ _ => true | .flush => true | _ => false

/-- The status line the client gets for a sequence of calls, given the status `c` set so far, the callbacks registered so
far and whether the connection is hijacked: 200 if the first output is a flush; at the first write, the status after the
callbacks, 200 if there is none; if a callback panics, no status line is sent by that write and 200 by the next output. On
a hijacked connection the underlying writer is left to answer the body (net/http refuses it). -/
def Spec.wire (c : Nat) (bs : List BF) (hijacked : Bool) : List Op → Option Nat
  | [] => none
  | .flush :: _ => some 200
  | .writeHeader s :: os => Spec.wire (if s = 0 then c else s) bs hijacked os
  | .before b :: os => Spec.wire c (bs ++ [b]) hijacked os
  | .hijack :: os => Spec.wire c bs true os
  | .write _ _ :: os =>
    if (Spec.callbacks c bs.reverse).2 then (if os.any Spec.isOut then some 200 else none)
    else if hijacked then some 200
    else some (if (Spec.callbacks c bs.reverse).1 = 0 then 200 else (Spec.callbacks c bs.reverse).1)

/-- What `Status()` reports after a sequence of calls. -/
def Spec.reported (c : Nat) (bs : List BF) : List Op → Nat
  | [] => c
  | .flush :: os => Spec.reported c bs os
  | .writeHeader s :: os => Spec.reported (if s = 0 then c else s) bs os
  | .before b :: os => Spec.reported c (bs ++ [b]) os
  | .hijack :: os => Spec.reported c bs os
  | .write _ _ :: os =>
    if lastCode os ≠ 0 then lastCode os
    else if (Spec.callbacks c bs.reverse).2 then (Spec.callbacks c bs.reverse).1
    else if (Spec.callbacks c bs.reverse).1 = 0 then 200 else (Spec.callbacks c bs.reverse).1

/-- The bytes accepted by the underlying writer in a sequence of writes. -/
def Spec.accepted (os : List Op) : Str := os.flatMap fun o => match o with | .write bs n => bs.take n | _ => []

/-- The body the client gets: everything accepted, except that the first write sends nothing if a callback panics in it. -/
def Spec.body (c : Nat) (bs : List BF) : List Op → Str
  | [] => []
  | .flush :: os => Spec.body c bs os
  | .writeHeader s :: os => Spec.body (if s = 0 then c else s) bs os
  | .before b :: os => Spec.body c (bs ++ [b]) os
  | .hijack :: os => Spec.body c bs os
  | .write x n :: os => (if (Spec.callbacks c bs.reverse).2 then [] else x.take n) ++ Spec.accepted os

/-! ## Proofs -/

theorem wireStatus_append (a b : List Ev) : wireStatus (a ++ b) = (wireStatus a).or (wireStatus b) := by
  induction a with
  | nil => simp [wireStatus]
  | cons e a ih =>
    cases e with
    | before i => exact ih
    | header c => rfl
    | body bs => rfl
    | flush => rfl

theorem bodyBytes_append (a b : List Ev) : bodyBytes (a ++ b) = bodyBytes a ++ bodyBytes b := by simp [bodyBytes]

theorem callBefore_exact (bs : List BF) : ∀ w : RW, ∃ ids : List Nat,
    callBefore bs w = ({ w with status := (Spec.callbacks w.status bs).1, events := w.events ++ ids.map Ev.before }, (Spec.callbacks w.status bs).2) := by
  induction bs with
  | nil => intro w; exact ⟨[], by simp [callBefore, Spec.callbacks]⟩
  | cons b bs ih =>
    intro w
    unfold callBefore Spec.callbacks
    cases hs : b.status with
    | none =>
      simp only [if_neg (show ¬ (none : Option Nat) = some 0 by simp), Option.getD_none]
      by_cases hp : b.panics = true
      · simp only [hp, if_true]; exact ⟨[b.id], by simp⟩
      · simp only [hp, if_false, Bool.false_eq_true]
        obtain ⟨ids, h⟩ := ih { w with events := w.events ++ [.before b.id] }
        refine ⟨b.id :: ids, ?_⟩
        rw [h]; simp
    | some s =>
      simp only [RW.writeHeader, Option.some.injEq, Option.getD_some]
      by_cases h0 : s = 0
      · simp only [h0, if_true]; exact ⟨[b.id], by simp⟩
      · simp only [h0, if_false]
        by_cases hp : b.panics = true
        · simp only [hp, if_true]; exact ⟨[b.id], by simp⟩
        · simp only [hp, if_false, Bool.false_eq_true]
          obtain ⟨ids, h⟩ := ih { w with status := s, events := w.events ++ [.before b.id] }
          refine ⟨b.id :: ids, ?_⟩
          rw [h]; simp

theorem wire_befores (ids : List Nat) : wireStatus (ids.map Ev.before) = none := by
  induction ids with
  | nil => rfl
  | cons i ids ih => exact ih

theorem body_befores (ids : List Nat) : bodyBytes (ids.map Ev.before) = [] := by
  induction ids with
  | nil => rfl
  | cons i ids ih => exact ih

theorem lastCode_cons (s : Nat) (os : List Op) : lastCode (.writeHeader s :: os) = if lastCode os = 0 then s else lastCode os := by
  have h := (runOps_post (.writeHeader s :: os) { newRW with once := true } rfl)
  have g := (runOps_post os ({ newRW with once := true }.writeHeader s).1 (by unfold RW.writeHeader; split <;> rfl))
  obtain ⟨_, _, _, _, _, h⟩ := h
  obtain ⟨_, _, _, _, _, g⟩ := g
  have e : runOps (.writeHeader s :: os) { newRW with once := true } = runOps os ({ newRW with once := true }.writeHeader s).1 := rfl
  rw [e, g] at h
  by_cases hs : s = 0
  · simp only [RW.writeHeader, hs, if_true, newRW] at h ⊢
    rw [h]; generalize lastCode (.writeHeader 0 :: os) = x
    by_cases hx : x = 0
    · rw [if_pos hx, hx]
    · rw [if_neg hx]
  · simp only [RW.writeHeader, hs, if_false, newRW] at h ⊢
    rw [h]; generalize lastCode (.writeHeader s :: os) = x
    by_cases hx : x = 0
    · rw [if_pos hx, hx]
    · rw [if_neg hx]

/-- After the header is committed. -/
theorem committed (os : List Op) : ∀ w : RW, w.once = true →
    ∃ es, (runOps os w).events = w.events ++ es ∧ wireStatus es = (if os.any Spec.isOut then some 200 else none) ∧
      bodyBytes es = Spec.accepted os ∧ (runOps os w).status = (if lastCode os = 0 then w.status else lastCode os) := by
  induction os with
  | nil => intro w _; exact ⟨[], by simp [runOps, wireStatus, bodyBytes, Spec.accepted, lastCode]⟩
  | cons o os ih =>
    intro w hw
    cases o with
    | writeHeader s =>
      by_cases h0 : s = 0
      · obtain ⟨es, h1, h2, h3, h4⟩ := ih w hw
        refine ⟨es, ?_, h2, h3, ?_⟩
        · simpa [runOps, RW.op, RW.writeHeader, h0] using h1
        · rw [lastCode_cons]; simp only [runOps, RW.op, RW.writeHeader, h0, if_true]; rw [h4]
          by_cases hl : lastCode os = 0 <;> simp [hl]
      · obtain ⟨es, h1, h2, h3, h4⟩ := ih { w with status := s } hw
        refine ⟨es, ?_, h2, h3, ?_⟩
        · simpa [runOps, RW.op, RW.writeHeader, h0] using h1
        · rw [lastCode_cons]; simp only [runOps, RW.op, RW.writeHeader, h0, if_false]; rw [h4]
          by_cases hl : lastCode os = 0 <;> simp [hl, h0]
    | write bs n =>
      obtain ⟨es, h1, h2, h3, h4⟩ := ih (writeBody w bs n) hw
      refine ⟨.body (bs.take n) :: es, ?_, rfl, ?_, ?_⟩
      · simp only [runOps, RW.op, RW.write, hw, if_true]; rw [h1]; simp [writeBody]
      · show bs.take n ++ bodyBytes es = _
        rw [h3]; rfl
      · simp only [runOps, RW.op, RW.write, hw, if_true]; rw [h4]; rfl
    | flush =>
      obtain ⟨es, h1, h2, h3, h4⟩ := ih { w with events := w.events ++ [.flush] } hw
      refine ⟨.flush :: es, ?_, rfl, ?_, ?_⟩
      · simp only [runOps, RW.op]; rw [h1]; simp
      · exact h3
      · exact h4
    | before b => exact ih { w with befores := w.befores ++ [b] } hw
    | hijack => exact ih { w with hijacked := true } hw

/-- The first write. -/
theorem first_exact (w : RW) (bs : Str) (n : Nat) (hw : w.once = false) : ∃ es,
    (w.op (.write bs n)).1.once = true ∧ (w.op (.write bs n)).1.events = w.events ++ es ∧
    wireStatus es = (if (Spec.callbacks w.status w.befores.reverse).2 then none else if w.hijacked then some 200
      else some (if (Spec.callbacks w.status w.befores.reverse).1 = 0 then 200 else (Spec.callbacks w.status w.befores.reverse).1)) ∧
    bodyBytes es = (if (Spec.callbacks w.status w.befores.reverse).2 then [] else bs.take n) ∧
    (w.op (.write bs n)).1.status = (if (Spec.callbacks w.status w.befores.reverse).2 then (Spec.callbacks w.status w.befores.reverse).1
      else if (Spec.callbacks w.status w.befores.reverse).1 = 0 then 200 else (Spec.callbacks w.status w.befores.reverse).1) := by
  obtain ⟨ids, h⟩ := callBefore_exact w.befores.reverse { w with once := true }
  simp only at h
  generalize hcb : Spec.callbacks w.status w.befores.reverse = cb at h ⊢
  obtain ⟨c, p⟩ := cb
  simp only [RW.op, RW.write, hw, Bool.false_eq_true, if_false, commit, h]
  cases p with
  | true =>
    simp only
    exact ⟨ids.map Ev.before, trivial, rfl, by simp [wire_befores], by simp [body_befores], by simp⟩
  | false =>
    simp only [Bool.false_eq_true, if_false]
    by_cases hc : c = 0
    · simp only [hc, if_true]
      by_cases hj : w.hijacked = true
      · simp only [hj, if_true]
        exact ⟨ids.map Ev.before ++ [.body (bs.take n)], rfl, by simp [writeBody], by simp [wireStatus_append, wire_befores, wireStatus],
          by simp [bodyBytes_append, body_befores, bodyBytes], rfl⟩
      · simp only [hj, Bool.false_eq_true, if_false]
        exact ⟨ids.map Ev.before ++ [.header 200] ++ [.body (bs.take n)], rfl, by simp [writeBody],
          by simp [wireStatus_append, wire_befores, wireStatus], by simp [bodyBytes_append, body_befores, bodyBytes], rfl⟩
    · simp only [hc, if_false]
      by_cases hj : w.hijacked = true
      · simp only [hj, if_true]
        exact ⟨ids.map Ev.before ++ [.body (bs.take n)], rfl, by simp [writeBody], by simp [wireStatus_append, wire_befores, wireStatus],
          by simp [bodyBytes_append, body_befores, bodyBytes], rfl⟩
      · simp only [hj, Bool.false_eq_true, if_false]
        exact ⟨ids.map Ev.before ++ [.header c] ++ [.body (bs.take n)], rfl, by simp [writeBody],
          by simp [wireStatus_append, wire_befores, wireStatus], by simp [bodyBytes_append, body_befores, bodyBytes], rfl⟩

theorem exact (os : List Op) : ∀ w : RW, w.once = false →
    ∃ es, (runOps os w).events = w.events ++ es ∧ wireStatus es = Spec.wire w.status w.befores w.hijacked os ∧
      bodyBytes es = Spec.body w.status w.befores os ∧ (runOps os w).status = Spec.reported w.status w.befores os := by
  induction os with
  | nil => intro w _; exact ⟨[], by simp [runOps], rfl, rfl, rfl⟩
  | cons o os ih =>
    intro w hw
    cases o with
    | writeHeader s =>
      by_cases h0 : s = 0
      · obtain ⟨es, h1, h2, h3, h4⟩ := ih w hw
        refine ⟨es, ?_, ?_, ?_, ?_⟩
        · simpa [runOps, RW.op, RW.writeHeader, h0] using h1
        · simpa [Spec.wire, h0] using h2
        · simpa [Spec.body, h0] using h3
        · simpa [runOps, RW.op, RW.writeHeader, Spec.reported, h0] using h4
      · obtain ⟨es, h1, h2, h3, h4⟩ := ih { w with status := s } hw
        refine ⟨es, ?_, ?_, ?_, ?_⟩
        · simpa [runOps, RW.op, RW.writeHeader, h0] using h1
        · simpa [Spec.wire, h0] using h2
        · simpa [Spec.body, h0] using h3
        · simpa [runOps, RW.op, RW.writeHeader, Spec.reported, h0] using h4
    | write bs n =>
      obtain ⟨es1, g0, g1, g2, g3, g4⟩ := first_exact w bs n hw
      obtain ⟨es2, h1, h2, h3, h4⟩ := committed os (w.op (.write bs n)).1 g0
      refine ⟨es1 ++ es2, ?_, ?_, ?_, ?_⟩
      · show (runOps os (w.op (.write bs n)).1).events = _
        rw [h1, g1, List.append_assoc]
      · rw [wireStatus_append, g2, h2]
        unfold Spec.wire
        split
        · rfl
        · split <;> rfl
      · rw [bodyBytes_append, g3, h3]; rfl
      · show (runOps os (w.op (.write bs n)).1).status = _
        rw [h4, g4]
        unfold Spec.reported
        by_cases hl : lastCode os = 0 <;> simp [hl]
    | flush =>
      obtain ⟨es, h1, h2, h3, h4⟩ := ih { w with events := w.events ++ [.flush] } hw
      refine ⟨.flush :: es, ?_, rfl, h3, h4⟩
      simp only [runOps, RW.op]; rw [h1]; simp
    | before b => exact ih { w with befores := w.befores ++ [b] } hw
    | hijack => exact ih { w with hijacked := true } hw

/-- **C88.** For every sequence of calls on a response — writes before and after `WriteHeader`, flushes, callbacks that set
the status or panic, hijacking — the status line, the body and the reported status are those of the specification. -/
theorem C88_wire_status (os : List Op) : wireStatus (runOps os newRW).events = Spec.wire 0 [] false os := by
  obtain ⟨es, h1, h2, _⟩ := exact os newRW rfl
  rw [h1]
  exact h2

theorem C88_body (os : List Op) : bodyBytes (runOps os newRW).events = Spec.body 0 [] os := by
  obtain ⟨es, h1, _, h3, _⟩ := exact os newRW rfl
  rw [h1]
  exact h3

theorem C88_reported_status (os : List Op) : (runOps os newRW).status = Spec.reported 0 [] os := by
  obtain ⟨es, _, _, _, h4⟩ := exact os newRW rfl
  exact h4

/-- **C88.** The ordinary case: callbacks set no status and do not panic, nothing is flushed or hijacked; then the status is
the last one set before the first write, 200 by default, and the body is everything written. -/
theorem C88_plain (pre post : List Op) (x : Str) (n : Nat) (hpre : ∀ o ∈ pre, Spec.isOut o = false ∧ o.isHijack = false)
    (hb : ∀ b ∈ registered pre, b.status = none ∧ b.panics = false) :
    wireStatus (runOps (pre ++ .write x n :: post) newRW).events = some (if lastCode pre = 0 then 200 else lastCode pre) ∧
    bodyBytes (runOps (pre ++ .write x n :: post) newRW).events = Spec.accepted (.write x n :: post) := by
  rw [C88_wire_status, C88_body]
  have hcb : ∀ (bs : List BF) (c : Nat), (∀ b ∈ bs, b.status = none ∧ b.panics = false) → Spec.callbacks c bs = (c, false) := by
    intro bs
    induction bs with
    | nil => intro c _; rfl
    | cons b bs ih =>
      intro c h
      obtain ⟨h1, h2⟩ := h b (by simp)
      unfold Spec.callbacks
      rw [h1, h2]
      exact ih c (fun b hb => h b (by simp [hb]))
  have key : ∀ (pre : List Op) (c : Nat) (bs : List BF), (∀ o ∈ pre, Spec.isOut o = false ∧ o.isHijack = false) →
      (∀ b ∈ bs ++ registered pre, b.status = none ∧ b.panics = false) →
      Spec.wire c bs false (pre ++ .write x n :: post) =
        some (if lastCode pre = 0 then (if c = 0 then 200 else c) else lastCode pre) ∧
      Spec.body c bs (pre ++ .write x n :: post) = Spec.accepted (.write x n :: post) := by
    intro pre
    induction pre with
    | nil =>
      intro c bs _ h
      have hc := hcb bs.reverse c (fun b hb => h b (by simp [List.mem_reverse.1 hb]))
      simp only [List.nil_append, Spec.wire, Spec.body, hc]
      exact ⟨rfl, rfl⟩
    | cons o pre ih =>
      intro c bs h1 h2
      have h1' : ∀ o ∈ pre, Spec.isOut o = false ∧ o.isHijack = false := fun o ho => h1 o (by simp [ho])
      cases o with
      | write y m => have := (h1 _ (List.mem_cons_self ..)).1; cases this
      | flush => have := (h1 _ (List.mem_cons_self ..)).1; cases this
      | hijack => have := (h1 _ (List.mem_cons_self ..)).2; cases this
      | writeHeader s =>
        have := ih (if s = 0 then c else s) bs h1' h2
        simp only [List.cons_append, Spec.wire, Spec.body]
        rw [this.1, lastCode_cons]
        refine ⟨?_, this.2⟩
        by_cases hl : lastCode pre = 0
        · by_cases hs : s = 0 <;> simp [hl, hs]
        · simp [hl]
      | before b =>
        have := ih c (bs ++ [b]) h1' (by
          intro b' hb'
          refine h2 b' ?_
          have : registered (.before b :: pre) = b :: registered pre := rfl
          rw [this]
          simpa using hb')
        exact this
  exact key pre 0 [] hpre (by simpa using hb)

/-- A flush before the status is set, a late `WriteHeader`, a callback that panics: 200, whatever `Status()` says. -/
example : Spec.wire 0 [] false [.flush, .writeHeader 404, .write b!"x" 1] = some 200 := by decide
example : Spec.wire 0 [] false [.write b!"x" 1, .writeHeader 404] = some 200 ∧ Spec.reported 0 [] [.write b!"x" 1, .writeHeader 404] = 404 := by decide
example : Spec.wire 0 [] false [.writeHeader 404, .before ⟨1, some 500, true⟩, .write b!"x" 1] = none ∧
    Spec.wire 0 [] false [.writeHeader 404, .before ⟨1, some 500, true⟩, .write b!"x" 1, .write b!"y" 1] = some 200 ∧
    Spec.reported 0 [] [.writeHeader 404, .before ⟨1, some 500, true⟩, .write b!"x" 1] = 500 := by decide
example : Spec.wire 0 [] false [.before ⟨1, some 500, false⟩, .before ⟨2, some 501, false⟩, .writeHeader 404, .write b!"x" 1] = some 500 := by decide
example : (∀ o ∈ [Op.writeHeader 201, .before ⟨1, none, false⟩], Spec.isOut o = false ∧ o.isHijack = false) ∧
    ∀ b ∈ registered [Op.writeHeader 201, .before ⟨1, none, false⟩], b.status = none ∧ b.panics = false := by decide

end Verif.Resp
