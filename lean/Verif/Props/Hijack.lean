import Verif.Props.ContextExact
import Verif.Props.Classic
import Verif.Props.ResponseExact
/-!
# C145: connections taken over by a handler (`Hijack`, response.go:98-111, 63-75)
-/
namespace Verif.App
open Verif.Resp Verif.Ctx Verif.Router

/-! ## Nothing of the framework's own on a connection that was taken over -/

theorem callBefore_heads : ∀ (bs : List BF) (w : RW),
    Resp.Spec.headers (callBefore bs w).1.events = Resp.Spec.headers w.events ∧ (callBefore bs w).1.hijacked = w.hijacked
  | [], w => ⟨rfl, rfl⟩
  | b :: bs, w => by
    have e0 : Resp.Spec.headers (w.events ++ [Ev.before b.id]) = Resp.Spec.headers w.events := by
      simp [Resp.Spec.headers, List.filter_append]
    simp only [callBefore]
    cases hs : b.status with
    | none =>
      simp only []
      split
      · exact ⟨e0, rfl⟩
      · obtain ⟨h1, h2⟩ := callBefore_heads bs { w with events := w.events ++ [Ev.before b.id] }
        exact ⟨h1.trans e0, h2⟩
    | some s =>
      simp only [RW.writeHeader]
      split
      · rename_i heq
        split at heq
        · cases heq; exact ⟨e0, rfl⟩
        · cases heq
      · rename_i heq
        split at heq
        · cases heq
        · cases heq
          split
          · exact ⟨e0, rfl⟩
          · obtain ⟨h1, h2⟩ := callBefore_heads bs { w with events := w.events ++ [Ev.before b.id], status := s }
            exact ⟨h1.trans e0, h2⟩

theorem op_hijacked (o : Op) (w : RW) (hw : w.hijacked = true) :
    Resp.Spec.headers (w.op o).1.events = Resp.Spec.headers w.events ∧ (w.op o).1.hijacked = true := by
  cases o with
  | writeHeader s => simp only [RW.op, RW.writeHeader]; split <;> exact ⟨rfl, hw⟩
  | flush => exact ⟨by simp [RW.op, Resp.Spec.headers, List.filter_append], hw⟩
  | before b => exact ⟨rfl, hw⟩
  | hijack => exact ⟨rfl, rfl⟩
  | write bs n =>
    simp only [RW.op, RW.write]
    split
    · exact ⟨by simp [writeBody, Resp.Spec.headers, List.filter_append], hw⟩
    · obtain ⟨h1, h2⟩ := callBefore_heads w.befores.reverse { w with once := true }
      simp only [commit]
      cases hc : callBefore w.befores.reverse { w with once := true } with
      | mk w1 p =>
        rw [hc] at h1 h2
        simp only at h1 h2
        rw [hw] at h2
        cases p with
        | true => exact ⟨h1, h2⟩
        | false =>
          have h3 : (if w1.status = 0 then { w1 with status := 200 } else w1).hijacked = true := by split <;> exact h2
          have h4 : (if w1.status = 0 then { w1 with status := 200 } else w1).events = w1.events := by split <;> rfl
          simp only [h3, if_true]
          exact ⟨by simp [writeBody, h4, Resp.Spec.headers, List.filter_append]; simpa [Resp.Spec.headers] using h1, h3⟩

theorem ops_hijacked : ∀ (os : List Op) (w : RW), w.hijacked = true →
    Resp.Spec.headers (runOps os w).events = Resp.Spec.headers w.events ∧ (runOps os w).hijacked = true
  | [], w, h => ⟨rfl, h⟩
  | o :: os, w, h => by
    obtain ⟨h1, h2⟩ := op_hijacked o w h
    obtain ⟨h3, h4⟩ := ops_hijacked os _ h2
    exact ⟨h3.trans h1, h4⟩

/-- C145: after a handler has taken the connection over no call sends a status line, whatever handlers run. -/
theorem C145_no_status_line (hs : List Act) (w : RW) (h : w.hijacked = true) :
    Resp.Spec.headers (run hs w).1.rw.events = Resp.Spec.headers w.events := by
  obtain ⟨os, ho⟩ := (run_tr hs w).ops_of
  rw [ho]
  exact (ops_hijacked os w h).1

/-! ## A taken over connection does not end the request -/

/-- A handler that takes the connection over and returns is invisible to the chain: the handlers after it run as if it were not there. -/
theorem outcome_hijack (ts : List Act) (w : RW) (hw : w.written = false) :
    Spec.outcome (.op .hijack .done :: ts) w = Spec.outcome ts { w with hijacked := true } := by
  unfold Spec.outcome
  rw [run_cons]
  have e : interp (.op .hijack .done) 0 (fun s' => loop (Act.op .hijack .done :: ts).length (handlerOf (Act.op .hijack .done :: ts)) ts.length s'.bump)
      ⟨0, w, [.start 0]⟩ = (⟨0, { w with hijacked := true }, [.start 0]⟩, none) := rfl
  rw [e]
  simp only
  rw [if_neg (by show ¬ (RW.written { w with hijacked := true } = true); simpa [RW.written] using hw)]
  have := tail_run (.op .hijack .done) ts (S.push (S.bump ⟨0, { w with hijacked := true }, [.start 0]⟩)
    (.fin 0 (RW.written { w with hijacked := true }))) rfl
  have e2 : (S.push (S.bump ⟨0, { w with hijacked := true }, [.start 0]⟩) (.fin 0 (RW.written { w with hijacked := true }))).rw =
    { w with hijacked := true } := rfl
  rw [e2] at this
  rw [this.1, this.2.1]

/-- C145: a filter that takes the connection over and returns does not end the request: the filters and the action behind it run on. -/
theorem C145_chain_goes_on (qs ts : List Act) (hq : ∀ q ∈ qs, Spec.PassOnce true q) :
    Spec.outcome (qs ++ .op .hijack .done :: ts) newRW = Spec.outcome ts { newRW with hijacked := true } := by
  rw [(once_append qs _ newRW hq rfl).1]
  exact outcome_hijack ts newRW rfl

/-- The claim one would expect: a handler that takes the connection over is the last one to run. False of the code. -/
theorem C145_ends_request_violated :
    ¬ ∀ (hs : List Act) (i : Nat), CEv.start (i + 1) ∉ (run (.op .hijack .done :: hs) newRW).1.tr := by
  intro h
  exact h [.eff 7 .done] 0 (by decide +kernel)

/-- C145: a handler that takes the connection over and sets a status is the last one: nothing behind it runs, and all that
`ServeHTTP` still does with the writer is one `Write` of no bytes. -/
theorem C145_with_status (qs ts : List Act) (hq : ∀ q ∈ qs, Spec.PassOnce true q) (code : Nat) (hc : code ≠ 0) :
    serveHTTP (qs ++ .op .hijack (.op (.writeHeader code) .done) :: ts) =
      ({ status := code, size := 0, befores := [], once := true, hijacked := true, events := [.body []] }, none) := by
  have h : Spec.outcome (qs ++ .op .hijack (.op (.writeHeader code) .done) :: ts) newRW =
      ({ newRW with hijacked := true, status := code }, none) := by
    rw [(once_append qs _ newRW hq rfl).1]
    unfold Spec.outcome
    rw [run_cons]
    have e : interp (.op .hijack (.op (.writeHeader code) .done)) 0 (fun s' => loop (Act.op .hijack (.op (.writeHeader code) .done) :: ts).length
        (handlerOf (Act.op .hijack (.op (.writeHeader code) .done) :: ts)) ts.length s'.bump)
        ⟨0, newRW, [.start 0]⟩ = (⟨0, { newRW with hijacked := true, status := code }, [.start 0]⟩, none) := by
      simp [interp, RW.op, RW.writeHeader, hc]
    rw [e]
    simp only
    rw [if_pos (by simp [RW.written, hc])]
    rfl
  unfold Spec.outcome at h
  unfold serveHTTP
  cases hr : run (qs ++ .op .hijack (.op (.writeHeader code) .done) :: ts) newRW with
  | mk s r =>
    rw [hr] at h
    simp only [Prod.mk.injEq] at h
    obtain ⟨h1, rfl⟩ := h
    simp only [h1]
    simp [RW.write, commit, callBefore, newRW, hc, writeBody]

/-- C145: from an application whose filters leave the response alone, an action that takes the connection over sends no status line,
whatever it does afterwards. -/
theorem C145_action (prog : Filter → Act) (act : RouteAction → Str → Params → Str → Act) (s : Strip) (method path : Str)
    {r : Route} {ra : RouteAction} {f : Str} {ps : Params} {info : Str} {k : Act}
    (hh : handle s.root method path = .dispatch r ra f ps info)
    (hg : ∀ f ∈ s.filters, Spec.PassThrough (prog f)) (hr : ∀ f ∈ ra.filters, Spec.PassThrough (prog f))
    (ha : act ra f ps info = .op .hijack k) :
    Resp.Spec.headers (serve prog act s method path).1.events = 0 ∧ (serve prog act s method path).1.hijacked = true := by
  rw [C82_action prog act s method path hh hg hr, ha]
  have key : ∃ os, (run [.op .hijack k] newRW).1.rw = runOps os { newRW with hijacked := true } := by
    have h1 := (run_tr [.op .hijack k] newRW).ops_of
    have e : (run [.op .hijack k] newRW).1.rw = (run [k] { newRW with hijacked := true }).1.rw := rfl
    rw [e]
    exact (run_tr [k] { newRW with hijacked := true }).ops_of
  obtain ⟨os, ho⟩ := key
  obtain ⟨h1, h2⟩ := ops_hijacked os { newRW with hijacked := true } rfl
  rw [← ho] at h1 h2
  unfold serveHTTP
  cases hx : run [.op .hijack k] newRW with
  | mk t o =>
    rw [hx] at h1 h2
    cases o with
    | some v => exact ⟨h1, h2⟩
    | none =>
      obtain ⟨h3, h4⟩ := op_hijacked (.write [] 0) t.rw h2
      simp only [RW.op] at h3 h4
      simp only
      cases hy : t.rw.write [] 0 with
      | mk w p =>
        rw [hy] at h3 h4
        cases p <;> exact ⟨h3.trans h1, h4⟩

/-- A filter that takes the connection over, then an action that answers: its status is not sent, its body goes to the writer of the
connection taken over; and the same with a callback. -/
example : (serveHTTP [.op .hijack .done, .op (.writeHeader 201) (.op (.write b!"x" 0) .done)]).1.events = [.body [], .body []] ∧
    (serveHTTP [.op (.before ⟨1, none, false⟩) .done, .op .hijack (.op (.writeHeader 101) .done), .eff 3 .done]).1.events =
      [.before 1, .body []] := by decide

end Verif.App
