import Verif.Props.Classic
/-!
# C99, C100: the chain and the recovery filter, exactly
-/
namespace Verif.Ctx
open Verif.Resp

/-! ## Which handler is started when -/

/-- Where a context is: how many times it has moved on, and whether a handler has to be started now. -/
structure Spec.Pos where
  moved : Nat
  due : Bool
deriving DecidableEq, Repr

/-- One event of a context with `n` handlers. The context moves on when `Next` is called and when a handler returns. After
each move a handler is due, the one whose number is the number of moves, unless there is none left, or the move was a return
and the response is written. When a handler is due nothing else may happen before its start, and no handler starts
otherwise. -/
def Spec.posStep (n : Nat) (p : Spec.Pos) : CEv → Option Spec.Pos
  | .start i => if p.due = true ∧ i = p.moved then some ⟨p.moved, false⟩ else none
  | .nextBeg _ _ => if p.due then none else some ⟨p.moved + 1, decide (p.moved + 1 < n)⟩
  | .fin _ w => if p.due then none else some ⟨p.moved + 1, !w && decide (p.moved + 1 < n)⟩
  | .nextEnd _ => if p.due then none else some p
  | .nextRec _ _ _ => if p.due then none else some p
  | .eff _ _ => if p.due then none else some p

/-- A sequence of events. -/
def Spec.posRun (n : Nat) : Spec.Pos → List CEv → Option Spec.Pos
  | p, [] => some p
  | p, e :: t => match Spec.posStep n p e with
    | some p => Spec.posRun n p t
    | none => none

theorem posRun_append (n : Nat) (t u : List CEv) : ∀ p q, Spec.posRun n p t = some q → Spec.posRun n p (t ++ u) = Spec.posRun n q u := by
  induction t with
  | nil => intro p q h; cases h; rfl
  | cons e t ih =>
    intro p q h
    simp only [Spec.posRun, List.cons_append] at h ⊢
    cases hs : Spec.posStep n p e with
    | none => rw [hs] at h; cases h
    | some p' => rw [hs] at h; exact ih p' q h

theorem Tr.pos {n m j w t j' w' r} (h : Tr n m j w t j' w' r) :
    Spec.posRun n ⟨j, match m with | none => decide (j < n) | some _ => false⟩ t = some ⟨j', false⟩ := by
  induction h with
  | done => rfl
  | panic => rfl
  | @next i j w t1 j1 w1 t2 j2 w2 r h1 h2 ih1 ih2 =>
    simp only [List.cons_append, Spec.posRun, Spec.posStep, Bool.false_eq_true, if_false]
    rw [posRun_append n _ _ _ _ ih1]
    exact ih2
  | nextPanic h1 ih1 =>
    simp only [Spec.posRun, Spec.posStep, Bool.false_eq_true, if_false]
    exact ih1
  | @nextRec i j w t1 j1 w1 v t2 j2 w2 r h1 h2 ih1 ih2 =>
    simp only [List.cons_append, Spec.posRun, Spec.posStep, Bool.false_eq_true, if_false]
    rw [posRun_append n _ _ _ _ ih1]
    exact ih2
  | ops _ _ ih => exact ih
  | eff _ ih =>
    simp only [Spec.posRun, Spec.posStep, Bool.false_eq_true, if_false]
    exact ih
  | @stop j w hn => simp [Spec.posRun]; omega
  | @step j w t1 m w1 t2 k w2 r hj h1 hw1 h2 ih1 ih2 =>
    simp only [List.cons_append, Spec.posRun, Spec.posStep, hj, decide_true, and_self, if_true]
    rw [posRun_append n _ _ _ _ ih1]
    exact ih2
  | @stepWritten j w t1 m w1 hj h1 hw1 ih1 =>
    simp only [List.cons_append, Spec.posRun, Spec.posStep, hj, decide_true, and_self, if_true]
    rw [posRun_append n _ _ _ _ ih1]
    rfl
  | stepPanic hj h1 ih1 =>
    simp only [Spec.posRun, Spec.posStep, hj, decide_true, and_self, if_true]
    exact ih1

/-- **C100.** In every run of every chain, whatever the handlers do (panics and nested contexts included), handlers are
started exactly when the rule of `Spec.posStep` says, and at the end none is due. -/
theorem C100_chain_position (hs : List Act) (rw : RW) :
    ∃ k, Spec.posRun hs.length ⟨0, decide (0 < hs.length)⟩ (run hs rw).1.tr = some ⟨k, false⟩ := by
  exact ⟨_, (run_tr hs rw).pos⟩

/-- The moves in a sequence of events: calls of `Next` and returns of handlers. -/
def Spec.moves (t : List CEv) : Nat := (t.filter fun e => match e with | .nextBeg _ _ => true | .fin _ _ => true | _ => false).length

theorem posRun_moved (n : Nat) (t : List CEv) : ∀ p q, Spec.posRun n p t = some q → q.moved = p.moved + Spec.moves t := by
  induction t with
  | nil => intro p q h; cases h; rfl
  | cons e t ih =>
    intro p q h
    simp only [Spec.posRun] at h
    cases hs : Spec.posStep n p e with
    | none => rw [hs] at h; cases h
    | some p' =>
      rw [hs] at h
      rw [ih p' q h]
      cases e <;> simp only [Spec.posStep] at hs <;> split at hs <;> cases hs <;> simp [Spec.moves] <;> omega

theorem posRun_split (n : Nat) (t u : List CEv) : ∀ p q, Spec.posRun n p (t ++ u) = some q → ∃ r, Spec.posRun n p t = some r ∧ Spec.posRun n r u = some q := by
  induction t with
  | nil => intro p q h; exact ⟨p, rfl, h⟩
  | cons e t ih =>
    intro p q h
    simp only [Spec.posRun, List.cons_append] at h ⊢
    cases hs : Spec.posStep n p e with
    | none => rw [hs] at h; cases h
    | some p' => rw [hs] at h; exact ih p' q h

/-- **C100 (number).** A handler is started when as many moves have been made as its number. -/
theorem C100_started_number (hs : List Act) (rw : RW) (a b : List CEv) (i : Nat) (h : (run hs rw).1.tr = a ++ .start i :: b) :
    i = Spec.moves a := by
  obtain ⟨k, hk⟩ := C100_chain_position hs rw
  rw [h] at hk
  obtain ⟨r, h1, h2⟩ := posRun_split _ _ _ _ _ hk
  simp only [Spec.posRun, Spec.posStep] at h2
  have hm := posRun_moved _ _ _ _ h1
  by_cases hc : r.due = true ∧ i = r.moved
  · simpa [hc.2] using hm
  · rw [if_neg hc] at h2; cases h2

/-- **C100 (skipped).** A handler is skipped exactly if a move is made in its stead that starts nothing: handler `i` of the
chain is started if and only if some event makes the move number `i` (the start of the request for 0) and it is not a return
with a written response. -/
theorem C100_started_iff (hs : List Act) (rw : RW) (i : Nat) (hi : i < hs.length) :
    CEv.start i ∈ (run hs rw).1.tr ↔
      (i = 0 ∨ ∃ a e b, (run hs rw).1.tr = a ++ e :: b ∧ Spec.moves a + 1 = i ∧
        ((∃ k w, e = .nextBeg k w) ∨ ∃ k, e = .fin k false)) := by
  obtain ⟨k, hk⟩ := C100_chain_position hs rw
  constructor
  · intro hm
    obtain ⟨a, b, hab⟩ := List.append_of_mem hm
    have hn := C100_started_number hs rw a b i hab
    by_cases h0 : i = 0
    · exact .inl h0
    · right
      -- the last event before the start is the move
      rcases List.eq_nil_or_concat a with rfl | ⟨a', e, rfl⟩
      · exact absurd hn (by simpa [Spec.moves] using h0)
      · rw [hab] at hk
        obtain ⟨r, h1, h2⟩ := posRun_split _ _ _ _ _ hk
        rw [List.concat_eq_append] at h1
        obtain ⟨r', h3, h4⟩ := posRun_split _ _ _ _ _ h1
        have hdue : r.due = true := by
          simp only [Spec.posRun, Spec.posStep] at h2
          by_cases hc : r.due = true ∧ i = r.moved
          · exact hc.1
          · rw [if_neg hc] at h2; cases h2
        refine ⟨a', e, .start i :: b, by rw [hab]; simp, ?_, ?_⟩
        · simp only [Spec.posRun] at h4
          cases hs4 : Spec.posStep hs.length r' e with
          | none => rw [hs4] at h4; cases h4
          | some q =>
            rw [hs4] at h4
            cases h4
            cases e <;> simp only [Spec.posStep] at hs4 <;> split at hs4 <;> cases hs4 <;>
              first
              | (rename_i hd; simp [Spec.moves] at hn ⊢; omega)
              | (rename_i hd; exact absurd hdue (by simpa using hd))
              | simp at hdue
        · simp only [Spec.posRun] at h4
          cases hs4 : Spec.posStep hs.length r' e with
          | none => rw [hs4] at h4; cases h4
          | some q =>
            rw [hs4] at h4
            cases h4
            cases e with
            | nextBeg k w => exact .inl ⟨k, w, rfl⟩
            | fin k w =>
              cases w with
              | false => exact .inr ⟨k, rfl⟩
              | true =>
                simp only [Spec.posStep] at hs4
                split at hs4 <;> cases hs4
                simp at hdue
            | _ =>
              simp only [Spec.posStep] at hs4
              split at hs4
              · cases hs4 <;> simp_all
              · cases hs4 <;> simp_all
  · intro h
    have due : ∀ (r : Spec.Pos) (u : List CEv), r.due = true → Spec.posRun hs.length r u = some ⟨k, false⟩ → CEv.start r.moved ∈ u := by
      intro r u hr hu
      cases u with
      | nil => cases hu; cases hr
      | cons e u =>
        simp only [Spec.posRun] at hu
        cases e with
        | start x =>
          simp only [Spec.posStep] at hu
          by_cases hc : r.due = true ∧ x = r.moved
          · rw [hc.2]; simp
          · rw [if_neg hc] at hu; cases hu
        | _ => simp [Spec.posStep, hr] at hu
    rcases h with rfl | ⟨a, e, b, hab, hn, he⟩
    · exact due _ _ (by simpa using hi) hk
    · rw [hab] at hk
      obtain ⟨r, h1, h2⟩ := posRun_split _ _ _ _ _ hk
      have hm := posRun_moved _ _ _ _ h1
      simp only [Spec.posRun] at h2
      cases hs2 : Spec.posStep hs.length r e with
      | none => rw [hs2] at h2; cases h2
      | some q =>
        rw [hs2] at h2
        have hq : q.moved = i ∧ q.due = true := by
          rcases he with ⟨k, w, rfl⟩ | ⟨k, rfl⟩ <;>
          · simp only [Spec.posStep] at hs2
            split at hs2
            · cases hs2
            · cases hs2
              simp only at hm ⊢
              refine ⟨by omega, ?_⟩
              simp; omega
        have := due q b hq.2 h2
        rw [hq.1] at this
        rw [hab]
        simp [this]

/-- The skipped filter of `C13_action_after_filters_violated`: a move is made by the return of the handler that wrote. -/
example : ∃ a b, (run [.next (.next .done), .op (.write b!"x" 1) .done, .eff 7 .done, .eff 9 .done] newRW).1.tr = a ++ .fin 1 true :: b ∧
    Spec.moves a + 1 = 2 ∧ CEv.start 2 ∉ (run [.next (.next .done), .op (.write b!"x" 1) .done, .eff 7 .done, .eff 9 .done] newRW).1.tr :=
  ⟨[.start 0, .nextBeg 0 false, .start 1], [.nextEnd 0, .nextBeg 0 true, .start 3, .eff 3 9, .fin 3 true, .nextEnd 0, .fin 0 true], by decide, by decide, by decide⟩

end Verif.Ctx

namespace Verif.App
open Verif.Resp Verif.Ctx

/-! ## The recovery filter -/

/-- The handlers of a chain that were not started. -/
def Spec.notStarted (ts : List Act) (w : RW) : List Act := ts.drop (Ctx.Spec.starts (run ts w).1.tr).length

/-- What recovery in front of a chain makes of what the chain does on its own. -/
def Spec.withRecovery (lg : Bool) (dev : Option Str) (ts : List Act) (w : RW) : RW × Option PVal :=
  match (Spec.outcome ts w).2 with
  -- no panic: as without recovery
  | none => Spec.outcome ts w
  | some v =>
    -- something was written: it stays as it is
    if (Spec.outcome ts w).1.written then ((Spec.outcome ts w).1, none)
    -- `panic(nil)`, or no logger: the handlers not started yet are run, without protection
    else if v = none ∨ lg = false then Spec.outcome (Spec.notStarted ts w) (Spec.outcome ts w).1
    -- otherwise 500, in development mode with the error page
    else match dev with
      | none => ({ (Spec.outcome ts w).1 with status := 500 }, none)
      | some page => Spec.perform [.write page page.length] false { (Spec.outcome ts w).1 with status := 500 }

theorem notStarted_eq (ts : List Act) (w : RW) (hw : (run ts w).1.rw.written = false) :
    Spec.notStarted ts w = ts.drop ((run ts w).1.idx + 1) := by
  have htr := run_tr ts w
  have nobeg : ∀ {n m j w t j' w' r}, Tr n m j w t j' w' r → w'.written = false →
      ∀ k, CEv.nextBeg k true ∉ t := by
    intro n m j w t j' w' r h
    induction h with
    | done => simp
    | panic => simp
    | next h1 h2 ih1 ih2 =>
      intro hw k
      have hw1 := Bool.eq_false_iff.2 (fun h => Bool.eq_false_iff.1 hw (h2.written_mono h))
      have hw0 := Bool.eq_false_iff.2 (fun h => Bool.eq_false_iff.1 hw1 (h1.written_mono h))
      simp [ih1 hw1 k, ih2 hw k, hw0]
    | nextPanic h1 ih1 =>
      intro hw k
      have hw0 := Bool.eq_false_iff.2 (fun h => Bool.eq_false_iff.1 hw (h1.written_mono h))
      simp [ih1 hw k, hw0]
    | nextRec h1 h2 ih1 ih2 =>
      intro hw k
      have hw1 := Bool.eq_false_iff.2 (fun h => Bool.eq_false_iff.1 hw (h2.written_mono h))
      have hw0 := Bool.eq_false_iff.2 (fun h => Bool.eq_false_iff.1 hw1 (h1.written_mono h))
      simp [ih1 hw1 k, ih2 hw k, hw0]
    | ops _ _ ih => exact ih
    | eff _ ih => intro hw k; simp [ih hw k]
    | stop => simp
    | step _ _ hw1 _ ih1 ih2 => intro hw k; simp [ih1 hw1 k, ih2 hw k]
    | stepWritten _ _ hw1 ih1 => intro hw; rw [hw1] at hw; cases hw
    | stepPanic _ _ ih1 => intro hw k; simp [ih1 hw k]
  have hno : Ctx.Spec.NoLateReNext (run ts w).1.tr := by
    intro a b i w he hm
    exact nobeg htr hw i (by rw [he]; simp [hm])
  obtain ⟨k, ha, hinv⟩ := htr.contig hno 0 rfl
  unfold Spec.notStarted
  rw [show Ctx.Spec.starts (run ts w).1.tr = List.range' 0 k from ha]
  rw [List.length_range']
  rcases hinv with h | h | h
  · rw [show k = (run ts w).1.idx + 1 by omega]
  · rw [List.drop_eq_nil_of_le (by omega), List.drop_eq_nil_of_le (by omega)]
  · rw [hw] at h; cases h

/-- **C99.** What a request with the recovery filter in front does to the response, and the panic that escapes, is
`Spec.withRecovery` of what the rest of the chain does alone: for every chain, every panic value, with and without logger, in
both modes, whatever callbacks are registered. -/
theorem C99_recovery_exact (lg : Bool) (dev : Option Str) (ts : List Act) (w : RW) :
    Spec.outcome (recovery lg dev :: ts) w = Spec.withRecovery lg dev ts w := by
  have := tail_run (recovery lg dev) ts (S.bump (S.push ⟨0, w, [.start 0]⟩ (.nextBeg 0 w.written))) rfl
  have e : (S.bump (S.push ⟨0, w, [.start 0]⟩ (.nextBeg 0 w.written))).rw = w := rfl
  rw [e] at this
  obtain ⟨h1, h2, h3⟩ := this
  unfold Spec.withRecovery Spec.outcome at *
  rw [run_cons, recovery_once]
  show ((match interp (recovery lg dev) 0 (fun _ => loop (recovery lg dev :: ts).length (handlerOf (recovery lg dev :: ts)) ts.length
      (S.bump (S.push ⟨0, w, [.start 0]⟩ (.nextBeg 0 w.written)))) ⟨0, w, [.start 0]⟩ with
      | (s', some v) => (s', some v)
      | (s', none) => if s'.rw.written then (s'.bump.push (.fin 0 s'.rw.written), none)
        else loop (recovery lg dev :: ts).length (handlerOf (recovery lg dev :: ts)) ts.length (s'.bump.push (.fin 0 s'.rw.written))).1.rw, _) = _
  cases hx : loop (recovery lg dev :: ts).length (handlerOf (recovery lg dev :: ts)) ts.length (S.bump (S.push ⟨0, w, [.start 0]⟩ (.nextBeg 0 w.written))) with
  | mk t r =>
    rw [hx] at h1 h2 h3
    simp only at h1 h2 h3
    -- what follows when the filter returns normally in state `t`
    have hfin : ∀ tr, t.rw.written = false →
        (((if t.rw.written then (S.push (S.bump ⟨t.idx, t.rw, tr⟩) (.fin 0 t.rw.written), none)
          else loop (recovery lg dev :: ts).length (handlerOf (recovery lg dev :: ts)) ts.length (S.push (S.bump ⟨t.idx, t.rw, tr⟩) (.fin 0 t.rw.written))) : Out).1.rw,
         ((if t.rw.written then (S.push (S.bump ⟨t.idx, t.rw, tr⟩) (.fin 0 t.rw.written), none)
          else loop (recovery lg dev :: ts).length (handlerOf (recovery lg dev :: ts)) ts.length (S.push (S.bump ⟨t.idx, t.rw, tr⟩) (.fin 0 t.rw.written))) : Out).2) =
        Spec.outcome (Spec.notStarted ts w) (run ts w).1.rw := by
      intro tr hw
      rw [if_neg (by rw [hw]; simp), notStarted_eq ts w (by rw [← h1]; exact hw)]
      have hsplit : recovery lg dev :: ts = (recovery lg dev :: ts.take ((run ts w).1.idx + 1)) ++ ts.drop ((run ts w).1.idx + 1) := by simp
      by_cases hlen : (run ts w).1.idx + 1 ≤ ts.length
      · obtain ⟨a, b⟩ := loop_sim (recovery lg dev :: ts.take ((run ts w).1.idx + 1)) (ts.drop ((run ts w).1.idx + 1)) ts.length
          (ts.drop ((run ts w).1.idx + 1)).length
          (S.push (S.bump ⟨t.idx, t.rw, tr⟩) (.fin 0 t.rw.written)) ⟨0, (run ts w).1.rw, []⟩
          ⟨h1, by simp [S.bump, S.push]; omega, Nat.zero_le _⟩ (by simp) (by simp)
        rw [← hsplit] at a b
        unfold Spec.outcome
        rw [a.1, b]
        rfl
      · rw [loop_ge _ _ _ _ (by simp [S.bump, S.push]; omega), List.drop_eq_nil_of_le (by omega)]
        show (t.rw, none) = ((run ts w).1.rw, none)
        rw [h1]
    have hfinw : ∀ tr, t.rw.written = true →
        (((if t.rw.written then (S.push (S.bump ⟨t.idx, t.rw, tr⟩) (.fin 0 t.rw.written), none)
          else loop (recovery lg dev :: ts).length (handlerOf (recovery lg dev :: ts)) ts.length (S.push (S.bump ⟨t.idx, t.rw, tr⟩) (.fin 0 t.rw.written))) : Out).1.rw,
         ((if t.rw.written then (S.push (S.bump ⟨t.idx, t.rw, tr⟩) (.fin 0 t.rw.written), none)
          else loop (recovery lg dev :: ts).length (handlerOf (recovery lg dev :: ts)) ts.length (S.push (S.bump ⟨t.idx, t.rw, tr⟩) (.fin 0 t.rw.written))) : Out).2) =
        (t.rw, none) := by
      intro tr hw
      rw [if_pos hw]
      rfl
    rcases r with _ | _ | v
    · have e : interp (recovery lg dev) 0 (fun _ => (t, none)) ⟨0, w, [.start 0]⟩ = (t.push (.nextEnd 0), none) := rfl
      rw [e, ← h2, ← h1]
      simp only
      show ((if t.rw.written then _ else _ : Out).1.rw, (if t.rw.written then _ else _ : Out).2) = _
      rw [show t.push (.nextEnd 0) = ⟨t.idx, t.rw, t.tr ++ [.nextEnd 0]⟩ from rfl]
      cases hw : t.rw.written with
      | true => have := hfinw (t.tr ++ [.nextEnd 0]) hw; rw [hw] at this; exact this
      | false =>
        have hi := run_end ts w h2.symm (by rw [← h1]; exact hw)
        have := hfin (t.tr ++ [.nextEnd 0]) hw
        rw [hw] at this
        rw [notStarted_eq ts w (by rw [← h1]; exact hw), List.drop_eq_nil_of_le (by omega)] at this
        refine this.trans ?_
        show ((run ts w).1.rw, none) = _
        rw [h1]
    · have e : interp (recovery lg dev) 0 (fun _ => (t, some none)) ⟨0, w, [.start 0]⟩ = (t.push (.nextRec 0 none t.rw), none) := rfl
      rw [e, ← h2, ← h1]
      simp only
      show ((if t.rw.written then _ else _ : Out).1.rw, (if t.rw.written then _ else _ : Out).2) = _
      rw [show t.push (.nextRec 0 none t.rw) = ⟨t.idx, t.rw, t.tr ++ [.nextRec 0 none t.rw]⟩ from rfl]
      cases hw : t.rw.written with
      | true => have := hfinw (t.tr ++ [.nextRec 0 none t.rw]) hw; rw [hw] at this; rw [if_pos rfl]; exact this
      | false =>
        have := hfin (t.tr ++ [.nextRec 0 none t.rw]) hw
        rw [hw] at this
        refine this.trans ?_
        rw [if_neg (by simp), if_pos (.inl trivial), h1]; rfl
    · rw [← h2, ← h1]
      simp only
      by_cases hc : lg = false ∨ t.rw.written = true
      · have e : interp (recovery lg dev) 0 (fun _ => (t, some (some v))) ⟨0, w, [.start 0]⟩ = (t.push (.nextRec 0 (some v) t.rw), none) := by
          unfold recovery
          simp only [interp]
          rcases hc with hc | hc
          · subst hc; rfl
          · cases lg
            · rfl
            · simp only [Bool.not_true, Bool.false_eq_true, if_false, interp]
              show interp (if t.rw.written then _ else _) _ _ _ = _
              rw [if_pos hc]; rfl
        rw [e]
        simp only
        show ((if t.rw.written then _ else _ : Out).1.rw, (if t.rw.written then _ else _ : Out).2) = _
        rw [show t.push (.nextRec 0 (some v) t.rw) = ⟨t.idx, t.rw, t.tr ++ [.nextRec 0 (some v) t.rw]⟩ from rfl]
        cases hw : t.rw.written with
        | true => have := hfinw (t.tr ++ [.nextRec 0 (some v) t.rw]) hw; rw [hw] at this; rw [if_pos rfl]; exact this
        | false =>
          have hl : lg = false := by rcases hc with h | h; exact h; rw [hw] at h; cases h
          have := hfin (t.tr ++ [.nextRec 0 (some v) t.rw]) hw
          rw [hw] at this
          refine this.trans ?_
          rw [if_neg (by simp), if_pos (.inr hl), h1]; rfl
      · have hlg : lg = true := by cases lg <;> simp_all
        have hw : t.rw.written = false := by cases h : t.rw.written <;> simp_all
        rw [if_neg (by rw [hw]; simp), if_neg (by rw [hlg]; simp)]
        subst hlg
        cases dev with
        | none =>
          have e : interp (recovery true none) 0 (fun _ => (t, some (some v))) ⟨0, w, [.start 0]⟩ =
              (⟨t.idx, { t.rw with status := 500 }, t.tr ++ [.nextRec 0 (some v) t.rw]⟩, none) := by
            simp [recovery, interp, RW.op, RW.writeHeader, S.push, hw]
          rw [e]
          rfl
        | some page =>
          have e : interp (recovery true (some page)) 0 (fun _ => (t, some (some v))) ⟨0, w, [.start 0]⟩ =
              match RW.write { t.rw with status := 500 } page page.length with
              | (u, true) => (⟨t.idx, u, t.tr ++ [.nextRec 0 (some v) t.rw]⟩, some (some 0))
              | (u, false) => (⟨t.idx, u, t.tr ++ [.nextRec 0 (some v) t.rw]⟩, none) := by
            simp only [recovery, interp, S.push, hw, RW.op, RW.writeHeader, Bool.not_true, Bool.false_eq_true, if_false]
            rfl
          rw [e]
          show _ = Spec.perform [.write page page.length] false { t.rw with status := 500 }
          rw [perform_write_panic]
          cases hz : RW.write { t.rw with status := 500 } page page.length with
          | mk u p =>
            cases p with
            | true => rfl
            | false =>
              have hu : u.written = true := by
                have hm := op_written { t.rw with status := 500 } (.write page page.length) rfl
                rw [show RW.op { t.rw with status := 500 } (.write page page.length) = (u, false) from hz] at hm
                exact hm
              simp only
              rw [if_pos hu]; rfl

/-- A nil panic in the first of two filters: the action is run, unprotected. -/
example : Spec.outcome [recovery true none, .panic none, .op (.writeHeader 204) .done] newRW = ({ newRW with status := 204 }, none) ∧
    Spec.withRecovery true none [.panic none, .op (.writeHeader 204) .done] newRW = ({ newRW with status := 204 }, none) := by decide

end Verif.App
