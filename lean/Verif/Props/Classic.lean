import Verif.Model.Classic
import Verif.Proofs.Chain
import Verif.Props.ApiRes
/-!
# C93, C94: applications set up with LoadClassicFilters
-/
namespace Verif.App
open Verif.Resp Verif.Ctx Verif.Router

/-! ## Specification -/

/-- A filter that leaves the response alone, does not panic, and calls `Next` at most once (`true`: has not called it). -/
inductive Spec.PassOnce : Bool → Act → Prop where
  | done {b} : PassOnce b .done
  | next {k} : PassOnce false k → PassOnce true (.next k)
  | written {b} {k : Bool → Act} : (∀ c, PassOnce b (k c)) → PassOnce b (.written k)
  | stat {b} {k : Nat → Nat → Act} : (∀ x y, PassOnce b (k x y)) → PassOnce b (.stat k)
  | eff {b n k} : PassOnce b k → PassOnce b (.eff n k)

/-- What a chain does to the response, and its panic. -/
def Spec.outcome (hs : List Act) (w : RW) : RW × Option PVal := ((run hs w).1.rw, (run hs w).2)

/-- Calls on the response up to the first that panics, then a panic if `p`. -/
def Spec.perform : List Op → Bool → RW → RW × Option PVal
  | [], p, w => (w, if p then some (some 1) else none)
  | o :: os, p, w => if (w.op o).2 then ((w.op o).1, some (some 0)) else Spec.perform os p (w.op o).1

/-- What the recovery filter makes of a panic: nothing for `panic(nil)`, or without a logger to report to, or if the status is
set; otherwise status 500 and, in development mode, the error page. -/
def Spec.recovered (lg : Bool) (dev : Option Str) (v : PVal) (w : RW) : RW × Option PVal :=
  if v = none ∨ lg = false ∨ w.written = true then (w, none)
  else match dev with
    | none => ({ w with status := 500 }, none)
    | some page => Spec.perform [.write page page.length] false { w with status := 500 }

/-- The end of the request: `Write(nil)`. -/
def Spec.ended : RW × Option PVal → RW × Option PVal
  | (w, some v) => (w, some v)
  | (w, none) => Spec.perform [.write [] 0] false w

/-- The answer of a classic application whose action does `act` to a response: the action runs with the request logger's
callback registered; if it set no status and did not panic its results are written; a panic is recovered; the request
ends. -/
def Spec.classicAnswer (lg : Bool) (dev : Option Str) (cb : Nat) (res : List Api.RV) (act : RW → RW × Option PVal) : RW × Option PVal :=
  let afterAction := act { newRW with befores := [⟨cb, none, false⟩] }
  let afterOut :=
    if afterAction.2 = none ∧ afterAction.1.written = false then
      Spec.perform (Api.genericOut res.reverse).1 (Api.genericOut res.reverse).2 afterAction.1
    else afterAction
  Spec.ended (match afterOut.2 with
    | none => afterOut
    | some v => Spec.recovered lg dev v afterOut.1)

/-! ## Filters that do nothing -/

theorem interp_once_false {q : Act} {b : Bool} (hq : Spec.PassOnce b q) : b = false → ∀ (i : Nat) (nx : S → Out) (s : S),
    (interp q i nx s).1.rw = s.rw ∧ (interp q i nx s).2 = none ∧ (interp q i nx s).1.idx = s.idx := by
  induction hq with
  | done => intro _ i nx s; exact ⟨rfl, rfl, rfl⟩
  | next _ _ => intro h; cases h
  | written _ ih => intro hb i nx s; exact ih _ hb i nx s
  | stat _ ih => intro hb i nx s; exact ih _ _ hb i nx s
  | eff _ ih => intro hb i nx s; exact ih hb i nx _

theorem interp_once {q : Act} {b : Bool} (hq : Spec.PassOnce b q) : ∀ (i j1 : Nat) (w w1 : RW) (r1 : Option PVal) (nx : S → Out) (s : S),
    (∀ s, s.idx = 0 → s.rw = w → (nx s).1.rw = w1 ∧ (nx s).2 = r1 ∧ (nx s).1.idx = j1) → s.idx = 0 → s.rw = w →
    ((interp q i nx s).2 = none ∧ (interp q i nx s).1.idx = 0 ∧ (interp q i nx s).1.rw = w) ∨
    ((interp q i nx s).2 = r1 ∧ (interp q i nx s).1.idx = j1 ∧ (interp q i nx s).1.rw = w1) := by
  induction hq with
  | done => intro i j1 w w1 r1 nx s _ h1 h2; exact .inl ⟨rfl, h1, h2⟩
  | @next k hk _ =>
    intro i j1 w w1 r1 nx s hn h1 h2
    obtain ⟨a1, a2, a3⟩ := hn (s.push (.nextBeg i s.rw.written)) h1 h2
    refine .inr ?_
    simp only [interp]
    cases hx : nx (s.push (.nextBeg i s.rw.written)) with
    | mk t r =>
      rw [hx] at a1 a2 a3
      simp only at a1 a2 a3
      subst a1 a2 a3
      cases r with
      | some v => exact ⟨rfl, rfl, rfl⟩
      | none =>
        obtain ⟨b1, b2, b3⟩ := interp_once_false hk rfl i nx (t.push (.nextEnd i))
        exact ⟨b2, b3, b1⟩
  | written _ ih => intro i j1 w w1 r1 nx s; exact ih _ i j1 w w1 r1 nx s
  | stat _ ih => intro i j1 w w1 r1 nx s; exact ih _ _ i j1 w w1 r1 nx s
  | eff _ ih => intro i j1 w w1 r1 nx s hn h1 h2; exact ih i j1 w w1 r1 nx _ hn h1 h2

theorem once_cons {q : Act} (hq : Spec.PassOnce true q) (ts : List Act) (w : RW) (hw : w.written = false) :
    Spec.outcome (q :: ts) w = Spec.outcome ts w ∧ (run ts w).1.idx + 1 ≤ (run (q :: ts) w).1.idx := by
  have hn : ∀ s : S, s.idx = 0 → s.rw = w →
      (loop (q :: ts).length (handlerOf (q :: ts)) ts.length s.bump).1.rw = (run ts w).1.rw ∧
      (loop (q :: ts).length (handlerOf (q :: ts)) ts.length s.bump).2 = (run ts w).2 ∧
      (loop (q :: ts).length (handlerOf (q :: ts)) ts.length s.bump).1.idx = (run ts w).1.idx + 1 := by
    intro s h1 h2
    have := tail_run q ts s.bump (by simp [S.bump, h1])
    have e : s.bump.rw = w := h2
    rw [e] at this
    exact this
  have h := interp_once hq 0 _ w _ _ _ ⟨0, w, [.start 0]⟩ hn rfl rfl
  unfold Spec.outcome
  rw [run_cons]
  cases hx : interp q 0 (fun s' => loop (q :: ts).length (handlerOf (q :: ts)) ts.length s'.bump) ⟨0, w, [.start 0]⟩ with
  | mk t r =>
    rw [hx] at h
    simp only at h
    rcases h with ⟨h1, h2, h3⟩ | ⟨h1, h2, h3⟩
    · subst h1
      simp only
      rw [if_neg (by rw [h3, hw]; simp)]
      have := tail_run q ts (t.bump.push (.fin 0 t.rw.written)) (by simp [S.bump, S.push, h2])
      have e : (t.bump.push (.fin 0 t.rw.written)).rw = w := h3
      rw [e] at this
      exact ⟨by rw [this.1, this.2.1], by rw [this.2.2]; exact Nat.le_refl _⟩
    · cases r with
      | some v => exact ⟨by simp only; rw [h3, h1], by simp only; omega⟩
      | none =>
        simp only
        by_cases hw2 : t.rw.written = true
        · rw [if_pos hw2]
          exact ⟨by simp only [S.bump, S.push]; rw [h3, h1], by simp only [S.bump, S.push]; omega⟩
        · rw [if_neg hw2]
          have he := run_end ts w h1.symm (by rw [← h3]; simpa using hw2)
          rw [loop_ge _ _ _ _ (by simp [S.bump, S.push]; omega)]
          exact ⟨by simp only [S.bump, S.push]; rw [h3, h1], by simp only [S.bump, S.push]; omega⟩

theorem once_append (qs ts : List Act) (w : RW) (hq : ∀ q ∈ qs, Spec.PassOnce true q) (hw : w.written = false) :
    Spec.outcome (qs ++ ts) w = Spec.outcome ts w ∧ (run ts w).1.idx + qs.length ≤ (run (qs ++ ts) w).1.idx := by
  induction qs with
  | nil => exact ⟨rfl, Nat.le_refl _⟩
  | cons q qs ih =>
    obtain ⟨a, b⟩ := ih (fun x hx => hq x (by simp [hx]))
    obtain ⟨c, d⟩ := once_cons (hq q (by simp)) (qs ++ ts) w hw
    exact ⟨c.trans a, by simp only [List.length_cons, List.cons_append]; omega⟩

/-! ## The handlers of the classic set-up -/

/-- A handler that calls `Next` once, after preparations `w → w'` and before `post`. -/
theorem next_cons (h : Act) (ts : List Act) (w w' : RW) (post : Act) (tr : List CEv)
    (hw : ∀ nx, interp h 0 nx ⟨0, w, [.start 0]⟩ = interp (.next post) 0 nx ⟨0, w', tr⟩)
    (hp : ∀ nx nx' s, interp post 0 nx s = interp post 0 nx' s)
    (hpi : ∀ nx s, s.idx ≤ (interp post 0 nx s).1.idx) :
    ∃ t : S, t.rw = (run ts w').1.rw ∧ t.idx = (run ts w').1.idx + 1 ∧
    (∀ v, (run ts w').2 = some v → Spec.outcome (h :: ts) w = (t.rw, some v) ∧ (run (h :: ts) w).1.idx = t.idx) ∧
    ((run ts w').2 = none → ((run ts w').1.rw.written = true → (interp post 0 (fun s => (s, none)) t).1.rw.written = true) →
      Spec.outcome (h :: ts) w = ((interp post 0 (fun s => (s, none)) t).1.rw, (interp post 0 (fun s => (s, none)) t).2) ∧
      t.idx ≤ (run (h :: ts) w).1.idx) := by
  have := tail_run h ts (S.bump (S.push ⟨0, w', tr⟩ (.nextBeg 0 w'.written))) rfl
  have e : (S.bump (S.push ⟨0, w', tr⟩ (.nextBeg 0 w'.written))).rw = w' := rfl
  rw [e] at this
  obtain ⟨h1, h2, h3⟩ := this
  unfold Spec.outcome
  rw [run_cons, hw]
  simp only [interp]
  cases hx : loop (h :: ts).length (handlerOf (h :: ts)) ts.length (S.bump (S.push ⟨0, w', tr⟩ (.nextBeg 0 w'.written))) with
  | mk t r =>
    rw [hx] at h1 h2 h3
    simp only at h1 h2 h3
    cases r with
    | some v =>
      refine ⟨t, h1, h3, ?_, ?_⟩
      · intro v' hv
        rw [← h2] at hv
        cases hv
        exact ⟨rfl, rfl⟩
      · intro hv; rw [← h2] at hv; cases hv
    | none =>
      refine ⟨t.push (.nextEnd 0), h1, h3, ?_, ?_⟩
      · intro v hv; rw [← h2] at hv; cases hv
      · intro hnone hmono
        simp only
        rw [hp _ (fun s => (s, none)) (t.push (.nextEnd 0))]
        have hi := hpi (fun s => (s, none)) (t.push (.nextEnd 0))
        cases hy : interp post 0 (fun s => (s, none)) (t.push (.nextEnd 0)) with
        | mk t' r' =>
          rw [hy] at hmono hi
          cases r' with
          | some v => exact ⟨rfl, hi⟩
          | none =>
            simp only
            by_cases hw2 : t'.rw.written = true
            · rw [if_pos hw2]
              exact ⟨rfl, by simp only [S.bump, S.push] at hi ⊢; omega⟩
            · rw [if_neg hw2]
              have hunw : (run ts w').1.rw.written = false := by
                cases hh : (run ts w').1.rw.written with
                | false => rfl
                | true => exact absurd (hmono hh) hw2
              have he := run_end ts w' hnone hunw
              rw [loop_ge _ _ _ _ (by simp [S.bump, S.push] at hi ⊢; omega)]
              exact ⟨rfl, by simp only [S.bump, S.push] at hi ⊢; omega⟩

/-- The request logger registers its callback. -/
theorem logger_cons (cb : Nat) (ts : List Act) (w : RW) :
    Spec.outcome (reqLogger cb :: ts) w = Spec.outcome ts { w with befores := w.befores ++ [⟨cb, none, false⟩] } ∧
    (run ts { w with befores := w.befores ++ [⟨cb, none, false⟩] }).1.idx + 1 ≤ (run (reqLogger cb :: ts) w).1.idx := by
  obtain ⟨t, h1, h2, h3, h4⟩ := next_cons (reqLogger cb) ts w { w with befores := w.befores ++ [⟨cb, none, false⟩] }
    (.stat fun status size => .eff (.reqEnd (if status = 0 then 200 else status) size) .done) [.start 0, .eff 0 .reqBeg]
    (fun nx => rfl) (fun nx nx' s => rfl) (fun nx s => Nat.le_refl _)
  cases hr : (run ts { w with befores := w.befores ++ [⟨cb, none, false⟩] }).2 with
  | some v =>
    obtain ⟨a, b⟩ := h3 v hr
    rw [a, b]
    exact ⟨by unfold Spec.outcome; rw [hr, h1], by omega⟩
  | none =>
    obtain ⟨a, b⟩ := h4 hr (fun h => by rw [← h1] at h; exact h)
    rw [a]
    refine ⟨?_, by omega⟩
    unfold Spec.outcome
    rw [hr, ← h1]
    rfl

theorem interp_ops (os : List Op) (p : Bool) : ∀ (i : Nat) (nx : S → Out) (s : S),
    (interp (opsAct os p) i nx s).1 = { s with rw := (Spec.perform os p s.rw).1 } ∧
    (interp (opsAct os p) i nx s).2 = (Spec.perform os p s.rw).2 := by
  induction os with
  | nil => intro i nx s; cases p <;> exact ⟨rfl, rfl⟩
  | cons o os ih =>
    intro i nx s
    simp only [opsAct, interp, Spec.perform]
    cases hx : s.rw.op o with
    | mk w q =>
      cases q with
      | true => exact ⟨rfl, rfl⟩
      | false =>
        simp only [Bool.false_eq_true, if_false]
        exact ih i nx { s with rw := w }

theorem out_cons (res : List Api.RV) (ts : List Act) (w : RW) :
    Spec.outcome (outFilter res :: ts) w =
      (if (Spec.outcome ts w).2 = none ∧ (Spec.outcome ts w).1.written = false then
        Spec.perform (Api.genericOut res.reverse).1 (Api.genericOut res.reverse).2 (Spec.outcome ts w).1
      else Spec.outcome ts w) ∧
    (run ts w).1.idx + 1 ≤ (run (outFilter res :: ts) w).1.idx := by
  have hpost : ∀ nx s, interp (.written fun b => if b then Act.done else opsAct (Api.genericOut res.reverse).1 (Api.genericOut res.reverse).2) 0 nx s =
      if s.rw.written then (s, none) else
        ({ s with rw := (Spec.perform (Api.genericOut res.reverse).1 (Api.genericOut res.reverse).2 s.rw).1 },
          (Spec.perform (Api.genericOut res.reverse).1 (Api.genericOut res.reverse).2 s.rw).2) := by
    intro nx s
    simp only [interp]
    by_cases hw : s.rw.written = true
    · rw [if_pos hw, if_pos hw]; rfl
    · rw [if_neg hw, if_neg hw]
      obtain ⟨a, b⟩ := interp_ops (Api.genericOut res.reverse).1 (Api.genericOut res.reverse).2 0 nx s
      rw [← a, ← b]
  obtain ⟨t, h1, h2, h3, h4⟩ := next_cons (outFilter res) ts w w
    (.written fun b => if b then Act.done else opsAct (Api.genericOut res.reverse).1 (Api.genericOut res.reverse).2) [.start 0]
    (fun nx => rfl) (fun nx nx' s => by rw [hpost, hpost]) (fun nx s => by
      rw [hpost]; split <;> exact Nat.le_refl _)
  cases hr : (run ts w).2 with
  | some v =>
    obtain ⟨a, b⟩ := h3 v hr
    have e : (Spec.outcome ts w).2 = some v := hr
    rw [if_neg (by rw [e]; simp), a, b]
    exact ⟨by unfold Spec.outcome; rw [hr, h1], by omega⟩
  | none =>
    have hm := h4 hr
    rw [hpost] at hm
    obtain ⟨a, b⟩ := hm (fun h => by rw [← h1] at h; rw [if_pos h]; exact h)
    refine ⟨?_, by omega⟩
    rw [a]
    have e : (Spec.outcome ts w).2 = none := hr
    have e1 : (Spec.outcome ts w).1 = t.rw := h1.symm
    rw [e1]
    by_cases hw : t.rw.written = true
    · rw [if_pos hw, if_neg (by rw [hw]; simp)]
      have : Spec.outcome ts w = ((Spec.outcome ts w).1, (Spec.outcome ts w).2) := rfl
      rw [this, e, e1]
    · rw [if_neg hw, if_pos ⟨e, by simpa using hw⟩]

theorem perform_write_panic (w : RW) (bs : Str) (n : Nat) : (Spec.perform [.write bs n] false w) =
    ((w.write bs n).1, if (w.write bs n).2 then some (some 0) else none) := by
  show (if (w.write bs n).2 = true then ((w.write bs n).1, some (some 0)) else ((w.write bs n).1, none)) = _
  by_cases h : (w.write bs n).2 = true
  · rw [if_pos h, if_pos h]
  · rw [if_neg h, if_neg h]

/-- The recovery filter, in front of a chain that is over when it panics. -/
theorem recovery_cons (lg : Bool) (dev : Option Str) (ts : List Act) (w : RW)
    (hend : ∀ v, (run ts w).2 = some v → ts.length ≤ (run ts w).1.idx + 1) :
    Spec.outcome (recovery lg dev :: ts) w =
      match (Spec.outcome ts w).2 with
      | none => Spec.outcome ts w
      | some v => Spec.recovered lg dev v (Spec.outcome ts w).1 := by
  have := tail_run (recovery lg dev) ts (S.bump (S.push ⟨0, w, [.start 0]⟩ (.nextBeg 0 w.written))) rfl
  have e : (S.bump (S.push ⟨0, w, [.start 0]⟩ (.nextBeg 0 w.written))).rw = w := rfl
  rw [e] at this
  obtain ⟨h1, h2, h3⟩ := this
  have e1 : (Spec.outcome ts w).1 = (run ts w).1.rw := rfl
  have e2 : (Spec.outcome ts w).2 = (run ts w).2 := rfl
  unfold Spec.outcome at *
  rw [run_cons, recovery_once]
  show ((match interp (recovery lg dev) 0 (fun _ => loop (recovery lg dev :: ts).length (handlerOf (recovery lg dev :: ts)) ts.length
      (S.bump (S.push ⟨0, w, [.start 0]⟩ (.nextBeg 0 w.written)))) ⟨0, w, [.start 0]⟩ with
      | (s', some v) => (s', some v)
      | (s', none) => if s'.rw.written then (s'.bump.push (.fin 0 s'.rw.written), none)
        else loop (recovery lg dev :: ts).length (handlerOf (recovery lg dev :: ts)) ts.length (s'.bump.push (.fin 0 s'.rw.written))).1.rw, _) = _
  cases hx : loop (recovery lg dev :: ts).length (handlerOf (recovery lg dev :: ts)) ts.length (S.bump (S.push ⟨0, w, [.start 0]⟩ (.nextBeg 0 w.written))) with
  | mk t r =>
    rw [hx] at h1 h2 h3
    simp only at h1 h2 h3
    have hfin : ∀ tr, (t.rw.written = true ∨ ts.length ≤ t.idx) → 
        ((if t.rw.written then (S.push (S.bump ⟨t.idx, t.rw, tr⟩) (.fin 0 t.rw.written), none)
          else loop (recovery lg dev :: ts).length (handlerOf (recovery lg dev :: ts)) ts.length (S.push (S.bump ⟨t.idx, t.rw, tr⟩) (.fin 0 t.rw.written))) : Out) =
        (S.push (S.bump ⟨t.idx, t.rw, tr⟩) (.fin 0 t.rw.written), none) := by
      intro tr ho
      by_cases hw : t.rw.written = true
      · rw [if_pos hw]
      · rw [if_neg hw, loop_ge]
        rcases ho with ho | ho
        · exact absurd ho hw
        · simp [S.bump, S.push]; omega
    rcases r with _ | _ | v
    · have hi : t.rw.written = true ∨ ts.length ≤ t.idx := by
        cases hw : t.rw.written with
        | true => exact .inl rfl
        | false => have := run_end ts w h2.symm (by rw [← h1]; exact hw); right; omega
      have e : interp (recovery lg dev) 0 (fun _ => (t, none)) ⟨0, w, [.start 0]⟩ = (t.push (.nextEnd 0), none) := rfl
      rw [e, ← h2, ← h1]
      simp only
      have := hfin (t.tr ++ [.nextEnd 0]) hi
      show ((if t.rw.written then _ else _ : Out).1.rw, (if t.rw.written then _ else _ : Out).2) = _
      rw [show t.push (.nextEnd 0) = ⟨t.idx, t.rw, t.tr ++ [.nextEnd 0]⟩ from rfl, this]
      rfl
    · have hi : ts.length ≤ t.idx := by have := hend none h2.symm; omega
      have e : interp (recovery lg dev) 0 (fun _ => (t, some none)) ⟨0, w, [.start 0]⟩ = (t.push (.nextRec 0 none t.rw), none) := rfl
      rw [e, ← h2, ← h1]
      simp only
      have := hfin (t.tr ++ [.nextRec 0 none t.rw]) (.inr hi)
      show ((if t.rw.written then _ else _ : Out).1.rw, (if t.rw.written then _ else _ : Out).2) = _
      rw [show t.push (.nextRec 0 none t.rw) = ⟨t.idx, t.rw, t.tr ++ [.nextRec 0 none t.rw]⟩ from rfl, this]
      unfold Spec.recovered
      rw [if_pos (.inl rfl)]
      rfl
    · have hi : ts.length ≤ t.idx := by have := hend (some v) h2.symm; omega
      rw [← h2, ← h1]
      simp only
      unfold Spec.recovered
      by_cases hc : lg = false ∨ t.rw.written = true
      · have e : interp (recovery lg dev) 0 (fun _ => (t, some (some v))) ⟨0, w, [.start 0]⟩ = (t.push (.nextRec 0 (some v) t.rw), none) := by
          unfold recovery
          simp only [interp]
          rcases hc with hc | hc
          · subst hc; rfl
          · cases lg
            · rfl
            · simp only [Bool.not_true, Bool.false_eq_true, if_false, interp]
              show interp (if t.rw.written then _ else _) _ _ _ = _
              rw [if_pos hc]; rfl
        rw [e, if_pos (.inr hc)]
        simp only
        have := hfin (t.tr ++ [.nextRec 0 (some v) t.rw]) (.inr hi)
        show ((if t.rw.written then _ else _ : Out).1.rw, (if t.rw.written then _ else _ : Out).2) = _
        rw [show t.push (.nextRec 0 (some v) t.rw) = ⟨t.idx, t.rw, t.tr ++ [.nextRec 0 (some v) t.rw]⟩ from rfl, this]
        rfl
      · rw [if_neg (by rintro (h | h); cases h; exact hc h)]
        have hlg : lg = true := by cases lg <;> simp_all
        have hw : t.rw.written = false := by cases h : t.rw.written <;> simp_all
        subst hlg
        cases dev with
        | none =>
          have e : interp (recovery true none) 0 (fun _ => (t, some (some v))) ⟨0, w, [.start 0]⟩ =
              (⟨t.idx, { t.rw with status := 500 }, t.tr ++ [.nextRec 0 (some v) t.rw]⟩, none) := by
            simp [recovery, interp, RW.op, RW.writeHeader, S.push, hw]
          rw [e]
          rfl
        | some page =>
          have e : interp (recovery true (some page)) 0 (fun _ => (t, some (some v))) ⟨0, w, [.start 0]⟩ =
              match RW.write { t.rw with status := 500 } page page.length with
              | (u, true) => (⟨t.idx, u, t.tr ++ [.nextRec 0 (some v) t.rw]⟩, some (some 0))
              | (u, false) => (⟨t.idx, u, t.tr ++ [.nextRec 0 (some v) t.rw]⟩, none) := by
            simp only [recovery, interp, S.push, hw, RW.op, RW.writeHeader, Bool.not_true, Bool.false_eq_true, if_false]
            rfl
          rw [e]
          show _ = Spec.perform [.write page page.length] false { t.rw with status := 500 }
          rw [perform_write_panic]
          cases hz : RW.write { t.rw with status := 500 } page page.length with
          | mk u p =>
            cases p with
            | true => rfl
            | false =>
              simp only
              by_cases hw2 : u.written = true
              · rw [if_pos hw2]; rfl
              · rw [if_neg hw2, loop_ge]
                · rfl
                · simp [S.bump, S.push]; omega

theorem serve_ended (hs : List Act) : serveHTTP hs = Spec.ended (Spec.outcome hs newRW) := by
  unfold serveHTTP Spec.outcome
  cases run hs newRW with
  | mk s r =>
    cases r with
    | some v => rfl
    | none =>
      simp only [Spec.ended, perform_write_panic]
      cases h : s.rw.write [] 0 with
      | mk u p => cases p <;> rfl

/-- **C93.** What a classic application answers, for every action (any program, panicking or not), every list of returned
values, development or production mode, with any filters installed by hooks that leave the response alone: exactly
`classicAnswer`. -/
theorem C93_classic_answer (lg : Bool) (dev : Option Str) (cb : Nat) (res : List Api.RV) (qs : List Act) (a : Act)
    (hq : ∀ q ∈ qs, Spec.PassOnce true q) :
    serveHTTP (recovery lg dev :: (qs ++ [reqLogger cb, outFilter res, a])) =
      Spec.classicAnswer lg dev cb res (fun w => Spec.outcome [a] w) := by
  obtain ⟨c1, c2⟩ := logger_cons cb [outFilter res, a] newRW
  obtain ⟨b1, b2⟩ := out_cons res [a] { newRW with befores := newRW.befores ++ [⟨cb, none, false⟩] }
  obtain ⟨d1, d2⟩ := once_append qs [reqLogger cb, outFilter res, a] newRW hq rfl
  have hidx : qs.length + 2 ≤ (run (qs ++ [reqLogger cb, outFilter res, a]) newRW).1.idx := by
    have := Nat.le_trans (Nat.add_le_add_right b2 1) c2
    have := Nat.le_trans (Nat.add_le_add_right this qs.length) d2
    omega
  rw [serve_ended, recovery_cons lg dev _ newRW (by
    intro v _
    simp only [List.length_append, List.length_cons, List.length_nil]
    omega), d1, c1, b1]
  rfl

/-! ## In the words of C76, C67 and C16 -/

/-- Calls that cannot panic. -/
def Spec.Fine : Op → Prop
  | .writeHeader c => c ≠ 0
  | .before b => b.panics = false ∧ b.status = none
  | _ => True

theorem callBefore_quiet (l : List BF) : ∀ u : RW, (∀ b ∈ l, b.panics = false ∧ b.status = none) →
    callBefore l u = ({ u with events := u.events ++ l.map (fun b => Ev.before b.id) }, false) := by
  induction l with
  | nil => intro u _; simp [callBefore]
  | cons b l ih =>
    intro u hl
    obtain ⟨e1, e2⟩ := hl b (by simp)
    simp only [callBefore, e1, e2]
    rw [if_neg (by simp), ih _ (fun b hb => hl b (by simp [hb]))]
    simp

theorem commit_quiet (w : RW) (h : ∀ b ∈ w.befores, b.panics = false ∧ b.status = none) : (commit w).2 = false ∧ (commit w).1.befores = w.befores := by
  unfold commit
  rw [callBefore_quiet _ _ (by simpa using h)]
  simp only
  by_cases h0 : w.status = 0 <;> by_cases h1 : w.hijacked = true <;> simp [h0, h1]

theorem op_fine (w : RW) (o : Op) (h : ∀ b ∈ w.befores, b.panics = false ∧ b.status = none) (ho : Spec.Fine o) :
    (w.op o).2 = false ∧ ∀ b ∈ (w.op o).1.befores, b.panics = false ∧ b.status = none := by
  cases o with
  | writeHeader c =>
    have hc : c ≠ 0 := ho
    simp only [RW.op, RW.writeHeader, hc, if_false]
    exact ⟨trivial, h⟩
  | write bs n =>
    simp only [RW.op, RW.write]
    by_cases hon : w.once = true
    · rw [if_pos hon]; exact ⟨rfl, h⟩
    · rw [if_neg hon]
      obtain ⟨c1, c2⟩ := commit_quiet w h
      cases hx : commit w with
      | mk u p =>
        rw [hx] at c1 c2
        simp only at c1 c2
        subst c1
        refine ⟨rfl, ?_⟩
        show ∀ b ∈ u.befores, _
        rw [c2]; exact h
  | flush => exact ⟨rfl, h⟩
  | before b =>
    refine ⟨rfl, ?_⟩
    intro c hc
    have : c ∈ w.befores ++ [b] := hc
    rcases List.mem_append.1 this with hc | hc
    · exact h c hc
    · rw [List.mem_singleton.1 hc]; exact ho
  | hijack => exact ⟨rfl, h⟩

theorem perform_fine (os : List Op) (p : Bool) : ∀ (w : RW), (∀ b ∈ w.befores, b.panics = false ∧ b.status = none) →
    (∀ o ∈ os, Spec.Fine o) → Spec.perform os p w = (runOps os w, if p then some (some 1) else none) ∧
      ∀ b ∈ (runOps os w).befores, b.panics = false ∧ b.status = none := by
  induction os with
  | nil => intro w h _; exact ⟨rfl, h⟩
  | cons o os ih =>
    intro w h ho
    obtain ⟨h1, h2⟩ := op_fine w o h (ho o (by simp))
    simp only [Spec.perform, runOps]
    rw [if_neg (by rw [h1]; simp)]
    exact ih _ h2 (fun x hx => ho x (by simp [hx]))

/-- The response when a classic application calls the action. -/
def Spec.atAction (cb : Nat) : RW := { newRW with befores := [⟨cb, none, false⟩] }

theorem atAction_quiet (cb : Nat) : ∀ b ∈ (Spec.atAction cb).befores, b.panics = false ∧ b.status = none := by
  intro b hb
  rw [List.mem_singleton.1 (show b ∈ [_] from hb)]
  exact ⟨rfl, rfl⟩

theorem ended_answer (cb : Nat) (os : List Op) (ho : ∀ o ∈ os, Spec.Fine o) :
    Spec.ended (runOps os (Spec.atAction cb), none) = (runOps (os ++ [.write [] 0]) (Spec.atAction cb), none) ∧
    (runOps (os ++ [.write [] 0]) (Spec.atAction cb)).events = Api.Spec.answer [⟨cb, none, false⟩] os := by
  refine ⟨?_, rfl⟩
  obtain ⟨_, h⟩ := perform_fine os false _ (atAction_quiet cb) ho
  show Spec.perform [.write [] 0] false (runOps os (Spec.atAction cb)) = _
  rw [(perform_fine [.write [] 0] false _ h (by intro o m; rw [List.mem_singleton.1 m]; trivial)).1, runOps_append]
  rfl

/-- **C93 (the action answers).** An action that makes calls that set the status, and does not panic, is answered with
exactly these calls (and the request id headers), whatever it returns. -/
theorem C93_action_answers (lg : Bool) (dev : Option Str) (cb : Nat) (res : List Api.RV) (qs : List Act) (a : Act) (os : List Op)
    (hq : ∀ q ∈ qs, Spec.PassOnce true q) (ho : ∀ o ∈ os, Spec.Fine o)
    (ha : Spec.outcome [a] (Spec.atAction cb) = (runOps os (Spec.atAction cb), none)) (hw : (runOps os (Spec.atAction cb)).written = true) :
    (serveHTTP (recovery lg dev :: (qs ++ [reqLogger cb, outFilter res, a]))).1.events = Api.Spec.answer [⟨cb, none, false⟩] os ∧
    (serveHTTP (recovery lg dev :: (qs ++ [reqLogger cb, outFilter res, a]))).2 = none := by
  rw [C93_classic_answer lg dev cb res qs a hq]
  unfold Spec.classicAnswer
  have ha' : Spec.outcome [a] { newRW with befores := [⟨cb, none, false⟩] } = (runOps os (Spec.atAction cb), none) := ha
  simp only [ha']
  rw [if_neg (by rw [hw]; simp)]
  simp only
  rw [(ended_answer cb os ho).1]
  exact ⟨(ended_answer cb os ho).2, rfl⟩

/-- **C93 (the results answer).** An action that leaves the response alone is answered with the calls `GenericOutFilter`
makes for its results, if the filter does not panic on them. -/
theorem C93_results_answer (lg : Bool) (dev : Option Str) (cb : Nat) (res : List Api.RV) (qs : List Act) (a : Act)
    (hq : ∀ q ∈ qs, Spec.PassOnce true q) (ha : Spec.outcome [a] (Spec.atAction cb) = (Spec.atAction cb, none))
    (hp : (Api.genericOut res.reverse).2 = false) (ho : ∀ o ∈ (Api.genericOut res.reverse).1, Spec.Fine o) :
    (serveHTTP (recovery lg dev :: (qs ++ [reqLogger cb, outFilter res, a]))).1.events =
      Api.Spec.answer [⟨cb, none, false⟩] (Api.genericOut res.reverse).1 ∧
    (serveHTTP (recovery lg dev :: (qs ++ [reqLogger cb, outFilter res, a]))).2 = none := by
  rw [C93_classic_answer lg dev cb res qs a hq]
  unfold Spec.classicAnswer
  have ha' : Spec.outcome [a] { newRW with befores := [⟨cb, none, false⟩] } = (Spec.atAction cb, none) := ha
  simp only [ha']
  rw [if_pos ⟨trivial, rfl⟩, hp, (perform_fine _ false _ (atAction_quiet cb) ho).1]
  simp only [Bool.false_eq_true, if_false]
  rw [(ended_answer cb _ ho).1]
  exact ⟨(ended_answer cb _ ho).2, rfl⟩

theorem quiet_cb (cb : Nat) : Api.Spec.Quiet [⟨cb, none, false⟩] := by
  intro b hb; rw [List.mem_singleton.1 hb]; exact ⟨rfl, rfl⟩

theorem writeValue_fine {v : Api.RV} {body : Str} (hv : Api.Spec.bodyOf v = some body) : ∀ o ∈ (Api.writeValue v).1, Spec.Fine o := by
  obtain ⟨cs, h1, _, _⟩ := Api.writeValue_ops hv
  rw [h1]
  intro o ho
  obtain ⟨c, _, rfl⟩ := List.mem_map.1 ho
  trivial

/-- **C93 (value and code).** In a classic application an action that leaves the response alone and returns `(…, v, code)`,
where `v` is bytes, a reader or a string in an interface, is answered with that code and body; without the code, with 200. -/
theorem C93_value_and_code (lg : Bool) (dev : Option Str) (cb : Nat) (rest : List Api.RV) (v : Api.RV) (body : Str) (code : Nat)
    (qs : List Act) (a : Act) (hq : ∀ q ∈ qs, Spec.PassOnce true q) (ha : Spec.outcome [a] (Spec.atAction cb) = (Spec.atAction cb, none))
    (hv : Api.Spec.bodyOf v = some body) (hc : code ≠ 0) :
    Api.Spec.Gets (serveHTTP (recovery lg dev :: (qs ++ [reqLogger cb, outFilter (rest ++ [v, .int code]), a]))).1.events code body ∧
    Api.Spec.Gets (serveHTTP (recovery lg dev :: (qs ++ [reqLogger cb, outFilter (rest ++ [v]), a]))).1.events 200 body := by
  obtain ⟨p1, p2, g1, g2⟩ := Api.C76_returned_value_partial rest v code body hv hc [⟨cb, none, false⟩] (quiet_cb cb)
  have e1 : Api.genericOut ((rest ++ [v, .int code]).reverse) = (.writeHeader code :: (Api.writeValue v).1, (Api.writeValue v).2) := by
    rw [List.reverse_append]
    cases code with
    | zero => exact absurd rfl hc
    | succ n => rfl
  have e2 : Api.genericOut ((rest ++ [v]).reverse) = Api.writeValue v := by
    rw [List.reverse_append]
    cases v <;> first | rfl | cases hv
  have hf := writeValue_fine hv
  constructor
  · rw [(C93_results_answer lg dev cb _ qs a hq ha p1 (by
      rw [e1]; intro o ho
      rcases List.mem_cons.1 ho with rfl | ho
      · exact hc
      · exact hf o ho)).1]
    exact g1
  · rw [(C93_results_answer lg dev cb _ qs a hq ha p2 (by rw [e2]; exact hf)).1]
    exact g2

theorem res_fine (d : Bool) (r : Api.ResBody) : ∀ o ∈ (r.write d).ops, Spec.Fine o := by
  have hs : (if r.status = 0 then 200 else r.status) ≠ 0 := by split <;> simp_all
  unfold Api.ResBody.write
  generalize (if r.status = 0 then 200 else r.status) = st at hs
  by_cases h : st = 204
  · rw [if_pos h]
    intro o ho
    rw [List.mem_singleton.1 ho]
    show (204 : Nat) ≠ 0
    decide
  · rw [if_neg h]
    have : ∃ b, (Api.writeJson d st (r.body.getD Api.emptyObject)).ops = [.writeHeader st, Api.wr b] := by
      unfold Api.writeJson
      split <;> exact ⟨_, rfl⟩
    obtain ⟨b, hb⟩ := this
    rw [hb]
    intro o ho
    rcases List.mem_cons.1 ho with rfl | ho
    · exact hs
    · rw [List.mem_singleton.1 ho]; trivial

/-- **C93 (API result).** In a classic application an action that leaves the response alone and returns an API result is
answered with the result's status and JSON (`{}` for no body, nothing for 204). -/
theorem C93_api_result (lg : Bool) (dev : Option Str) (cb : Nat) (rest : List Api.RV) (d : Bool) (r : Api.ResBody)
    (qs : List Act) (a : Act) (hq : ∀ q ∈ qs, Spec.PassOnce true q) (ha : Spec.outcome [a] (Spec.atAction cb) = (Spec.atAction cb, none)) :
    Api.Spec.Gets (serveHTTP (recovery lg dev :: (qs ++ [reqLogger cb, outFilter (rest ++ [.writer (r.write d).ops]), a]))).1.events
      (Api.Spec.wanted r.status) (if r.status = 204 then [] else Api.Spec.encoded d (r.body.getD Api.emptyObject)) := by
  obtain ⟨p1, g1⟩ := Api.C76_result_written rest d r [⟨cb, none, false⟩] (quiet_cb cb)
  rw [(C93_results_answer lg dev cb _ qs a hq ha p1 (by
    rw [(Api.C76_result_calls rest _ 1 (by decide)).1]
    exact res_fine d r)).1]
  exact g1

/-- **C93 (nothing).** An action that leaves the response alone and returns nothing is answered with 200 and an empty body. -/
theorem C93_nothing (lg : Bool) (dev : Option Str) (cb : Nat) (qs : List Act) (a : Act) (hq : ∀ q ∈ qs, Spec.PassOnce true q)
    (ha : Spec.outcome [a] (Spec.atAction cb) = (Spec.atAction cb, none)) :
    (serveHTTP (recovery lg dev :: (qs ++ [reqLogger cb, outFilter [], a]))).1.events = [.before cb, .header 200, .body []] := by
  rw [(C93_results_answer lg dev cb _ qs a hq ha rfl (by intro o ho; cases ho)).1]
  rfl

/-- **C93 (panics).** In production mode, an action that panics with a value before it has done anything to the response is
answered with 500 and an empty body, and the panic goes no further. -/
theorem C93_panic_500 (cb : Nat) (res : List Api.RV) (qs : List Act) (a : Act) (v : Nat) (hq : ∀ q ∈ qs, Spec.PassOnce true q)
    (ha : Spec.outcome [a] (Spec.atAction cb) = (Spec.atAction cb, some (some v))) :
    (serveHTTP (recovery true none :: (qs ++ [reqLogger cb, outFilter res, a]))).1.events = [.before cb, .header 500, .body []] ∧
    (serveHTTP (recovery true none :: (qs ++ [reqLogger cb, outFilter res, a]))).2 = none := by
  rw [C93_classic_answer true none cb res qs a hq]
  unfold Spec.classicAnswer
  have ha' : Spec.outcome [a] { newRW with befores := [⟨cb, none, false⟩] } = (Spec.atAction cb, some (some v)) := ha
  simp only [ha']
  rw [if_neg (by simp)]
  exact ⟨rfl, rfl⟩

/-- **C93 (strings).** The documented forms of returning a string do not work in a classic application: `Action() string` is
answered with 500 and `Action() (string, int)` with the code but without the string. -/
theorem C93_string_violated (cb : Nat) (s : Str) (code : Nat) (qs : List Act) (a : Act) (hq : ∀ q ∈ qs, Spec.PassOnce true q)
    (ha : Spec.outcome [a] (Spec.atAction cb) = (Spec.atAction cb, none)) (hc : code ≠ 0) :
    (serveHTTP (recovery true none :: (qs ++ [reqLogger cb, outFilter [.str s], a]))).1.events = [.before cb, .header 500, .body []] ∧
    (serveHTTP (recovery true none :: (qs ++ [reqLogger cb, outFilter [.str s, .int code], a]))).1.events =
      [.before cb, .header code, .body []] := by
  rw [C93_classic_answer true none cb _ qs a hq, C93_classic_answer true none cb _ qs a hq]
  unfold Spec.classicAnswer
  have ha' : Spec.outcome [a] { newRW with befores := [⟨cb, none, false⟩] } = (Spec.atAction cb, none) := ha
  simp only [ha']
  rw [if_pos ⟨trivial, rfl⟩, if_pos ⟨trivial, rfl⟩]
  refine ⟨rfl, ?_⟩
  cases code with
  | zero => exact absurd rfl hc
  | succ n => rfl

/-- An action that leaves the response alone, one that answers, one that panics; a filter that passes. -/
example : Spec.outcome [.eff 3 .done] (Spec.atAction 7) = (Spec.atAction 7, none) ∧
    Spec.outcome [.op (.write b!"hi" 2) .done] (Spec.atAction 7) = (runOps [.write b!"hi" 2] (Spec.atAction 7), none) ∧
    (runOps [.write b!"hi" 2] (Spec.atAction 7)).written = true ∧
    Spec.outcome [.panic (some 3)] (Spec.atAction 7) = (Spec.atAction 7, some (some 3)) := by decide

example : Spec.PassOnce true (.eff 1 (.next (.eff 2 .done))) := .eff (.next (.eff .done))

/-! ## C94: LoadClassicFilters -/

/-- The set-up calls made by the hooks of `LoadClassicFilters`, in order; a hook is `some` of what it calls for a flag, another
option `none`. -/
def Spec.hookCalls (f : HookFlag) (hooks : List (Option (HookFlag → List Spec.Call))) : List Spec.Call :=
  (hooks.filterMap id).flatMap fun h => h f

/-- An option of `LoadClassicFilters` and what it is. -/
inductive Spec.Describes : ClassicOpt → Option (HookFlag → List Spec.Call) → Option LogOpt → Prop where
  | logger (o : LogOpt) : Describes (.logger o) none (some o)
  | hook (h : HookFlag → Strip → Option Strip) (cs : HookFlag → List Spec.Call) (hh : ∀ f s, h f s = Spec.build (cs f) s) :
      Describes (.hook h) (some cs) none

/-- The option given last, if any. -/
def Spec.lastLogger (ls : List (Option LogOpt)) : Option LogOpt := (ls.filterMap id).getLast?

theorem build_append (a b : List Spec.Call) : ∀ s : Strip, Spec.build (a ++ b) s = (Spec.build a s).bind (Spec.build b) := by
  induction a with
  | nil => intro s; rfl
  | cons c a ih =>
    intro s
    cases c with
    | filter fs => exact ih _
    | notFound hs => exact ih _
    | routers hs =>
      simp only [List.cons_append, Spec.build]
      cases s.routers hs with
      | none => rfl
      | some s' => exact ih s'

/-- The options as `LoadClassicFilters` reads them. -/
theorem readOpts_eq : ∀ (opts : List ClassicOpt) (hooks : List (Option (HookFlag → List Spec.Call))) (ls : List (Option LogOpt))
    (l : Option LogOpt) (hs : List (HookFlag → Strip → Option Strip)),
    opts.length = hooks.length → opts.length = ls.length →
    (∀ (i : Nat) o h g, opts[i]? = some o → hooks[i]? = some h → ls[i]? = some g → Spec.Describes o h g) →
    ∃ hs', readOpts opts l hs = some ((Spec.lastLogger ls).or l, hs ++ hs') ∧
      ∀ s, runHooks hs' s = Spec.build (Spec.hookCalls .beforeAll hooks) s
  | [], [], [], l, hs, _, _, _ => ⟨[], by simp [readOpts, Spec.lastLogger], fun s => rfl⟩
  | o :: opts, h :: hooks, g :: ls, l, hs, h1, h2, hd => by
    have hrest : ∀ (i : Nat) o h g, opts[i]? = some o → hooks[i]? = some h → ls[i]? = some g → Spec.Describes o h g :=
      fun i o h g a b c => hd (i + 1) o h g a b c
    have h0 : Spec.Describes o h g := hd 0 o h g rfl rfl rfl
    cases h0 with
    | logger lo =>
      obtain ⟨hs', e1, e2⟩ := readOpts_eq opts hooks ls (some lo) hs (by simpa using h1) (by simpa using h2) hrest
      refine ⟨hs', ?_, e2⟩
      simp only [readOpts]
      rw [e1]
      congr 2
      unfold Spec.lastLogger
      simp only [List.filterMap_cons, id]
      rw [List.getLast?_cons]
      cases (ls.filterMap id).getLast? <;> rfl
    | hook hk cs hh =>
      obtain ⟨hs', e1, e2⟩ := readOpts_eq opts hooks ls l (hs ++ [hk]) (by simpa using h1) (by simpa using h2) hrest
      refine ⟨hk :: hs', ?_, ?_⟩
      · simp only [readOpts]
        rw [e1]
        simp [Spec.lastLogger]
      · intro s
        simp only [runHooks, hh]
        have : Spec.hookCalls .beforeAll (some cs :: hooks) = cs .beforeAll ++ Spec.hookCalls .beforeAll hooks := by
          simp [Spec.hookCalls]
        rw [this, build_append]
        cases Spec.build (cs .beforeAll) s with
        | none => rfl
        | some s' => exact e2 s'
  | [], _ :: _, _, _, _, h1, _, _ => by simp at h1
  | _ :: _, [], _, _, _, h1, _, _ => by simp at h1
  | [], _, _ :: _, _, _, _, h2, _ => by simp at h2
  | _ :: _, _, [], _, _, _, h2, _ => by simp at h2

/-- **C94.** `LoadClassicFilters` with logger options and hooks does exactly this: the recovery filter, then every hook once, in
the order given, for "before all", then the request logger and the result filter; the logger's option is the last one
given, or the default of the mode. If a hook's calls panic, so does it. -/
theorem C94_load_classic (ids : Ids) (m : Mode) (opts : List ClassicOpt) (hooks : List (Option (HookFlag → List Spec.Call)))
    (ls : List (Option LogOpt)) (s : Strip) (h1 : opts.length = hooks.length) (h2 : opts.length = ls.length)
    (hd : ∀ (i : Nat) o h g, opts[i]? = some o → hooks[i]? = some h → ls[i]? = some g → Spec.Describes o h g) :
    loadClassic ids m opts s =
      match Spec.build ([.filter [ids.recovery]] ++ Spec.hookCalls .beforeAll hooks ++
        [.filter [ids.logger ((Spec.lastLogger ls).getD (defaultLogOpt m)), ids.out]]) s with
      | some s' => .ok s'
      | none => .hookPanic := by
  obtain ⟨hs', e1, e2⟩ := readOpts_eq opts hooks ls none [] h1 h2 hd
  unfold loadClassic
  rw [e1]
  simp only [List.nil_append]
  rw [e2, List.append_assoc, List.singleton_append]
  show _ = match Spec.build (Spec.hookCalls .beforeAll hooks ++ _) (s.filter [ids.recovery]) with
      | some s' => Loaded.ok s'
      | none => .hookPanic
  rw [build_append]
  cases Spec.build (Spec.hookCalls .beforeAll hooks) (s.filter [ids.recovery]) with
  | none => rfl
  | some s' => simp [Spec.build]

/-- **C94.** An option of any other type makes it panic before it has changed anything, wherever it stands. -/
theorem C94_bad_option (ids : Ids) (m : Mode) (pre post : List ClassicOpt) (s : Strip) :
    loadClassic ids m (pre ++ .other :: post) s = .badOption s := by
  have : ∀ (pre : List ClassicOpt) l hs, readOpts (pre ++ .other :: post) l hs = none := by
    intro pre
    induction pre with
    | nil => intro l hs; rfl
    | cons o pre ih =>
      intro l hs
      cases o with
      | logger o => exact ih _ _
      | hook h => exact ih _ _
      | other => rfl
  unfold loadClassic
  rw [this]

/-- **C94: hooks are never called for "after all"**, although the flag exists: what a hook would do then has no effect. -/
theorem C94_after_all_violated (ids : Ids) (m : Mode) (h h' : HookFlag → Strip → Option Strip) (s : Strip)
    (hb : h .beforeAll = h' .beforeAll) : loadClassic ids m [.hook h] s = loadClassic ids m [.hook h'] s := by
  simp only [loadClassic, readOpts, List.nil_append, runHooks, hb]

/-- The defaults: colour in development, short flat lines in production, always with source lines, stacks from "critical". -/
theorem C94_default_option (m : Mode) : (defaultLogOpt m).color = decide (m = .dev) ∧ (defaultLogOpt m).short = decide (m = .prod) ∧
    (defaultLogOpt m).flat = decide (m = .prod) ∧ (defaultLogOpt m).line = true ∧
    (defaultLogOpt m).stack = 3 := ⟨rfl, rfl, rfl, rfl, rfl⟩

/-- **C94 with C93.** A new application set up with `LoadClassicFilters`, a hook that installs the filters `gs`, and routes, is
a classic application: its chain is recovery, `gs`, request logger, results, routing. -/
theorem C94_new_chain (ids : Ids) (m : Mode) (gs : List Filter) (o : LogOpt)
    (hd : (ids.recovery :: (gs ++ [ids.logger o, ids.out])).Nodup) :
    ∃ s, loadClassic ids m [.hook (fun f s => if f = .beforeAll then some (s.filter gs) else some s), .logger o] new = .ok s ∧
      s.filters = ids.recovery :: (gs ++ [ids.logger o, ids.out]) ∧ s.root = newRoot ∧ s.notFound = [defaultNotFound] := by
  have hfa : ∀ (b a : List Filter), (a ++ b).Nodup → fappend a b = a ++ b := by
    intro b
    induction b with
    | nil => intro a _; simp [fappend]
    | cons x b ih =>
      intro a h
      unfold fappend
      have hx : x ∉ a := by
        intro hm
        exact (List.nodup_append.1 h).2.2 x hm x (by simp) rfl
      rw [if_neg hx, ih]
      · simp
      · simpa using h
  refine ⟨_, rfl, ?_, rfl, rfl⟩
  show fappend (fappend (fappend [] [ids.recovery]) gs) [ids.logger o, ids.out] = _
  have e : ids.recovery :: (gs ++ [ids.logger o, ids.out]) = (([] ++ [ids.recovery]) ++ gs) ++ [ids.logger o, ids.out] := by simp
  rw [e] at hd ⊢
  have hd1 := (List.nodup_append.1 hd).1
  have hd2 := (List.nodup_append.1 hd1).1
  rw [hfa _ _ hd2, hfa _ _ hd1, hfa _ _ hd]

example : ([1] ++ ([7, 8] ++ [2, 3]) : List Filter).Nodup := by decide

end Verif.App
