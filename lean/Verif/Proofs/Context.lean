import Verif.Model.Context
import Verif.Props.Response
/-!
# Big-step relation for context runs
-/
namespace Verif.Ctx
open Verif.Resp

/-- Big-step relation: mode `none` is the run loop, mode `some i` the rest of handler `i`. -/
inductive Tr (n : Nat) : Option Nat → Nat → RW → List CEv → Nat → RW → Option PVal → Prop
  | done {i j w} : Tr n (some i) j w [] j w none
  | panic {i j w v} : Tr n (some i) j w [] j w (some v)
  | next {i j w t1 j' w' t2 j'' w'' r} : Tr n none (j + 1) w t1 j' w' none →
      Tr n (some i) j' w' t2 j'' w'' r →
      Tr n (some i) j w (.nextBeg i w.written :: t1 ++ .nextEnd i :: t2) j'' w'' r
  | nextPanic {i j w t1 j' w' v} : Tr n none (j + 1) w t1 j' w' (some v) →
      Tr n (some i) j w (.nextBeg i w.written :: t1) j' w' (some v)
  | nextRec {i j w t1 j' w' v t2 j'' w'' r} : Tr n none (j + 1) w t1 j' w' (some v) →
      Tr n (some i) j' w' t2 j'' w'' r →
      Tr n (some i) j w (.nextBeg i w.written :: t1 ++ .nextRec i v w' :: t2) j'' w'' r
  | ops {i j w os w' t j' w'' r} : w' = runOps os w → Tr n (some i) j w' t j' w'' r →
      Tr n (some i) j w t j' w'' r
  | eff {i j w e t j' w' r} : Tr n (some i) j w t j' w' r → Tr n (some i) j w (.eff i e :: t) j' w' r
  | stop {j w} : n ≤ j → Tr n none j w [] j w none
  | step {j w t1 m w1 t2 k w2 r} : j < n → Tr n (some j) j w t1 m w1 none → w1.written = false →
      Tr n none (m + 1) w1 t2 k w2 r →
      Tr n none j w (.start j :: t1 ++ .fin j false :: t2) k w2 r
  | stepWritten {j w t1 m w1} : j < n → Tr n (some j) j w t1 m w1 none → w1.written = true →
      Tr n none j w (.start j :: t1 ++ [.fin j true]) (m + 1) w1 none
  | stepPanic {j w t1 m w1 v} : j < n → Tr n (some j) j w t1 m w1 (some v) →
      Tr n none j w (.start j :: t1) m w1 (some v)

theorem Tr.idx_le {n m j w t j' w' r} (h : Tr n m j w t j' w' r) : j ≤ j' := by
  induction h <;> omega

theorem Tr.ops_of {n m j w t j' w' r} (h : Tr n m j w t j' w' r) : ∃ os, w' = runOps os w := by
  induction h with
  | done => exact ⟨[], rfl⟩
  | panic => exact ⟨[], rfl⟩
  | next _ _ ih1 ih2 =>
    obtain ⟨a, rfl⟩ := ih1; obtain ⟨b, rfl⟩ := ih2; exact ⟨a ++ b, (runOps_append a b _).symm⟩
  | nextPanic _ ih => exact ih
  | nextRec _ _ ih1 ih2 =>
    obtain ⟨a, rfl⟩ := ih1; obtain ⟨b, rfl⟩ := ih2; exact ⟨a ++ b, (runOps_append a b _).symm⟩
  | @ops i j w os w' t j' w'' r h _ ih =>
    subst h; obtain ⟨b, rfl⟩ := ih; exact ⟨os ++ b, (runOps_append os b _).symm⟩
  | eff _ ih => exact ih
  | stop => exact ⟨[], rfl⟩
  | step _ _ _ _ ih1 ih2 =>
    obtain ⟨a, rfl⟩ := ih1; obtain ⟨b, rfl⟩ := ih2; exact ⟨a ++ b, (runOps_append a b _).symm⟩
  | stepWritten _ _ _ ih => exact ih
  | stepPanic _ _ ih => exact ih

theorem op_written (w : RW) (o : Op) (h : w.written = true) : (w.op o).1.written = true := by
  have hcb : ∀ (bs : List BF) (w : RW), w.written = true → (callBefore bs w).1.written = true := by
    intro bs
    induction bs with
    | nil => intro w h; exact h
    | cons b bs ih =>
      intro w h
      unfold callBefore
      cases hs : b.status with
      | none =>
        simp only []
        split
        · exact h
        · exact ih _ h
      | some s =>
        simp only [RW.writeHeader]
        by_cases h0 : s = 0
        · simp only [h0, if_true]; exact h
        · simp only [h0, if_false]
          have hw : ({ w with status := s, events := w.events ++ [Ev.before b.id] } : RW).written = true := by
            simp [RW.written, h0]
          split
          · exact hw
          · exact ih _ hw
  have hcm : ∀ w : RW, w.written = true → (commit w).1.written = true := by
    intro w h
    have := hcb w.befores.reverse { w with once := true } h
    unfold commit
    split
    · rename_i heq; rw [heq] at this; exact this
    · rename_i w' heq
      rw [heq] at this
      have hs : w'.status ≠ 0 := by simpa [RW.written] using this
      simp only [hs, if_false]
      split
      · exact this
      · exact this
  cases o with
  | writeHeader s =>
    simp only [RW.op, RW.writeHeader]
    split
    · exact h
    · rename_i hs; simp [RW.written, hs]
  | write bs n =>
    simp only [RW.op, RW.write]
    split
    · exact h
    · have := hcm w h
      split
      · rename_i heq; rw [heq] at this; exact this
      · rename_i heq; rw [heq] at this; exact this
  | flush => exact h
  | before b => exact h
  | hijack => exact h

theorem runOps_written (os : List Op) : ∀ w : RW, w.written = true → (runOps os w).written = true := by
  induction os with
  | nil => intro w h; exact h
  | cons o os ih => intro w h; exact ih _ (op_written w o h)

theorem Tr.written_mono {n m j w t j' w' r} (h : Tr n m j w t j' w' r) (hw : w.written = true) :
    w'.written = true := by
  obtain ⟨os, rfl⟩ := h.ops_of
  exact runOps_written os w hw

/-- `o` is a result of running mode `m` from `s` with the given start index. -/
def Res (n : Nat) (m : Option Nat) (j : Nat) (s : S) (o : Out) : Prop :=
  ∃ t, o.1.tr = s.tr ++ t ∧ Tr n m j s.rw t o.1.idx o.1.rw o.2

/-- `body` behaves like a handler. -/
def BodyOk (n : Nat) (body : Nat → (S → Out) → S → Out) : Prop :=
  ∀ (i : Nat) (nxt : S → Out) (lo : Nat),
    (∀ s, lo ≤ s.idx → Res n none (s.idx + 1) s (nxt s)) →
    ∀ s, lo ≤ s.idx → Res n (some i) s.idx s (body i nxt s)

theorem loop_res {n : Nat} {body : Nat → (S → Out) → S → Out} (hb : BodyOk n body) :
    ∀ (f : Nat) (s : S), n - s.idx ≤ f → Res n none s.idx s (loop n body f s) := by
  intro f
  induction f with
  | zero => intro s h; exact ⟨[], by simp [loop], by unfold loop; exact Tr.stop (by omega)⟩
  | succ f ih =>
    intro s h
    unfold loop
    split
    · rename_i hlt
      have hbody := hb s.idx (fun s' => loop n body f s'.bump) s.idx (by
        intro s' hs'
        obtain ⟨t, h1, h2⟩ := ih s'.bump (by simp [S.bump]; omega)
        exact ⟨t, h1, h2⟩) (s.push (.start s.idx)) (Nat.le_refl _)
      obtain ⟨t1, g1, g2⟩ := hbody
      split
      · rename_i s' v heq
        rw [heq] at g1 g2
        refine ⟨.start s.idx :: t1, ?_, Tr.stepPanic hlt g2⟩
        simp only [] at g1 ⊢
        rw [g1]; simp [S.push]
      · rename_i s' heq
        rw [heq] at g1 g2
        simp only [] at g1 g2 ⊢
        have hle := g2.idx_le
        have hle' : s.idx ≤ s'.idx := hle
        by_cases hw : s'.rw.written = true
        · have hw' : (s'.bump.push (.fin s.idx s'.rw.written)).rw.written = true := hw
          rw [if_pos hw']
          refine ⟨CEv.start s.idx :: t1 ++ [CEv.fin s.idx true], ?_, Tr.stepWritten hlt g2 hw⟩
          simp [S.push, S.bump, g1, hw]
        · have hw' : ¬ (s'.bump.push (.fin s.idx s'.rw.written)).rw.written = true := hw
          rw [if_neg hw']
          obtain ⟨t2, k1, k2⟩ := ih (s'.bump.push (.fin s.idx s'.rw.written)) (by
            simp [S.push, S.bump]; omega)
          have hwf : s'.rw.written = false := by simpa using hw
          refine ⟨.start s.idx :: t1 ++ .fin s.idx false :: t2, ?_, Tr.step hlt g2 hwf k2⟩
          rw [k1]
          simp [S.push, S.bump, g1, hwf]
    · rename_i hlt
      exact ⟨[], by simp, Tr.stop (by omega)⟩

theorem interp_ok (a : Act) : ∀ (n i : Nat) (nxt : S → Out) (lo : Nat),
    (∀ s, lo ≤ s.idx → Res n none (s.idx + 1) s (nxt s)) →
    ∀ s, lo ≤ s.idx → Res n (some i) s.idx s (interp a i nxt s) := by
  induction a with
  | done => intro n i nxt lo _ s _; exact ⟨[], by simp [interp], Tr.done⟩
  | panic v => intro n i nxt lo _ s _; exact ⟨[], by simp [interp], Tr.panic⟩
  | next k ih =>
    intro n i nxt lo hn s hs
    unfold interp
    obtain ⟨t1, g1, g2⟩ := hn (s.push (.nextBeg i s.rw.written)) hs
    have hle := g2.idx_le
    split
    · rename_i s' heq
      rw [heq] at g1 g2 hle
      simp only [S.push] at hle
      obtain ⟨t2, k1, k2⟩ := ih n i nxt lo hn (s'.push (.nextEnd i)) (by simp [S.push]; omega)
      refine ⟨.nextBeg i s.rw.written :: t1 ++ .nextEnd i :: t2, ?_, Tr.next g2 k2⟩
      rw [k1]; simp only [S.push] at g1 ⊢; rw [g1]; simp
    · rename_i s' v heq
      rw [heq] at g1 g2
      refine ⟨.nextBeg i s.rw.written :: t1, ?_, Tr.nextPanic g2⟩
      simp only [S.push] at g1 ⊢; rw [g1]; simp
  | tryNext k ih =>
    intro n i nxt lo hn s hs
    unfold interp
    obtain ⟨t1, g1, g2⟩ := hn (s.push (.nextBeg i s.rw.written)) hs
    have hle := g2.idx_le
    split
    · rename_i s' heq
      rw [heq] at g1 g2 hle
      simp only [S.push] at hle
      obtain ⟨t2, k1, k2⟩ := ih none n i nxt lo hn (s'.push (.nextEnd i)) (by simp [S.push]; omega)
      refine ⟨.nextBeg i s.rw.written :: t1 ++ .nextEnd i :: t2, ?_, Tr.next g2 k2⟩
      rw [k1]; simp only [S.push] at g1 ⊢; rw [g1]; simp
    · rename_i s' v heq
      rw [heq] at g1 g2 hle
      simp only [S.push] at hle
      obtain ⟨t2, k1, k2⟩ := ih (some v) n i nxt lo hn (s'.push (.nextRec i v s'.rw)) (by simp [S.push]; omega)
      refine ⟨CEv.nextBeg i s.rw.written :: t1 ++ (CEv.nextRec i v s'.rw) :: t2, ?_, Tr.nextRec g2 k2⟩
      rw [k1]; simp only [S.push] at g1 ⊢; rw [g1]; simp
  | op o k ih =>
    intro n i nxt lo hn s hs
    unfold interp
    split
    · rename_i w heq
      exact ⟨[], by simp, Tr.ops (os := [o]) (by simp [runOps, heq]) Tr.panic⟩
    · rename_i w heq
      obtain ⟨t, k1, k2⟩ := ih n i nxt lo hn { s with rw := w } hs
      exact ⟨t, k1, Tr.ops (os := [o]) (by simp [runOps, heq]) k2⟩
  | written k ih => intro n i nxt lo hn s hs; unfold interp; exact ih _ n i nxt lo hn s hs
  | stat k ih => intro n i nxt lo hn s hs; unfold interp; exact ih _ _ n i nxt lo hn s hs
  | eff e k ih =>
    intro n i nxt lo hn s hs
    unfold interp
    obtain ⟨t, k1, k2⟩ := ih n i nxt lo hn (s.push (.eff i e)) hs
    exact ⟨.eff i e :: t, by rw [k1]; simp [S.push], Tr.eff k2⟩
  | nest m hs k ihh ih =>
    intro n i nxt lo hn s hs'
    unfold interp
    have hb : BodyOk m (fun j nx s => if h : j < m then interp (hs ⟨j, h⟩) j nx s else (s, none)) := by
      intro j nx lo hx s hs
      simp only []
      split
      · rename_i h; exact ihh ⟨j, h⟩ m j nx lo hx s hs
      · exact ⟨[], by simp, Tr.done⟩
    obtain ⟨t, g1, g2⟩ := loop_res hb m ⟨0, s.rw, []⟩ (by simp)
    obtain ⟨os, hos⟩ := g2.ops_of
    split
    · rename_i s' heq
      rw [heq] at hos
      obtain ⟨t2, k1, k2⟩ := ih n i nxt lo hn { s with rw := s'.rw } hs'
      exact ⟨t2, k1, Tr.ops hos k2⟩
    · rename_i s' v heq
      rw [heq] at hos
      exact ⟨[], by simp, Tr.ops hos Tr.panic⟩

theorem handlerOf_ok (n : Nat) (hs : List Act) : BodyOk n (handlerOf hs) := by
  intro i nxt lo hn s hs'
  unfold handlerOf
  split
  · exact interp_ok _ n i nxt lo hn s hs'
  · exact ⟨[], by simp, Tr.done⟩

/-- Every run is described by the big-step relation. -/
theorem run_tr (hs : List Act) (rw : RW) :
    Tr hs.length none 0 rw (run hs rw).1.tr (run hs rw).1.idx (run hs rw).1.rw (run hs rw).2 := by
  obtain ⟨t, h1, h2⟩ := loop_res (handlerOf_ok hs.length hs) hs.length ⟨0, rw, []⟩ (by simp)
  have : (run hs rw).1.tr = t := by unfold run; rw [h1]; simp
  rw [this]
  exact h2

end Verif.Ctx
