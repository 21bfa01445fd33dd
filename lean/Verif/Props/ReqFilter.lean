import Verif.Model.ReqFilter
import Verif.Props.Context
import Verif.Props.App
/-!
# C86: the request log
-/
namespace Verif.Ctx
open Verif.Resp Spec

/-! ## Specification -/

/-- The notes of handler `i`, in order. -/
def Spec.logOf (i : Nat) (t : List CEv) : List Note :=
  t.filterMap (fun e => match e with | .eff j n => if j = i then some n else none | _ => none)

/-- The status a response has been given, 200 by default. -/
def Spec.statusOr200 (w : RW) : Nat := if w.status = 0 then 200 else w.status

/-- The calls a request makes on the response are orderly: callbacks set no status and do not panic, the connection is not
hijacked, nothing is flushed before the first write and `WriteHeader` is not called after it. -/
structure Spec.Orderly (os : List Op) : Prop where
  callbacks : ∀ b ∈ registered os, b.status = none ∧ b.panics = false
  hijack : ∀ o ∈ os, o.isHijack = false
  order : (∀ o ∈ os, o.isWrite = false ∧ o.isFlush = false) ∨
    ∃ pre bs n post, os = pre ++ .write bs n :: post ∧ (∀ o ∈ pre, o.isWrite = false ∧ o.isFlush = false) ∧
      ∀ o ∈ post, o.isWriteHeader = false

theorem logOf_append (i : Nat) (a b : List CEv) : Spec.logOf i (a ++ b) = Spec.logOf i a ++ Spec.logOf i b := by
  simp [Spec.logOf]

/-- Events of handlers from another index on. -/
theorem logOf_owners {i : Nat} {t : List CEv} (h : ∀ e ∈ t, owner e ≠ i) : Spec.logOf i t = [] := by
  unfold Spec.logOf
  rw [List.filterMap_eq_nil_iff]
  intro e he
  have := h e he
  cases e with
  | eff j n =>
    simp only
    rw [if_neg]
    exact this
  | _ => rfl

/-! ## The lines of a logger anywhere in the chain -/

/-- What handler `i` can have logged. -/
inductive Spec.Lines : List Note → Prop where
  | none : Spec.Lines []
  | beg : Spec.Lines [.reqBeg]
  | both (s z : Nat) : Spec.Lines [.reqBeg, .reqEnd s z]

/-- From `s` on, handler `i` logged at most its two lines, in order, and only before index `i` was passed. -/
def P (i : Nat) (bnd : Nat) (s : S) (o : S) : Prop :=
  ∃ t, o.tr = s.tr ++ t ∧ Spec.Lines (Spec.logOf i t) ∧ (Spec.logOf i t ≠ [] → i ≤ o.idx) ∧ (bnd ≤ s.idx → Spec.logOf i t = []) ∧
    s.idx ≤ o.idx

theorem P.le {i b : Nat} {s o : S} (h : P i b s o) : s.idx ≤ o.idx := by
  obtain ⟨_, _, _, _, _, h⟩ := h
  exact h

theorem P.refl {i b : Nat} (s : S) : P i b s s := ⟨[], by simp, .none, by simp [Spec.logOf], fun _ => rfl, Nat.le_refl _⟩

theorem P.same {i b : Nat} {s : S} {s' : S} (h1 : s'.tr = s.tr) (h2 : s'.idx = s.idx) : P i b s s' :=
  ⟨[], by simp [h1], .none, by simp [Spec.logOf], fun _ => rfl, by omega⟩

theorem P.push {i b : Nat} (s : S) (e : CEv) (he : Spec.logOf i [e] = []) : P i b s (s.push e) :=
  ⟨[e], rfl, by rw [he]; exact .none, by simp [he], fun _ => he, Nat.le_refl _⟩

theorem P.bump {i b : Nat} (s : S) : P i b s s.bump :=
  ⟨[], by simp [S.bump], .none, by simp [Spec.logOf], fun _ => rfl, Nat.le_succ _⟩

/-- The second part may start at `i` only if the first logged nothing. -/
theorem P.trans {i b c : Nat} {s s' s'' : S} (h : P i b s s') (g : P i c s' s'') (hc : ∀ x, i ≤ s'.idx → x = s'.idx → c ≤ x)
    (hb : b ≤ s.idx → i ≤ s.idx) : P i b s s'' := by
  obtain ⟨t, h1, h2, h3, h4, h5⟩ := h
  obtain ⟨u, g1, g2, g3, g4, g5⟩ := g
  refine ⟨t ++ u, by rw [g1, h1, List.append_assoc], ?_, ?_, ?_, by omega⟩
  · rw [logOf_append]
    by_cases e : Spec.logOf i t = []
    · rw [e]; exact g2
    · rw [g4 (hc _ (h3 e) rfl), List.append_nil]; exact h2
  · rw [logOf_append]
    intro hne
    by_cases e : Spec.logOf i t = []
    · rw [e] at hne; exact g3 hne
    · have := h3 e; omega
  · intro hle
    rw [logOf_append, h4 hle, List.nil_append]
    exact g4 (hc _ (by have := hb hle; omega) rfl)

/-- `nxt` behaves so from states at index at least `lo`. -/
def KeepsP (i lo : Nat) (nxt : S → Out) : Prop := ∀ s, lo ≤ s.idx → P i i s (nxt s).1

theorem P.tr {i : Nat} {s s' s'' : S} (h : P i i s s') (g : P i i s' s'') : P i i s s'' :=
  h.trans g (fun x hx e => by omega) (fun e => e)

theorem interp_P (i : Nat) (a : Act) : ∀ (j lo : Nat) (nxt : S → Out) (s : S), j ≠ i → KeepsP i lo nxt → lo ≤ s.idx →
    P i i s (interp a j nxt s).1 := by
  induction a with
  | done => intro j lo nxt s _ _ _; exact P.refl s
  | panic v => intro j lo nxt s _ _ _; exact P.refl s
  | next k ih =>
    intro j lo nxt s hj hn hs
    simp only [interp]
    have h := (P.push s (.nextBeg j s.rw.written) rfl).tr (hn (s.push (.nextBeg j s.rw.written)) hs)
    have hle : s.idx ≤ (nxt (s.push (.nextBeg j s.rw.written))).1.idx := h.le
    cases hx : nxt (s.push (.nextBeg j s.rw.written)) with
    | mk s' r =>
      rw [hx] at h hle
      cases r with
      | none => exact (h.tr (P.push s' (.nextEnd j) rfl)).tr (ih j lo nxt _ hj hn (by simp only [S.push]; simp only at hle; omega))
      | some v => exact h
  | tryNext k ih =>
    intro j lo nxt s hj hn hs
    simp only [interp]
    have h := (P.push s (.nextBeg j s.rw.written) rfl).tr (hn (s.push (.nextBeg j s.rw.written)) hs)
    have hle : s.idx ≤ (nxt (s.push (.nextBeg j s.rw.written))).1.idx := h.le
    cases hx : nxt (s.push (.nextBeg j s.rw.written)) with
    | mk s' r =>
      rw [hx] at h hle
      cases r with
      | none => exact (h.tr (P.push s' (.nextEnd j) rfl)).tr (ih _ j lo nxt _ hj hn (by simp only [S.push]; simp only at hle; omega))
      | some v => exact (h.tr (P.push s' (.nextRec j v s'.rw) rfl)).tr (ih _ j lo nxt _ hj hn (by simp only [S.push]; simp only at hle; omega))
  | op o k ih =>
    intro j lo nxt s hj hn hs
    simp only [interp]
    cases hx : s.rw.op o with
    | mk w p =>
      cases p with
      | true => exact P.same rfl rfl
      | false => exact (P.same (i := i) (b := i) (s := s) (s' := { s with rw := w }) rfl rfl).tr (ih j lo nxt _ hj hn hs)
  | written k ih => intro j lo nxt s hj hn hs; simp only [interp]; exact ih _ j lo nxt s hj hn hs
  | stat k ih => intro j lo nxt s hj hn hs; simp only [interp]; exact ih _ _ j lo nxt s hj hn hs
  | eff n k ih =>
    intro j lo nxt s hj hn hs
    simp only [interp]
    exact (P.push s (.eff j n) (by simp [Spec.logOf, hj])).tr (ih j lo nxt _ hj hn hs)
  | nest n hs k ihs ih =>
    intro j lo nxt s hj hn hl
    simp only [interp]
    split
    · rename_i s' _
      exact (P.same (i := i) (b := i) (s := s) (s' := { s with rw := s'.rw }) rfl rfl).tr (ih j lo nxt _ hj hn hl)
    · exact P.same rfl rfl

/-- The logger itself: from index `i`. -/
theorem logger_P (i cb : Nat) (nxt : S → Out) (s : S) (hn : KeepsP i i nxt) (hs : s.idx = i) :
    P i (i + 1) s (interp (reqLogger cb) i nxt s).1 := by
  have hb : ∀ w : RW, w.op (.before ⟨cb, none, false⟩) = ({ w with befores := w.befores ++ [⟨cb, none, false⟩] }, false) := fun w => rfl
  simp only [reqLogger, interp, hb]
  have h := hn (S.push { s.push (.eff i .reqBeg) with rw := { s.rw with befores := s.rw.befores ++ [⟨cb, none, false⟩] } }
    (.nextBeg i (RW.written { s.rw with befores := s.rw.befores ++ [⟨cb, none, false⟩] }))) (by simp [S.push, hs])
  simp only [S.push] at h ⊢
  generalize nxt _ = o at h ⊢
  obtain ⟨s', r⟩ := o
  obtain ⟨t, h1, h2, h3, h4, h5⟩ := h
  have h4 := h4 (by simp [hs])
  simp only at h1 h5
  cases r with
  | none =>
    simp only
    refine ⟨[.eff i .reqBeg] ++ [.nextBeg i (RW.written { s.rw with befores := s.rw.befores ++ [⟨cb, none, false⟩] })] ++ t ++ [.nextEnd i] ++
      [.eff i (.reqEnd (if s'.rw.status = 0 then 200 else s'.rw.status) s'.rw.size)], by simp [h1, RW.written]; rfl, ?_, ?_, ?_, ?_⟩
    · simp only [logOf_append, h4, List.append_nil]
      simp [Spec.logOf]
      exact .both _ _
    · intro _; show i ≤ s'.idx; omega
    · intro hh; omega
    · show s.idx ≤ s'.idx; omega
  | some v =>
    simp only
    refine ⟨[.eff i .reqBeg] ++ [.nextBeg i (RW.written { s.rw with befores := s.rw.befores ++ [⟨cb, none, false⟩] })] ++ t, by simp [h1, RW.written], ?_, ?_, ?_, ?_⟩
    · simp only [logOf_append, h4, List.append_nil]
      simp [Spec.logOf]
      exact .beg
    · intro _; show i ≤ s'.idx; omega
    · intro hh; omega
    · show s.idx ≤ s'.idx; omega

theorem loop_P (hs : List Act) (i cb : Nat) (hi : hs[i]? = some (reqLogger cb)) : ∀ (f : Nat) (s : S),
    hs.length - s.idx ≤ f → P i (i + 1) s (loop hs.length (handlerOf hs) f s).1 := by
  intro f
  induction f with
  | zero => intro s _; exact P.refl s
  | succ f ih =>
    intro s hf
    by_cases hlt : s.idx < hs.length
    · rw [App.loop_lt _ _ _ _ hlt]
      have hkeep : KeepsP i s.idx (fun s' => loop hs.length (handlerOf hs) f s'.bump) := by
        intro s1 hq
        have := ih s1.bump (by simp [S.bump]; omega)
        obtain ⟨t, h1, h2, h3, h4, h5⟩ := this
        refine ⟨t, h1, h2, h3, fun hle => h4 (by simp [S.bump]; omega), ?_⟩
        simp only [S.bump] at h5; simp only [S.bump]; omega
      have hbody : P i (i + 1) (s.push (.start s.idx))
          (handlerOf hs s.idx (fun s' => loop hs.length (handlerOf hs) f s'.bump) (s.push (.start s.idx))).1 ∧
          (s.idx ≠ i → P i i (s.push (.start s.idx))
          (handlerOf hs s.idx (fun s' => loop hs.length (handlerOf hs) f s'.bump) (s.push (.start s.idx))).1) := by
        by_cases he : s.idx = i
        · have := logger_P i cb _ (s.push (.start s.idx)) (he ▸ hkeep) (by simpa [S.push] using he)
          have h2 : handlerOf hs s.idx = interp (reqLogger cb) i := by
            funext a b; simp only [handlerOf, he, hi]
          rw [h2]
          exact ⟨this, fun h => absurd he h⟩
        · have : P i i (s.push (.start s.idx))
              (handlerOf hs s.idx (fun s' => loop hs.length (handlerOf hs) f s'.bump) (s.push (.start s.idx))).1 := by
            unfold handlerOf
            split
            · exact interp_P i _ s.idx s.idx _ _ he hkeep (Nat.le_refl _)
            · exact P.refl _
          obtain ⟨t, h1, h2, h3, h4, h5⟩ := this
          exact ⟨⟨t, h1, h2, h3, fun h => h4 (by omega), h5⟩, fun _ => ⟨t, h1, h2, h3, h4, h5⟩⟩
      obtain ⟨⟨t, h1, h2, h3, h4, h5⟩, hne⟩ := hbody
      have hst : Spec.logOf i [CEv.start s.idx] = [] := rfl
      generalize handlerOf hs s.idx _ _ = o at h1 h2 h3 h4 h5 ⊢
      obtain ⟨s', r⟩ := o
      simp only [S.push] at h1 h3 h4 h5
      cases r with
      | some v =>
        refine ⟨.start s.idx :: t, by simp [h1], ?_, ?_, ?_, h5⟩
        · exact h2
        · exact h3
        · exact h4
      | none =>
        simp only
        have hfin : ∀ b, Spec.logOf i [CEv.fin s.idx b] = [] := fun _ => rfl
        split
        · refine ⟨[.start s.idx] ++ t ++ [.fin s.idx s'.rw.written], by simp [h1, S.push, S.bump], ?_, ?_, ?_, ?_⟩
          · rw [logOf_append, logOf_append, hst, hfin, List.append_nil]; exact h2
          · rw [logOf_append, logOf_append, hst, hfin, List.append_nil]; intro h; have := h3 h; simp only [S.push, S.bump]; omega
          · rw [logOf_append, logOf_append, hst, hfin, List.append_nil]; exact h4
          · simp only [S.push, S.bump]; omega
        · obtain ⟨u, g1, g2, g3, g4, g5⟩ := ih (s'.bump.push (.fin s.idx s'.rw.written)) (by simp only [S.push, S.bump]; omega)
          simp only [S.push, S.bump] at g4 g5
          refine ⟨[.start s.idx] ++ t ++ [.fin s.idx s'.rw.written] ++ u, by rw [g1]; simp [h1, S.push, S.bump], ?_, ?_, ?_, by simp only [S.push, S.bump]; omega⟩
          · rw [logOf_append, logOf_append, logOf_append, hst, hfin, List.append_nil, List.nil_append]
            by_cases e : Spec.logOf i t = []
            · rw [e]; exact g2
            · have := h3 e; rw [g4 (by omega), List.append_nil]; exact h2
          · rw [logOf_append, logOf_append, logOf_append, hst, hfin, List.append_nil, List.nil_append]
            intro h
            by_cases e : Spec.logOf i t = []
            · rw [e] at h; exact g3 h
            · have := h3 e; simp only [S.push, S.bump]; omega
          · rw [logOf_append, logOf_append, logOf_append, hst, hfin, List.append_nil, List.nil_append]
            intro h
            rw [h4 h, List.nil_append]
            exact g4 (by omega)
    · rw [App.loop_ge _ _ _ _ (by omega)]; exact P.refl s

/-- Past index `i`, the loop logs nothing for `i`. -/
theorem loop_past (hs : List Act) (i f : Nat) (s : S) (h : i < s.idx) (hf : hs.length - s.idx ≤ f) :
    ∃ t, (loop hs.length (handlerOf hs) f s).1.tr = s.tr ++ t ∧ Spec.logOf i t = [] ∧
      s.idx ≤ (loop hs.length (handlerOf hs) f s).1.idx := by
  obtain ⟨t, h1, h2⟩ := loop_res (handlerOf_ok hs.length hs) f s hf
  refine ⟨t, h1, logOf_owners fun e he => ?_, h2.idx_le⟩
  have := (h2.owners e he).1 rfl
  omega

/-- **C86.** Wherever the request logger stands in the chain and whatever the other handlers do, a request logs at most one
REQ_BEG, and at most one REQ_END, which comes after it. -/
theorem C86_at_most_one_pair (hs : List Act) (i cb : Nat) (hi : hs[i]? = some (reqLogger cb)) (rw : RW) :
    Spec.logOf i (run hs rw).1.tr = [] ∨ Spec.logOf i (run hs rw).1.tr = [.reqBeg] ∨
      ∃ s z, Spec.logOf i (run hs rw).1.tr = [.reqBeg, .reqEnd s z] := by
  obtain ⟨t, h1, h2, _⟩ := loop_P hs i cb hi hs.length ⟨0, rw, []⟩ (by simp)
  have : (run hs rw).1.tr = t := by unfold run; rw [h1]; simp
  rw [this]
  cases h : Spec.logOf i t with
  | nil => exact .inl rfl
  | cons a l =>
    rw [h] at h2
    cases h2 with
    | beg => exact .inr (.inl rfl)
    | both s z => exact .inr (.inr ⟨s, z, rfl⟩)

/-! ## The lines of a logger that runs -/

/-- A context that ended without a panic has been written to or has run all its handlers. -/
theorem Tr.ended {n m j w t j' w' r} (h : Tr n m j w t j' w' r) (hm : m = none) (hr : r = none) : w'.written = true ∨ n ≤ j' := by
  induction h with
  | stop h => exact .inr h
  | step _ _ _ _ _ ih => exact ih rfl hr
  | stepWritten _ _ h => exact .inl h
  | stepPanic => cases hr
  | _ => cases hm

theorem loop_ended (hs : List Act) (f : Nat) (s : S) (hf : hs.length - s.idx ≤ f) (h : (loop hs.length (handlerOf hs) f s).2 = none) :
    (loop hs.length (handlerOf hs) f s).1.rw.written = true ∨ hs.length ≤ (loop hs.length (handlerOf hs) f s).1.idx := by
  obtain ⟨t, _, h2⟩ := loop_res (handlerOf_ok hs.length hs) f s hf
  exact h2.ended rfl h

/-- The loop entered at the logger. -/
theorem loop_at_logger (hs : List Act) (i cb : Nat) (hi : hs[i]? = some (reqLogger cb)) (f : Nat) (s : S) (hs' : s.idx = i)
    (hf : hs.length - s.idx ≤ f) :
    ∃ t, (loop hs.length (handlerOf hs) f s).1.tr = s.tr ++ t ∧ Spec.logOf i t = .reqBeg ::
      (if (loop hs.length (handlerOf hs) f s).2 = none then
        [.reqEnd (Spec.statusOr200 (loop hs.length (handlerOf hs) f s).1.rw) (loop hs.length (handlerOf hs) f s).1.rw.size] else []) := by
  have hlt : s.idx < hs.length := by
    have := (List.getElem?_eq_some_iff.mp hi).1
    omega
  obtain ⟨f, rfl⟩ : ∃ g, f = g + 1 := ⟨f - 1, by omega⟩
  rw [App.loop_lt _ _ _ _ hlt]
  have h2 : handlerOf hs s.idx = interp (reqLogger cb) i := by
    funext a b; simp only [handlerOf, hs', hi]
  have hb : ∀ w : RW, w.op (.before ⟨cb, none, false⟩) = ({ w with befores := w.befores ++ [⟨cb, none, false⟩] }, false) := fun w => rfl
  rw [h2]
  generalize hw : ({ s.rw with befores := s.rw.befores ++ [⟨cb, none, false⟩] } : RW) = w1
  have e : interp (reqLogger cb) i (fun s' => loop hs.length (handlerOf hs) f s'.bump) (s.push (.start s.idx)) =
      match loop hs.length (handlerOf hs) f ⟨i + 1, w1, s.tr ++ [.start s.idx, .eff i .reqBeg, .nextBeg i w1.written]⟩ with
      | (s', none) => ((s'.push (.nextEnd i)).push (.eff i (.reqEnd (Spec.statusOr200 s'.rw) s'.rw.size)), none)
      | (s', some v) => (s', some v) := by
    simp only [reqLogger, interp, hb, S.push, S.bump, hw, hs', List.append_assoc, List.cons_append, List.nil_append]
    generalize loop hs.length (handlerOf hs) f _ = o
    obtain ⟨s', _ | v⟩ := o <;> rfl
  rw [e]
  obtain ⟨t, g1, g2, _⟩ := loop_past hs i f ⟨i + 1, w1, s.tr ++ [.start s.idx, .eff i .reqBeg, .nextBeg i w1.written]⟩ (by simp) (by simp only; omega)
  have g3 := loop_ended hs f ⟨i + 1, w1, s.tr ++ [.start s.idx, .eff i .reqBeg, .nextBeg i w1.written]⟩ (by simp only; omega)
  generalize loop hs.length (handlerOf hs) f ⟨i + 1, w1, s.tr ++ [.start s.idx, .eff i .reqBeg, .nextBeg i w1.written]⟩ = o at g1 g2 g3 ⊢
  obtain ⟨s', r⟩ := o
  simp only at g1 g3
  have hl : Spec.logOf i ([CEv.start s.idx, .eff i .reqBeg, .nextBeg i w1.written] ++ t) = [.reqBeg] := by
    rw [logOf_append, g2]; simp [Spec.logOf]
  cases r with
  | some v =>
    refine ⟨[.start s.idx, .eff i .reqBeg, .nextBeg i w1.written] ++ t, by simp [g1], ?_⟩
    rw [hl]; rfl
  | none =>
    simp only
    have hend : (if ((s'.push (.nextEnd i)).push (.eff i (.reqEnd (Spec.statusOr200 s'.rw) s'.rw.size))).rw.written = true then
        (((s'.push (.nextEnd i)).push (.eff i (.reqEnd (Spec.statusOr200 s'.rw) s'.rw.size))).bump.push
          (.fin s.idx ((s'.push (.nextEnd i)).push (.eff i (.reqEnd (Spec.statusOr200 s'.rw) s'.rw.size))).rw.written), none)
        else loop hs.length (handlerOf hs) f (((s'.push (.nextEnd i)).push (.eff i (.reqEnd (Spec.statusOr200 s'.rw) s'.rw.size))).bump.push
          (.fin s.idx ((s'.push (.nextEnd i)).push (.eff i (.reqEnd (Spec.statusOr200 s'.rw) s'.rw.size))).rw.written))) =
        (⟨s'.idx + 1, s'.rw, s'.tr ++ [.nextEnd i, .eff i (.reqEnd (Spec.statusOr200 s'.rw) s'.rw.size), .fin s.idx s'.rw.written]⟩, (none : Option PVal)) := by
      split
      · simp [S.push, S.bump]
      · rename_i hnw
        rcases g3 rfl with h | h
        · exact absurd h hnw
        · rw [App.loop_ge _ _ _ _ (by simp only [S.push, S.bump]; omega)]
          simp [S.push, S.bump]
    rw [hend]
    refine ⟨([.start s.idx, .eff i .reqBeg, .nextBeg i w1.written] ++ t) ++
      [.nextEnd i, .eff i (.reqEnd (Spec.statusOr200 s'.rw) s'.rw.size), .fin s.idx s'.rw.written], by simp [g1], ?_⟩
    rw [logOf_append, hl]
    simp [Spec.logOf]

/-- **C86.** With the request logger as the first filter, a request logs REQ_BEG, and REQ_END exactly if no panic comes out
of the other handlers; its status (200 if none was set) and size are those of the response when the request ends. -/
theorem C86_log_lines (cb : Nat) (rest : List Act) (rw : RW) :
    Spec.logOf 0 (run (reqLogger cb :: rest) rw).1.tr = .reqBeg ::
      (if (run (reqLogger cb :: rest) rw).2 = none then
        [.reqEnd (Spec.statusOr200 (run (reqLogger cb :: rest) rw).1.rw) (run (reqLogger cb :: rest) rw).1.rw.size] else []) := by
  obtain ⟨t, h1, h2⟩ := loop_at_logger (reqLogger cb :: rest) 0 cb rfl (reqLogger cb :: rest).length ⟨0, rw, []⟩ rfl (by simp)
  have : (run (reqLogger cb :: rest) rw).1.tr = t := by unfold run; rw [h1]; simp
  rw [this, h2]
  rfl

/-- **C86** with the recovery filter in front of the logger (`LoadClassicFilters`): REQ_END is logged exactly if the recovery
filter has nothing to recover; its status and size are those of the response when the request ends. -/
theorem C86_log_lines_recovered (lg : Bool) (dev : Option Str) (cb : Nat) (rest : List Act) (rw : RW) :
    (Spec.logOf 1 (run (recovery lg dev :: reqLogger cb :: rest) rw).1.tr =
        [.reqBeg, .reqEnd (Spec.statusOr200 (run (recovery lg dev :: reqLogger cb :: rest) rw).1.rw)
          (run (recovery lg dev :: reqLogger cb :: rest) rw).1.rw.size] ∧
      ∀ v w, CEv.nextRec 0 v w ∉ (run (recovery lg dev :: reqLogger cb :: rest) rw).1.tr) ∨
    (Spec.logOf 1 (run (recovery lg dev :: reqLogger cb :: rest) rw).1.tr = [.reqBeg] ∧
      ∃ v w, CEv.nextRec 0 v w ∈ (run (recovery lg dev :: reqLogger cb :: rest) rw).1.tr) := by
  generalize hhs : recovery lg dev :: reqLogger cb :: rest = hs
  have hlen : hs.length = rest.length + 2 := by rw [← hhs]; simp
  have h1 : hs[1]? = some (reqLogger cb) := by rw [← hhs]; rfl
  have h0 : handlerOf hs 0 = interp (recovery lg dev) 0 := by rw [← hhs]; rfl
  have hrun : run hs rw = loop hs.length (handlerOf hs) (rest.length + 1 + 1) ⟨0, rw, []⟩ := by
    unfold run; rw [hlen]
  rw [hrun, App.loop_lt _ _ _ _ (by rw [hlen]; simp)]
  simp only [h0]
  rw [App.recovery_once]
  obtain ⟨t, g1, g2⟩ := loop_at_logger hs 1 cb h1 (rest.length + 1) ⟨1, rw, [.start 0, .nextBeg 0 rw.written]⟩ rfl (by simp only; omega)
  have g3 := loop_ended hs (rest.length + 1) ⟨1, rw, [.start 0, .nextBeg 0 rw.written]⟩ (by simp only; omega)
  have g5 : 1 ≤ (loop hs.length (handlerOf hs) (rest.length + 1) ⟨1, rw, [.start 0, .nextBeg 0 rw.written]⟩).1.idx := by
    obtain ⟨_, _, k⟩ := loop_res (handlerOf_ok hs.length hs) (rest.length + 1) ⟨1, rw, [.start 0, .nextBeg 0 rw.written]⟩ (by simp only; omega)
    exact k.idx_le
  have g4 : ∀ v w, CEv.nextRec 0 v w ∉ t := by
    obtain ⟨t', k1, k2⟩ := loop_res (handlerOf_ok hs.length hs) (rest.length + 1) ⟨1, rw, [.start 0, .nextBeg 0 rw.written]⟩ (by simp only; omega)
    have : t = t' := by
      have := g1.symm.trans k1
      exact List.append_cancel_left this
    subst this
    intro v w hm
    have := (k2.owners _ hm).1 rfl
    simp only [owner] at this
    omega
  have e : (S.bump ((S.push ⟨0, rw, []⟩ (.start 0)).push (.nextBeg 0 (S.push ⟨0, rw, []⟩ (.start 0)).rw.written))) =
      ⟨1, rw, [.start 0, .nextBeg 0 rw.written]⟩ := rfl
  simp only [e]
  generalize loop hs.length (handlerOf hs) (rest.length + 1) ⟨1, rw, [.start 0, .nextBeg 0 rw.written]⟩ = o at g1 g2 g3 g5 ⊢
  obtain ⟨s', r⟩ := o
  simp only at g1 g2 g3 g5
  have hl0 : Spec.logOf 1 [CEv.start 0, .nextBeg 0 rw.written] = [] := rfl
  cases r with
  | none =>
    left
    have e2 : interp (recovery lg dev) 0 (fun _ => (s', none)) (S.push ⟨0, rw, []⟩ (.start 0)) = (s'.push (.nextEnd 0), none) := rfl
    rw [e2]
    simp only
    have hend : (if (s'.push (.nextEnd 0)).rw.written = true then
        ((s'.push (.nextEnd 0)).bump.push (.fin 0 (s'.push (.nextEnd 0)).rw.written), none)
        else loop hs.length (handlerOf hs) (rest.length + 1) ((s'.push (.nextEnd 0)).bump.push (.fin 0 (s'.push (.nextEnd 0)).rw.written))) =
        (⟨s'.idx + 1, s'.rw, s'.tr ++ [.nextEnd 0, .fin 0 s'.rw.written]⟩, (none : Option PVal)) := by
      split
      · simp [S.push, S.bump]
      · rename_i hnw
        rcases g3 rfl with h | h
        · exact absurd h hnw
        · rw [App.loop_ge _ _ _ _ (by simp only [S.push, S.bump]; omega)]
          simp [S.push, S.bump]
    rw [hend]
    refine ⟨?_, ?_⟩
    · simp only [g1]
      rw [logOf_append, logOf_append, hl0, g2]
      simp [Spec.logOf]
    · intro v w hm
      simp only [g1] at hm
      simp [g4] at hm
  | some v =>
    right
    have e2 : ∃ w' t', interp (recovery lg dev) 0 (fun _ => (s', some v)) (S.push ⟨0, rw, []⟩ (.start 0)) =
        (⟨s'.idx, w', s'.tr ++ [.nextRec 0 v s'.rw]⟩, t') ∧ (t' = none → w' = s'.rw ∨ w'.written = true) := by
      unfold recovery
      simp only [interp]
      rcases v with _ | v
      · exact ⟨_, _, rfl, fun _ => .inl rfl⟩
      · simp only
        cases lg with
        | false => exact ⟨_, _, rfl, fun _ => .inl rfl⟩
        | true =>
          simp only [Bool.not_true, Bool.false_eq_true, if_false, interp]
          split
          · exact ⟨_, _, rfl, fun _ => .inl rfl⟩
          · simp only [interp, RW.op, RW.writeHeader, if_neg (show ¬ (500 = 0) by decide), S.push]
            cases dev with
            | none => exact ⟨_, _, rfl, fun _ => .inr rfl⟩
            | some pg =>
              simp only [interp, RW.op]
              have hw : (RW.write { s'.rw with status := 500 } pg pg.length).1.written = true :=
                op_written { s'.rw with status := 500 } (.write pg pg.length) rfl
              split
              · rename_i w heq
                rw [heq] at hw
                exact ⟨w, _, rfl, fun _ => .inr hw⟩
              · rename_i w heq
                rw [heq] at hw
                exact ⟨w, _, rfl, fun _ => .inr hw⟩
    obtain ⟨w', t', e2, -⟩ := e2
    rw [e2]
    have hl1 : Spec.logOf 1 (s'.tr ++ [.nextRec 0 v s'.rw]) = [.reqBeg] := by
      rw [g1, logOf_append, logOf_append, hl0, g2]
      simp [Spec.logOf]
    have hpast : 1 ≤ s'.idx := g5
    cases t' with
    | some v' => exact ⟨hl1, v, s'.rw, by simp⟩
    | none =>
      simp only
      split
      · refine ⟨?_, v, s'.rw, by simp [S.push, S.bump]⟩
        simp only [S.push, S.bump]
        rw [logOf_append, hl1]; rfl
      · obtain ⟨u, k1, k2, _⟩ := loop_past hs 1 (rest.length + 1)
          (S.push (S.bump ⟨s'.idx, w', s'.tr ++ [.nextRec 0 v s'.rw]⟩) (.fin 0 w'.written)) (by simp only [S.push, S.bump]; omega)
          (by simp only [S.push, S.bump]; omega)
        rw [k1]
        refine ⟨?_, v, s'.rw, by simp [S.push, S.bump]⟩
        simp only [S.push, S.bump]
        rw [logOf_append, logOf_append, hl1, k2]; rfl

/-! ## The reported status is the one sent -/

theorem callBefore_size (bs : List BF) : ∀ w : RW, (callBefore bs w).1.size = w.size := by
  induction bs with
  | nil => intro w; rfl
  | cons b bs ih =>
    intro w
    unfold callBefore
    cases b.status with
    | none =>
      simp only
      split
      · rfl
      · rw [ih]
    | some c =>
      simp only [RW.writeHeader]
      by_cases h0 : c = 0
      · simp [h0]
      · simp only [h0, if_false]
        split
        · rfl
        · rw [ih]

theorem commit_size (w : RW) : (commit w).1.size = w.size := by
  have := callBefore_size w.befores.reverse { w with once := true }
  unfold commit
  split
  · rename_i heq; rw [heq] at this; exact this
  · rename_i w' heq
    rw [heq] at this
    simp only
    split <;> split <;> exact this

/-- **C86.** If the calls on the response are orderly, the status the logger reports is the status the client gets and the
size is the number of body bytes accepted: `os` are the calls up to the end of the request, after which `ServeHTTP` calls
`Write(nil)`. -/
theorem C86_reported_is_sent (os : List Op) (h : Spec.Orderly os) :
    wireStatus (runOps (os ++ [.write [] 0]) newRW).events = some (Spec.statusOr200 (runOps os newRW)) ∧
    (runOps os newRW).size = (bodyBytes (runOps (os ++ [.write [] 0]) newRW).events).length := by
  have hok : ∀ b ∈ registered os, BFok b := fun b hb => ⟨(h.callbacks b hb).2, by rw [(h.callbacks b hb).1]; simp⟩
  refine ⟨?_, ?_⟩
  · rcases h.order with ho | ⟨pre, bs, n, post, ho, h1, h2⟩
    · have := C18_wire_status_partial (pre := os) (post := []) (bs := []) (n := 0) (fun o m => (ho o m).1) (fun o m => (ho o m).2)
        hok (by rw [List.any_eq_false]; intro o m; simp [h.hijack o m])
      rw [this, C18_sent_code_plain (fun b hb => (h.callbacks b hb).1)]
      obtain ⟨es, _, _, k⟩ := runOps_pre os (fun o m => (ho o m).1)
      rw [k newRW rfl]
      have : newRW.status = 0 := rfl
      simp only [Spec.statusOr200, this]
      by_cases hl : lastCode os = 0
      · simp [hl]
      · simp [hl]
    · subst ho
      have hreg : ∀ b ∈ registered pre, b ∈ registered (pre ++ Op.write bs n :: post) := by
        intro b hb
        simp only [registered, List.filterMap_append, List.mem_append]
        exact .inl hb
      have hh : pre.any Op.isHijack = false := by
        rw [List.any_eq_false]; intro o m; simp [h.hijack o (by simp [m])]
      have := C18_wire_status_partial (pre := pre) (post := post ++ [.write [] 0]) (bs := bs) (n := n) (fun o m => (h1 o m).1)
        (fun o m => (h1 o m).2) (fun b hb => hok b (hreg b hb)) hh
      simp only [List.append_assoc, List.cons_append]
      rw [this]
      obtain ⟨es, k1, k2, k3⟩ := first_write (bs := bs) (n := n) (fun o m => (h1 o m).1) (fun b hb => hok b (hreg b hb)) hh
      have hsplit : pre ++ Op.write bs n :: post = (pre ++ [.write bs n]) ++ post := by simp
      obtain ⟨rst, g1, g2, g3, g4, g5⟩ := runOps_post post (runOps (pre ++ [.write bs n]) newRW) (by rw [k3])
      have hl : lastCode post = 0 := by
        have : ∀ (l : List Op) (c : Nat), (∀ o ∈ l, o.isWriteHeader = false) →
            l.foldl (fun c o => match o with | .writeHeader s => if s = 0 then c else s | _ => c) c = c := by
          intro l
          induction l with
          | nil => intro c _; rfl
          | cons o l ih =>
            intro c h
            rw [List.foldl_cons]
            cases o with
            | writeHeader s => have := h (.writeHeader s) (by simp); cases this
            | _ => exact ih c (fun x hx => h x (by simp [hx]))
        exact this post 0 h2
      have hst : (runOps (pre ++ Op.write bs n :: post) newRW).status = sentCode pre := by
        rw [hsplit, runOps_append, g5, hl, k3]; rfl
      have hne : sentCode pre ≠ 0 := by
        unfold sentCode
        simp only
        split
        · decide
        · assumption
      simp only [Spec.statusOr200, hst, if_neg hne]
  · rw [← C19_size, runOps_append]
    have : ∀ w : RW, (runOps [.write [] 0] w).size = w.size := by
      intro w
      simp only [runOps, RW.op, RW.write]
      split
      · rfl
      · have := commit_size w
        split
        · rename_i heq; rw [heq] at this; exact this
        · rename_i heq; rw [heq] at this; exact this
    rw [this]

/-- **C86** for a whole request (`ServeHTTP`) with the logger as the first filter: if no panic comes out and the calls `os`
that led to the response were orderly, the log is REQ_BEG and REQ_END with the status the client got and the number of
body bytes it got. -/
theorem C86_request_log (cb : Nat) (rest : List Act) (os : List Op) (hp : (serveHTTP (reqLogger cb :: rest)).2 = none)
    (hos : (run (reqLogger cb :: rest) newRW).1.rw = runOps os newRW) (ho : Spec.Orderly os) :
    ∃ c, Spec.logOf 0 (run (reqLogger cb :: rest) newRW).1.tr =
        [.reqBeg, .reqEnd c (bodyBytes (serveHTTP (reqLogger cb :: rest)).1.events).length] ∧
      wireStatus (serveHTTP (reqLogger cb :: rest)).1.events = some c := by
  have hl := C86_log_lines cb rest newRW
  have hs : (run (reqLogger cb :: rest) newRW).2 = none ∧
      (serveHTTP (reqLogger cb :: rest)).1 = runOps (os ++ [.write [] 0]) newRW := by
    rw [runOps_append, ← hos]
    unfold serveHTTP at hp ⊢
    cases hr : run (reqLogger cb :: rest) newRW with
    | mk s r =>
      rw [hr] at hp
      cases r with
      | some v => cases hp
      | none =>
        refine ⟨rfl, ?_⟩
        show (match s.rw.write [] 0 with
          | (w, true) => (w, some (some 0))
          | (w, false) => (w, (none : Option PVal))).1 = (s.rw.write [] 0).1
        cases s.rw.write [] 0 with
        | mk w b => cases b <;> rfl
  rw [hs.1, if_pos rfl, hos] at hl
  obtain ⟨h1, h2⟩ := C86_reported_is_sent os ho
  rw [hs.2, ← h2]
  exact ⟨_, hl, h1⟩

/-- The hypotheses of `C86_request_log` are met: a filter that calls `Next`, an action that sets 404 and writes a page. -/
example : ∃ os, (serveHTTP [reqLogger 7, .next .done, .op (.writeHeader 404) (.op (.write b!"gone" 4) .done)]).2 = none ∧
    (run [reqLogger 7, .next .done, .op (.writeHeader 404) (.op (.write b!"gone" 4) .done)] newRW).1.rw = runOps os newRW ∧
    Spec.Orderly os ∧ Spec.logOf 0 (run [reqLogger 7, .next .done, .op (.writeHeader 404) (.op (.write b!"gone" 4) .done)] newRW).1.tr =
      [.reqBeg, .reqEnd 404 4] := by
  refine ⟨[.before ⟨7, none, false⟩, .writeHeader 404, .write b!"gone" 4], rfl, by decide, ⟨by decide, by decide, .inr
    ⟨[.before ⟨7, none, false⟩, .writeHeader 404], b!"gone", 4, [], rfl, by decide, by decide⟩⟩, by decide⟩

/-- Nothing set and nothing written: 200 and 0. -/
example : Spec.logOf 0 (run [reqLogger 7, .done] newRW).1.tr = [.reqBeg, .reqEnd 200 0] := by decide

/-- **C86: a request that panics has no REQ_END**, although the client gets an answer (500, from the recovery filter). -/
theorem C86_panic_unlogged_violated :
    Spec.logOf 1 (run [recovery true none, reqLogger 7, .panic (some 3)] newRW).1.tr = [.reqBeg] ∧
    wireStatus (serveHTTP [recovery true none, reqLogger 7, .panic (some 3)]).1.events = some 500 ∧
    (serveHTTP [recovery true none, reqLogger 7, .panic (some 3)]).2 = none := by decide

/-- **C86: the status can be wrong** after a late `WriteHeader`: logged 500, sent 200. -/
theorem C86_late_status_violated :
    Spec.logOf 0 (run [reqLogger 7, .op (.write b!"ok" 2) (.op (.writeHeader 500) .done)] newRW).1.tr = [.reqBeg, .reqEnd 500 2] ∧
    wireStatus (serveHTTP [reqLogger 7, .op (.write b!"ok" 2) (.op (.writeHeader 500) .done)]).1.events = some 200 := by decide

/-- **C86: a filter in front of the logger that sets a status keeps it from running**, and the request is not logged. -/
example : Spec.logOf 1 (run [.op (.writeHeader 403) .done, reqLogger 7, .done] newRW).1.tr = [] := by decide

end Verif.Ctx
