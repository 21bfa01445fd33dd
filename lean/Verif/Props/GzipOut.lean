import Verif.Model.GzipOut
import Verif.Props.GzipExact
import Verif.Props.Json
/-!
# C143: gzip and the results actions return
-/
namespace Verif.Gz
open Verif.Resp Verif.Resp.Spec Spec

variable {C : Codec}

/-! ## Specification -/

/-- Decompressing `n` times. -/
def Spec.unpack (C : Codec) : Nat → Str → Option Str
  | 0, x => some x
  | n + 1, x => (C.decode x).bind (Spec.unpack C n)

/-- The gzip filters before the innermost `GenericOutFilter` (those registered earlier), and the ones after it. -/
def Spec.outer : List Flt → Nat
  | [] => 0
  | f :: fs => if Flt.out ∈ fs then (if f = .gzip then 1 else 0) + Spec.outer fs else 0
def Spec.inner (fs : List Flt) : Nat := fs.count .gzip - Spec.outer fs

/-- The calls leave the response alone: only headers are set. -/
def Spec.Silent (ops : List GOp) : Prop := ∀ o ∈ ops, ∃ k v, o = GOp.setHeader k v

/-! ## The writers -/

/-- What each writer of a stack has been given: `d` the top one, `b` the client. -/
def Good : List (Option C.St) → Str → Str → Prop
  | [], d, b => b = d
  | none :: ws, d, b => d = [] ∧ Good ws [] b
  | some st :: ws, d, b => ∃ ps, ps.flatten = d ∧ st = (C.run C.init ps).1 ∧ Good ws (C.run C.init ps).2 b

theorem Good.through {detect : Str → Str} : ∀ (ws : List (Option C.St)) (d p : Str) (g : GS C), Usable g → Good ws d (body g) →
    Good (through detect ws p g).1 (d ++ p) (body (through detect ws p g).2) ∧ Usable (Gz.through detect ws p g).2 ∧
      (Gz.through detect ws p g).1.length = ws.length ∧ ∀ w ∈ (Gz.through detect ws p g).1, w.isSome
  | [], d, p, g, hu, h => by
    have r := rawWrite_spec hu p
    refine ⟨?_, r.1, rfl, by simp [Gz.through]⟩
    show body (g.rawWrite p) = d ++ p
    rw [r.2.1]
    exact congrArg (· ++ p) h
  | some st :: ws, d, p, g, hu, h => by
    obtain ⟨ps, h1, h2, h3⟩ := h
    obtain ⟨a, b, c, e⟩ := Good.through (detect := detect) ws _ (C.write st p).2 g hu h3
    refine ⟨⟨ps ++ [p], by simp [h1], ?_, ?_⟩, b, by simp [Gz.through, c], ?_⟩
    · rw [Codec.run_append, ← h2]
    · rw [Codec.run_append, ← h2]; exact a
    · intro w hw
      rcases List.mem_cons.mp hw with rfl | hw
      · rfl
      · exact e w hw
  | none :: ws, d, p, g, hu, h => by
    obtain ⟨h1, h2⟩ := h
    obtain ⟨a, b, c, e⟩ := Good.through (detect := detect) ws _ (C.write C.init p).2 { g with hdr := firstHdr detect g.hdr p } hu h2
    subst h1
    refine ⟨⟨[p], by simp, ?_, ?_⟩, b, by simp [Gz.through, c], ?_⟩
    · simp [Codec.run]
    · have e : (C.run C.init [p]).2 = (C.write C.init p).2 := by simp [Codec.run]
      rw [e]; exact a
    · intro w hw
      rcases List.mem_cons.mp hw with rfl | hw
      · rfl
      · exact e w hw

theorem op_good {detect : Str → Str} (o : GOp) (s : WS C) (d : Str) (hu : Usable s.base) (h : Good s.gzs d (body s.base)) :
    Good (s.op detect o).gzs (d ++ written [o]) (body (s.op detect o).base) ∧ Usable (s.op detect o).base ∧
      (s.op detect o).gzs.length = s.gzs.length ∧ ((∀ w ∈ s.gzs, w.isSome) ∨ writes [o] = true → ∀ w ∈ (s.op detect o).gzs, w.isSome) := by
  by_cases ho : ∃ p, o = .write p
  · obtain ⟨p, rfl⟩ := ho
    obtain ⟨a, b, c, e⟩ := Good.through (detect := detect) s.gzs d p s.base hu h
    have e0 : written [.write p] = p := by simp [written]
    rw [e0]
    exact ⟨a, b, c, fun _ => e⟩
  · have ho' : ∀ p, o ≠ .write p := fun p hp => ho ⟨p, hp⟩
    have hop : s.op detect o = { s with base := s.base.common o } := by
      cases o with
      | write p => exact absurd rfl (ho' p)
      | _ => rfl
    have cs := common_spec hu ho'
    rw [hop]
    have e1 : written [o] = [] := by
      cases o with
      | write p => exact absurd rfl (ho' p)
      | _ => rfl
    have e2 : writes [o] = false := by
      cases o with
      | write p => exact absurd rfl (ho' p)
      | _ => rfl
    refine ⟨?_, cs.1, rfl, ?_⟩
    · rw [e1, List.append_nil]; show Good s.gzs d (body (s.base.common o)); rw [cs.2.1]; exact h
    · rw [e2]; rintro (h | h)
      · exact h
      · cases h

theorem written_cons (o : GOp) (ops : List GOp) : written (o :: ops) = written [o] ++ written ops := by simp [written]
theorem writes_cons (o : GOp) (ops : List GOp) : writes (o :: ops) = (writes [o] || writes ops) := by simp [writes]

theorem ops_good {detect : Str → Str} : ∀ (ops : List GOp) (s : WS C) (d : Str), Usable s.base → Good s.gzs d (body s.base) →
    Good (ops.foldl (WS.op detect) s).gzs (d ++ written ops) (body (ops.foldl (WS.op detect) s).base) ∧
      Usable (ops.foldl (WS.op detect) s).base ∧ (ops.foldl (WS.op detect) s).gzs.length = s.gzs.length ∧
      ((∀ w ∈ s.gzs, w.isSome) ∨ writes ops = true → ∀ w ∈ (ops.foldl (WS.op detect) s).gzs, w.isSome)
  | [], s, d, hu, h => by
    refine ⟨by simpa [written] using h, hu, rfl, ?_⟩
    rintro (h | h)
    · exact h
    · cases h
  | o :: ops, s, d, hu, h => by
    obtain ⟨a, b, c, e⟩ := op_good (detect := detect) o s d hu h
    obtain ⟨a', b', c', e'⟩ := ops_good ops (s.op detect o) _ b a
    rw [List.foldl_cons]
    refine ⟨by rw [written_cons, ← List.append_assoc]; exact a', b', c'.trans c, ?_⟩
    rw [writes_cons]
    intro hw
    refine e' ?_
    rcases hw with hw | hw
    · exact .inl (e (.inl hw))
    · rcases Bool.or_eq_true_iff.mp hw with hw | hw
      · exact .inl (e (.inr hw))
      · exact .inr hw

/-- Below `n` opened writers that are not closed. -/
theorem Good.below (hC : C.Lawful) : ∀ (up low : List (Option C.St)) (d b : Str), (∀ w ∈ up, w.isSome) → Good (up ++ low) d b →
    ∃ D, Good low D b ∧ (up = [] → D = d) ∧ (up ≠ [] → C.decode D = none)
  | [], low, d, b, _, h => ⟨d, h, fun _ => rfl, fun h => absurd rfl h⟩
  | none :: up, low, d, b, hs, _ => by have := hs none List.mem_cons_self; cases this
  | some st :: up, low, d, b, hs, h => by
    obtain ⟨ps, h1, h2, h3⟩ := h
    obtain ⟨D, e1, e2, e3⟩ := Good.below hC up low _ b (fun w hw => hs w (List.mem_cons_of_mem _ hw)) h3
    refine ⟨D, e1, fun h => (by cases h), fun _ => ?_⟩
    by_cases hup : up = []
    · rw [e2 hup]; exact hC.incomplete ps
    · exact e3 hup

/-- Closing a writer that was used. -/
theorem closeAt_some {detect : Str → Str} (hC : C.Lawful) (up low : List (Option C.St)) (st : C.St) (s : WS C) (d : Str)
    (hs : s.gzs = up ++ some st :: low) (hu : Usable s.base) (h : Good (some st :: low) d (body s.base)) :
    ∃ low' D, (s.closeAt detect low.length).gzs = (up ++ [some st]) ++ low' ∧ low'.length = low.length ∧ (∀ w ∈ low', w.isSome) ∧
      Good low' D (body (s.closeAt detect low.length).base) ∧ Usable (s.closeAt detect low.length).base ∧ C.decode D = some d := by
  have e1 : s.gzs.drop (s.gzs.length - (low.length + 1)) = some st :: low := by
    rw [hs]
    have : (up ++ some st :: low).length - (low.length + 1) = up.length := by simp
    rw [this, List.drop_left]
  have e2 : s.gzs.take (s.gzs.length - low.length) = up ++ [some st] := by
    rw [hs]
    have : (up ++ some st :: low).length - low.length = (up ++ [some st]).length := by simp; omega
    rw [this, show up ++ some st :: low = (up ++ [some st]) ++ low by simp, List.take_left]
  obtain ⟨ps, h1, h2, h3⟩ := h
  obtain ⟨a, b, c, e⟩ := Good.through (detect := detect) low _ (C.close st) s.base hu h3
  have e' : s.closeAt detect low.length =
      ⟨(through detect low (C.close st) s.base).2, up ++ [some st] ++ (through detect low (C.close st) s.base).1⟩ := by
    unfold WS.closeAt; rw [e1, e2]
  rw [e']
  refine ⟨_, _, rfl, c, e, a, b, ?_⟩
  rw [h2, hC.complete ps, h1]

/-- Closing a writer that was not used. -/
theorem closeAt_none {detect : Str → Str} (up low : List (Option C.St)) (s : WS C) (hs : s.gzs = up ++ none :: low) :
    s.closeAt detect low.length = s := by
  have e1 : s.gzs.drop (s.gzs.length - (low.length + 1)) = none :: low := by
    rw [hs]
    have : (up ++ none :: low).length - (low.length + 1) = up.length := by simp
    rw [this, List.drop_left]
  unfold WS.closeAt; rw [e1]

/-! ## Written -/

/-- A writer with a committed header has a status. -/
def Kept (g : GS C) : Prop := Usable g ∧ (g.rw.once = true → g.rw.written = true)

theorem codeAfter_ne {w : RW} (c : Nat) (hc : c = (if codeAfter w.status w.befores.reverse = 0 then 200 else codeAfter w.status w.befores.reverse)) :
    c ≠ 0 := by
  rw [hc]; split
  · decide
  · assumption

theorem raw_kept {g : GS C} (h : Kept g) (p : Str) : Kept (g.rawWrite p) ∧ (g.rawWrite p).rw.written = true := by
  have r := rawWrite_spec h.1 p
  have hw : (g.rawWrite p).rw.written = true := by
    unfold GS.rawWrite RW.write
    split
    · exact h.2 (by assumption)
    · obtain ⟨c, hc, he⟩ := commit_ok h.1.1 h.1.2
      rw [he]
      have := codeAfter_ne c hc
      simp [RW.written, writeBody, this]
  exact ⟨⟨r.1, fun _ => hw⟩, hw⟩

theorem through_kept {detect : Str → Str} : ∀ (ws : List (Option C.St)) (p : Str) (g : GS C), Kept g →
    Kept (through detect ws p g).2 ∧ (through detect ws p g).2.rw.written = true
  | [], p, g, h => raw_kept h p
  | some st :: ws, p, g, h => through_kept ws _ g h
  | none :: ws, p, g, h => through_kept ws _ _ h

theorem op_kept {detect : Str → Str} (o : GOp) (s : WS C) (h : Kept s.base) :
    Kept (s.op detect o).base ∧ (s.base.rw.written = true ∨ writes [o] = true → (s.op detect o).base.rw.written = true) := by
  cases o with
  | write p => exact ⟨(through_kept s.gzs p s.base h).1, fun _ => (through_kept s.gzs p s.base h).2⟩
  | writeHeader c =>
    have cs := common_spec h.1 (o := .writeHeader c) (fun p => by simp)
    have hw : s.base.rw.written = true → (s.base.common (.writeHeader c)).rw.written = true := by
      simp only [GS.common, RW.op, RW.writeHeader]
      split
      · exact id
      · intro _; simp [RW.written]; assumption
    refine ⟨⟨cs.1, fun ho => hw (h.2 ?_)⟩, ?_⟩
    · simp only [WS.op, GS.common, RW.op, RW.writeHeader] at ho
      split at ho <;> exact ho
    · rintro (e | e)
      · exact hw e
      · cases e
  | flush =>
    refine ⟨⟨h.1, h.2⟩, ?_⟩
    rintro (e | e)
    · exact e
    · cases e
  | setHeader k v =>
    refine ⟨⟨h.1, h.2⟩, ?_⟩
    rintro (e | e)
    · exact e
    · cases e

theorem ops_kept {detect : Str → Str} : ∀ (ops : List GOp) (s : WS C), Kept s.base →
    Kept (ops.foldl (WS.op detect) s).base ∧
      (s.base.rw.written = true ∨ writes ops = true → (ops.foldl (WS.op detect) s).base.rw.written = true)
  | [], s, h => ⟨h, by rintro (e | e); exact e; cases e⟩
  | o :: ops, s, h => by
    obtain ⟨a, b⟩ := op_kept (detect := detect) o s h
    obtain ⟨a', b'⟩ := ops_kept ops (s.op detect o) a
    rw [List.foldl_cons]
    refine ⟨a', fun e => b' ?_⟩
    rw [writes_cons] at e
    rcases e with e | e
    · exact .inl (b (.inl e))
    · rcases Bool.or_eq_true_iff.mp e with e | e
      · exact .inl (b (.inr e))
      · exact .inr e

theorem closeAt_kept {detect : Str → Str} (n : Nat) (s : WS C) (h : Kept s.base) :
    Kept (s.closeAt detect n).base ∧ (s.base.rw.written = true → (s.closeAt detect n).base.rw.written = true) := by
  unfold WS.closeAt
  split
  · exact ⟨(through_kept _ _ _ h).1, fun _ => (through_kept _ _ _ h).2⟩
  · exact ⟨h, id⟩

/-! ## The chain -/

theorem silent_ops {detect : Str → Str} : ∀ (ops : List GOp) (s : WS C), Spec.Silent ops →
    (ops.foldl (WS.op detect) s).base.rw = s.base.rw ∧ (ops.foldl (WS.op detect) s).gzs = s.gzs
  | [], s, _ => ⟨rfl, rfl⟩
  | o :: ops, s, h => by
    obtain ⟨k, v, rfl⟩ := h o List.mem_cons_self
    rw [List.foldl_cons]
    exact silent_ops ops _ (fun o ho => h o (List.mem_cons_of_mem _ ho))

/-- An action that leaves the response alone, and no `GenericOutFilter`. -/
theorem chain_silent {detect : Str → Str} {accept : Str} (ha : contains accept b!"gzip" = true) {action result : List GOp}
    (hs : Spec.Silent action) : ∀ (fs : List Flt) (s : WS C), Flt.out ∉ fs →
    (chain detect accept action result fs s).base.rw = s.base.rw ∧
      (chain detect accept action result fs s).gzs = List.replicate (fs.count .gzip) none ++ s.gzs
  | [], s, _ => silent_ops action s hs
  | .pass :: fs, s, h => by
    have := chain_silent (detect := detect) (result := result) ha hs fs s (fun e => h (List.mem_cons_of_mem _ e))
    simpa [chain] using this
  | .out :: fs, s, h => absurd List.mem_cons_self h
  | .gzip :: fs, s, h => by
    obtain ⟨a, b⟩ := chain_silent (detect := detect) (result := result) ha hs fs
      ⟨{ s.base with hdr := (s.base.hdr.set b!"Content-Encoding" b!"gzip").set b!"Vary" b!"Accept-Encoding" }, none :: s.gzs⟩
      (fun e => h (List.mem_cons_of_mem _ e))
    simp only [chain, ha, if_true]
    rw [closeAt_none _ s.gzs _ b]
    refine ⟨a, b.trans ?_⟩
    rw [List.count_cons_self, List.replicate_succ', List.append_assoc]
    rfl

/-- What a chain with an answer has done: the writers that were there were given `D`. -/
structure Done (s s' : WS C) (D : Str) : Prop where
  usable : Usable s'.base
  written : s'.base.rw.written = true
  kept : Kept s'.base
  split : ∃ up low, s'.gzs = up ++ low ∧ low.length = s.gzs.length ∧ (∀ w ∈ low, w.isSome) ∧ Good low D (body s'.base)

/-- The gzip filter around an answer. -/
theorem Done.gzip {detect : Str → Str} (hC : C.Lawful) (s : WS C) (b : GS C) (s' : WS C) (D : Str) (h : Done ⟨b, none :: s.gzs⟩ s' D) :
    ∃ D', Done s (s'.closeAt detect s.gzs.length) D' ∧ C.decode D' = some D := by
  obtain ⟨hu, hw, hk, up, low, h1, h2, h3, h4⟩ := h
  cases low with
  | nil => cases h2
  | cons w low =>
    have hl : low.length = s.gzs.length := by simpa using h2
    cases w with
    | none => have := h3 none List.mem_cons_self; cases this
    | some st =>
      obtain ⟨low', D', a, b, c, d, e, f⟩ := closeAt_some (detect := detect) hC up low st s' D h1 hu h4
      have ck := closeAt_kept (detect := detect) s.gzs.length s' hk
      rw [hl] at a d e
      exact ⟨D', ⟨e, ck.2 hw, ck.1, _, low', a, b.trans hl, c, d⟩, f⟩

theorem Done.mono {s t s' : WS C} {D : Str} (h : Done s s' D) (e : s.gzs = t.gzs) : Done t s' D := by
  obtain ⟨a, b, k, up, low, c, d, f, g⟩ := h
  exact ⟨a, b, k, up, low, c, e ▸ d, f, g⟩

/-- An action that writes. -/
theorem chain_written {detect : Str → Str} {accept : Str} (hC : C.Lawful) (ha : contains accept b!"gzip" = true) {action result : List GOp}
    (hw : writes action = true) : ∀ (fs : List Flt) (s : WS C), Kept s.base → Good s.gzs [] (body s.base) →
    ∃ D, Done s (chain detect accept action result fs s) D ∧ Spec.unpack C (fs.count .gzip) D = some (written action)
  | [], s, hk, hg => by
    obtain ⟨a, b, c, e⟩ := ops_good (detect := detect) action s [] hk.1 hg
    have k := ops_kept (detect := detect) action s hk
    exact ⟨_, ⟨b, k.2 (.inr hw), k.1, [], _, rfl, c, e (.inr hw), (by rw [List.nil_append] at a; exact a)⟩, rfl⟩
  | .pass :: fs, s, hk, hg => by
    have := chain_written (detect := detect) (result := result) hC ha hw fs s hk hg
    simpa [chain] using this
  | .out :: fs, s, hk, hg => by
    obtain ⟨D, h1, h2⟩ := chain_written (detect := detect) (result := result) hC ha hw fs s hk hg
    refine ⟨D, ?_, by simpa using h2⟩
    simp only [chain, h1.written, if_true]
    exact h1
  | .gzip :: fs, s, hk, hg => by
    obtain ⟨D, h1, h2⟩ := chain_written (detect := detect) (result := result) hC ha hw fs
      ⟨{ s.base with hdr := (s.base.hdr.set b!"Content-Encoding" b!"gzip").set b!"Vary" b!"Accept-Encoding" }, none :: s.gzs⟩ hk ⟨rfl, hg⟩
    obtain ⟨D', h3, h4⟩ := Done.gzip (detect := detect) hC s _ _ D h1
    refine ⟨D', ?_, ?_⟩
    · simp only [chain, ha, if_true]; exact h3
    · rw [List.count_cons_self]
      simp only [Spec.unpack, h4, Option.bind_some]
      exact h2

theorem outer_le : ∀ fs : List Flt, Spec.outer fs ≤ fs.count .gzip
  | [] => Nat.le_refl _
  | f :: fs => by
    have := outer_le fs
    simp only [Spec.outer, List.count_cons, beq_iff_eq]
    split <;> split <;> omega

theorem outer_none (fs : List Flt) (h : Flt.out ∉ fs) : Spec.outer fs = 0 := by
  cases fs with
  | nil => rfl
  | cons f fs => simp only [Spec.outer]; rw [if_neg (fun e => h (List.mem_cons_of_mem _ e))]

theorem Good.nones (low : List (Option C.St)) (b : Str) (h : Good low [] b) : ∀ n, Good (List.replicate n none ++ low) [] b
  | 0 => h
  | n + 1 => ⟨rfl, Good.nones low b h n⟩

/-- An action that returns a result. -/
theorem chain_result {detect : Str → Str} {accept : Str} (hC : C.Lawful) (ha : contains accept b!"gzip" = true) {action result : List GOp}
    (hs : Spec.Silent action) (hw : writes result = true) : ∀ (fs : List Flt) (s : WS C), Flt.out ∈ fs → Kept s.base →
    s.base.rw.written = false → Good s.gzs [] (body s.base) →
    ∃ D x, Done s (chain detect accept action result fs s) D ∧ Spec.unpack C (Spec.outer fs) D = some x ∧
      (Spec.inner fs = 0 → x = written result) ∧ (Spec.inner fs ≠ 0 → C.decode x = none)
  | [], s, h, _, _, _ => by cases h
  | .pass :: fs, s, h, hk, h0, hg => by
    have h' : Flt.out ∈ fs := by simpa using h
    have := chain_result (detect := detect) hC ha hs hw fs s h' hk h0 hg
    simpa [chain, Spec.outer, Spec.inner, h'] using this
  | .out :: fs, s, _, hk, h0, hg => by
    by_cases h' : Flt.out ∈ fs
    · obtain ⟨D, x, h1, h2, h3⟩ := chain_result (detect := detect) hC ha hs hw fs s h' hk h0 hg
      refine ⟨D, x, ?_, by simpa [Spec.outer, h'] using h2, by simpa [Spec.outer, Spec.inner, h'] using h3⟩
      simp only [chain, h1.written, if_true]
      exact h1
    · obtain ⟨e1, e2⟩ := chain_silent (detect := detect) (result := result) ha hs fs s h'
      have ek : Kept (chain detect accept action result fs s).base := by
        unfold Kept Usable; rw [e1]; exact hk
      have eb : body (chain detect accept action result fs s).base = body s.base := by unfold Spec.body; rw [e1]
      have eg : Good (chain detect accept action result fs s).gzs [] (body (chain detect accept action result fs s).base) := by
        rw [e2, eb]; exact Good.nones _ _ hg _
      obtain ⟨a, b, c, e⟩ := ops_good (detect := detect) result _ [] ek.1 eg
      have k := ops_kept (detect := detect) result _ ek
      have hsome := e (.inr hw)
      rw [e2] at c
      generalize hz : result.foldl (WS.op detect) (chain detect accept action result fs s) = z at a b c hsome k
      have hsplit : z.gzs = z.gzs.take (fs.count .gzip) ++ z.gzs.drop (fs.count .gzip) := (List.take_append_drop _ _).symm
      rw [hsplit] at a
      obtain ⟨D, g1, g2, g3⟩ := Good.below hC _ _ _ _ (fun w hw => hsome w (List.mem_of_mem_take hw)) a
      have hch : chain detect accept action result (.out :: fs) s = z := by
        simp only [chain]
        rw [if_neg (by rw [e1, h0]; simp), hz]
      have hin : Spec.inner (.out :: fs) = fs.count .gzip := by simp [Spec.inner, Spec.outer, h']
      have hlen : z.gzs.length = fs.count .gzip + s.gzs.length := by rw [c]; simp
      refine ⟨D, D, ?_, ?_, ?_, ?_⟩
      · rw [hch]
        exact ⟨b, k.2 (.inr hw), k.1, _, _, hsplit, by rw [List.length_drop, hlen]; omega,
          fun w hw => hsome w (List.mem_of_mem_drop hw), g1⟩
      · simp [Spec.outer, h', Spec.unpack]
      · rw [hin]; intro hn
        rw [g2 (by rw [hn]; rfl)]; simp
      · rw [hin]; intro hn
        refine g3 (fun hnil => ?_)
        have := congrArg List.length hnil
        rw [List.length_take, hlen] at this
        simp at this
        omega
  | .gzip :: fs, s, h, hk, h0, hg => by
    have h' : Flt.out ∈ fs := by simpa using h
    obtain ⟨D, x, h1, h2, h3⟩ := chain_result (detect := detect) hC ha hs hw fs
      ⟨{ s.base with hdr := (s.base.hdr.set b!"Content-Encoding" b!"gzip").set b!"Vary" b!"Accept-Encoding" }, none :: s.gzs⟩ h' hk h0 ⟨rfl, hg⟩
    obtain ⟨D', h4, h5⟩ := Done.gzip (detect := detect) hC s _ _ D h1
    have ho : Spec.outer (.gzip :: fs) = Spec.outer fs + 1 := by simp [Spec.outer, h']; omega
    have hi : Spec.inner (.gzip :: fs) = Spec.inner fs := by
      have := outer_le fs
      unfold Spec.inner
      rw [ho, List.count_cons_self]; omega
    refine ⟨D', x, ?_, ?_, ?_⟩
    · simp only [chain, ha, if_true]; exact h4
    · rw [ho]
      simp only [Spec.unpack, h5, Option.bind_some]
      exact h2
    · rw [hi]; exact h3

/-! ## Status -/

/-- If any gzip writer was used, the header is out. -/
def Out1 (s : WS C) : Prop := (∃ w ∈ s.gzs, w.isSome) → s.base.rw.once = true ∧ wireStatus s.base.rw.events ≠ none

theorem through_same {detect : Str → Str} : ∀ (ws : List (Option C.St)) (p q : Str) (g g' : GS C), Same g.rw g'.rw →
    Same (through detect ws p g).2.rw (g'.rawWrite q).rw
  | [], p, q, g, g', h => write_same h _ _ _ _
  | some st :: ws, p, q, g, g', h => through_same ws _ q g g' h
  | none :: ws, p, q, g, g', h => through_same ws _ q _ g' h

theorem through_out {detect : Str → Str} : ∀ (ws : List (Option C.St)) (p : Str) (g : GS C), Usable g →
    (through detect ws p g).2.rw.once = true ∧ wireStatus (through detect ws p g).2.rw.events ≠ none
  | [], p, g, h => write_opened h.1 h.2 _ _
  | some st :: ws, p, g, h => through_out ws _ g h
  | none :: ws, p, g, h => through_out ws _ _ h

theorem op_same {detect : Str → Str} (o : GOp) (s s0 : WS C) (h0 : s0.gzs = []) (h : Same s.base.rw s0.base.rw) :
    Same (s.op detect o).base.rw (s0.op detect o).base.rw ∧ (s0.op detect o).gzs = [] := by
  cases o with
  | write p => exact ⟨by simp only [WS.op, h0]; exact through_same s.gzs p p s.base s0.base h, by simp only [WS.op, h0]; rfl⟩
  | writeHeader c => exact ⟨common_same (o := .writeHeader c) h, h0⟩
  | flush => exact ⟨common_same (o := .flush) h, h0⟩
  | setHeader k v => exact ⟨common_same (o := .setHeader k v) h, h0⟩

theorem op_out {detect : Str → Str} (o : GOp) (s : WS C) (hu : Usable s.base) (h : Out1 s) : Out1 (s.op detect o) := by
  cases o with
  | write p => exact fun _ => through_out s.gzs p s.base hu
  | writeHeader c =>
    intro hw
    have := h hw
    simp only [WS.op, GS.common, RW.op, RW.writeHeader]
    split <;> exact this
  | flush =>
    intro hw
    refine ⟨(h hw).1, ?_⟩
    show wireStatus (s.base.rw.events ++ [.flush]) ≠ none
    rw [wireStatus_append]
    cases hx : wireStatus s.base.rw.events with
    | none => exact absurd hx (h hw).2
    | some c => exact fun h => nomatch h
  | setHeader k v => exact h

/-- The state of the plain response goes along. -/
structure Along (s s0 : WS C) : Prop where
  same : Same s.base.rw s0.base.rw
  plain : s0.gzs = []
  kept : Kept s.base
  out : Out1 s

theorem ops_along {detect : Str → Str} : ∀ (ops : List GOp) (s s0 : WS C), Along s s0 →
    Along (ops.foldl (WS.op detect) s) (ops.foldl (WS.op detect) s0)
  | [], s, s0, h => h
  | o :: ops, s, s0, h => by
    rw [List.foldl_cons, List.foldl_cons]
    obtain ⟨a, b⟩ := op_same (detect := detect) o s s0 h.plain h.same
    exact ops_along ops _ _ ⟨a, b, (op_kept o s h.kept).1, op_out o s h.kept.1 h.out⟩

theorem closeAt_along {detect : Str → Str} (n : Nat) (s s0 : WS C) (h : Along s s0) : Along (s.closeAt detect n) s0 := by
  unfold WS.closeAt
  split
  · rename_i st low e
    have hm : ∃ w ∈ s.gzs, w.isSome := by
      refine ⟨some st, ?_, rfl⟩
      exact List.mem_of_mem_drop (e ▸ List.mem_cons_self)
    obtain ⟨o1, o2⟩ := h.out hm
    refine ⟨?_, h.plain, (through_kept _ _ _ h.kept).1, fun _ => through_out _ _ _ h.kept.1⟩
    refine Same.trans (through_same low (C.close st) [] s.base s.base (Same.refl _)) (Same.trans ?_ h.same)
    simp only [GS.rawWrite, RW.write, o1, if_true]
    refine ⟨rfl, rfl, rfl, rfl, ?_⟩
    show wireStatus (s.base.rw.events ++ [.body _]) = wireStatus s.base.rw.events
    rw [wireStatus_append]
    cases hx : wireStatus s.base.rw.events with
    | none => exact absurd hx o2
    | some c => rfl
  · exact h

theorem contains_nil : contains [] b!"gzip" = false := by decide

theorem written_same {w w' : RW} (h : Same w w') : w.written = w'.written := by unfold RW.written; rw [h.status]

theorem chain_along {detect : Str → Str} {accept : Str} {action result : List GOp} : ∀ (fs : List Flt) (s s0 : WS C), Along s s0 →
    Along (chain detect accept action result fs s) (chain detect [] action result fs s0)
  | [], s, s0, h => ops_along action s s0 h
  | .pass :: fs, s, s0, h => chain_along fs s s0 h
  | .out :: fs, s, s0, h => by
    have a := chain_along (detect := detect) (accept := accept) (action := action) (result := result) fs s s0 h
    simp only [chain]
    rw [written_same a.same]
    split
    · exact a
    · exact ops_along result _ _ a
  | .gzip :: fs, s, s0, h => by
    simp only [chain, contains_nil, Bool.false_eq_true, if_false]
    split
    · refine closeAt_along _ _ _ (chain_along fs _ s0 ⟨h.same, h.plain, h.kept, ?_⟩)
      rintro ⟨w, hw, hs⟩
      rcases List.mem_cons.mp hw with rfl | hw
      · cases hs
      · exact h.out ⟨w, hw, hs⟩
    · exact chain_along fs s s0 h

/-! ## Headers -/

/-- A header field has this value, also in the headers that were sent. -/
def Has (k v : Str) (g : GS C) : Prop := g.hdr k = v ∧ ∀ h, g.sent = some h → h k = v

/-- A field the gzip writer does not touch once it is set. -/
def Stays (k v : Str) : Prop := k ≠ b!"Content-Length" ∧ (k = b!"Content-Type" → v ≠ [])

theorem raw_has {k v : Str} {g : GS C} (h : Has k v g) (p : Str) : Has k v (g.rawWrite p) := by
  refine ⟨h.1, ?_⟩
  intro h' e
  simp only [GS.rawWrite] at e
  cases hs : g.sent with
  | none => rw [hs] at e; cases e; exact h.1
  | some x => rw [hs] at e; cases e; exact h.2 _ hs

theorem firstHdr_has (detect : Str → Str) {k v : Str} (hk : Stays k v) (h : Hdr) (p : Str) (e : h k = v) : firstHdr detect h p k = v := by
  unfold firstHdr
  have e1 : (h.set b!"Content-Length" []) k = v := by rw [Hdr.set_ne _ _ hk.1]; exact e
  split
  · rename_i hc
    by_cases hkt : k = b!"Content-Type"
    · subst hkt; rw [e1] at hc; exact absurd hc (hk.2 rfl)
    · rw [Hdr.set_ne _ _ hkt]; exact e1
  · exact e1

theorem through_has {detect : Str → Str} {k v : Str} (hk : Stays k v) : ∀ (ws : List (Option C.St)) (p : Str) (g : GS C), Has k v g →
    Has k v (through detect ws p g).2
  | [], p, g, h => raw_has h p
  | some st :: ws, p, g, h => through_has hk ws _ g h
  | none :: ws, p, g, h => through_has hk ws _ _ ⟨firstHdr_has detect hk _ _ h.1, h.2⟩

/-- The calls do not set this field. -/
def Spec.Leaves (k : Str) (ops : List GOp) : Prop := ∀ v, GOp.setHeader k v ∉ ops

theorem op_has {detect : Str → Str} {k v : Str} (hk : Stays k v) (o : GOp) (ho : ∀ v, o ≠ .setHeader k v) (s : WS C) (h : Has k v s.base) :
    Has k v (s.op detect o).base := by
  cases o with
  | write p => exact through_has hk _ _ _ h
  | writeHeader c => exact h
  | flush =>
    refine ⟨h.1, ?_⟩
    intro h' e
    simp only [WS.op, GS.common] at e
    cases hs : s.base.sent with
    | none => rw [hs] at e; cases e; exact h.1
    | some x => rw [hs] at e; cases e; exact h.2 _ hs
  | setHeader k' v' =>
    have : k ≠ k' := fun e => ho v' (by rw [e])
    exact ⟨by simp only [WS.op, GS.common]; rw [Hdr.set_ne _ _ this]; exact h.1, h.2⟩

theorem ops_has {detect : Str → Str} {k v : Str} (hk : Stays k v) : ∀ (ops : List GOp) (s : WS C), Spec.Leaves k ops → Has k v s.base →
    Has k v (ops.foldl (WS.op detect) s).base
  | [], s, _, h => h
  | o :: ops, s, hl, h => by
    rw [List.foldl_cons]
    exact ops_has hk ops _ (fun v hv => hl v (List.mem_cons_of_mem _ hv)) (op_has hk o (fun v e => hl v (e ▸ List.mem_cons_self)) s h)

theorem closeAt_has {detect : Str → Str} {k v : Str} (hk : Stays k v) (n : Nat) (s : WS C) (h : Has k v s.base) :
    Has k v (s.closeAt detect n).base := by
  unfold WS.closeAt
  split
  · exact through_has hk _ _ _ h
  · exact h

theorem chain_has {detect : Str → Str} {accept : Str} {action result : List GOp} {k v : Str} (hk : Stays k v)
    (he : k = b!"Content-Encoding" → v = b!"gzip") (hv : k ≠ b!"Vary") (la : Spec.Leaves k action) (lr : Spec.Leaves k result) :
    ∀ (fs : List Flt) (s : WS C), Has k v s.base → Has k v (chain detect accept action result fs s).base
  | [], s, h => ops_has hk action s la h
  | .pass :: fs, s, h => chain_has hk he hv la lr fs s h
  | .out :: fs, s, h => by
    have a := chain_has (detect := detect) (accept := accept) hk he hv la lr fs s h
    simp only [chain]
    split
    · exact a
    · exact ops_has hk result _ lr a
  | .gzip :: fs, s, h => by
    simp only [chain]
    split
    · refine closeAt_has hk _ _ (chain_has hk he hv la lr fs _ ⟨?_, h.2⟩)
      show ((s.base.hdr.set b!"Content-Encoding" b!"gzip").set b!"Vary" b!"Accept-Encoding") k = v
      rw [Hdr.set_ne _ _ hv]
      by_cases e : k = b!"Content-Encoding"
      · rw [he e, e, Hdr.set_same]
      · rw [Hdr.set_ne _ _ e]; exact h.1
    · exact chain_has hk he hv la lr fs s h

theorem ce_stays : Stays b!"Content-Encoding" b!"gzip" := ⟨by decide, fun h => absurd h (by decide)⟩

theorem chain_encoding {detect : Str → Str} {accept : Str} (ha : contains accept b!"gzip" = true) {action result : List GOp}
    (la : Spec.Leaves b!"Content-Encoding" action) (lr : Spec.Leaves b!"Content-Encoding" result) :
    ∀ (fs : List Flt) (s : WS C), Flt.gzip ∈ fs → s.base.sent = none →
      Has b!"Content-Encoding" b!"gzip" (chain detect accept action result fs s).base
  | [], s, h, _ => by cases h
  | .pass :: fs, s, h, hs => chain_encoding ha la lr fs s (by simpa using h) hs
  | .out :: fs, s, h, hs => by
    have a := chain_encoding (detect := detect) ha la lr fs s (by simpa using h) hs
    simp only [chain]
    split
    · exact a
    · exact ops_has ce_stays result _ lr a
  | .gzip :: fs, s, _, hs => by
    simp only [chain, ha, if_true]
    refine closeAt_has ce_stays _ _ (chain_has ce_stays (fun _ => rfl) (by decide) la lr fs _ ⟨?_, ?_⟩)
    · show ((s.base.hdr.set b!"Content-Encoding" b!"gzip").set b!"Vary" b!"Accept-Encoding") b!"Content-Encoding" = _
      rw [Hdr.set_ne _ _ (by decide), Hdr.set_same]
    · intro h e; rw [show s.base.sent = none from hs] at e; cases e

/-! ## Without gzip -/

theorem chain_plain_written {detect : Str → Str} {action result : List GOp} (hw : writes action = true) :
    ∀ (fs : List Flt) (s : WS C), Kept s.base → s.gzs = [] →
      body (chain detect [] action result fs s).base = body s.base ++ written action ∧
        (chain detect [] action result fs s).base.rw.written = true
  | [], s, hk, hg => by
    have a := ops_good (detect := detect) action s (body s.base) hk.1 (by rw [hg]; rfl)
    refine ⟨?_, (ops_kept action s hk).2 (.inr hw)⟩
    have h0 : (action.foldl (WS.op detect) s).gzs = [] := List.eq_nil_of_length_eq_zero (by rw [a.2.2.1, hg]; rfl)
    have := a.1
    rw [h0] at this
    exact this
  | .pass :: fs, s, hk, hg => chain_plain_written hw fs s hk hg
  | .gzip :: fs, s, hk, hg => by
    simp only [chain, contains_nil, Bool.false_eq_true, if_false]
    exact chain_plain_written hw fs s hk hg
  | .out :: fs, s, hk, hg => by
    obtain ⟨a, b⟩ := chain_plain_written (detect := detect) (result := result) hw fs s hk hg
    simp only [chain, b, if_true]
    exact ⟨a, trivial⟩

theorem chain_plain_silent {detect : Str → Str} {action result : List GOp} (hs : Spec.Silent action) :
    ∀ (fs : List Flt) (s : WS C), Flt.out ∉ fs →
      (chain detect [] action result fs s).base.rw = s.base.rw ∧ (chain detect [] action result fs s).gzs = s.gzs
  | [], s, _ => silent_ops action s hs
  | .pass :: fs, s, h => chain_plain_silent hs fs s (fun e => h (List.mem_cons_of_mem _ e))
  | .gzip :: fs, s, h => by
    simp only [chain, contains_nil, Bool.false_eq_true, if_false]
    exact chain_plain_silent hs fs s (fun e => h (List.mem_cons_of_mem _ e))
  | .out :: fs, s, h => absurd List.mem_cons_self h

theorem chain_plain_result {detect : Str → Str} {action result : List GOp} (hs : Spec.Silent action) (hw : writes result = true) :
    ∀ (fs : List Flt) (s : WS C), Flt.out ∈ fs → Kept s.base → s.base.rw.written = false → s.gzs = [] →
      body (chain detect [] action result fs s).base = body s.base ++ written result ∧
        (chain detect [] action result fs s).base.rw.written = true ∧
        ∃ s1 : WS C, s1.base.rw = s.base.rw ∧ s1.gzs = [] ∧ chain detect [] action result fs s = result.foldl (WS.op detect) s1
  | [], s, h, _, _, _ => by cases h
  | .pass :: fs, s, h, hk, h0, hg => chain_plain_result hs hw fs s (by simpa using h) hk h0 hg
  | .gzip :: fs, s, h, hk, h0, hg => by
    simp only [chain, contains_nil, Bool.false_eq_true, if_false]
    exact chain_plain_result hs hw fs s (by simpa using h) hk h0 hg
  | .out :: fs, s, _, hk, h0, hg => by
    by_cases h' : Flt.out ∈ fs
    · obtain ⟨a, b, c⟩ := chain_plain_result (detect := detect) hs hw fs s h' hk h0 hg
      simp only [chain, b, if_true]
      exact ⟨a, trivial, c⟩
    · obtain ⟨e1, e2⟩ := chain_plain_silent (detect := detect) (result := result) hs fs s h'
      have hn : (chain detect [] action result fs s).base.rw.written = false := by rw [e1]; exact h0
      simp only [chain, hn, Bool.false_eq_true, if_false]
      have ek : Kept (chain detect [] action result fs s).base := by unfold Kept Usable; rw [e1]; exact hk
      have eb : body (chain detect [] action result fs s).base = body s.base := by unfold Spec.body; rw [e1]
      have a := ops_good (detect := detect) result _ (body s.base) ek.1 (by rw [e2, hg, eb]; rfl)
      have hz : (result.foldl (WS.op detect) (chain detect [] action result fs s)).gzs = [] :=
        List.eq_nil_of_length_eq_zero (by rw [a.2.2.1, e2, hg]; rfl)
      have := a.1
      rw [hz] at this
      exact ⟨this, (ops_kept result _ ek).2 (.inr hw), _, e1, by rw [e2, hg], rfl⟩

/-! ## Requests -/

theorem start_kept (bs : List BF) (hb : ∀ b ∈ bs, BFok b) (hdr : Hdr) : Kept ({ rw := { newRW with befores := bs }, hdr := hdr } : GS C) :=
  ⟨⟨hb, rfl⟩, fun h => by cases h⟩

theorem done_body {s : WS C} (h0 : s.gzs = []) {s' : WS C} {D : Str} (h : Done s s' D) : body s'.base = D := by
  obtain ⟨-, -, -, up, low, h1, h2, -, h4⟩ := h
  rw [h0] at h2
  rw [List.eq_nil_of_length_eq_zero h2] at h4
  exact h4

/-! ## The property -/

/-- **C143 (written answers).** An action that writes its answer itself is compressed once by every gzip filter of the request, wherever
they are: the client that decompresses as often gets what the action wrote. -/
theorem C143_written (hC : C.Lawful) (detect : Str → Str) {accept : Str} (ha : ∃ a b, accept = a ++ b!"gzip" ++ b) (action result : List GOp)
    (hw : writes action = true) (fs : List Flt) (bs : List BF) (hb : ∀ b ∈ bs, BFok b) (hdr : Hdr) :
    Spec.unpack C (fs.count .gzip) (body (request C detect accept action result fs bs hdr)) = some (written action) := by
  obtain ⟨D, h1, h2⟩ := chain_written (detect := detect) (result := result) hC ((contains_iff _ _).2 ha) hw fs
    ⟨{ rw := { newRW with befores := bs }, hdr := hdr }, []⟩ (start_kept bs hb hdr) rfl
  rw [← h2]
  exact congrArg _ (done_body rfl h1)

/-- **C143 (returned results, exactly).** A result that an action returns is compressed by the gzip filters that come before
`GenericOutFilter`, and spoiled by those that come after it: these have been closed when it is written. -/
theorem C143_returned (hC : C.Lawful) (detect : Str → Str) {accept : Str} (ha : ∃ a b, accept = a ++ b!"gzip" ++ b) (action result : List GOp)
    (hs : Spec.Silent action) (hw : writes result = true) (fs : List Flt) (ho : Flt.out ∈ fs) (bs : List BF) (hb : ∀ b ∈ bs, BFok b) (hdr : Hdr) :
    ∃ x, Spec.unpack C (Spec.outer fs) (body (request C detect accept action result fs bs hdr)) = some x ∧
      (Spec.inner fs = 0 → x = written result) ∧ (Spec.inner fs ≠ 0 → C.decode x = none) := by
  obtain ⟨D, x, h1, h2, h3⟩ := chain_result (detect := detect) hC ((contains_iff _ _).2 ha) hs hw fs
    ⟨{ rw := { newRW with befores := bs }, hdr := hdr }, []⟩ ho (start_kept bs hb hdr) rfl rfl
  exact ⟨x, by rw [← h2]; exact congrArg _ (done_body rfl h1), h3⟩

theorem outer_append : ∀ (pre post : List Flt), Flt.out ∉ post → Spec.outer (pre ++ .out :: post) = pre.count .gzip
  | [], post, h => by simp [Spec.outer, h]
  | f :: pre, post, h => by
    have := outer_append pre post h
    simp only [List.cons_append, Spec.outer]
    rw [if_pos (by simp), this, List.count_cons]
    cases f <;> simp <;> omega

/-- **C143 (the good order).** With one gzip filter, before `GenericOutFilter`, the client gets a complete gzip stream of what the result
writes, marked as one. -/
theorem C143_gzip_first (hC : C.Lawful) (detect : Str → Str) {accept : Str} (ha : ∃ a b, accept = a ++ b!"gzip" ++ b) (action result : List GOp)
    (hs : Spec.Silent action) (hw : writes result = true) (pre post : List Flt) (h1 : pre.count .gzip = 1) (h2 : Flt.gzip ∉ post)
    (h3 : Flt.out ∉ post) (bs : List BF) (hb : ∀ b ∈ bs, BFok b) (hdr : Hdr) :
    C.decode (body (request C detect accept action result (pre ++ .out :: post) bs hdr)) = some (written result) := by
  obtain ⟨x, a, b, -⟩ := C143_returned hC detect ha action result hs hw (pre ++ .out :: post) (by simp) bs hb hdr
  have e : Spec.outer (pre ++ .out :: post) = 1 := by rw [outer_append pre post h3, h1]
  have e2 : Spec.inner (pre ++ .out :: post) = 0 := by
    unfold Spec.inner
    rw [e, List.count_append, h1, List.count_cons_of_ne (by decide), List.count_eq_zero.2 h2]
  rw [e] at a
  rw [← b e2]
  simpa [Spec.unpack, Option.bind_eq_some_iff] using a

/-- **C143 is false of the code** when the gzip filter comes after `GenericOutFilter`, as it does when it is added after
`LoadClassicFilters`, or to a route: whatever the action returns, the client that accepts gzip gets an answer marked as gzip that cannot
be decompressed. -/
theorem C143_gzip_later_violated (hC : C.Lawful) (detect : Str → Str) {accept : Str} (ha : ∃ a b, accept = a ++ b!"gzip" ++ b)
    (action result : List GOp) (hs : Spec.Silent action) (hw : writes result = true) (pre post : List Flt) (h1 : Flt.gzip ∉ pre)
    (h2 : Flt.gzip ∈ post) (h3 : Flt.out ∉ post) (bs : List BF) (hb : ∀ b ∈ bs, BFok b) (hdr : Hdr) :
    C.decode (body (request C detect accept action result (pre ++ .out :: post) bs hdr)) = none := by
  obtain ⟨x, a, -, b⟩ := C143_returned hC detect ha action result hs hw (pre ++ .out :: post) (by simp) bs hb hdr
  have e : Spec.outer (pre ++ .out :: post) = 0 := by rw [outer_append pre post h3, List.count_eq_zero.2 h1]
  have e2 : Spec.inner (pre ++ .out :: post) ≠ 0 := by
    unfold Spec.inner
    rw [e, List.count_append, List.count_cons_of_ne (by decide)]
    have := List.count_pos_iff.2 h2
    omega
  rw [e] at a
  simp only [Spec.unpack, Option.some.injEq] at a
  rw [a]
  exact b e2

/-- **C143 is false of the code** when two gzip filters are registered (one for the application and one for the route, say): what the client
gets by decompressing is a gzip stream, not the answer. -/
theorem C143_twice_violated (hC : C.Lawful) (detect : Str → Str) {accept : Str} (ha : ∃ a b, accept = a ++ b!"gzip" ++ b)
    (action result : List GOp) (hw : writes action = true) (fs : List Flt) (h2 : fs.count .gzip = 2) (bs : List BF)
    (hb : ∀ b ∈ bs, BFok b) (hdr : Hdr) :
    ∃ stream, C.decode (body (request C detect accept action result fs bs hdr)) = some stream ∧ C.decode stream = some (written action) := by
  have := C143_written hC detect ha action result hw fs bs hb hdr
  rw [h2] at this
  obtain ⟨x, a, b⟩ := Option.bind_eq_some_iff.1 this
  obtain ⟨y, c, d⟩ := Option.bind_eq_some_iff.1 b
  simp only [Spec.unpack, Option.some.injEq] at d
  exact ⟨x, a, by rw [c, d]⟩

/-- **C143 (headers).** With a gzip filter anywhere, and a client that accepts gzip, the answer is marked as gzip. -/
theorem C143_marked (detect : Str → Str) {accept : Str} (ha : ∃ a b, accept = a ++ b!"gzip" ++ b) (action result : List GOp)
    (la : Spec.Leaves b!"Content-Encoding" action) (lr : Spec.Leaves b!"Content-Encoding" result) (fs : List Flt) (hg : Flt.gzip ∈ fs)
    (bs : List BF) (hdr h : Hdr) (hh : (request C detect accept action result fs bs hdr).sent = some h) : h b!"Content-Encoding" = b!"gzip" :=
  (chain_encoding ((contains_iff _ _).2 ha) la lr fs _ hg rfl).2 h hh

/-- **C143 (status).** The gzip filters do not change the status line, wherever they are: it is the one a client gets that does not accept
gzip. -/
theorem C143_status (detect : Str → Str) (accept : Str) (action result : List GOp) (fs : List Flt) (bs : List BF) (hb : ∀ b ∈ bs, BFok b)
    (hdr : Hdr) :
    wireStatus (request C detect accept action result fs bs hdr).rw.events = wireStatus (request C detect [] action result fs bs hdr).rw.events ∧
      (request C detect accept action result fs bs hdr).rw.status = (request C detect [] action result fs bs hdr).rw.status := by
  have := chain_along (detect := detect) (accept := accept) (action := action) (result := result) fs
    (⟨{ rw := { newRW with befores := bs }, hdr := hdr }, []⟩ : WS C) ⟨{ rw := { newRW with befores := bs }, hdr := hdr }, []⟩
    ⟨Same.refl _, rfl, start_kept bs hb hdr, by rintro ⟨w, hw, -⟩; cases hw⟩
  exact ⟨this.same.wire, this.same.status⟩

/-- A request without `gzip` in its Accept-Encoding is answered as one without that header. -/
theorem chain_not_accepting {detect : Str → Str} {accept : Str} (ha : contains accept b!"gzip" = false) {action result : List GOp} :
    ∀ (fs : List Flt) (s : WS C), chain detect accept action result fs s = chain detect [] action result fs s
  | [], s => rfl
  | .pass :: fs, s => chain_not_accepting ha fs s
  | .gzip :: fs, s => by simp only [chain, contains_nil, ha, Bool.false_eq_true, if_false]; exact chain_not_accepting ha fs s
  | .out :: fs, s => by simp only [chain, chain_not_accepting ha fs s]

/-- **C143 (plain).** A client that does not accept gzip gets what the action wrote or returned, as it is. -/
theorem C143_plain (detect : Str → Str) {accept : Str} (ha : ¬ ∃ a b, accept = a ++ b!"gzip" ++ b) (action result : List GOp) (fs : List Flt)
    (bs : List BF) (hb : ∀ b ∈ bs, BFok b) (hdr : Hdr) :
    (writes action = true → body (request C detect accept action result fs bs hdr) = written action) ∧
    (Spec.Silent action → writes result = true → Flt.out ∈ fs → body (request C detect accept action result fs bs hdr) = written result) := by
  have hc : contains accept b!"gzip" = false := by
    cases h : contains accept b!"gzip" with
    | false => rfl
    | true => exact absurd ((contains_iff _ _).1 h) ha
  refine ⟨fun hw => ?_, fun hs hw ho => ?_⟩
  · unfold request
    rw [chain_not_accepting hc]
    exact (chain_plain_written hw fs _ (start_kept bs hb hdr) rfl).1
  · unfold request
    rw [chain_not_accepting hc]
    exact (chain_plain_result hs hw fs _ ho (start_kept bs hb hdr) rfl rfl).1

/-! ## API results -/

theorem quiet_code (l : List BF) (h : Api.Spec.Quiet l) (c : Nat) : codeAfter c l = c := by
  induction l generalizing c with
  | nil => rfl
  | cons b l ih =>
    have hb := (h b List.mem_cons_self).2
    simp only [codeAfter, List.foldl_cons, hb, Option.getD_none]
    exact ih (fun b hb => h b (List.mem_cons_of_mem _ hb)) c

theorem res_ops (dev : Bool) (status : Nat) (v : Api.JVal) (hs : status ≠ 204) :
    resultOps ((Api.ResBody.mk status (some v)).write dev) =
      [.setHeader b!"Content-Type" Api.jsonType, .writeHeader (Api.Spec.wanted status), .write (Api.Spec.encoded dev v)] := by
  unfold Api.ResBody.write
  rw [if_neg (by
    show ¬ (if status = 0 then 200 else status) = 204
    by_cases h0 : status = 0
    · rw [if_pos h0]; decide
    · rw [if_neg h0]; exact hs)]
  simp only [Option.getD_some]
  unfold resultOps
  rw [Api.writeJson_ops]
  unfold Api.writeJson
  have e : (if status = 0 then 200 else status) = Api.Spec.wanted status := rfl
  rw [e]
  split <;> rfl

/-- **C143 (API results).** With one gzip filter, before `GenericOutFilter`, a client that accepts gzip gets, for an action that returns a
result made with `With`, the status given and a gzip stream of a JSON text that says the value (or of the object with code 500 and the
encoder's message, if it has no JSON). -/
theorem C143_api (hC : C.Lawful) (detect : Str → Str) {accept : Str} (ha : ∃ a b, accept = a ++ b!"gzip" ++ b) (action : List GOp)
    (hs : Spec.Silent action) (dev bf : Bool) (status : Nat) (h204 : status ≠ 204) (v : Json.GJ) (msg : Str) (pre post : List Flt)
    (h1 : pre.count .gzip = 1) (h2 : Flt.gzip ∉ post) (h3 : Flt.out ∉ post) (bs : List BF) (hb : Api.Spec.Quiet bs) (hdr : Hdr) :
    ∃ x, C.decode (body (request C detect accept action (resultOps ((Api.ResBody.mk status (some (Json.jval bf v msg))).write dev))
          (pre ++ .out :: post) bs hdr)) = some x ∧
      wireStatus (request C detect accept action (resultOps ((Api.ResBody.mk status (some (Json.jval bf v msg))).write dev))
          (pre ++ .out :: post) bs hdr).rw.events = some (Api.Spec.wanted status) ∧
      (¬ Json.Spec.NoJson v → ∃ j, Json.Spec.parse x = some j ∧ Json.Spec.Says v j) ∧
      (Json.Spec.NoJson v → ∃ m, Json.Spec.Reads msg m ∧ Json.Spec.parse x = some (.obj [(b!"code", .num 500), (b!"message", .str m)])) := by
  have hq : ∀ b ∈ bs, BFok b := fun b h => ⟨(hb b h).1, by rw [(hb b h).2]; exact fun h => nomatch h⟩
  obtain ⟨x, g, -, j1, j2⟩ := Json.C141_answer dev bf status v msg bs hb h204
  have g' := Api.C67_res_status dev ⟨status, some (Json.jval bf v msg)⟩ bs hb
  simp only [if_neg h204, Option.getD_some] at g'
  have hx : x = Api.Spec.encoded dev (Json.jval bf v msg) := g.2.symm.trans g'.2
  rw [res_ops dev status _ h204]
  generalize hr : ([.setHeader b!"Content-Type" Api.jsonType, .writeHeader (Api.Spec.wanted status),
    .write (Api.Spec.encoded dev (Json.jval bf v msg))] : List GOp) = result
  have hw : writes result = true := by rw [← hr]; rfl
  have hwr : written result = x := by rw [← hr, hx]; simp [written]
  refine ⟨x, ?_, ?_, j1, j2⟩
  · rw [← hwr]
    exact C143_gzip_first hC detect ha action result hs hw pre post h1 h2 h3 bs hq hdr
  · rw [(C143_status detect accept action result (pre ++ .out :: post) bs hq hdr).1]
    obtain ⟨-, -, s1, e1, e2, e3⟩ := chain_plain_result (C := C) (detect := detect) hs hw (pre ++ .out :: post)
      ⟨{ rw := { newRW with befores := bs }, hdr := hdr }, []⟩ (by simp) (start_kept bs hq hdr) rfl rfl
    unfold request
    rw [e3, ← hr]
    have hwz : Api.Spec.wanted status ≠ 0 := by
      unfold Api.Spec.wanted; split
      · decide
      · assumption
    simp only [List.foldl_cons, List.foldl_nil, WS.op, e2, through, GS.common, GS.rawWrite, RW.op, RW.writeHeader, hwz, if_false, RW.write, e1,
      newRW, Bool.false_eq_true]
    obtain ⟨c, hc, he⟩ := commit_ok (w := { status := Api.Spec.wanted status, befores := bs }) hq rfl
    rw [he]
    simp only [writeBody, List.nil_append]
    have hc' : c = Api.Spec.wanted status := by
      rw [hc, quiet_code _ (fun b h => hb b (List.mem_reverse.1 h)), if_neg hwz]
    rw [hc', List.append_assoc, wireStatus_append]
    have := wire_befores (bs.reverse.map (·.id))
    rw [List.map_map] at this
    rw [show (List.map (fun b => Ev.before b.id) bs.reverse) = List.map (Ev.before ∘ fun x => x.id) bs.reverse from rfl, this]
    rfl

/-! ## A codec that meets the contract, and examples -/

/-- Every byte as two, and an end mark. -/
def toyDec : Str → Option Str
  | [0] => some []
  | 1 :: b :: r => (toyDec r).map (b :: ·)
  | _ => none

def toyCodec : Codec where
  St := Unit
  init := ()
  write := fun _ p => ((), p.flatMap fun b => [1, b])
  close := fun _ => [0]
  decode := toyDec

theorem toy_run (ps : List Str) : (toyCodec.run () ps).2 = ps.flatten.flatMap fun b => [1, b] := by
  induction ps with
  | nil => rfl
  | cons p ps ih =>
    have : (toyCodec.run () (p :: ps)).2 = (p.flatMap fun b => [1, b]) ++ (toyCodec.run () ps).2 := rfl
    rw [this, ih]; simp

theorem toyDec_end (d : Str) : toyDec ((d.flatMap fun b => [1, b]) ++ [0]) = some d := by
  induction d with
  | nil => rfl
  | cons b d ih =>
    show toyDec (1 :: b :: ((d.flatMap fun b => [1, b]) ++ [0])) = _
    simp only [toyDec, ih, Option.map_some]

theorem toyDec_open (d : Str) : toyDec (d.flatMap fun b => [1, b]) = none := by
  induction d with
  | nil => rfl
  | cons b d ih =>
    show toyDec (1 :: b :: (d.flatMap fun b => [1, b])) = _
    simp only [toyDec, ih, Option.map_none]

theorem toy_lawful : toyCodec.Lawful := by
  refine ⟨fun ps => ?_, fun ps => ?_⟩
  · show toyDec ((toyCodec.run () ps).2 ++ [0]) = _
    rw [toy_run, toyDec_end]
  · show toyDec (toyCodec.run () ps).2 = _
    rw [toy_run, toyDec_open]

/-- One application, the gzip filter before and after the classic filters: the same action, the same result. -/
theorem C143_example :
    body (request toyCodec (fun _ => b!"text/plain") b!"gzip, br" [] [.writeHeader 200, .write b!"ok"] [.gzip, .pass, .pass, .out] [] (fun _ => []))
      = [1, 111, 1, 107, 0] ∧
    body (request toyCodec (fun _ => b!"text/plain") b!"gzip, br" [] [.writeHeader 200, .write b!"ok"] [.pass, .pass, .out, .gzip] [] (fun _ => []))
      = [1, 111, 1, 107] ∧
    toyDec [1, 111, 1, 107, 0] = some b!"ok" ∧ toyDec [1, 111, 1, 107] = none := by
  refine ⟨?_, ?_, ?_, ?_⟩ <;> decide +kernel

end Verif.Gz
