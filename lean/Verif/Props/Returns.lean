import Verif.Props.ApiRes
/-!
# C128: what an action's returned values do, exactly
-/
namespace Verif.Api
open Verif.Resp

/-- What becomes of a request whose action returned some values. -/
inductive Spec.Effect where
  /-- the response is left alone -/
  | nothing
  /-- the client gets this status and body -/
  | answer (status : Nat) (body : Str)
  /-- the result (`ActionResult` or `http.Handler`) makes these calls, after the status, if any, has been set -/
  | calls (status : Option Nat) (ops : List Op)
  /-- the filter panics; the status, if any, has been set, no byte written -/
  | panics (status : Option Nat)

/-- The value that is the body: readers, bytes and strings in interfaces are copied, nil and values of any other type
write nothing, results make their calls; numbers, strings, structs — values that cannot be nil — panic. -/
def Spec.bodyEffect (status : Option Nat) : RV → Spec.Effect
  | .reader cs => .answer (status.getD 200) cs.flatten
  | .bytes s => .answer (status.getD 200) s
  | .istr s => .answer (status.getD 200) s
  | .nil => .answer (status.getD 200) []
  | .other => .answer (status.getD 200) []
  | .writer ops => .calls status ops
  | .int _ => .panics status
  | .str _ => .panics status
  | .plain => .panics status

/-- What the returned values say. -/
inductive Spec.Returns : List RV → Spec.Effect → Prop where
  /-- `func ()` -/
  | none : Spec.Returns [] .nothing
  /-- the last value is an `int` 0 -/
  | zero (rest : List RV) : Spec.Returns (rest ++ [.int 0]) (.panics none)
  /-- `func () int` -/
  | code (c : Nat) : c ≠ 0 → Spec.Returns [.int c] (.answer c [])
  /-- `func () (…, T, int)` -/
  | bodyCode (rest : List RV) (v : RV) (c : Nat) : c ≠ 0 → Spec.Returns (rest ++ [v, .int c]) (Spec.bodyEffect (some c) v)
  /-- `func () (…, T)` -/
  | body (rest : List RV) (v : RV) : (∀ c, v ≠ .int c) → Spec.Returns (rest ++ [v]) (Spec.bodyEffect none v)

/-- The outcome of the filter (its calls on the response, and whether it panics) has the effect. -/
def Spec.Has (out : List Op × Bool) : Spec.Effect → Prop
  | .nothing => out = ([], false)
  | .answer c b => out.2 = false ∧ ∀ bs, Spec.Quiet bs → Spec.Gets (Spec.answer bs out.1) c b
  | .calls st ops => out = ((st.map Op.writeHeader).toList ++ ops, false)
  | .panics st => out.2 = true ∧ (runOps out.1 newRW).events = [] ∧ (runOps out.1 newRW).status = st.getD 0

theorem writeValue_has (st : Option Nat) (hst : st ≠ some 0) (v : RV) :
    Spec.Has ((st.map Op.writeHeader).toList ++ (writeValue v).1, (writeValue v).2) (Spec.bodyEffect st v) := by
  have hh : ∀ o ∈ (st.map Op.writeHeader).toList, ∃ s, o = Op.writeHeader s := by
    intro o ho
    cases st with
    | none => cases ho
    | some c => exact ⟨c, by simpa using ho⟩
  have hl : (if Resp.Spec.lastCode (st.map Op.writeHeader).toList = 0 then 200
      else Resp.Spec.lastCode (st.map Op.writeHeader).toList) = st.getD 200 := by
    cases st with
    | none => rfl
    | some c =>
      have hc : c ≠ 0 := fun e => hst (by rw [e])
      have : Resp.Spec.lastCode (Option.map Op.writeHeader (some c)).toList = c := by simp [Resp.Spec.lastCode, hc]
      rw [this, if_neg hc]; rfl
  have key : ∀ (cs : List Str), Spec.Has ((st.map Op.writeHeader).toList ++ cs.map wr, false)
      (.answer (st.getD 200) cs.flatten) := by
    intro cs
    refine ⟨rfl, fun bs hb => ?_⟩
    have := gets bs hb _ hh cs
    rw [hl] at this
    exact this
  have pan : Spec.Has ((st.map Op.writeHeader).toList ++ [], true) (.panics st) := by
    rw [List.append_nil]
    cases st with
    | none => exact ⟨rfl, rfl, rfl⟩
    | some c =>
      have hc : c ≠ 0 := fun e => hst (by rw [e])
      refine ⟨rfl, ?_, ?_⟩ <;> simp [runOps, RW.op, RW.writeHeader, hc, newRW]
  cases v with
  | reader cs => exact key cs
  | bytes s => simpa [Spec.bodyEffect, writeValue] using key [s]
  | istr s => simpa [Spec.bodyEffect, writeValue] using key [s]
  | nil => exact key []
  | other => exact key []
  | writer ops => exact rfl
  | int _ => exact pan
  | str _ => exact pan
  | plain => exact pan

/-- **C128**: for every list of returned values the filter has exactly the effect they stand for. -/
theorem C128_returns (out : List RV) (e : Spec.Effect) (h : Spec.Returns out e) : Spec.Has (genericOut out.reverse) e := by
  cases h with
  | none => rfl
  | zero rest =>
    rw [List.reverse_append]
    exact ⟨rfl, rfl, rfl⟩
  | code c hc => exact ⟨(C76_code_alone c hc [] nofun).1, fun bs hb => (C76_code_alone c hc bs hb).2⟩
  | bodyCode rest v c hc =>
    have e1 : genericOut ((rest ++ [v, .int c]).reverse) = (.writeHeader c :: (writeValue v).1, (writeValue v).2) := by
      rw [List.reverse_append]
      cases c with
      | zero => exact absurd rfl hc
      | succ n => rfl
    rw [e1]
    exact writeValue_has (some c) (fun e => hc (Option.some.inj e)) v
  | body rest v hv =>
    have e2 : genericOut ((rest ++ [v]).reverse) = writeValue v := by
      rw [List.reverse_append]
      cases v <;> first | rfl | exact absurd rfl (hv _)
    rw [e2]
    exact writeValue_has none (by simp) v

/-- **C128**: every list of returned values stands for something. -/
theorem C128_total (out : List RV) : ∃ e, Spec.Returns out e := by
  rcases List.eq_nil_or_concat out with rfl | ⟨l, v, rfl⟩
  · exact ⟨_, .none⟩
  · rw [List.concat_eq_append]
    by_cases hv : ∃ c, v = .int c
    · obtain ⟨c, rfl⟩ := hv
      by_cases hc : c = 0
      · subst hc; exact ⟨_, .zero l⟩
      · rcases List.eq_nil_or_concat l with rfl | ⟨l', w, rfl⟩
        · exact ⟨_, .code c hc⟩
        · rw [List.concat_eq_append, List.append_assoc]
          exact ⟨_, .bodyCode l' w c hc⟩
    · exact ⟨_, .body l v (fun c e => hv ⟨c, e⟩)⟩

/-- **C128**: the documented `func () string` never answers: the request panics, whatever the string, and with a status
too; two numbers panic likewise. -/
theorem C128_strings_panic (s : Str) (n c : Nat) (hc : c ≠ 0) :
    Spec.Has (genericOut [.str s]) (.panics none) ∧ Spec.Has (genericOut [.int c, .str s]) (.panics (some c)) ∧
    Spec.Has (genericOut [.int c, .int n]) (.panics (some c)) :=
  ⟨C128_returns [.str s] _ (.body [] _ (by simp)), C128_returns [.str s, .int c] _ (.bodyCode [] _ c hc),
    C128_returns [.int n, .int c] _ (.bodyCode [] _ c hc)⟩

/-- A reader of two chunks with a status, and an unused value before it. -/
example : Spec.Returns [.plain, .reader [b!"a", b!"b"], .int 201] (.answer 201 b!"ab") ∧
    Spec.Gets (Spec.answer [] (genericOut [.int 201, .reader [b!"a", b!"b"], .plain]).1) 201 b!"ab" :=
  ⟨.bodyCode [.plain] _ 201 (by decide), (C128_returns [.plain, .reader [b!"a", b!"b"], .int 201] (.answer 201 b!"ab") (.bodyCode [.plain] _ 201 (by decide))).2 [] nofun⟩

end Verif.Api
