import Verif.Model.ApiError
import Verif.Props.Json
/-!
# C165: an API error is a value
-/
namespace Verif.ApiErr
open Verif.Go Verif.Json

/-! ## Specification: errors without pointers -/

/-- An error as its author thinks of it; `data` is `none` for nil. -/
structure Spec.Value where
  status : Nat
  code : Int
  message : Str
  data : Option GJ

/-- The JSON value of what is given as data, with the errors made so far. -/
def Spec.dataOf (vs : List Spec.Value) : Arg → Option GJ
  | .none => none
  | .err _ g => some g
  | .str s => some (.str s)
  | .other g => some g
  | .res none => some .nil
  | .res (some a) => (vs[a]?).map fun w => errGJ w.code w.message w.data

/-- The message of the error that `WithData` makes from one with the message `old`: the one given; else the text of the data, if it is a
string or an error; else the old one. The text of an error of this package is its JSON. -/
def Spec.messageOf (bf : Bool) (vs : List Spec.Value) (old : Str) (d : Arg) (given : Option Str) : Str :=
  given.getD (match d with
    | .err m _ => m
    | .str s => s
    | .res none => []
    | .res (some a) => match vs[a]? with | some w => errText bf w.code w.message w.data | none => old
    | _ => old)

/-- Data that is an error of this package has been made before. -/
def Spec.Known (vs : List Spec.Value) : Arg → Prop
  | .res (some a) => a < vs.length
  | _ => True

/-- Calls that make no error. -/
def Spec.makesNone : Call → Prop
  | .new .. => False
  | .withData p .. => p = none
  | .withMsg p _ => p = none
  | .literal .. => False
  | .copied .. => False
  | _ => True

/-- A program that makes its errors with `NewResError`, `WithData` and `WithMsg`, with other calls anywhere in between; the errors it makes,
in order. -/
inductive Spec.Makes (bf : Bool) : List Call → List Spec.Value → Prop where
  | start : Spec.Makes bf [] []
  | new {l vs} (s : Nat) (c : Int) (m : Str) (ds : List Arg) : Spec.Makes bf l vs → (∀ d ∈ ds, Spec.Known vs d) →
      Spec.Makes bf (l ++ [.new s c m ds]) (vs ++ [⟨s, c, m, ds.head?.bind (Spec.dataOf vs)⟩])
  | withData {l vs a e} (d : Arg) (ms : List Str) : Spec.Makes bf l vs → vs[a]? = some e → Spec.Known vs d →
      Spec.Makes bf (l ++ [.withData (some a) d ms])
        (vs ++ [⟨e.status, e.code, Spec.messageOf bf vs e.message d ms.head?, Spec.dataOf vs d⟩])
  | withMsg {l vs a e} (m : Str) : Spec.Makes bf l vs → vs[a]? = some e →
      Spec.Makes bf (l ++ [.withMsg (some a) m]) (vs ++ [{ e with message := m }])
  | between {l vs} (c : Call) : Spec.Makes bf l vs → Spec.makesNone c → Spec.Makes bf (l ++ [c]) vs

/-! ## The heap holds the values -/

/-- The data of the object at address `a`. -/
def DataIs (vs : List Spec.Value) (a : Nat) (d : Arg) (g : Option GJ) : Prop :=
  g = Spec.dataOf vs d ∧ ∀ b, d = .res (some b) → b < a

structure ObjIs (vs : List Spec.Value) (a : Nat) (o : Obj) (v : Spec.Value) : Prop where
  body : o.body = some a
  code : o.code = v.code
  message : o.message = v.message
  status : o.status = v.status ∨ (v.status = 0 ∧ o.status = 200)
  data : DataIs vs a o.data v.data

structure Inv (h : Heap) (vs : List Spec.Value) : Prop where
  length : h.length = vs.length
  objs : ∀ a o v, h[a]? = some o → vs[a]? = some v → ObjIs vs a o v

theorem dataOf_append (vs ws : List Spec.Value) (d : Arg) (hk : Spec.Known vs d) : Spec.dataOf (vs ++ ws) d = Spec.dataOf vs d := by
  cases d with
  | res p =>
    cases p with
    | none => rfl
    | some a =>
      simp only [Spec.dataOf]
      rw [List.getElem?_append_left hk]
  | _ => rfl

theorem Inv.snoc {h : Heap} {vs : List Spec.Value} (hi : Inv h vs) (o : Obj) (v : Spec.Value) (hb : o.body = some h.length)
    (hc : o.code = v.code) (hm : o.message = v.message) (hs : o.status = v.status ∨ (v.status = 0 ∧ o.status = 200))
    (hd : v.data = Spec.dataOf vs o.data) (hk : Spec.Known vs o.data) :
    Inv (h ++ [o]) (vs ++ [v]) := by
  refine ⟨by simp [hi.length], fun a o' v' ho hv => ?_⟩
  by_cases ha : a < h.length
  · rw [List.getElem?_append_left ha] at ho
    rw [List.getElem?_append_left (by rw [← hi.length]; exact ha)] at hv
    have := hi.objs a o' v' ho hv
    refine ⟨this.body, this.code, this.message, this.status, ?_, this.data.2⟩
    rw [this.data.1, dataOf_append]
    cases hd' : o'.data with
    | res p =>
      cases p with
      | none => trivial
      | some b =>
        have hb' := this.data.2 b hd'
        have : a < vs.length := by rw [← hi.length]; exact ha
        exact Nat.lt_trans hb' this
    | _ => trivial
  · have hal : a = h.length := by
      have := (List.getElem?_eq_some_iff.1 ho).1
      simp only [List.length_append, List.length_singleton] at this
      omega
    subst hal
    rw [List.getElem?_concat_length] at ho
    rw [hi.length, List.getElem?_concat_length] at hv
    cases ho; cases hv
    refine ⟨hb, hc, hm, hs, ?_, ?_⟩
    · rw [dataOf_append _ _ _ hk]; exact hd
    · intro b hb'
      rw [hb'] at hk
      rw [hi.length]; exact hk

theorem objGJ_eq {h : Heap} {vs : List Spec.Value} (hi : Inv h vs) : ∀ (n a : Nat) (o : Obj) (v : Spec.Value), h[a]? = some o →
    vs[a]? = some v → a < n → objGJ h n o = errGJ v.code v.message v.data
  | 0, _, _, _, _, _, hn => by omega
  | n + 1, a, o, v, ho, hv, hn => by
    have h1 := hi.objs a o v ho hv
    unfold objGJ
    rw [h1.code, h1.message]
    refine congrArg _ ?_
    rw [h1.data.1]
    cases hd : o.data with
    | res p =>
      cases p with
      | none => rfl
      | some b =>
        have hb := h1.data.2 b hd
        have hbl : b < h.length := Nat.lt_trans hb (List.getElem?_eq_some_iff.1 ho).1
        have e1 : h[b]? = some h[b] := List.getElem?_eq_getElem hbl
        have hbv : b < vs.length := by rw [← hi.length]; exact hbl
        have e2 : vs[b]? = some vs[b] := List.getElem?_eq_getElem hbv
        have := objGJ_eq hi n b _ _ e1 e2 (by omega)
        simp only [Spec.dataOf, e1, e2, Option.map_some, this]
    | _ => rfl

theorem Inv.lookup {h : Heap} {vs : List Spec.Value} (hi : Inv h vs) {a : Nat} {v : Spec.Value} (hv : vs[a]? = some v) :
    ∃ o, h[a]? = some o ∧ ObjIs vs a o v := by
  have hl : a < h.length := by rw [hi.length]; exact (List.getElem?_eq_some_iff.1 hv).1
  exact ⟨h[a], List.getElem?_eq_getElem hl, hi.objs a _ v (List.getElem?_eq_getElem hl) hv⟩

theorem errorText_eq (bf : Bool) {h : Heap} {vs : List Spec.Value} (hi : Inv h vs) {a : Nat} {v : Spec.Value} (hv : vs[a]? = some v) :
    errorText bf h (h[a]?) = errText bf v.code v.message v.data := by
  obtain ⟨o, ho, -⟩ := hi.lookup hv
  rw [ho]
  unfold errorText errText
  simp only
  rw [objGJ_eq hi _ a o v ho hv (by have := (List.getElem?_eq_some_iff.1 ho).1; omega)]

theorem Inv.fix {h : Heap} {vs : List Spec.Value} (hi : Inv h vs) {a : Nat} {o : Obj} (ho : h[a]? = some o) : Inv (fixStatus h a o) vs := by
  unfold fixStatus
  by_cases h0 : o.status = 0
  · rw [if_pos h0]
    refine ⟨by simp [hi.length], fun b o' v ho' hv => ?_⟩
    by_cases hab : a = b
    · subst hab
      rw [List.getElem?_set_self (List.getElem?_eq_some_iff.1 ho).1] at ho'
      cases ho'
      have := hi.objs a o v ho hv
      refine ⟨this.body, this.code, this.message, ?_, this.data⟩
      rcases this.status with h | ⟨-, h⟩
      · exact .inr ⟨by rw [← h]; exact h0, rfl⟩
      · rw [h0] at h; cases h
    · rw [List.getElem?_set_ne hab] at ho'
      exact hi.objs b o' v ho' hv
  · rw [if_neg h0]; exact hi

theorem run_snoc (bf dev : Bool) (msg : Str) (l : List Call) (c : Call) : run bf dev msg (l ++ [c]) = (step bf dev msg (run bf dev msg l) c).1 := by
  simp [run, List.foldl_append]

theorem inv {bf : Bool} {l : List Call} {vs : List Spec.Value} (dev : Bool) (msg : Str) (h : Spec.Makes bf l vs) : Inv (run bf dev msg l) vs := by
  induction h with
  | start => exact ⟨rfl, fun a o v ho => by simp [run] at ho⟩
  | @new l vs s c m ds _ hk ih =>
    rw [run_snoc]
    refine ih.snoc _ _ rfl rfl rfl (.inl rfl) ?_ ?_
    · cases ds <;> rfl
    · cases ds with
      | nil => trivial
      | cons d ds => exact hk d (by simp)
  | @withData l vs a e d ms _ he hk ih =>
    rw [run_snoc]
    obtain ⟨o, ho, hi⟩ := ih.lookup he
    have hd : deref (run bf dev msg l) (some a) = some o := ho
    unfold step
    simp only [hd]
    refine ih.snoc _ _ rfl hi.code ?_ hi.status rfl hk
    show dataMessage bf (run bf dev msg l) o.message d ms = _
    unfold Spec.messageOf
    cases ms with
    | cons m ms => rfl
    | nil =>
      cases d with
      | res p =>
        cases p with
        | none => rfl
        | some b =>
          have hbv : vs[b]? = some vs[b] := List.getElem?_eq_getElem hk
          show errorText bf (run bf dev msg l) ((run bf dev msg l)[b]?) = _
          rw [errorText_eq bf ih hbv]
          simp [hbv]
      | none => exact hi.message
      | other g => exact hi.message
      | err m g => rfl
      | str s => rfl
  | @withMsg l vs a e m _ he ih =>
    rw [run_snoc]
    obtain ⟨o, ho, hi⟩ := ih.lookup he
    have hd : deref (run bf dev msg l) (some a) = some o := ho
    unfold step
    simp only [hd]
    refine ih.snoc _ _ rfl hi.code rfl hi.status hi.data.1 ?_
    cases hd' : o.data with
    | res p =>
      cases p with
      | none => trivial
      | some b => exact Nat.lt_trans (hi.data.2 b hd') (List.getElem?_eq_some_iff.1 he).1
    | _ => trivial
  | @between l vs c _ hc ih =>
    rw [run_snoc]
    cases c with
    | new => exact hc.elim
    | literal => exact hc.elim
    | copied => exact hc.elim
    | withData p d ms => cases hc; exact ih
    | withMsg p m => cases hc; exact ih
    | answer i p =>
      unfold step
      cases p with
      | none => exact ih
      | some a =>
        cases ho : deref (run bf dev msg l) (some a) with
        | none => simp only [ho]; exact ih
        | some o => simp only [ho]; exact ih.fix ho
    | text p => exact ih
    | equalAny p qs =>
      cases qs with
      | nil => exact ih
      | cons q qs =>
        unfold step
        cases ho : deref (run bf dev msg l) p <;> simp only [ho] <;> exact ih
    | isResError e => exact ih
    | getHttpCode e => exact ih

/-! ## C165 -/

/-- **C165** (the answer): whatever a program did before - deriving errors from this one, answering with it or with others, at any time - an
action that returns an error made with this package's functions is answered with the status the error was made with (200 for 0) and JSON
that says exactly its code, message and data. -/
theorem C165_answer {bf : Bool} {l : List Call} {vs : List Spec.Value} (h : Spec.Makes bf l vs) {a : Nat} {v : Spec.Value} (hv : vs[a]? = some v)
    (dev iface : Bool) (msg : Str) (hs : v.status ≠ 204) (hd : ∀ g, v.data = some g → ¬ Json.Spec.NoJson g) :
    ∃ e, (step bf dev msg (run bf dev msg l) (.answer iface (some a))).2 = .answered e ∧
      e.contentType = some b!"application/json; charset=UTF-8" ∧
      ∀ (rest : List Api.RV) (bs : List Resp.BF), Api.Spec.Quiet bs →
        ∃ x j, Api.Spec.Gets (Api.Spec.answer bs (Api.genericOut ((rest ++ [Api.RV.writer e.ops]).reverse)).1) (Api.Spec.wanted v.status) x ∧
          Json.Spec.parse x = some j ∧ Json.Spec.SaysError v.code v.message v.data j := by
  have hi := inv dev msg h
  obtain ⟨o, ho, hob⟩ := hi.lookup hv
  have hd0 : deref (run bf dev msg l) (some a) = some o := ho
  have hsent : sent (run bf dev msg l) o = errGJ v.code v.message v.data := by
    unfold sent
    rw [hob.body, hd0]
    simp only
    exact objGJ_eq hi _ a o v ho hv (by have := (List.getElem?_eq_some_iff.1 ho).1; omega)
  have hw : Api.Spec.wanted o.status = Api.Spec.wanted v.status := by
    rcases hob.status with e | ⟨e1, e2⟩
    · rw [e]
    · rw [e1, e2]; rfl
  have hs' : o.status ≠ 204 := by
    rcases hob.status with e | ⟨e1, e2⟩
    · rw [e]; exact hs
    · rw [e2]; decide
  refine ⟨(Api.ResBody.mk o.status (some (jval bf (errGJ v.code v.message v.data) msg))).write dev, ?_, ?_, ?_⟩
  · unfold step
    simp only [hd0, hsent]
  · obtain ⟨x, -, hx, -⟩ := C141_answer dev bf o.status (errGJ v.code v.message v.data) msg [] (fun _ h => by cases h) hs'
    exact hx
  · intro rest bs hb
    obtain ⟨x, j, h1, h2, -, h3⟩ := C141_error dev bf o.status v.code v.message msg v.data bs hb hs' hd
    refine ⟨x, j, ?_, h2, h3⟩
    rw [(Api.C76_result_calls rest _ 1 (by decide)).1, ← hw]
    exact h1

/-- **C165** (a 204 has no body). -/
theorem C165_no_content {bf : Bool} {l : List Call} {vs : List Spec.Value} (h : Spec.Makes bf l vs) {a : Nat} {v : Spec.Value} (hv : vs[a]? = some v)
    (dev iface : Bool) (msg : Str) (hs : v.status = 204) :
    ∃ e, (step bf dev msg (run bf dev msg l) (.answer iface (some a))).2 = .answered e ∧
      ∀ (rest : List Api.RV) (bs : List Resp.BF), Api.Spec.Quiet bs →
        Api.Spec.Gets (Api.Spec.answer bs (Api.genericOut ((rest ++ [Api.RV.writer e.ops]).reverse)).1) 204 [] := by
  have hi := inv dev msg h
  obtain ⟨o, ho, hob⟩ := hi.lookup hv
  have hd0 : deref (run bf dev msg l) (some a) = some o := ho
  have hs' : o.status = 204 := by
    rcases hob.status with e | ⟨e1, e2⟩
    · rw [e]; exact hs
    · rw [hs] at e1; cases e1
  refine ⟨_, by unfold step; simp only [hd0]; rfl, fun rest bs hb => ?_⟩
  have := (Api.C76_result_written rest dev ⟨o.status, some (jval bf (sent (run bf dev msg l) o) msg)⟩ bs hb).2
  simpa [hs', Api.Spec.wanted] using this

/-- **C165** (the text): `Error()` is JSON that says the same. -/
theorem C165_text {bf : Bool} {l : List Call} {vs : List Spec.Value} (h : Spec.Makes bf l vs) {a : Nat} {v : Spec.Value} (hv : vs[a]? = some v)
    (dev : Bool) (msg : Str) (hd : ∀ g, v.data = some g → ¬ Json.Spec.NoJson g) :
    ∃ t j, (step bf dev msg (run bf dev msg l) (.text (some a))).2 = .text t ∧ Json.Spec.parse t = some j ∧
      Json.Spec.SaysError v.code v.message v.data j := by
  have hi := inv dev msg h
  obtain ⟨-, j, -, -, h2, h3⟩ := C141_error dev bf 200 v.code v.message msg v.data [] (fun _ h => by cases h) (by decide) hd
  exact ⟨_, j, congrArg Out.text (errorText_eq bf hi hv), h2, h3⟩

/-- **C165** (the code): `GetHttpCode` reports the status an error was made with, unless it was made with 0; `IsResError` recognises it. -/
theorem C165_code_partial {bf : Bool} {l : List Call} {vs : List Spec.Value} (h : Spec.Makes bf l vs) {a : Nat} {v : Spec.Value}
    (hv : vs[a]? = some v) (dev : Bool) (msg : Str) (hs : v.status ≠ 0) :
    (step bf dev msg (run bf dev msg l) (.getHttpCode (.res (some a)))).2 = .code true v.status ∧
    (step bf dev msg (run bf dev msg l) (.isResError (.res (some a)))).2 = .bool true := by
  have hi := inv dev msg h
  obtain ⟨o, ho, hob⟩ := hi.lookup hv
  have hd0 : deref (run bf dev msg l) (some a) = some o := ho
  refine ⟨?_, rfl⟩
  unfold step
  simp only [hd0]
  rcases hob.status with e | ⟨e1, -⟩
  · rw [e]
  · exact absurd e1 hs

/-- **C165** (errors of other types): their own code, or none; they are not `ResError`s. -/
theorem C165_other (bf dev : Bool) (msg : Str) (h : Heap) (n : Nat) :
    (step bf dev msg h (.getHttpCode (.other (some n)))).2 = .code true n ∧ (step bf dev msg h (.getHttpCode (.other none))).2 = .code false 0 ∧
    (step bf dev msg h (.isResError (.other (some n)))).2 = .bool false ∧ (step bf dev msg h (.isResError (.other none))).2 = .bool false :=
  ⟨rfl, rfl, rfl, rfl⟩

/-- **C165** (comparison): two errors are the same for `EqualAny` iff they were made with the same status and code - if neither was made
with status 0. -/
theorem C165_equal_partial {bf : Bool} {l : List Call} {vs : List Spec.Value} (h : Spec.Makes bf l vs) {a : Nat} {v : Spec.Value}
    (hv : vs[a]? = some v) (dev : Bool) (msg : Str) (hs : v.status ≠ 0) (bs : List Nat)
    (hb : ∀ b ∈ bs, ∃ w, vs[b]? = some w ∧ w.status ≠ 0) :
    ∃ r, (step bf dev msg (run bf dev msg l) (.equalAny (some a) (bs.map some))).2 = .bool r ∧
      (r = true ↔ ∃ b ∈ bs, ∃ w, vs[b]? = some w ∧ w.status = v.status ∧ w.code = v.code) := by
  have hi := inv dev msg h
  obtain ⟨o, ho, hob⟩ := hi.lookup hv
  have hd0 : deref (run bf dev msg l) (some a) = some o := ho
  have hos : o.status = v.status := by
    rcases hob.status with e | ⟨e1, -⟩
    · exact e
    · exact absurd e1 hs
  have key : ∀ bs : List Nat, (∀ b ∈ bs, ∃ w, vs[b]? = some w ∧ w.status ≠ 0) →
      ∃ r, anyEqual (run bf dev msg l) o (bs.map some) = some r ∧
        (r = true ↔ ∃ b ∈ bs, ∃ w, vs[b]? = some w ∧ w.status = v.status ∧ w.code = v.code) := by
    intro bs
    induction bs with
    | nil => intro _; exact ⟨false, rfl, by simp⟩
    | cons b bs ih =>
      intro hb
      obtain ⟨w, hw, hw0⟩ := hb b (by simp)
      obtain ⟨o', ho', hob'⟩ := hi.lookup hw
      have hd' : deref (run bf dev msg l) (some b) = some o' := ho'
      have hos' : o'.status = w.status := by
        rcases hob'.status with e | ⟨e1, -⟩
        · exact e
        · exact absurd e1 hw0
      simp only [List.map_cons, anyEqual, hd']
      by_cases hc : o.status = o'.status ∧ o.code = o'.code
      · rw [if_pos hc]
        refine ⟨true, rfl, fun _ => ⟨b, by simp, w, hw, ?_, ?_⟩, fun _ => rfl⟩
        · rw [← hos', ← hos]; exact hc.1.symm
        · rw [← hob'.code, ← hob.code]; exact hc.2.symm
      · rw [if_neg hc]
        obtain ⟨r, h1, h2⟩ := ih (fun b hb' => hb b (by simp [hb']))
        refine ⟨r, h1, h2.trans ⟨fun ⟨b', hb', hh⟩ => ⟨b', by simp [hb'], hh⟩, ?_⟩⟩
        rintro ⟨b', hb', w', hw', e1, e2⟩
        rcases List.mem_cons.1 hb' with rfl | hb'
        · rw [hw] at hw'
          cases hw'
          exact absurd ⟨by rw [hos, hos']; exact e1.symm, by rw [hob.code, hob'.code]; exact e2.symm⟩ hc
        · exact ⟨b', hb', w', hw', e1, e2⟩
  cases bs with
  | nil => exact ⟨false, rfl, by simp⟩
  | cons b bs =>
    obtain ⟨r, h1, h2⟩ := key (b :: bs) hb
    refine ⟨r, ?_, h2⟩
    unfold step
    simp only [List.map_cons, hd0] at h1 ⊢
    rw [h1]

/-! ## Where it is false -/

/-- What the client of an answer gets, with no other `Before` functions. -/
def Spec.client (o : Out) (status : Nat) (x : Str) : Prop :=
  ∃ e, o = .answered e ∧ Api.Spec.Gets (Api.Spec.answer [] (Api.genericOut [Api.RV.writer e.ops]).1) status x

/-- **C165** is false of errors written as a literal: whatever they say, the client gets an empty object. -/
theorem C165_literal_violated (bf : Bool) (msg : Str) (s : Nat) (c : Int) (m : Str) (d : Arg) (hs : s ≠ 204) :
    Spec.client (step bf false msg (run bf false msg [.literal s c m d]) (.answer false (some 0))).2 (Api.Spec.wanted s) b!"{}" := by
  refine ⟨_, rfl, ?_⟩
  have := (Api.C76_result_written [] false ⟨s, some (jval bf (.struct [] []) msg)⟩ [] (fun _ h => by cases h)).2
  rw [if_neg hs] at this
  exact this

/-- **C165** is false of errors copied and changed: the client gets the original. -/
theorem C165_copy_violated (bf : Bool) (msg : Str) (s : Nat) (hs : s ≠ 204) :
    Spec.client (step bf false msg (run bf false msg [.new s 7 b!"old" [], .copied (some 0) b!"new"]) (.answer false (some 1))).2
      (Api.Spec.wanted s) b!"{\"code\":7,\"message\":\"old\"}" ∧
    (step bf false msg (run bf false msg [.new s 7 b!"old" [], .copied (some 0) b!"new"]) (.text (some 1))).2 =
      .text b!"{\"code\":7,\"message\":\"new\"}" := by
  refine ⟨⟨_, rfl, ?_⟩, ?_⟩
  · have := (Api.C76_result_written [] false ⟨s, some (jval bf (errGJ 7 b!"old" none) msg)⟩ [] (fun _ h => by cases h)).2
    rw [if_neg hs] at this
    cases bf <;> exact this
  · cases bf <;> rfl

/-- **C165**: an error made with status 0 is answered with 200, but says 0 until then and 200 afterwards; two of them stop being equal. -/
theorem C165_zero_violated (bf : Bool) (msg : Str) :
    (step bf false msg (run bf false msg [.new 0 7 b!"m" [], .withMsg (some 0) b!"n"]) (.getHttpCode (.res (some 0)))).2 = .code true 0 ∧
    (step bf false msg (run bf false msg [.new 0 7 b!"m" [], .withMsg (some 0) b!"n"]) (.equalAny (some 1) [some 0])).2 = .bool true ∧
    (step bf false msg (run bf false msg [.new 0 7 b!"m" [], .withMsg (some 0) b!"n", .answer false (some 0)])
      (.getHttpCode (.res (some 0)))).2 = .code true 200 ∧
    (step bf false msg (run bf false msg [.new 0 7 b!"m" [], .withMsg (some 0) b!"n", .answer false (some 0)])
      (.equalAny (some 1) [some 0])).2 = .bool false := ⟨rfl, rfl, rfl, rfl⟩

/-- **C165**: no error (a nil pointer) returned as a `*ResError` writes nothing; returned as an `error` it panics, as does asking it for its
code - although it is a `ResError` and has a text, the empty one. -/
theorem C165_nil_violated (bf dev : Bool) (msg : Str) (h : Heap) :
    (step bf dev msg h (.answer false none)).2 = .answered ⟨[], none⟩ ∧ (step bf dev msg h (.answer true none)).2 = .panic ∧
    (step bf dev msg h (.isResError (.res none))).2 = .bool true ∧ (step bf dev msg h (.getHttpCode (.res none))).2 = .panic ∧
    (step bf dev msg h (.text none)).2 = .text [] := ⟨rfl, rfl, rfl, rfl, rfl⟩

/-! ## Example -/

/-- `base := NewResError(404, 7, "not found")`, `e := base.WithData("user")`, an answer with `base`, `w := NewResError(500, 1, "x").WithData(e)`. -/
def exCalls : List Call :=
  [.new 404 7 b!"not found" [], .withData (some 0) (.str b!"user") [], .answer false (some 0), .new 500 1 b!"x" [], .withData (some 2) (.res (some 1)) []]

theorem C165_example : ∃ vs, Spec.Makes false exCalls vs ∧ vs.length = 4 ∧ vs[1]? = some ⟨404, 7, b!"user", some (.str b!"user")⟩ ∧
    vs[3]? = some ⟨500, 1, b!"{\"code\":7,\"message\":\"user\",\"data\":\"user\"}", some (errGJ 7 b!"user" (some (.str b!"user")))⟩ := by
  refine ⟨_, .withData (l := _) (e := ⟨500, 1, b!"x", none⟩) (.res (some 1)) [] (.new 500 1 b!"x" [] (.between (.answer false (some 0))
    (.withData (e := ⟨404, 7, b!"not found", none⟩) (.str b!"user") [] (.new 404 7 b!"not found" [] .start (fun _ h => by cases h)) rfl trivial) trivial)
    (fun _ h => by cases h)) rfl (show 1 < 3 by decide), rfl, rfl, rfl⟩

end Verif.ApiErr
