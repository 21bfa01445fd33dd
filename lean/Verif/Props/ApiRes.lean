import Verif.Model.ApiRes
import Verif.Props.Response
/-!
# C67, C68, C76: API results
-/
namespace Verif.Api
open Verif.Resp

/-! ## Specification -/

/-- What the client gets when, in a request for which only well-behaved callbacks `bs` that set no status have been
registered, the calls `ops` are made: `Strip.ServeHTTP` ends with `Write(nil)` (app.go:123). -/
def Spec.answer (bs : List BF) (ops : List Op) : List Ev := (runOps (bs.map Op.before ++ ops ++ [.write [] 0]) newRW).events

/-- Callbacks that do not panic and set no status. -/
def Spec.Quiet (bs : List BF) : Prop := ∀ b ∈ bs, b.panics = false ∧ b.status = none

/-- The status a result asks for: 200 by default. -/
def Spec.wanted (s : Nat) : Nat := if s = 0 then 200 else s

/-- The client gets this status and these body bytes. -/
def Spec.Gets (es : List Ev) (status : Nat) (body : Str) : Prop :=
  Resp.Spec.wireStatus es = some status ∧ Resp.Spec.bodyBytes es = body

/-! ## Lemmas -/

theorem writes_events : ∀ (cs : List Str) (w : RW), w.once = true →
    (runOps (cs.map wr) w).events = w.events ++ cs.map Ev.body ∧ (runOps (cs.map wr) w).once = true
  | [], w, h => by simp [runOps, h]
  | c :: cs, w, h => by
    have := writes_events cs (writeBody w c c.length) h
    simp only [List.map_cons, runOps, wr, RW.op, RW.write]
    rw [if_pos h]
    refine ⟨?_, this.2⟩
    rw [this.1]
    simp [writeBody]

theorem bodyBytes_append (a b : List Ev) : Resp.Spec.bodyBytes (a ++ b) = Resp.Spec.bodyBytes a ++ Resp.Spec.bodyBytes b := by
  unfold Resp.Spec.bodyBytes; rw [List.flatMap_append]

theorem bodyBytes_body (cs : List Str) : Resp.Spec.bodyBytes (cs.map Ev.body) = cs.flatten := by
  induction cs with
  | nil => rfl
  | cons c cs ih => 
    unfold Resp.Spec.bodyBytes at ih ⊢
    rw [List.map_cons, List.flatMap_cons, ih]; rfl

theorem bodyBytes_before (l : List BF) : Resp.Spec.bodyBytes (l.map (fun b => Ev.before b.id)) = [] := by
  induction l with
  | nil => rfl
  | cons c cs ih =>
    unfold Resp.Spec.bodyBytes at ih ⊢
    rw [List.map_cons, List.flatMap_cons, ih]; rfl

theorem registered_before (bs : List BF) (l : List Op) (h : ∀ o ∈ l, ∃ s, o = .writeHeader s) :
    Resp.Spec.registered (bs.map Op.before ++ l) = bs := by
  have h1 : Resp.Spec.registered (bs.map Op.before) = bs := by
    unfold Resp.Spec.registered
    induction bs with
    | nil => rfl
    | cons b bs ih => simp [ih]
  have h2 : Resp.Spec.registered l = [] := by
    unfold Resp.Spec.registered
    rw [List.filterMap_eq_nil_iff]
    intro o ho
    obtain ⟨s, rfl⟩ := h o ho
    rfl
  have h3 : Resp.Spec.registered (bs.map Op.before ++ l) = Resp.Spec.registered (bs.map Op.before) ++ Resp.Spec.registered l := by
    unfold Resp.Spec.registered
    rw [List.filterMap_append]
  rw [h3, h1, h2, List.append_nil]

theorem lastCode_before (bs : List BF) (l : List Op) : Resp.Spec.lastCode (bs.map Op.before ++ l) = Resp.Spec.lastCode l := by
  unfold Resp.Spec.lastCode
  rw [List.foldl_append]
  congr 1
  induction bs with
  | nil => rfl
  | cons b bs ih => exact ih

/-- Calls of `WriteHeader`, then the chunks. -/
theorem gets (bs : List BF) (hb : Spec.Quiet bs) (hs : List Op) (hh : ∀ o ∈ hs, ∃ s, o = Op.writeHeader s) (cs : List Str) :
    Spec.Gets (Spec.answer bs (hs ++ cs.map wr)) (if Resp.Spec.lastCode hs = 0 then 200 else Resp.Spec.lastCode hs) cs.flatten := by
  have hreg := registered_before bs hs hh
  have hw : ∀ o ∈ bs.map Op.before ++ hs, o.isWrite = false := by
    intro o ho
    rcases List.mem_append.1 ho with ho | ho
    · obtain ⟨b, _, rfl⟩ := List.mem_map.1 ho; rfl
    · obtain ⟨s, rfl⟩ := hh o ho; rfl
  have hf : ∀ o ∈ bs.map Op.before ++ hs, o.isFlush = false := by
    intro o ho
    rcases List.mem_append.1 ho with ho | ho
    · obtain ⟨b, _, rfl⟩ := List.mem_map.1 ho; rfl
    · obtain ⟨s, rfl⟩ := hh o ho; rfl
  have hj : (bs.map Op.before ++ hs).any Op.isHijack = false := by
    rw [List.any_eq_false]
    intro o ho
    rcases List.mem_append.1 ho with ho | ho
    · obtain ⟨b, _, rfl⟩ := List.mem_map.1 ho; simp [Op.isHijack]
    · obtain ⟨s, rfl⟩ := hh o ho; simp [Op.isHijack]
  have hok : ∀ b ∈ Resp.Spec.registered (bs.map Op.before ++ hs), Resp.Spec.BFok b := by
    rw [hreg]
    intro b hb'
    have := hb b hb'
    exact ⟨this.1, by rw [this.2]; nofun⟩
  have hcode : Resp.Spec.sentCode (bs.map Op.before ++ hs) =
      if Resp.Spec.lastCode hs = 0 then 200 else Resp.Spec.lastCode hs := by
    rw [C18_sent_code_plain (by rw [hreg]; exact fun b h => (hb b h).2), lastCode_before]
  have run : ∀ (c : Str) (rest : List Str),
      Spec.Gets ((runOps (bs.map Op.before ++ hs ++ ((c :: rest).map wr)) newRW).events)
        (if Resp.Spec.lastCode hs = 0 then 200 else Resp.Spec.lastCode hs) (c :: rest).flatten := by
    intro c rest
    obtain ⟨es, h1, h2, h3⟩ := first_write (bs := c) (n := c.length) hw hok hj
    have hes : es = [] := h2 (by
      rw [List.all_eq_true]
      intro o ho
      simp [hf o ho])
    subst hes
    rw [List.map_cons, show bs.map Op.before ++ hs ++ wr c :: rest.map wr =
      (bs.map Op.before ++ hs ++ [.write c c.length]) ++ rest.map wr by simp [wr], runOps_append, h3]
    rw [(writes_events rest _ rfl).1, hcode]
    constructor
    · simp only [List.nil_append, List.append_assoc]
      rw [wireStatus_skip_before]
      rfl
    · rw [bodyBytes_append, bodyBytes_append, bodyBytes_append, bodyBytes_before, bodyBytes_body]
      simp [Resp.Spec.bodyBytes]
  have e0 : ([Op.write [] 0] : List Op) = [wr []] := rfl
  unfold Spec.answer
  cases cs with
  | nil =>
    have := run [] []
    simpa [e0] using this
  | cons c rest =>
    have := run c (rest ++ [[]])
    rw [e0, show bs.map Op.before ++ (hs ++ (c :: rest).map wr) ++ [wr []] =
      bs.map Op.before ++ hs ++ ((c :: (rest ++ [[]])).map wr) by simp]
    simpa using this

/-! ## C67 -/

/-- The body an encoder yields. -/
def Spec.encoded (dev : Bool) (v : JVal) : Str :=
  if dev then v.indented.getD v.errIndented else v.plain.getD v.errPlain

theorem writeJson_ops (dev : Bool) (s : Nat) (v : JVal) : (writeJson dev s v).ops = [.writeHeader s] ++ [Spec.encoded dev v].map wr := by
  unfold writeJson Spec.encoded
  cases dev
  · cases h : v.plain <;> simp
  · cases h : v.indented <;> simp

/-- C67: a `ResBody` — `With(body, status)`, `Ret(status)`, or an error — is answered with the status given, 200 if it
is 0, and with the JSON of the body, except a 204, which has no body. This holds even if the body cannot be encoded (an
error object is sent then, with the same status). -/
theorem C67_res_status (dev : Bool) (r : ResBody) (bs : List BF) (hb : Spec.Quiet bs) :
    Spec.Gets (Spec.answer bs (r.write dev).ops) (Spec.wanted r.status)
      (if r.status = 204 then [] else Spec.encoded dev (r.body.getD emptyObject)) := by
  unfold ResBody.write
  have hone : ∀ s, ∀ o ∈ [Op.writeHeader s], ∃ s, o = Op.writeHeader s := fun s o ho => ⟨s, List.mem_singleton.1 ho⟩
  by_cases h : (if r.status = 0 then 200 else r.status) = 204
  · rw [if_pos h]
    have h204 : r.status = 204 := by
      by_cases h0 : r.status = 0
      · rw [if_pos h0] at h; cases h
      · rw [if_neg h0] at h; exact h
    have := gets bs hb [.writeHeader 204] (hone 204) []
    rw [h204, if_pos rfl]
    simpa [Resp.Spec.lastCode, Spec.wanted] using this
  · rw [if_neg h, writeJson_ops]
    have h204 : r.status ≠ 204 := by
      intro hx
      rw [hx] at h
      exact h rfl
    rw [if_neg h204]
    have := gets bs hb [.writeHeader (if r.status = 0 then 200 else r.status)] (hone _)
      [Spec.encoded dev (r.body.getD emptyObject)]
    have hl : Resp.Spec.lastCode [.writeHeader (if r.status = 0 then 200 else r.status)] = Spec.wanted r.status := by
      unfold Resp.Spec.lastCode Spec.wanted
      simp only [List.foldl_cons, List.foldl_nil]
      by_cases h0 : r.status = 0 <;> simp [h0]
    rw [hl] at this
    have hw : Spec.wanted r.status ≠ 0 := by
      unfold Spec.wanted
      split
      · decide
      · assumption
    rw [if_neg hw] at this
    simpa using this

/-- C67: `With` without a status asks for 200; with one, for that; `Ret` for that. -/
theorem C67_constructors (b : Option JVal) (s : Nat) (r : List Nat) :
    (with_ b []).status = 200 ∧ (with_ b (s :: r)).status = s ∧ (ret s).status = s ∧
    (rawWith .nil []).status = 200 ∧ (rawWith .nil (s :: r)).status = s ∧ (rawRet s).status = s := ⟨rfl, rfl, rfl, rfl, rfl, rfl⟩

/-- C67, in part: a `RawBody` with a JSON body, or with status 204, likewise. Missing: strings, bytes, readers and empty
bodies, whose status is ignored (next theorem). -/
theorem C67_raw_json_status_partial (dev : Bool) (r : RawBody) (v : JVal) (hv : r.body = .json v) (bs : List BF) (hb : Spec.Quiet bs) :
    Spec.Gets (Spec.answer bs (r.write dev).ops) (Spec.wanted r.status) (if r.status = 204 then [] else Spec.encoded dev v) := by
  have := C67_res_status dev ⟨r.status, some v⟩ bs hb
  have he : r.write dev = ResBody.write dev ⟨r.status, some v⟩ := by
    unfold RawBody.write ResBody.write
    rw [hv]
    rfl
  rw [he]
  exact this

/-- The bytes of a raw body. -/
def Spec.raw : RawVal → Option Str
  | .nil => some []
  | .str s => some s
  | .bytes s => some s
  | .reader cs _ => some cs.flatten
  | .json _ => none

/-- C67 fails for every other raw body and every status but 204: the client gets the bytes and always 200, e.g. for
`RawRet(404)` or `RawWith("forbidden", 403)`. -/
theorem C67_raw_status_violated (dev : Bool) (r : RawBody) (body : Str) (hv : Spec.raw r.body = some body) (h : r.status ≠ 204)
    (bs : List BF) (hb : Spec.Quiet bs) : Spec.Gets (Spec.answer bs (r.write dev).ops) 200 body := by
  unfold RawBody.write
  have h1 : (if r.status = 0 then 200 else r.status) ≠ 204 := by
    split
    · decide
    · exact h
  rw [if_neg h1]
  have key : ∀ cs : List Str, Spec.Gets (Spec.answer bs (cs.map wr)) 200 cs.flatten := by
    intro cs
    have := gets bs hb [] nofun cs
    simpa [Resp.Spec.lastCode] using this
  cases hr : r.body with
  | nil => rw [hr] at hv; cases hv; exact key []
  | str s => rw [hr] at hv; cases hv; have := key [body]; simpa using this
  | bytes s => rw [hr] at hv; cases hv; have := key [body]; simpa using this
  | reader cs c => rw [hr] at hv; cases hv; exact key cs
  | json v => rw [hr] at hv; cases hv

theorem C67_example : Spec.Gets (Spec.answer [⟨1, none, false⟩] ((ret 404).write false).ops) 404 b!"{}" ∧
    Spec.Gets (Spec.answer [] ((rawWith (.str b!"no") [403]).write false).ops) 200 b!"no" := by
  unfold Spec.Gets
  decide +kernel

/-! ## C68 -/

/-- The calls that derive an error from another. -/
def Spec.derives : EOp → Bool
  | .write _ => false
  | _ => true

theorem estep_prefix (h : Heap) (o : EOp) (ho : Spec.derives o = true) : h <+: estep h o := by
  cases o with
  | new s c m ds => exact ⟨_, rfl⟩
  | withData a d ms =>
    cases ha : h[a]? with
    | none => simp only [estep, ha]; exact List.prefix_refl _
    | some e =>
      simp only [estep, ha, withData]
      split
      · exact ⟨_, rfl⟩
      · split <;> exact ⟨_, rfl⟩
  | withMsg a m =>
    cases ha : h[a]? with
    | none => simp only [estep, ha]; exact List.prefix_refl _
    | some e => simp only [estep, ha]; exact ⟨_, rfl⟩
  | write a => cases ho

/-- C68: however many errors are derived from one another, an error that exists is never changed. -/
theorem C68_immutable (h : Heap) (l : List EOp) (hl : ∀ o ∈ l, Spec.derives o = true) (a : Nat) (e : ErrObj)
    (ha : h[a]? = some e) : (erun h l)[a]? = some e := by
  induction l generalizing h with
  | nil => exact ha
  | cons o l ih =>
    refine ih (estep h o) (fun x hx => hl x (by simp [hx])) ?_
    obtain ⟨t, ht⟩ := estep_prefix h o (hl o (by simp))
    have hlt : a < h.length := by
      by_cases hlt : a < h.length
      · exact hlt
      · rw [List.getElem?_eq_none (by omega)] at ha; cases ha
    rw [← ht, List.getElem?_append_left hlt]
    exact ha

/-- What deriving keeps and changes. -/
theorem withData_obj (h : Heap) (e : ErrObj) (d : Data) (ms : List Str) :
    ∃ n, (withData h e d ms).1[(withData h e d ms).2]? = some n ∧ n.status = e.status ∧ n.code = e.code ∧ n.data = d ∧
      n.body = (withData h e d ms).2 ∧
      n.message = (match ms, d with | m :: _, _ => m | [], .err m => m | [], .str m => m | [], _ => e.message) := by
  unfold withData
  cases ms with
  | cons m ms => exact ⟨⟨e.status, h.length, e.code, m, d⟩, by simp, rfl, rfl, rfl, rfl, rfl⟩
  | nil =>
    cases d with
    | none => exact ⟨⟨e.status, h.length, e.code, e.message, .none⟩, by simp, rfl, rfl, rfl, rfl, rfl⟩
    | err m => exact ⟨⟨e.status, h.length, e.code, m, .err m⟩, by simp, rfl, rfl, rfl, rfl, rfl⟩
    | str m => exact ⟨⟨e.status, h.length, e.code, m, .str m⟩, by simp, rfl, rfl, rfl, rfl, rfl⟩
    | other i => exact ⟨⟨e.status, h.length, e.code, e.message, .other i⟩, by simp, rfl, rfl, rfl, rfl, rfl⟩

/-- C68: a derived error keeps the status and the code, so `EqualAny` holds between it and the error it is derived
from, both ways; it has the new data and message; and it is itself the body that is sent. -/
theorem C68_derived_withData (h : Heap) (e : ErrObj) (d : Data) (ms : List Str) :
    ∃ n, (withData h e d ms).1[(withData h e d ms).2]? = some n ∧ equalAny n [e] = true ∧ equalAny e [n] = true ∧
      n.status = e.status ∧ n.code = e.code ∧ n.data = d ∧ n.body = (withData h e d ms).2 ∧
      (∀ m r, ms = m :: r → n.message = m) ∧
      (ms = [] → (∀ m, d = .err m ∨ d = .str m → n.message = m) ∧ ((∀ m, d ≠ .err m ∧ d ≠ .str m) → n.message = e.message)) := by
  obtain ⟨n, h1, h2, h3, h4, h5, h6⟩ := withData_obj h e d ms
  refine ⟨n, h1, by simp [equalAny, h2, h3], by simp [equalAny, h2, h3], h2, h3, h4, h5, ?_, ?_⟩
  · rintro m r rfl; exact h6
  · rintro rfl
    constructor
    · rintro m (rfl | rfl) <;> exact h6
    · intro hd
      cases d with
      | none => exact h6
      | other i => exact h6
      | err m => exact absurd rfl (hd m).1
      | str m => exact absurd rfl (hd m).2

theorem C68_derived_withMsg (h : Heap) (e : ErrObj) (m : Str) :
    ∃ n, (withMsg h e m).1[(withMsg h e m).2]? = some n ∧ equalAny n [e] = true ∧ equalAny e [n] = true ∧
      n.status = e.status ∧ n.code = e.code ∧ n.data = e.data ∧ n.message = m ∧ n.body = (withMsg h e m).2 :=
  ⟨⟨e.status, h.length, e.code, m, e.data⟩, by simp [withMsg], by simp [equalAny], by simp [equalAny], rfl, rfl, rfl, rfl, rfl⟩

/-- C68: in every history each error is its own body: what is sent for it is its own code, message and data. -/
theorem C68_own_body (l : List EOp) : ∀ (a : Nat) (e : ErrObj), (erun [] l)[a]? = some e → e.body = a := by
  have key : ∀ (l : List EOp) (h : Heap), (∀ (a : Nat) (e : ErrObj), h[a]? = some e → e.body = a) →
      ∀ (a : Nat) (e : ErrObj), (erun h l)[a]? = some e → e.body = a := by
    intro l
    induction l with
    | nil => intro h hh; exact hh
    | cons o l ih =>
      intro h hh
      refine ih (estep h o) ?_
      have push : ∀ (x : ErrObj), x.body = h.length → ∀ (a : Nat) (e : ErrObj), (h ++ [x])[a]? = some e → e.body = a := by
        intro x hx a e ha
        by_cases hlt : a < h.length
        · rw [List.getElem?_append_left hlt] at ha; exact hh a e ha
        · rw [List.getElem?_append_right (by omega)] at ha
          have : a - h.length = 0 := by
            by_cases h0 : a - h.length = 0
            · exact h0
            · rw [List.getElem?_eq_none (by simp; omega)] at ha; cases ha
          rw [this] at ha
          simp at ha
          rw [← ha, hx]; omega
      cases o with
      | new s c m ds => exact push _ rfl
      | withData a d ms =>
        cases ha : h[a]? with
        | none => simp only [estep, ha]; exact hh
        | some e =>
          simp only [estep, ha, withData]
          split
          · exact push _ rfl
          · split <;> exact push _ rfl
      | withMsg a m =>
        cases ha : h[a]? with
        | none => simp only [estep, ha]; exact hh
        | some e => simp only [estep, ha]; exact push _ rfl
      | write a =>
        cases ha : h[a]? with
        | none => simp only [estep, ha]; exact hh
        | some e =>
          simp only [estep, ha]
          split
          · intro b x hx
            by_cases hb : b = a
            · subst hb
              have hlt : b < h.length := by
                by_cases hlt : b < h.length
                · exact hlt
                · rw [List.getElem?_eq_none (by omega)] at ha; cases ha
              rw [List.getElem?_set_self hlt] at hx
              cases hx
              exact hh b e ha
            · rw [List.getElem?_set_ne (Ne.symm hb)] at hx
              exact hh b x hx
          · exact hh
  exact key l [] nofun

/-- C68: sending an error changes it only if its status is 0. -/
theorem C68_write_partial (h : Heap) (a : Nat) (e : ErrObj) (ha : h[a]? = some e) (hs : e.status ≠ 0) : estep h (.write a) = h := by
  simp only [estep, ha]
  rw [if_neg hs]

/-- **C68**, exactly what sending does to the errors: the error that is sent has from then on its status, or 200 if it
was 0, and everything else of it and all other errors are as before. -/
theorem C68_write_exact (h : Heap) (a : Nat) (e : ErrObj) (ha : h[a]? = some e) :
    (estep h (.write a))[a]? = some ⟨if e.status = 0 then 200 else e.status, e.body, e.code, e.message, e.data⟩ ∧
    (∀ b, b ≠ a → (estep h (.write a))[b]? = h[b]?) ∧ (estep h (.write a)).length = h.length := by
  obtain ⟨hlt, _⟩ := List.getElem?_eq_some_iff.1 ha
  simp only [estep, ha]
  by_cases hs : e.status = 0
  · simp only [if_pos hs]
    refine ⟨by simp [hlt], fun b hb => ?_, by simp⟩
    rw [List.getElem?_set_ne (fun x => hb x.symm)]
  · simp only [if_neg hs]
    exact ⟨ha, fun _ _ => trivial, trivial⟩

/-- C68: an error of status 0 is changed when it is first sent: it is no longer equal (`EqualAny`) to an error derived
from it before. -/
theorem C68_write_changes_violated :
    ((erun [] [.new 0 7 b!"m" [], .withMsg 0 b!"n"])[1]?.map (fun e => equalAny e ((erun [] [.new 0 7 b!"m" [], .withMsg 0 b!"n"]).take 1))) = some true ∧
    ((erun [] [.new 0 7 b!"m" [], .withMsg 0 b!"n", .write 0])[1]?.map
      (fun e => equalAny e ((erun [] [.new 0 7 b!"m" [], .withMsg 0 b!"n", .write 0]).take 1))) = some false := by
  decide +kernel
/-- **C68**: `EqualAny` is true exactly if one of the errors given has the same status and the same code, whatever their messages and data. -/
theorem C68_equal_any (e : ErrObj) (errs : List ErrObj) :
    equalAny e errs = true ↔ ∃ r ∈ errs, r.status = e.status ∧ r.code = e.code := by
  unfold equalAny
  simp only [List.any_eq_true, Bool.and_eq_true, decide_eq_true_eq]
  constructor
  · rintro ⟨r, h1, h2, h3⟩; exact ⟨r, h1, h2.symm, h3.symm⟩
  · rintro ⟨r, h1, h2, h3⟩; exact ⟨r, h1, h2.symm, h3.symm⟩

/-- **C68**: a new error has the status, code and message given and the first of the data given (none: nil); no other object changes. -/
theorem C68_new (h : Heap) (status : Nat) (code : Int) (message : Str) (d : Data) (ds : List Data) :
    (newErr h status code message []).1 = h ++ [⟨status, h.length, code, message, .none⟩] ∧
    (newErr h status code message (d :: ds)).1 = h ++ [⟨status, h.length, code, message, d⟩] ∧
    (newErr h status code message []).2 = h.length ∧ (newErr h status code message (d :: ds)).2 = h.length := ⟨rfl, rfl, rfl, rfl⟩

example : equalAny ⟨404, 0, 7, b!"a", .none⟩ [⟨404, 1, 8, b!"a", .none⟩, ⟨404, 2, 7, b!"b", .str b!"x"⟩] = true ∧
    equalAny ⟨404, 0, 7, b!"a", .none⟩ [] = false := by decide


theorem C68_example : erun [] [.new 404 7 b!"m" [], .withData 0 (.str b!"x") [], .withMsg 1 b!"y"] =
    [⟨404, 0, 7, b!"m", .none⟩, ⟨404, 1, 7, b!"x", .str b!"x"⟩, ⟨404, 2, 7, b!"y", .str b!"x"⟩] := by decide +kernel

/-! ## C76 -/

/-- The bytes of a body the filter's documentation lists, for a value whose static type can be nil. -/
def Spec.bodyOf : RV → Option Str
  | .reader cs => some cs.flatten
  | .bytes s => some s
  | .istr s => some s
  | .nil => some []
  | _ => none

theorem writeValue_ops {v : RV} {body : Str} (hv : Spec.bodyOf v = some body) :
    ∃ cs : List Str, (writeValue v).1 = cs.map wr ∧ cs.flatten = body ∧ (writeValue v).2 = false := by
  cases v <;> simp only [Spec.bodyOf] at hv <;> cases hv
  · exact ⟨[], rfl, rfl, rfl⟩
  · exact ⟨_, rfl, rfl, rfl⟩
  · exact ⟨[body], rfl, by simp, rfl⟩
  · exact ⟨[body], rfl, by simp, rfl⟩

/-- C76, in part: an action that returns a reader, a `[]byte` or an interface holding a string, alone or followed by a
non-zero `int`, is answered with that code (200 without) and those bytes; other values before these two are ignored.
Missing: the documented form `string`. -/
theorem C76_returned_value_partial (rest : List RV) (v : RV) (code : Nat) (body : Str) (hv : Spec.bodyOf v = some body)
    (hc : code ≠ 0) (bs : List BF) (hb : Spec.Quiet bs) :
    (genericOut ((rest ++ [v, .int code]).reverse)).2 = false ∧ (genericOut ((rest ++ [v]).reverse)).2 = false ∧
    Spec.Gets (Spec.answer bs (genericOut ((rest ++ [v, .int code]).reverse)).1) code body ∧
    Spec.Gets (Spec.answer bs (genericOut ((rest ++ [v]).reverse)).1) 200 body := by
  obtain ⟨cs, h1, h2, h3⟩ := writeValue_ops hv
  have e1 : genericOut ((rest ++ [v, .int code]).reverse) = (.writeHeader code :: (writeValue v).1, (writeValue v).2) := by
    rw [List.reverse_append]
    cases code with
    | zero => exact absurd rfl hc
    | succ n => rfl
  have e2 : genericOut ((rest ++ [v]).reverse) = writeValue v := by
    rw [List.reverse_append]
    cases v <;> first | rfl | cases hv
  rw [e1, e2, h1, h3]
  refine ⟨rfl, rfl, ?_, ?_⟩
  · have := gets bs hb [.writeHeader code] (fun o ho => ⟨code, List.mem_singleton.1 ho⟩) cs
    have hl : Resp.Spec.lastCode [.writeHeader code] = code := by simp [Resp.Spec.lastCode, hc]
    rw [hl, if_neg hc, h2] at this
    exact this
  · have := gets bs hb [] nofun cs
    simpa [Resp.Spec.lastCode, h2] using this

/-- C76: an `int` alone is the status. -/
theorem C76_code_alone (code : Nat) (hc : code ≠ 0) (bs : List BF) (hb : Spec.Quiet bs) :
    (genericOut [.int code]).2 = false ∧ Spec.Gets (Spec.answer bs (genericOut [.int code]).1) code [] := by
  have e1 : genericOut [.int code] = ([.writeHeader code], false) := by
    cases code with
    | zero => exact absurd rfl hc
    | succ n => rfl
  rw [e1]
  refine ⟨rfl, ?_⟩
  have := gets bs hb [.writeHeader code] (fun o ho => ⟨code, List.mem_singleton.1 ho⟩) []
  have hl : Resp.Spec.lastCode [.writeHeader code] = code := by simp [Resp.Spec.lastCode, hc]
  rw [hl, if_neg hc] at this
  simpa using this

/-- C76: an `ActionResult` or an `http.Handler` that is returned — alone, or followed by a non-zero `int` — makes all
its calls on the response, after the code has been set. -/
theorem C76_result_calls (rest : List RV) (ops : List Op) (code : Nat) (hc : code ≠ 0) :
    genericOut ((rest ++ [RV.writer ops]).reverse) = (ops, false) ∧
    genericOut ((rest ++ [RV.writer ops, .int code]).reverse) = (.writeHeader code :: ops, false) := by
  refine ⟨by rw [List.reverse_append]; rfl, ?_⟩
  rw [List.reverse_append]
  cases code with
  | zero => exact absurd rfl hc
  | succ n => rfl

/-- C76: so an action that returns an API result is answered with the result's status and JSON. -/
theorem C76_result_written (rest : List RV) (dev : Bool) (r : ResBody) (bs : List BF) (hb : Spec.Quiet bs) :
    (genericOut ((rest ++ [RV.writer (r.write dev).ops]).reverse)).2 = false ∧
    Spec.Gets (Spec.answer bs (genericOut ((rest ++ [RV.writer (r.write dev).ops]).reverse)).1) (Spec.wanted r.status)
      (if r.status = 204 then [] else Spec.encoded dev (r.body.getD emptyObject)) := by
  rw [(C76_result_calls rest _ 1 (by decide)).1]
  exact ⟨rfl, C67_res_status dev r bs hb⟩

/-- C76: nothing returned, nothing done. -/
theorem C76_nothing : genericOut [] = ([], false) := rfl

/-- C76: the documented forms `Action() string` and `Action() (string, int)` panic, for every string (`IsNil` on a
string), and so does every returned struct; in the second form the status has been set by then. -/
theorem C76_string_violated (rest : List RV) (s : Str) (code : Nat) :
    (genericOut ((rest ++ [RV.str s]).reverse)).2 = true ∧ (genericOut ((rest ++ [RV.str s, RV.int code]).reverse)).2 = true ∧
    (genericOut ((rest ++ [RV.plain]).reverse)).2 = true := by
  refine ⟨by rw [List.reverse_append]; rfl, ?_, by rw [List.reverse_append]; rfl⟩
  rw [List.reverse_append]
  cases code <;> rfl

theorem C76_example : Spec.Gets (Spec.answer [] (genericOut [.int 201, .bytes b!"ok", .plain]).1) 201 b!"ok" := by
  unfold Spec.Gets
  decide +kernel

end Verif.Api
