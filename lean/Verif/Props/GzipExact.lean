import Verif.Props.Gzip
import Verif.Props.ResponseExact
/-!
# C109: what the gzip filter does, for every sequence of operations of the later handlers
-/
namespace Verif.Gz
open Verif.Resp Verif.Resp.Spec Spec

/-! ## Specification -/

/-- The headers as the first write of `p` finds them: no `Content-Length`, and a detected `Content-Type` if there is none. -/
def Spec.prepared (detect : Str → Str) (h : Hdr) (p : Str) : Hdr := fun k =>
  if k = b!"Content-Length" then []
  else if k = b!"Content-Type" ∧ h k = [] then detect p
  else h k

/-- The headers sent for a sequence of operations, if any output is made: those in force at the first write or flush. -/
def Spec.sentHdr (detect : Str → Str) (h : Hdr) : List GOp → Option Hdr
  | [] => none
  | .setHeader k v :: os => Spec.sentHdr detect (fun x => if x = k then v else h x) os
  | .writeHeader _ :: os => Spec.sentHdr detect h os
  | .flush :: _ => some h
  | .write p :: _ => some (Spec.prepared detect h p)

/-- The headers the filter sets before the later handlers run. -/
def Spec.marked (h : Hdr) : Hdr := fun k =>
  if k = b!"Content-Encoding" then b!"gzip" else if k = b!"Vary" then b!"Accept-Encoding" else h k

variable {C : Codec}

/-! ## Proofs -/

theorem contains_iff (s sub : Str) : contains s sub = true ↔ ∃ a b, s = a ++ sub ++ b := by
  induction s with
  | nil =>
    unfold contains
    simp only [Bool.or_false, List.isPrefixOf_iff_prefix]
    constructor
    · rintro ⟨b, hb⟩; exact ⟨[], b, by simpa using hb.symm⟩
    · rintro ⟨a, b, h⟩
      have : sub = [] := by
        cases sub with
        | nil => rfl
        | cons x t => cases a <;> cases h
      subst this; exact ⟨[], rfl⟩
  | cons c s ih =>
    unfold contains
    simp only [Bool.or_eq_true, List.isPrefixOf_iff_prefix, ih]
    constructor
    · rintro (⟨b, hb⟩ | ⟨a, b, h⟩)
      · exact ⟨[], b, by simpa using hb.symm⟩
      · exact ⟨c :: a, b, by rw [h]; rfl⟩
    · rintro ⟨a, b, h⟩
      cases a with
      | nil => exact .inl ⟨b, by simpa using h.symm⟩
      | cons x a =>
        simp only [List.cons_append, List.cons.injEq] at h
        exact .inr ⟨a, b, h.2⟩

theorem prepared_eq (detect : Str → Str) (h : Hdr) (p : Str) :
    (if (h.set b!"Content-Length" []) b!"Content-Type" = [] then (h.set b!"Content-Length" []).set b!"Content-Type" (detect p)
      else h.set b!"Content-Length" []) = Spec.prepared detect h p := by
  have e : (h.set b!"Content-Length" []) b!"Content-Type" = h b!"Content-Type" := Hdr.set_ne _ _ (by decide)
  rw [e]
  funext k
  unfold Spec.prepared
  by_cases h1 : h b!"Content-Type" = []
  · rw [if_pos h1]
    by_cases hk : k = b!"Content-Length"
    · subst hk; rw [if_pos rfl, Hdr.set_ne _ _ (by decide), Hdr.set_same]
    · rw [if_neg hk]
      by_cases hk2 : k = b!"Content-Type"
      · subst hk2; rw [if_pos ⟨rfl, h1⟩, Hdr.set_same]
      · rw [if_neg (fun g => hk2 g.1), Hdr.set_ne _ _ hk2, Hdr.set_ne _ _ hk]
  · rw [if_neg h1]
    by_cases hk : k = b!"Content-Length"
    · subst hk; rw [if_pos rfl, Hdr.set_same]
    · rw [if_neg hk, Hdr.set_ne _ _ hk]
      by_cases hk2 : k = b!"Content-Type"
      · subst hk2; rw [if_neg (fun g => h1 g.2)]
      · rw [if_neg (fun g => hk2 g.1)]

theorem marked_eq (h : Hdr) : (h.set b!"Content-Encoding" b!"gzip").set b!"Vary" b!"Accept-Encoding" = Spec.marked h := by
  funext k
  unfold Spec.marked
  by_cases hk : k = b!"Content-Encoding"
  · subst hk; rw [if_pos rfl, Hdr.set_ne _ _ (by decide), Hdr.set_same]
  · rw [if_neg hk]
    by_cases hk2 : k = b!"Vary"
    · subst hk2; rw [if_pos rfl, Hdr.set_same]
    · rw [if_neg hk2, Hdr.set_ne _ _ hk2, Hdr.set_ne _ _ hk]

/-- What was sent stays. -/
theorem gzOp_sent {detect : Str → Str} {g : GS C} {h : Hdr} (hs : g.sent = some h) (o : GOp) : (g.gzOp detect o).sent = some h := by
  cases o with
  | write p =>
    simp only [GS.gzOp, GS.gzWrite]
    cases g.gz <;> simp [GS.rawWrite, hs]
  | writeHeader s => exact hs
  | flush => simp [GS.gzOp, GS.common, hs]
  | setHeader k v => exact hs

theorem gzOps_sent {detect : Str → Str} {h : Hdr} : ∀ (ops : List GOp) (g : GS C), g.sent = some h →
    (ops.foldl (GS.gzOp detect) g).sent = some h := by
  intro ops
  induction ops with
  | nil => intro g hs; exact hs
  | cons o ops ih => intro g hs; exact ih _ (gzOp_sent hs o)

theorem close_sent {g : GS C} {h : Hdr} (hs : g.sent = some h) : g.close.sent = some h := by
  unfold GS.close
  cases g.gz <;> simp [GS.rawWrite, hs]

theorem gzOps_sentHdr (detect : Str → Str) : ∀ (ops : List GOp) (g : GS C), g.sent = none → g.gz = none →
    (ops.foldl (GS.gzOp detect) g).close.sent = Spec.sentHdr detect g.hdr ops := by
  intro ops
  induction ops with
  | nil => intro g hs hg; simp [GS.close, hg, hs, Spec.sentHdr]
  | cons o ops ih =>
    intro g hs hg
    rw [List.foldl_cons]
    cases o with
    | write p =>
      refine (close_sent (gzOps_sent ops _ ?_))
      simp only [GS.gzOp, GS.gzWrite, hg, GS.rawWrite, hs, Option.none_or]
      exact congrArg some (prepared_eq detect g.hdr p)
    | writeHeader s => exact ih _ hs hg
    | flush =>
      refine (close_sent (gzOps_sent ops _ ?_))
      simp [GS.gzOp, GS.common, hs]
    | setHeader k v => exact ih _ hs hg

/-- Two response writers that differ only in the bytes of the bodies. -/
structure Same (w w' : RW) : Prop where
  status : w.status = w'.status
  befores : w.befores = w'.befores
  once : w.once = w'.once
  hijacked : w.hijacked = w'.hijacked
  wire : wireStatus w.events = wireStatus w'.events

theorem Same.refl (w : RW) : Same w w := ⟨rfl, rfl, rfl, rfl, rfl⟩

theorem callBefore_same (bs : List BF) (w w' : RW) (h : Same w w') :
    Same (callBefore bs w).1 (callBefore bs w').1 ∧ (callBefore bs w).2 = (callBefore bs w').2 := by
  obtain ⟨ids, e⟩ := callBefore_exact bs w
  obtain ⟨ids', e'⟩ := callBefore_exact bs w'
  rw [e, e', ← h.status]
  refine ⟨⟨rfl, h.befores, h.once, h.hijacked, ?_⟩, rfl⟩
  show wireStatus (w.events ++ ids.map Ev.before) = wireStatus (w'.events ++ ids'.map Ev.before)
  rw [wireStatus_append, wireStatus_append, wire_befores, wire_befores, h.wire]

theorem writeBody_same {w w' : RW} (h : Same w w') (p p' : Str) (n n' : Nat) : Same (writeBody w p n) (writeBody w' p' n') := by
  refine ⟨h.status, h.befores, h.once, h.hijacked, ?_⟩
  show wireStatus (w.events ++ [.body _]) = wireStatus (w'.events ++ [.body _])
  rw [wireStatus_append, wireStatus_append, h.wire]
  rfl

/-- The end of `commit`. -/
def commitEnd (w : RW) : RW := if w.hijacked then w else { w with events := w.events ++ [.header w.status] }

theorem commitEnd_same {w w' : RW} (h : Same w w') : Same (commitEnd w) (commitEnd w') := by
  unfold commitEnd
  by_cases hh : w.hijacked = true
  · rw [if_pos hh, if_pos (h.hijacked ▸ hh)]; exact h
  · rw [if_neg hh, if_neg (h.hijacked ▸ hh)]
    refine ⟨h.status, h.befores, h.once, h.hijacked, ?_⟩
    show wireStatus (w.events ++ [_]) = wireStatus (w'.events ++ [_])
    rw [wireStatus_append, wireStatus_append, h.wire, h.status]

/-- `commit` after the callbacks. -/
def afterCalls (r : RW × Bool) : RW × Bool :=
  if r.2 then (r.1, true) else (commitEnd (if r.1.status = 0 then { r.1 with status := 200 } else r.1), false)

theorem commit_eq (w : RW) : commit w = afterCalls (callBefore w.befores.reverse { w with once := true }) := by
  unfold commit afterCalls
  cases callBefore w.befores.reverse { w with once := true } with
  | mk a b =>
    cases b with
    | true => rfl
    | false =>
      simp only [Bool.false_eq_true, if_false, commitEnd]
      split <;> split <;> rfl

theorem afterCalls_same {r r' : RW × Bool} (h1 : Same r.1 r'.1) (h2 : r.2 = r'.2) :
    Same (afterCalls r).1 (afterCalls r').1 ∧ (afterCalls r).2 = (afterCalls r').2 := by
  obtain ⟨a, b⟩ := r
  obtain ⟨a', b'⟩ := r'
  simp only at h1 h2
  subst h2
  cases b with
  | true => exact ⟨h1, rfl⟩
  | false =>
    refine ⟨commitEnd_same ?_, rfl⟩
    show Same (if a.status = 0 then { a with status := 200 } else a) (if a'.status = 0 then { a' with status := 200 } else a')
    by_cases h0 : a.status = 0
    · rw [if_pos h0, if_pos (h1.status ▸ h0)]
      exact ⟨rfl, h1.befores, h1.once, h1.hijacked, h1.wire⟩
    · rw [if_neg h0, if_neg (h1.status ▸ h0)]
      exact h1

theorem commit_same {w w' : RW} (h : Same w w') : Same (commit w).1 (commit w').1 ∧ (commit w).2 = (commit w').2 := by
  have hc := callBefore_same w.befores.reverse { w with once := true } { w' with once := true } ⟨h.status, h.befores, rfl, h.hijacked, h.wire⟩
  rw [commit_eq, commit_eq, show w'.befores.reverse = w.befores.reverse from by rw [h.befores]]
  exact afterCalls_same hc.1 hc.2

theorem write_same {w w' : RW} (h : Same w w') (p p' : Str) (n n' : Nat) : Same (w.write p n).1 (w'.write p' n').1 := by
  unfold RW.write
  rw [← h.once]
  by_cases ho : w.once = true
  · rw [if_pos ho, if_pos ho]; exact writeBody_same h p p' n n'
  · rw [if_neg ho, if_neg ho]
    have hc := commit_same h
    generalize commit w = r at hc ⊢
    generalize commit w' = r' at hc ⊢
    obtain ⟨a, b⟩ := r
    obtain ⟨a', b'⟩ := r'
    obtain ⟨h1, h2⟩ := hc
    simp only at h1 h2
    subst h2
    cases b with
    | true => exact h1
    | false => exact writeBody_same h1 p p' n n'

theorem common_same {g g' : GS C} (h : Same g.rw g'.rw) {o : GOp} : Same (g.common o).rw (g'.common o).rw := by
  cases o with
  | write p => exact h
  | writeHeader s =>
    simp only [GS.common, RW.op, RW.writeHeader]
    split
    · exact h
    · exact ⟨rfl, h.befores, h.once, h.hijacked, h.wire⟩
  | flush =>
    refine ⟨h.status, h.befores, h.once, h.hijacked, ?_⟩
    show wireStatus (g.rw.events ++ [.flush]) = wireStatus (g'.rw.events ++ [.flush])
    rw [wireStatus_append, wireStatus_append, h.wire]
  | setHeader k v => exact h

theorem rawOp_same {g g' : GS C} (h : Same g.rw g'.rw) (o : GOp) : Same (g.rawOp o).rw (g'.rawOp o).rw := by
  cases o with
  | write p => exact write_same h _ _ _ _
  | writeHeader s => exact common_same (o := .writeHeader s) h
  | flush => exact common_same (o := .flush) h
  | setHeader k v => exact common_same (o := .setHeader k v) h

theorem rawOps_same : ∀ (ops : List GOp) (g g' : GS C), Same g.rw g'.rw → Same (ops.foldl GS.rawOp g).rw (ops.foldl GS.rawOp g').rw := by
  intro ops
  induction ops with
  | nil => intro g g' h; exact h
  | cons o ops ih => intro g g' h; exact ih _ _ (rawOp_same h o)

theorem gzRaw_same {detect : Str → Str} {g g' : GS C} (h : Same g.rw g'.rw) (o : GOp) : Same (g.gzOp detect o).rw (g'.rawOp o).rw := by
  cases o with
  | write p =>
    simp only [GS.gzOp, GS.gzWrite]
    cases g.gz <;> exact write_same h _ _ _ _
  | writeHeader s => exact common_same (o := .writeHeader s) h
  | flush => exact common_same (o := .flush) h
  | setHeader k v => exact common_same (o := .setHeader k v) h

theorem gzRaws_same {detect : Str → Str} : ∀ (ops : List GOp) (g g' : GS C), Same g.rw g'.rw →
    Same (ops.foldl (GS.gzOp detect) g).rw (ops.foldl GS.rawOp g').rw := by
  intro ops
  induction ops with
  | nil => intro g g' h; exact h
  | cons o ops ih => intro g g' h; exact ih _ _ (gzRaw_same h o)

/-- Once the gzip writer exists, something was written. -/
def Opened (g : GS C) : Prop := g.gz ≠ none → g.rw.once = true ∧ wireStatus g.rw.events ≠ none

theorem write_opened {w : RW} (hb : ∀ b ∈ w.befores, BFok b) (hh : w.hijacked = false) (p : Str) (n : Nat) :
    (w.write p n).1.once = true ∧ wireStatus (w.write p n).1.events ≠ none := by
  have fin : ∀ w : RW, wireStatus (writeBody w p n).events ≠ none := by
    intro w
    show wireStatus (w.events ++ [.body _]) ≠ none
    rw [wireStatus_append]
    cases wireStatus w.events with
    | none => exact fun h => nomatch h
    | some c => exact fun h => nomatch h
  unfold RW.write
  split
  · rename_i ho; exact ⟨ho, fin w⟩
  · obtain ⟨c, -, hc⟩ := commit_ok hb hh
    rw [hc]
    exact ⟨rfl, fin _⟩

theorem gzOp_opened {detect : Str → Str} {g : GS C} (hu : Usable g) (h : Opened g) (o : GOp) :
    Usable (g.gzOp detect o) ∧ Opened (g.gzOp detect o) := by
  cases o with
  | write p =>
    simp only [GS.gzOp, GS.gzWrite]
    cases hg : g.gz with
    | none =>
      refine ⟨?_, fun _ => write_opened hu.1 hu.2 _ _⟩
      exact (rawWrite_spec (g := ({ g with hdr := _ } : GS C)) hu _).1
    | some st =>
      exact ⟨(rawWrite_spec hu _).1, fun _ => write_opened hu.1 hu.2 _ _⟩
  | writeHeader s =>
    refine ⟨(common_spec hu (o := .writeHeader s) (fun p hp => by cases hp)).1, ?_⟩
    intro hg
    have := h hg
    simp only [GS.gzOp, GS.common, RW.op, RW.writeHeader]
    split <;> exact this
  | flush =>
    refine ⟨(common_spec hu (o := .flush) (fun p hp => by cases hp)).1, ?_⟩
    intro hg
    refine ⟨(h hg).1, ?_⟩
    show wireStatus (g.rw.events ++ [.flush]) ≠ none
    rw [wireStatus_append]
    cases hx : wireStatus g.rw.events with
    | none => exact absurd hx (h hg).2
    | some c => exact fun h => nomatch h
  | setHeader k v => exact ⟨hu, h⟩

theorem gzOps_opened {detect : Str → Str} : ∀ (ops : List GOp) (g : GS C), Usable g → Opened g →
    Usable (ops.foldl (GS.gzOp detect) g) ∧ Opened (ops.foldl (GS.gzOp detect) g) := by
  intro ops
  induction ops with
  | nil => intro g h1 h2; exact ⟨h1, h2⟩
  | cons o ops ih => intro g h1 h2; have := gzOp_opened (detect := detect) h1 h2 o; exact ih _ this.1 this.2

/-- Closing changes nothing but the body. -/
theorem close_same {g : GS C} (h : Opened g) : Same g.close.rw g.rw := by
  unfold GS.close
  cases hg : g.gz with
  | none => exact Same.refl _
  | some st =>
    obtain ⟨h1, h2⟩ := h (by rw [hg]; exact fun h => nomatch h)
    simp only [GS.rawWrite, RW.write, h1, if_true]
    refine ⟨rfl, rfl, rfl, rfl, ?_⟩
    show wireStatus (g.rw.events ++ [.body _]) = wireStatus g.rw.events
    rw [wireStatus_append]
    cases hx : wireStatus g.rw.events with
    | none => exact absurd hx h2
    | some c => rfl

theorem Same.trans {a b c : RW} (h : Same a b) (g : Same b c) : Same a c :=
  ⟨h.status.trans g.status, h.befores.trans g.befores, h.once.trans g.once, h.hijacked.trans g.hijacked, h.wire.trans g.wire⟩

/-! ## The property -/

/-- **C109 (status).** Compression never changes the status: whatever the later handlers do and whatever is done with the
response afterwards (`post`; at least the final `Write(nil)` of `ServeHTTP`), the status line on the wire and the value of `Status()`
are those the same operations give without the filter. -/
theorem C109_status (detect : Str → Str) (accept : Str) (g : GS C) (ops post : List GOp) (hu : Usable g) (hg : g.gz = none) :
    wireStatus (post.foldl GS.rawOp (filter detect accept g ops)).rw.events = wireStatus (post.foldl GS.rawOp (ops.foldl GS.rawOp g)).rw.events ∧
    (post.foldl GS.rawOp (filter detect accept g ops)).rw.status = (post.foldl GS.rawOp (ops.foldl GS.rawOp g)).rw.status := by
  have key : Same (filter detect accept g ops).rw (ops.foldl GS.rawOp g).rw := by
    unfold filter
    split
    · have ho : Opened ({ g with hdr := (g.hdr.set b!"Content-Encoding" b!"gzip").set b!"Vary" b!"Accept-Encoding" } : GS C) :=
        fun h => absurd hg h
      have h1 := gzOps_opened (detect := detect) ops
        ({ g with hdr := (g.hdr.set b!"Content-Encoding" b!"gzip").set b!"Vary" b!"Accept-Encoding" } : GS C) hu ho
      exact (close_same h1.2).trans (gzRaws_same ops _ g (Same.refl _))
    · exact Same.refl _
  have := rawOps_same post _ _ key
  exact ⟨this.wire, this.status⟩

/-- **C109 (headers).** When `gzip` occurs in the request's `Accept-Encoding`, the headers sent are exactly those in force at
the first write or flush, starting from the given ones with `Content-Encoding: gzip` and `Vary: Accept-Encoding`; if that is a write,
without `Content-Length` and with a detected `Content-Type` unless there is one. -/
theorem C109_headers (detect : Str → Str) {accept : Str} (ha : ∃ a b, accept = a ++ b!"gzip" ++ b) (g : GS C) (ops : List GOp)
    (hg : g.gz = none) (hs : g.sent = none) :
    (filter detect accept g ops).sent = Spec.sentHdr detect (Spec.marked g.hdr) ops := by
  unfold filter
  rw [if_pos ((contains_iff _ _).2 ha)]
  simp only [marked_eq]
  exact gzOps_sentHdr detect ops { g with hdr := Spec.marked g.hdr } hs hg

theorem gz_no_write (detect : Str → Str) : ∀ (ops : List GOp) (g : GS C), Usable g → g.gz = none → writes ops = false →
    body (ops.foldl (GS.gzOp detect) g).close = body g := by
  intro ops
  induction ops with
  | nil => intro g _ hg _; simp [GS.close, hg]
  | cons o ops ih =>
    intro g hu hg hw
    have ho : ∀ p, o ≠ .write p := by rintro p rfl; simp [writes] at hw
    have hw' : writes ops = false := by
      cases o with
      | write p => exact absurd rfl (ho p)
      | _ => simpa [writes] using hw
    have hop : GS.gzOp detect g o = g.common o := by
      cases o with
      | write p => exact absurd rfl (ho p)
      | _ => rfl
    have cs := common_spec hu ho
    rw [List.foldl_cons, hop, ih (g.common o) cs.1 (cs.2.2.1.trans hg) hw', cs.2.1]

/-- **C109 (body).** When `gzip` occurs in `Accept-Encoding`: if some later handler writes (be it nothing), the body is what was sent
before, followed by one complete stream of everything written; if none writes, the filter sends nothing. Otherwise the body is what
was sent before followed by everything written. -/
theorem C109_body (hC : C.Lawful) (detect : Str → Str) (accept : Str) (g : GS C) (ops : List GOp) (hu : Usable g) (hg : g.gz = none) :
    ((∃ a b, accept = a ++ b!"gzip" ++ b) →
      (writes ops = true → ∃ stream, body (filter detect accept g ops) = body g ++ stream ∧ C.decode stream = some (written ops)) ∧
      (writes ops = false → body (filter detect accept g ops) = body g)) ∧
    ((¬ ∃ a b, accept = a ++ b!"gzip" ++ b) → body (filter detect accept g ops) = body g ++ written ops) := by
  refine ⟨fun ha => ⟨fun hw => ?_, fun hw => ?_⟩, fun ha => ?_⟩
  · exact C21_gzip_complete_partial hC detect accept g ops hu hg ((contains_iff _ _).2 ha) hw
  · unfold filter
    rw [if_pos ((contains_iff _ _).2 ha)]
    exact gz_no_write detect ops { g with hdr := _ } hu hg hw
  · refine (C21_identity detect accept g ops hu ?_).1
    cases hc : contains accept b!"gzip" with
    | false => rfl
    | true => exact absurd ((contains_iff _ _).1 hc) ha

/-- All parts on a concrete response: a status, a header, a flush before the first write. -/
example : let g : GS escCodec := { rw := { befores := [⟨1, none, false⟩] } }
    let ops : List GOp := [.setHeader b!"X" b!"1", .flush, .setHeader b!"X" b!"2", .writeHeader 201, .write b!"ab"]
    let r := filter (fun _ => b!"text/plain") b!"br, gzip;q=0" g ops
    r.sent.map (· b!"X") = some b!"1" ∧ r.sent.map (· b!"Content-Encoding") = some b!"gzip" ∧ r.sent.map (· b!"Content-Type") = some [] ∧
    escCodec.decode (body r) = some b!"ab" ∧ wireStatus r.rw.events = some 200 ∧ r.rw.status = 201 := by decide

end Verif.Gz
