import Verif.Model.Gzip
import Verif.Props.Response
/-!
# C21: gzip responses
-/
namespace Verif.Gz
open Verif.Resp Verif.Resp.Spec

/-! ## Specification -/

/-- The data written by the handlers. -/
def Spec.written (ops : List GOp) : Str :=
  ops.flatMap fun o => match o with | .write p => p | _ => []

/-- Some handler writes. -/
def Spec.writes (ops : List GOp) : Bool :=
  ops.any fun o => match o with | .write _ => true | _ => false

/-- The operations before the first write. -/
def Spec.beforeFirstWrite (ops : List GOp) : List GOp :=
  ops.takeWhile fun o => match o with | .write _ => false | _ => true

variable {C : Codec}

/-- The body the client receives. -/
def Spec.body (g : GS C) : Str := bodyBytes g.rw.events

open Spec

theorem bodyBytes_append (a b : List Ev) : bodyBytes (a ++ b) = bodyBytes a ++ bodyBytes b := by
  simp [bodyBytes]

theorem bodyBytes_befores (l : List BF) : bodyBytes (l.map fun b => Ev.before b.id) = [] := by
  induction l with
  | nil => rfl
  | cons b l ih => exact ih

theorem Hdr.set_same (h : Hdr) (k v : Str) : h.set k v k = v := by simp [Hdr.set]
theorem Hdr.set_ne (h : Hdr) {k k' : Str} (v : Str) (hk : k' ≠ k) : h.set k v k' = h k' := by simp [Hdr.set, hk]

/-- The writer is usable: callbacks are harmless and the connection was not hijacked. -/
def Usable (g : GS C) : Prop := (∀ b ∈ g.rw.befores, BFok b) ∧ g.rw.hijacked = false

theorem rawWrite_spec {g : GS C} (h : Usable g) (p : Str) :
    Usable (g.rawWrite p) ∧ body (g.rawWrite p) = body g ++ p ∧ (g.rawWrite p).hdr = g.hdr ∧
      (g.rawWrite p).sent = g.sent.or (some g.hdr) ∧ (g.rawWrite p).gz = g.gz := by
  have key : ∃ w, g.rw.write p p.length = (w, false) ∧ w.befores = g.rw.befores ∧ w.hijacked = g.rw.hijacked ∧
      bodyBytes w.events = bodyBytes g.rw.events ++ p := by
    unfold RW.write
    split
    · exact ⟨_, rfl, rfl, rfl, by simp [writeBody, bodyBytes]⟩
    · obtain ⟨c, -, hc⟩ := commit_ok h.1 h.2
      rw [hc]
      refine ⟨_, rfl, rfl, rfl, ?_⟩
      simp only [writeBody, bodyBytes_append, bodyBytes_befores]
      simp [bodyBytes]
  obtain ⟨w, h1, h2, h3, h4⟩ := key
  refine ⟨⟨?_, ?_⟩, ?_, rfl, rfl, rfl⟩
  · simp only [GS.rawWrite, h1, h2]; exact h.1
  · simp only [GS.rawWrite, h1, h3]; exact h.2
  · simp only [body, GS.rawWrite, h1, h4]

theorem common_spec {g : GS C} (h : Usable g) {o : GOp} (ho : ∀ p, o ≠ .write p) :
    Usable (g.common o) ∧ body (g.common o) = body g ∧ (g.common o).gz = g.gz ∧
      (∀ s, g.sent = some s → (g.common o).sent = some s) := by
  cases o with
  | write p => exact absurd rfl (ho p)
  | writeHeader s =>
    refine ⟨?_, ?_, rfl, fun s hs => hs⟩
    · simp only [Usable, GS.common, RW.op, RW.writeHeader]; split <;> exact h
    · simp only [body, GS.common, RW.op, RW.writeHeader]; split <;> rfl
  | flush =>
    refine ⟨h, by simp [body, GS.common, RW.op, bodyBytes], rfl, fun s hs => by simp [GS.common, hs]⟩
  | setHeader k v => exact ⟨h, rfl, rfl, fun s hs => hs⟩

theorem Codec.run_append (C : Codec) (ps : List Str) (p : Str) : ∀ st,
    C.run st (ps ++ [p]) = ((C.write (C.run st ps).1 p).1, (C.run st ps).2 ++ (C.write (C.run st ps).1 p).2) := by
  induction ps with
  | nil => intro st; simp [Codec.run]
  | cons q ps ih => intro st; simp only [List.cons_append, Codec.run, ih]; simp

/-- State of the writer after the first write: it has emitted the encoding of `ps`. -/
def Open (b0 : Str) (ps : List Str) (g : GS C) : Prop :=
  Usable g ∧ g.gz = some (C.run C.init ps).1 ∧ body g = b0 ++ (C.run C.init ps).2

theorem gzOps_open (detect : Str → Str) (b0 : Str) (ops : List GOp) : ∀ (g : GS C) (ps : List Str), Open b0 ps g →
    ∃ ps', Open b0 (ps ++ ps') (ops.foldl (GS.gzOp detect) g) ∧ ps'.flatten = written ops ∧
      (∀ s, g.sent = some s → (ops.foldl (GS.gzOp detect) g).sent = some s) := by
  induction ops with
  | nil => intro g ps h; exact ⟨[], by simpa using h, rfl, fun s hs => hs⟩
  | cons o ops ih =>
    intro g ps h
    obtain ⟨hu, hg, hb⟩ := h
    by_cases ho : ∃ p, o = .write p
    · obtain ⟨p, rfl⟩ := ho
      have r := rawWrite_spec hu (C.write (C.run C.init ps).1 p).2
      have hop : GS.gzOp detect g (.write p) =
          { g.rawWrite (C.write (C.run C.init ps).1 p).2 with gz := some (C.write (C.run C.init ps).1 p).1 } := by
        simp only [GS.gzOp, GS.gzWrite, hg]
      have hopen : Open b0 (ps ++ [p]) (GS.gzOp detect g (.write p)) := by
        rw [hop]
        refine ⟨r.1, ?_, ?_⟩
        · simp only [Codec.run_append]
        · simp only [Codec.run_append]
          rw [← List.append_assoc, ← hb]
          exact r.2.1
      obtain ⟨ps', a, b, c⟩ := ih _ _ hopen
      refine ⟨p :: ps', by simpa using a, by simp [b, written], ?_⟩
      intro s hs
      refine c s ?_
      rw [hop]
      show (g.rawWrite (C.write (C.run C.init ps).1 p).2).sent = _
      rw [r.2.2.2.1, hs]
      rfl
    · have ho' : ∀ p, o ≠ .write p := fun p hp => ho ⟨p, hp⟩
      have hop : GS.gzOp detect g o = g.common o := by
        cases o with
        | write p => exact absurd rfl (ho' p)
        | _ => rfl
      have cs := common_spec hu ho'
      obtain ⟨ps', a, b, c⟩ := ih (GS.gzOp detect g o) ps (by
        rw [hop]; exact ⟨cs.1, by rw [cs.2.2.1, hg], by rw [cs.2.1, hb]⟩)
      refine ⟨ps', a, ?_, fun s hs => c s (by rw [hop]; exact cs.2.2.2 s hs)⟩
      rw [b]
      cases o with
      | write p => exact absurd rfl (ho' p)
      | _ => rfl

/-- **C21 (content; partial).** When the client accepts gzip and some later handler writes, what it
receives in addition to anything sent before the filter is one complete gzip stream whose content is
the concatenation of all writes, whatever the sequence of operations and wherever it ends (a panic
included). Missing: responses without a body, and Recovery writing an error page after the filter has
closed its stream, see `C21_no_body_violated` and `C21_error_page_violated`. -/
theorem C21_gzip_complete_partial (hC : C.Lawful) (detect : Str → Str) (accept : Str) (g : GS C)
    (ops : List GOp) (hu : Usable g) (hg : g.gz = none) (ha : contains accept b!"gzip" = true)
    (hw : writes ops = true) :
    ∃ stream, body (filter detect accept g ops) = body g ++ stream ∧ C.decode stream = some (written ops) := by
  have main : ∀ (ops : List GOp) (g : GS C), Usable g → g.gz = none → writes ops = true →
      ∃ stream, body (ops.foldl (GS.gzOp detect) g).close = body g ++ stream ∧
        C.decode stream = some (written ops) := by
    intro ops
    induction ops with
    | nil => intro g _ _ h; simp [writes] at h
    | cons o ops ih =>
      intro g hu hg hw
      by_cases ho : ∃ p, o = .write p
      · obtain ⟨p, rfl⟩ := ho
        have hstep : ∃ h', GS.gzOp detect g (.write p) =
            { ({ g with hdr := h' } : GS C).rawWrite (C.write C.init p).2 with gz := some (C.write C.init p).1 } := by
          simp only [GS.gzOp, GS.gzWrite, hg]; exact ⟨_, rfl⟩
        obtain ⟨h', hstep⟩ := hstep
        have r := rawWrite_spec (g := ({ g with hdr := h' } : GS C)) hu (C.write C.init p).2
        have hopen : Open (body g) [p] (GS.gzOp detect g (.write p)) := by
          rw [hstep]
          refine ⟨r.1, by simp [Codec.run], ?_⟩
          have := r.2.1
          simpa [Codec.run, body] using this
        obtain ⟨ps', a, b, -⟩ := gzOps_open detect (body g) ops _ [p] hopen
        obtain ⟨a1, a2, a3⟩ := a
        refine ⟨(C.run C.init ([p] ++ ps')).2 ++ C.close (C.run C.init ([p] ++ ps')).1, ?_, ?_⟩
        · rw [List.foldl_cons]
          unfold GS.close
          rw [a2]
          simp only []
          rw [(rawWrite_spec a1 _).2.1, a3, List.append_assoc]
        · rw [hC.complete]
          simp [written, b]
      · have ho' : ∀ p, o ≠ .write p := fun p hp => ho ⟨p, hp⟩
        have hop : GS.gzOp detect g o = g.common o := by
          cases o with
          | write p => exact absurd rfl (ho' p)
          | _ => rfl
        have cs := common_spec hu ho'
        have hw' : writes ops = true := by
          cases o with
          | write p => exact absurd rfl (ho' p)
          | _ => simpa [writes] using hw
        obtain ⟨st, h1, h2⟩ := ih (GS.gzOp detect g o) (by rw [hop]; exact cs.1)
          (by rw [hop, cs.2.2.1, hg]) hw'
        refine ⟨st, ?_, ?_⟩
        · rw [List.foldl_cons, h1, hop, cs.2.1]
        · rw [h2]
          cases o with
          | write p => exact absurd rfl (ho' p)
          | _ => rfl
  unfold filter
  rw [if_pos ha]
  exact main ops { g with hdr := (g.hdr.set b!"Content-Encoding" b!"gzip").set b!"Vary" b!"Accept-Encoding" } hu hg hw

/-- **C21 (headers; partial).** The header sent with a compressed response says
`Content-Encoding: gzip`, has no `Content-Length` and has a `Content-Type`, provided nothing is flushed
and nobody changes `Content-Encoding` before the first write. -/
theorem C21_gzip_headers_partial (detect : Str → Str) (hd : ∀ p, detect p ≠ []) (accept : Str) (g : GS C)
    (ops : List GOp) (hu : Usable g) (hg : g.gz = none) (hs : g.sent = none)
    (ha : contains accept b!"gzip" = true) (hw : writes ops = true)
    (hf : .flush ∉ beforeFirstWrite ops)
    (hce : ∀ v, .setHeader b!"Content-Encoding" v ∉ beforeFirstWrite ops) :
    ∃ h, (filter detect accept g ops).sent = some h ∧ h b!"Content-Encoding" = b!"gzip" ∧
      h b!"Content-Length" = [] ∧ h b!"Content-Type" ≠ [] := by
  have main : ∀ (ops : List GOp) (g : GS C), Usable g → g.gz = none → g.sent = none →
      g.hdr b!"Content-Encoding" = b!"gzip" → writes ops = true → .flush ∉ beforeFirstWrite ops →
      (∀ v, .setHeader b!"Content-Encoding" v ∉ beforeFirstWrite ops) →
      ∃ h, (ops.foldl (GS.gzOp detect) g).close.sent = some h ∧ h b!"Content-Encoding" = b!"gzip" ∧
        h b!"Content-Length" = [] ∧ h b!"Content-Type" ≠ [] := by
    intro ops
    induction ops with
    | nil => intro g _ _ _ _ h; simp [writes] at h
    | cons o ops ih =>
      intro g hu hg hs hc hw hf hce
      by_cases ho : ∃ p, o = .write p
      · obtain ⟨p, rfl⟩ := ho
        have hstep : ∃ h' : Hdr, (h' b!"Content-Encoding" = b!"gzip" ∧ h' b!"Content-Length" = [] ∧
              h' b!"Content-Type" ≠ []) ∧ GS.gzOp detect g (.write p) =
            { ({ g with hdr := h' } : GS C).rawWrite (C.write C.init p).2 with gz := some (C.write C.init p).1 } := by
          simp only [GS.gzOp, GS.gzWrite, hg]
          refine ⟨_, ?_, rfl⟩
          split
          · refine ⟨?_, ?_, ?_⟩
            · rw [Hdr.set_ne _ _ (by decide), Hdr.set_ne _ _ (by decide)]; exact hc
            · rw [Hdr.set_ne _ _ (by decide), Hdr.set_same]
            · rw [Hdr.set_same]; exact hd p
          · rename_i hct
            refine ⟨?_, ?_, hct⟩
            · rw [Hdr.set_ne _ _ (by decide)]; exact hc
            · rw [Hdr.set_same]
        obtain ⟨h', hh, hstep⟩ := hstep
        have r := rawWrite_spec (g := ({ g with hdr := h' } : GS C)) hu (C.write C.init p).2
        have hopen : Open (body g) [p] (GS.gzOp detect g (.write p)) := by
          rw [hstep]
          refine ⟨r.1, by simp [Codec.run], ?_⟩
          have := r.2.1
          simpa [Codec.run, body] using this
        obtain ⟨ps', a, -, c⟩ := gzOps_open detect (body g) ops _ [p] hopen
        have hsent := c h' (by
          rw [hstep]
          show (GS.rawWrite ({ g with hdr := h' } : GS C) (C.write C.init p).2).sent = _
          rw [r.2.2.2.1]
          simp [hs])
        refine ⟨h', ?_, hh⟩
        rw [List.foldl_cons]
        unfold GS.close
        rw [a.2.1]
        simp only []
        rw [(rawWrite_spec a.1 _).2.2.2.1, hsent]
        rfl
      · have ho' : ∀ p, o ≠ .write p := fun p hp => ho ⟨p, hp⟩
        have hop : GS.gzOp detect g o = g.common o := by
          cases o with
          | write p => exact absurd rfl (ho' p)
          | _ => rfl
        have cs := common_spec hu ho'
        have hw' : writes ops = true := by
          cases o with
          | write p => exact absurd rfl (ho' p)
          | _ => simpa [writes] using hw
        have hbf : beforeFirstWrite (o :: ops) = o :: beforeFirstWrite ops := by
          cases o with
          | write p => exact absurd rfl (ho' p)
          | _ => rfl
        rw [hbf] at hf hce
        rw [List.foldl_cons]
        refine ih (GS.gzOp detect g o) (by rw [hop]; exact cs.1) (by rw [hop, cs.2.2.1, hg]) ?_ ?_ hw'
          (fun h => hf (by simp [h])) (fun v h => hce v (by simp [h]))
        · rw [hop]
          cases o with
          | write p => exact absurd rfl (ho' p)
          | flush => exact absurd (by simp) hf
          | writeHeader s => exact hs
          | setHeader k v => exact hs
        · rw [hop]
          cases o with
          | write p => exact absurd rfl (ho' p)
          | flush => exact hc
          | writeHeader s => exact hc
          | setHeader k v =>
            simp only [GS.common, Hdr.set]
            split
            · rename_i hk; subst hk; exact absurd (by simp) (hce v)
            · exact hc
  unfold filter
  rw [if_pos ha]
  refine main ops { g with hdr := (g.hdr.set b!"Content-Encoding" b!"gzip").set b!"Vary" b!"Accept-Encoding" } hu hg hs ?_ hw hf hce
  simp only []
  rw [Hdr.set_ne _ _ (by decide), Hdr.set_same]

/-- **C21 (identity).** Without `gzip` in `Accept-Encoding` the body is the plain concatenation of the
writes, and the filter does not touch the headers. -/
theorem C21_identity (detect : Str → Str) (accept : Str) (g : GS C) (ops : List GOp) (hu : Usable g)
    (ha : contains accept b!"gzip" = false) :
    body (filter detect accept g ops) = body g ++ written ops ∧
    (filter detect accept g ops).hdr = ops.foldl (fun h o => match o with | .setHeader k v => h.set k v | _ => h) g.hdr := by
  unfold filter
  rw [if_neg (by rw [ha]; simp)]
  induction ops generalizing g with
  | nil => simp [written]
  | cons o ops ih =>
    rw [List.foldl_cons, List.foldl_cons]
    by_cases ho : ∃ p, o = .write p
    · obtain ⟨p, rfl⟩ := ho
      have r := rawWrite_spec hu p
      obtain ⟨h1, h2⟩ := ih (g.rawOp (.write p)) r.1
      rw [h1, h2]
      constructor
      · show body (g.rawWrite p) ++ _ = _
        rw [r.2.1]; simp [written]
      · show List.foldl _ (g.rawWrite p).hdr ops = _
        rw [r.2.2.1]
    · have ho' : ∀ p, o ≠ .write p := fun p hp => ho ⟨p, hp⟩
      have hop : g.rawOp o = g.common o := by
        cases o with
        | write p => exact absurd rfl (ho' p)
        | _ => rfl
      have cs := common_spec hu ho'
      obtain ⟨h1, h2⟩ := ih (g.rawOp o) (by rw [hop]; exact cs.1)
      rw [h1, h2, hop, cs.2.1]
      cases o with
      | write p => exact absurd rfl (ho' p)
      | writeHeader s => exact ⟨rfl, rfl⟩
      | flush => exact ⟨rfl, rfl⟩
      | setHeader k v => exact ⟨rfl, rfl⟩

/-! ## Violations -/

/-- **C21 is false of the code** for a response without body (a redirect, 204, 304, or an unmatched
route): when `ServeHTTP` finally commits the header it says gzip, but the body is no gzip stream. -/
theorem C21_no_body_violated (hC : C.Lawful) (detect : Str → Str) :
    ∃ ops, let g := (filter detect b!"gzip" ({} : GS C) ops).rawWrite []
      (∃ h, g.sent = some h ∧ h b!"Content-Encoding" = b!"gzip") ∧ C.decode (body g) = none := by
  refine ⟨[.writeHeader 204], ⟨_, rfl, rfl⟩, ?_⟩
  exact hC.incomplete []

/-- **C21 is false of the code** when a later handler panics before writing and Recovery (outside of
the gzip filter, in development mode) writes its page through the injected, already closed gzip writer:
the stream is never closed. -/
theorem C21_error_page_violated (hC : C.Lawful) (detect : Str → Str) (page : Str) :
    let g := GS.gzOp detect (GS.gzOp detect (filter detect b!"gzip" ({} : GS C) []) (.writeHeader 500)) (.write page)
    (∃ h, g.sent = some h ∧ h b!"Content-Encoding" = b!"gzip") ∧ C.decode (body g) = none := by
  have hdr : ∀ (h : Hdr), h b!"Content-Encoding" = b!"gzip" →
      (let hd := h.set b!"Content-Length" []
       if hd b!"Content-Type" = [] then hd.set b!"Content-Type" (detect page) else hd) b!"Content-Encoding" = b!"gzip" := by
    intro h hh
    simp only []
    split
    · rw [Hdr.set_ne _ _ (by decide), Hdr.set_ne _ _ (by decide)]; exact hh
    · rw [Hdr.set_ne _ _ (by decide)]; exact hh
  refine ⟨⟨_, rfl, ?_⟩, ?_⟩
  · exact hdr ((Hdr.set (fun _ => []) b!"Content-Encoding" b!"gzip").set b!"Vary" b!"Accept-Encoding") (by decide)
  · have := hC.incomplete [page]
    simpa [Codec.run, body, GS.gzOp, GS.gzWrite, filter, GS.close, GS.rawWrite, contains, GS.common, RW.op,
      RW.writeHeader, RW.write, commit, callBefore, writeBody, bodyBytes] using this

/-! ## Non-vacuity -/

/-- A codec that satisfies the contract: every byte is preceded by 1, the end is marked by 0. -/
def escCodec : Codec where
  St := Unit
  init := ()
  write _ p := ((), p.flatMap fun b => [1, b])
  close _ := [0]
  decode := dec
where
  dec : Str → Option Str
    | [0] => some []
    | 1 :: b :: rest => (dec rest).map (b :: ·)
    | _ => none

theorem escCodec_run (ps : List Str) : (escCodec.run () ps).2 = ps.flatten.flatMap fun b => [1, b] := by
  induction ps with
  | nil => rfl
  | cons p ps ih =>
    show (p.flatMap fun b => [1, b]) ++ (escCodec.run () ps).2 = _
    rw [ih]; simp

theorem escCodec_lawful : escCodec.Lawful := by
  constructor
  · intro ps
    show escCodec.dec ((escCodec.run () ps).2 ++ [0]) = _
    rw [escCodec_run]
    generalize ps.flatten = d
    induction d with
    | nil => rfl
    | cons b d ih => simp only [List.flatMap_cons, List.cons_append, List.nil_append, escCodec.dec, ih]; rfl
  · intro ps
    show escCodec.dec (escCodec.run () ps).2 = none
    rw [escCodec_run]
    generalize ps.flatten = d
    induction d with
    | nil => rfl
    | cons b d ih => simp only [List.flatMap_cons, List.cons_append, List.nil_append, escCodec.dec, ih]; rfl

example : let g := filter (C := escCodec) (fun _ => b!"text/plain") b!"deflate, gzip" {} (
      [.setHeader b!"Content-Length" b!"5", .writeHeader 201, .write b!"ab", .flush, .write b!"c"] : List GOp)
    escCodec.decode (body g) = some b!"abc" ∧ g.rw.status = 201 := by decide

end Verif.Gz
