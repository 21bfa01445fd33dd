import Verif.Model.Download
import Verif.Props.Static
import Verif.Props.GzipExact
import Verif.Proofs.Strconv
import Verif.Proofs.Trim
import Verif.Proofs.Enc
/-!
# C158, C159, C160: downloads that are resumed, cached copies, HEAD
-/
namespace Verif.Down
open Verif.Go Verif.Gz

variable {C : Codec}

/-! ## Specification -/

/-- The status line the client gets. -/
def Spec.status (g : GS C) : Option Nat := Resp.Spec.wireStatus g.rw.events

/-- A header the client gets. -/
def Spec.header (g : GS C) (k : Str) : Str := (g.sent.getD fun _ => []) k

/-- What is found for a path that stands for `file` below the directory of the static filter: the file itself; the index file of a directory, if
the path ends with a slash; or, if there is nothing, the file for that. -/
def Spec.Found (S : Site) (d : Disk) (path file : Str) (f : File) : Prop :=
  d (Static.Spec.osPath S.root file) = some (.file f) ∨
  (d (Static.Spec.osPath S.root file) = some .dir ∧ path.getLast? = some 47 ∧
    d (Static.Spec.osPath S.root (file ++ b!"/index.html")) = some (.file f)) ∨
  (d (Static.Spec.osPath S.root file) = none ∧ S.opt.tryFilesThen ≠ [] ∧ d (Static.Spec.osPath S.root S.opt.tryFilesThen) = some (.file f))

/-- The path is below the prefix of the static filter, and nothing to skip, and this file is found for it. -/
def Spec.Serves (S : Site) (d : Disk) (method path : Str) (f : File) : Prop :=
  ∃ file, Static.Spec.Mine S.pre S.opt method path file ∧ Spec.Found S d path file f

/-- The path names nothing, and there is no file for that; or it names a directory, with a slash behind it, that has no index file. -/
def Spec.Misses (S : Site) (d : Disk) (method path : Str) : Prop :=
  ∃ file, Static.Spec.Mine S.pre S.opt method path file ∧
    (d (Static.Spec.osPath S.root file) = none ∧ (S.opt.tryFilesThen = [] ∨ d (Static.Spec.osPath S.root S.opt.tryFilesThen) = none) ∨
     d (Static.Spec.osPath S.root file) = some .dir ∧ path.getLast? = some 47 ∧
      d (Static.Spec.osPath S.root (file ++ b!"/index.html")) = none)

/-- What the pieces in which a file is read have to be. -/
structure Spec.Reads (N : Net) : Prop where
  all : ∀ s, (N.cut s).flatten = s
  none : N.cut [] = []

/-- The answer is compressed: the gzip filter is there and `gzip` occurs in the request's Accept-Encoding. -/
def Spec.Zipped (S : Site) (accept : Str) : Prop := S.gz = true ∧ ∃ a b, accept = a ++ b!"gzip" ++ b

/-! ### A client that downloads a file -/

/-- What a client has of a file: the bytes received so far, the date they came with, and whether it takes them for all of it. -/
structure Spec.Dl where
  got : Str := []
  stamp : Str := []
  done : Bool := false
deriving DecidableEq, Repr

/-- What it asks for: the file, or, if it has a part, the rest, if the file has not changed since. `rd` reads a date. -/
def Spec.ask (rd : Str → Option Nat) (path accept : Str) (c : Spec.Dl) : Req :=
  if c.got = [] then { method := b!"GET", path, accept }
  else { method := b!"GET", path, accept, range := b!"bytes=" ++ natDec c.got.length ++ b!"-", ifRange := (rd c.stamp).map some }

/-- The part of a body that arrives: all of it, or the first `k` bytes. -/
def Spec.arrives (body : Str) : Option Nat → Str
  | none => body
  | some k => body.take k

/-- What it makes of the answer. -/
def Spec.step (c : Spec.Dl) (g : GS C) (k : Option Nat) : Spec.Dl :=
  if Spec.status g = some 200 then ⟨Spec.arrives (Gz.Spec.body g) k, Spec.header g b!"Last-Modified", k.isNone⟩
  else if Spec.status g = some 206 then ⟨c.got ++ Spec.arrives (Gz.Spec.body g) k, c.stamp, k.isNone⟩
  else if Spec.status g = some 416 then
    ⟨c.got, c.stamp, Spec.header g b!"Content-Range" = b!"bytes */" ++ natDec c.got.length⟩
  else ⟨c.got, c.stamp, false⟩

/-- A download: attempt after attempt, each with the files the server has by then, and the number of bytes after which the connection
breaks, if it does. -/
def Spec.download (C : Codec) (N : Net) (S : Site) (rd : Str → Option Nat) (path accept : Str) : List (Disk × Option Nat) → Spec.Dl → Spec.Dl
  | [], c => c
  | (d, k) :: l, c => Spec.download C N S rd path accept l (Spec.step c (respond C N S d (Spec.ask rd path accept c)) k)

/-! ### A client that keeps copies -/

/-- A copy: the contents and the date they came with. -/
structure Spec.Copy where
  data : Str
  stamp : Str
deriving DecidableEq, Repr

/-- What it asks for. -/
def Spec.visit (rd : Str → Option Nat) (path accept : Str) (c : Option Spec.Copy) : Req :=
  { method := b!"GET", path, accept, ifModifiedSince := c.bind fun c => rd c.stamp }

/-- The contents in an answer. -/
def Spec.contents (g : GS C) : Option Str :=
  if Spec.header g b!"Content-Encoding" = b!"gzip" then C.decode (Gz.Spec.body g) else some (Gz.Spec.body g)

/-- What it shows, and the copy it has then. -/
def Spec.shows (c : Option Spec.Copy) (g : GS C) : Option Str × Option Spec.Copy :=
  if Spec.status g = some 200 then (Spec.contents g, (Spec.contents g).map fun x => ⟨x, Spec.header g b!"Last-Modified"⟩)
  else if Spec.status g = some 304 then (c.map (·.data), c)
  else (none, c)

/-- Visit after visit, each with the files the server has by then: what is shown. -/
def Spec.visits (C : Codec) (N : Net) (S : Site) (rd : Str → Option Nat) (path accept : Str) : List Disk → Option Spec.Copy → List (Option Str)
  | [], _ => []
  | d :: l, c =>
    (Spec.shows c (respond C N S d (Spec.visit rd path accept c))).1 ::
      Spec.visits C N S rd path accept l (Spec.shows c (respond C N S d (Spec.visit rd path accept c))).2

/-- An attempt of a download: the files the server has then, the one that is served, and where the connection breaks. -/
structure Spec.Attempt where
  disk : Disk
  file : File
  cut : Option Nat

/-- What the attempts find: each time the path is served, by a file of less than 2^63 bytes with a time; files of the same second have the
same contents. -/
structure Spec.Dated (S : Site) (path : Str) (l : List Spec.Attempt) : Prop where
  served : ∀ a ∈ l, Spec.Serves S a.disk b!"GET" path a.file
  sane : ∀ a ∈ l, a.file.data.length < 2 ^ 63 ∧ a.file.mtime ≠ 0
  dated : ∀ a ∈ l, ∀ a' ∈ l, a.file.unix = a'.file.unix → a.file.data = a'.file.data

/-! ## The shape of answers -/

/-- Headers, a status, the pieces of a body. -/
def shape (sets : List (Str × Str)) (s : Nat) (ps : List Str) : List GOp :=
  sets.map (fun e => GOp.setHeader e.1 e.2) ++ .writeHeader s :: ps.map .write

/-- Headers set one after the other. -/
def setAll (sets : List (Str × Str)) (h : Hdr) : Hdr := sets.foldl (fun h e => h.set e.1 e.2) h

theorem raw_sets : ∀ (sets : List (Str × Str)) (g : GS C),
    (sets.map fun e => GOp.setHeader e.1 e.2).foldl GS.rawOp g = { g with hdr := setAll sets g.hdr }
  | [], g => rfl
  | e :: sets, g => by
    rw [List.map_cons, List.foldl_cons, raw_sets sets]
    rfl

/-- The answer so far. -/
structure Out (g : GS C) (s : Nat) (h : Hdr) (b : Str) : Prop where
  once : g.rw.once = true
  status : Spec.status g = some s
  sent : g.sent = some h
  body : Gz.Spec.body g = b

theorem wire_append {es : List Resp.Ev} {s : Nat} (h : Resp.Spec.wireStatus es = some s) (l : List Resp.Ev) :
    Resp.Spec.wireStatus (es ++ l) = some s := by
  induction es with
  | nil => cases h
  | cons e es ih => cases e <;> first | exact h | exact ih h

theorem Out.write {g : GS C} {s : Nat} {h : Hdr} {b : Str} (o : Out g s h b) (p : Str) : Out (g.rawWrite p) s h (b ++ p) := by
  have e : (g.rw.write p p.length).1 = Resp.writeBody g.rw p p.length := by simp [Resp.RW.write, o.once]
  refine ⟨by simp only [GS.rawWrite, e]; exact o.once, ?_, by simp [GS.rawWrite, o.sent], ?_⟩
  · simp only [Spec.status, GS.rawWrite, e, Resp.writeBody]
    exact wire_append o.status _
  · have := o.body
    simp only [Gz.Spec.body, Resp.Spec.bodyBytes] at this
    simp [Gz.Spec.body, GS.rawWrite, e, Resp.writeBody, Resp.Spec.bodyBytes, this]

theorem Out.writes : ∀ (ps : List Str) {g : GS C} {s : Nat} {h : Hdr} {b : Str}, Out g s h b →
    Out ((ps.map GOp.write).foldl GS.rawOp g) s h (b ++ ps.flatten)
  | [], g, s, h, b, o => by simpa using o
  | p :: ps, g, s, h, b, o => by
    have := Out.writes ps (o.write p)
    rw [List.append_assoc] at this
    exact this

/-- The first write. -/
theorem Out.first {g : GS C} {s : Nat} (hs : s ≠ 0) (h0 : g.rw = { status := s }) (h1 : g.sent = none) (p : Str) :
    Out (g.rawWrite p) s g.hdr p := by
  have e : (g.rw.write p p.length).1 = Resp.writeBody { status := s, once := true, events := [.header s] } p p.length := by
    rw [h0]
    simp [Resp.RW.write, Resp.commit, Resp.callBefore, hs]
  refine ⟨by simp only [GS.rawWrite, e]; rfl, ?_, by simp [GS.rawWrite, h1], ?_⟩
  · simp only [Spec.status, GS.rawWrite, e, Resp.writeBody]
    rfl
  · simp [Gz.Spec.body, GS.rawWrite, e, Resp.writeBody, Resp.Spec.bodyBytes]

/-- An answer that is not compressed. -/
theorem out_plain {s : Nat} (hs : s ≠ 0) (sets : List (Str × Str)) (ps : List Str) :
    Out (((shape sets s ps).foldl GS.rawOp ({} : GS C)).rawWrite []) s (setAll sets fun _ => []) ps.flatten := by
  have e0 : ((sets.map fun e : Str × Str => GOp.setHeader e.1 e.2) ++ [GOp.writeHeader s]).foldl GS.rawOp ({} : GS C) =
      { rw := { status := s }, hdr := setAll sets fun _ => [] } := by
    rw [List.foldl_append, raw_sets, List.foldl_cons, List.foldl_nil]
    simp [GS.rawOp, GS.common, Resp.RW.op, Resp.RW.writeHeader, hs]
  have e1 : shape sets s ps = ((sets.map fun e : Str × Str => GOp.setHeader e.1 e.2) ++ [GOp.writeHeader s]) ++ ps.map .write := by simp [shape]
  rw [e1, List.foldl_append, e0]
  cases ps with
  | nil => exact Out.first hs rfl rfl []
  | cons p ps =>
    have := (Out.writes ps (Out.first (C := C) (g := { rw := { status := s }, hdr := setAll sets fun _ => [] }) hs rfl rfl p)).write []
    rw [List.append_nil] at this
    exact this

theorem written_shape (sets : List (Str × Str)) (s : Nat) (ps : List Str) : Gz.Spec.written (shape sets s ps) = ps.flatten := by
  have h1 : ∀ sets : List (Str × Str), Gz.Spec.written (sets.map fun e => GOp.setHeader e.1 e.2) = [] := by
    intro sets
    induction sets with
    | nil => rfl
    | cons e sets ih => exact ih
  have h2 : ∀ ps : List Str, Gz.Spec.written (ps.map GOp.write) = ps.flatten := by
    intro ps
    induction ps with
    | nil => rfl
    | cons p ps ih => simp only [Gz.Spec.written] at ih ⊢; simp [ih]
  have h3 : Gz.Spec.written (shape sets s ps) = Gz.Spec.written (sets.map fun e => GOp.setHeader e.1 e.2) ++ Gz.Spec.written (ps.map GOp.write) := by
    simp [Gz.Spec.written, shape]
  rw [h3, h1, h2]; rfl

theorem writes_shape (sets : List (Str × Str)) (s : Nat) (ps : List Str) : Gz.Spec.writes (shape sets s ps) = true ↔ ps ≠ [] := by
  have h1 : Gz.Spec.writes (sets.map fun e => GOp.setHeader e.1 e.2) = false := by
    simp [Gz.Spec.writes]
  have h3 : Gz.Spec.writes (shape sets s ps) = (Gz.Spec.writes (sets.map fun e => GOp.setHeader e.1 e.2) || Gz.Spec.writes (ps.map GOp.write)) := by
    simp [Gz.Spec.writes, shape]
  rw [h3, h1]
  cases ps <;> simp [Gz.Spec.writes]

theorem sentHdr_shape (detect : Str → Str) (s : Nat) (ps : List Str) : ∀ (sets : List (Str × Str)) (h : Hdr),
    Gz.Spec.sentHdr detect h (shape sets s ps) =
      (match ps with | [] => none | p :: _ => some (Gz.Spec.prepared detect (setAll sets h) p))
  | [], h => by cases ps <;> rfl
  | e :: sets, h => sentHdr_shape detect s ps sets _

theorem gz_hdr (detect : Str → Str) {s : Nat} : ∀ (sets : List (Str × Str)) (g : GS C),
    ((shape sets s []).foldl (GS.gzOp detect) g).hdr = setAll sets g.hdr ∧ ((shape sets s []).foldl (GS.gzOp detect) g).sent = g.sent ∧
      ((shape sets s []).foldl (GS.gzOp detect) g).gz = g.gz
  | [], g => ⟨rfl, rfl, rfl⟩
  | e :: sets, g => gz_hdr detect sets (GS.gzOp detect g (.setHeader e.1 e.2))

/-- What is sent with a compressed answer. -/
def zippedHdr (detect : Str → Str) (sets : List (Str × Str)) : List Str → Hdr
  | [] => setAll sets (Gz.Spec.marked fun _ => [])
  | p :: _ => Gz.Spec.prepared detect (setAll sets (Gz.Spec.marked fun _ => [])) p

/-- An answer that is compressed. -/
theorem out_gz (hC : C.Lawful) (detect : Str → Str) {accept : Str} (ha : ∃ a b, accept = a ++ b!"gzip" ++ b) {s : Nat} (hs : s ≠ 0)
    (sets : List (Str × Str)) (ps : List Str) :
    ∃ b, Spec.status ((filter detect accept ({} : GS C) (shape sets s ps)).rawWrite []) = some s ∧
      ((filter detect accept ({} : GS C) (shape sets s ps)).rawWrite []).sent = some (zippedHdr detect sets ps) ∧
      Gz.Spec.body ((filter detect accept ({} : GS C) (shape sets s ps)).rawWrite []) = b ∧
      (ps = [] → b = []) ∧ (ps ≠ [] → C.decode b = some ps.flatten) := by
  have hu : Usable ({} : GS C) := ⟨by simp, rfl⟩
  have h1 := (C109_status detect accept ({} : GS C) (shape sets s ps) [.write []] hu rfl).1
  have h2 := C109_headers detect ha ({} : GS C) (shape sets s ps) rfl rfl
  have h3 := (C109_body hC detect accept ({} : GS C) (shape sets s ps) hu rfl).1 ha
  have hu' : Usable (filter detect accept ({} : GS C) (shape sets s ps)) := by
    unfold filter
    rw [if_pos ((contains_iff _ _).2 ha)]
    have ho : Opened ({ ({} : GS C) with hdr := (({} : GS C).hdr.set b!"Content-Encoding" b!"gzip").set b!"Vary" b!"Accept-Encoding" } : GS C) :=
      fun h => absurd rfl h
    have := (gzOps_opened (detect := detect) (shape sets s ps)
      ({ ({} : GS C) with hdr := (({} : GS C).hdr.set b!"Content-Encoding" b!"gzip").set b!"Vary" b!"Accept-Encoding" } : GS C) hu ho).1
    simp only [GS.close]
    split
    · exact (rawWrite_spec this _).1
    · exact this
  have h4 := rawWrite_spec hu' []
  refine ⟨_, ?_, ?_, rfl, ?_, ?_⟩
  · have := (out_plain (C := C) hs sets ps).status
    rw [← this]
    exact h1
  · rw [h4.2.2.2.1, h2]
    cases ps with
    | nil =>
      rw [sentHdr_shape]
      simp only [Option.none_or, zippedHdr]
      have : (filter detect accept ({} : GS C) (shape sets s [])).hdr = setAll sets (Gz.Spec.marked fun _ => []) := by
        unfold filter
        rw [if_pos ((contains_iff _ _).2 ha)]
        have e := gz_hdr (C := C) detect (s := s) sets
          { ({} : GS C) with hdr := (({} : GS C).hdr.set b!"Content-Encoding" b!"gzip").set b!"Vary" b!"Accept-Encoding" }
        simp only [GS.close]
        rw [e.2.2]
        refine e.1.trans ?_
        rw [← marked_eq]
      rw [this]
    | cons p ps =>
      rw [sentHdr_shape]
      simp [zippedHdr]
  · intro hp
    rw [h4.2.1, List.append_nil, h3.2 (by
      cases hw : Gz.Spec.writes (shape sets s ps) with
      | false => rfl
      | true => exact absurd hp ((writes_shape _ _ _).1 hw))]
    rfl
  · intro hp
    obtain ⟨st, e1, e2⟩ := h3.1 ((writes_shape _ _ _).2 hp)
    rw [h4.2.1, List.append_nil, e1, written_shape] at *
    simpa [Gz.Spec.body, Resp.Spec.bodyBytes] using e2

/-! ## Answers of the site -/

theorem fsOf_file {d : Disk} {p : Str} {f : File} (h : d p = some (.file f)) : fsOf d p = some (some false) := by
  unfold fsOf; rw [h]

theorem fsOf_dir {d : Disk} {p : Str} (h : d p = some .dir) : fsOf d p = some (some true) := by
  unfold fsOf; rw [h]

theorem fsOf_none {d : Disk} {p : Str} (h : d p = none) : fsOf d p = none := by
  unfold fsOf; rw [h]

/-- The calls for a known outcome of the filter. -/
theorem ops_content {N : Net} {S : Site} {d : Disk} {r : Req} {f : File} {name p : Str} {h : Nat} (enc : Bool)
    (e1 : (Static.serve (fsOf d) S.pre S.root S.opt r.method r.path).2 = .content name h)
    (e2 : (Static.serve (fsOf d) S.pre S.root S.opt r.method r.path).1.opened[h]? = some p) (e3 : d p = some (.file f)) :
    ops N S enc d r = serveContent N enc r name f := by
  unfold ops
  generalize Static.serve (fsOf d) S.pre S.root S.opt r.method r.path = z at e1 e2
  obtain ⟨st, rep⟩ := z
  dsimp only at e1 e2
  subst e1
  simp [e2, e3]

theorem ops_found {S : Site} {d : Disk} {f : File} {path file : Str} (h : Spec.Found S d path file f) :
    ∃ name, ∀ (N : Net) (r : Req), r.path = path → Static.Spec.Mine S.pre S.opt r.method r.path file →
      ∀ enc, ops N S enc d r = serveContent N enc r name f := by
  rcases h with h2 | ⟨h2, h3, h4⟩ | ⟨h2, h3, h4⟩
  · refine ⟨file, fun N r hp h1 enc => ?_⟩
    have e := Static.C75_file_served (fsOf d) S.pre S.root S.opt r.method r.path file h1 (fsOf_file h2)
    exact ops_content (h := 0) enc (by rw [e]) (by rw [e]; rfl) h2
  · refine ⟨Static.indexFile file, fun N r hp h1 enc => ?_⟩
    obtain ⟨e1, e2⟩ := (Static.index_answer (fsOf d) S.pre S.root S.opt r.method r.path file h1 (fsOf_dir h2) (by rw [hp]; exact h3)).1 (fsOf_file h4)
    exact ops_content enc e1 (by rw [e2]; rfl) h4
  · refine ⟨file, fun N r hp h1 enc => ?_⟩
    obtain ⟨e1, e2⟩ := (Static.C75_missing (fsOf d) S.pre S.root S.opt r.method r.path file h1 (fsOf_none h2)).2 false h3 (fsOf_file h4)
    exact ops_content enc e1 (by rw [e2]; rfl) h4

theorem ops_serves {N : Net} {S : Site} {d : Disk} {r : Req} {f : File} (h : Spec.Serves S d r.method r.path f) :
    ∃ name, ∀ enc, ops N S enc d r = serveContent N enc r name f := by
  obtain ⟨file, h1, h2⟩ := h
  obtain ⟨name, hn⟩ := ops_found h2
  exact ⟨name, hn N r rfl h1⟩

theorem ops_notFound {N : Net} {S : Site} {d : Disk} {r : Req} (enc : Bool)
    (e1 : (Static.serve (fsOf d) S.pre S.root S.opt r.method r.path).2 = .notFound) : ops N S enc d r = httpError 404 b!"404 page not found" := by
  unfold ops
  generalize Static.serve (fsOf d) S.pre S.root S.opt r.method r.path = z at e1
  obtain ⟨st, rep⟩ := z
  dsimp only at e1
  subst e1
  rfl

theorem ops_misses {N : Net} {S : Site} {d : Disk} {r : Req} (h : Spec.Misses S d r.method r.path) (enc : Bool) :
    ops N S enc d r = httpError 404 b!"404 page not found" := by
  refine ops_notFound enc ?_
  obtain ⟨file, h1, ⟨h2, h3⟩ | ⟨h2, h3, h4⟩⟩ := h
  · rcases h3 with h3 | h3
    · exact (Static.C75_missing (fsOf d) S.pre S.root S.opt r.method r.path file h1 (fsOf_none h2)).1 h3
    · exact Static.missing_both (fsOf d) S.pre S.root S.opt r.method r.path file h1 (fsOf_none h2) (fsOf_none h3)
  · exact (Static.index_answer (fsOf d) S.pre S.root S.opt r.method r.path file h1 (fsOf_dir h2) h3).2.1 (fsOf_none h4)

theorem enc_iff (S : Site) (r : Req) : S.enc r = true ↔ Spec.Zipped S r.accept := by
  unfold Site.enc Spec.Zipped
  rw [Bool.and_eq_true, contains_iff]

/-- The answer to a request whose calls are known. -/
theorem respond_out (hC : C.Lawful) {N : Net} {S : Site} {d : Disk} {r : Req} {sets : List (Str × Str)} {s : Nat} {ps : List Str} (hs : s ≠ 0)
    (h : ops N S (S.enc r) d r = shape sets s ps) :
    Spec.status (respond C N S d r) = some s ∧
    (respond C N S d r).sent = some (if S.enc r then zippedHdr S.detect sets ps else setAll sets fun _ => []) ∧
    (S.enc r = false → Gz.Spec.body (respond C N S d r) = ps.flatten) ∧
    (S.enc r = true → (ps = [] → Gz.Spec.body (respond C N S d r) = []) ∧ (ps ≠ [] → C.decode (Gz.Spec.body (respond C N S d r)) = some ps.flatten)) := by
  unfold respond
  rw [h]
  cases he : S.enc r with
  | false =>
    have e : (if S.gz = true then filter S.detect r.accept ({} : GS C) (shape sets s ps) else (shape sets s ps).foldl GS.rawOp {}) =
        (shape sets s ps).foldl GS.rawOp {} := by
      split
      · rename_i hg
        unfold filter
        rw [if_neg]
        unfold Site.enc at he
        rw [hg, Bool.true_and] at he
        rw [he]; exact Bool.false_ne_true
      · rfl
    rw [e]
    have o := out_plain (C := C) hs sets ps
    exact ⟨o.status, o.sent, fun _ => o.body, fun h => by cases h⟩
  | true =>
    obtain ⟨hg, ha⟩ := (enc_iff S r).1 he
    rw [if_pos hg]
    obtain ⟨b, h1, h2, h3, h4, h5⟩ := out_gz hC S.detect ha hs sets ps
    subst h3
    exact ⟨h1, h2, fun h => absurd h (by simp), fun _ => ⟨h4, h5⟩⟩

/-! ## Ranges -/

theorem dig_plain : ∀ c : UInt8, (48 ≤ c.toNat ∧ c.toNat ≤ 57) → plain c = true ∧ (c != 45) = true ∧ c ≠ 44 := forall_u8 (by decide +kernel)

theorem parse_rest {k : Nat} (hk : k < 2 ^ 63) (size : Nat) :
    parseRange (b!"bytes=" ++ natDec k ++ b!"-") size = if size ≤ k then .beyond else .ok [(k, size - k)] := by
  have hd := natDec_digits k
  have hplain : ∀ c ∈ natDec k, plain c = true := fun c hc => (dig_plain c (hd c hc)).1
  have hne : ∀ c ∈ natDec k, (c != 45) = true := fun c hc => (dig_plain c (hd c hc)).2.1
  have e1 : (natDec k ++ b!"-").takeWhile (· != 45) = natDec k := by
    rw [List.takeWhile_append_of_pos hne]; simp
  have e2 : ((natDec k ++ b!"-").dropWhile (· != 45)).drop 1 = [] := by
    rw [List.dropWhile_append_of_pos hne]; simp
  have e3 : trimSpace (natDec k ++ b!"-") = natDec k ++ b!"-" := trimSpace_plain _ (by
    intro c hc
    rcases List.mem_append.1 hc with h | h
    · exact hplain c h
    · rw [List.mem_singleton.1 h]; decide)
  have e4 : splitOn1 44 (natDec k ++ b!"-") = [natDec k ++ b!"-"] := splitOn1_of_not_mem _ _ (by
    intro h
    rcases List.mem_append.1 h with h | h
    · exact (dig_plain _ (hd _ h)).2.2 rfl
    · revert h; decide)
  have ep : parseInt 64 (natDec k) = ((k : Int), none) := parseInt_fmtInt_nat (by decide) (by simpa using hk)
  have eo : oneRange size (natDec k) [] = some (if size ≤ k then none else some (k, size - k)) := by
    unfold oneRange
    rw [if_neg (natDec_ne_nil k), ep]
    simp only [ne_eq, not_true_eq_false, false_or, Int.toNat_natCast, if_true]
    rw [if_neg (by omega)]
    split <;> rfl
  unfold parseRange
  rw [if_neg (by simp), if_neg (by
    simp only [Bool.not_eq_true, Bool.not_eq_false]
    unfold hasPrefix
    rw [List.isPrefixOf_iff_prefix, List.append_assoc]
    exact List.prefix_append _ _)]
  have ed : (b!"bytes=" ++ natDec k ++ b!"-").drop 6 = natDec k ++ b!"-" := by
    rw [List.append_assoc]; rfl
  rw [ed, e4]
  have er : rangesGo size [natDec k ++ b!"-"] = some (if size ≤ k then ([], true) else ([(k, size - k)], false)) := by
    unfold rangesGo
    rw [e3, if_neg (by simp), if_neg (by simp), e1, e2, trimSpace_plain _ hplain]
    have : trimSpace [] = [] := rfl
    rw [this, eo]
    split
    · rename_i h1 h2; split at h1 <;> simp_all [rangesGo]
    · rename_i h1 h2; split at h1 <;> simp_all [rangesGo]
    · rename_i h1 h2; split at h1 <;> simp_all [rangesGo]
  rw [er]
  by_cases hs : size ≤ k
  · rw [if_pos hs, if_pos hs]
  · rw [if_neg hs, if_neg hs]

/-! ## Answers with a file -/

def lmSets (N : Net) (f : File) : List (Str × Str) := if f.mtime = 0 then [] else [(b!"Last-Modified", N.date f.unix)]

theorem lastModified_eq (N : Net) (f : File) : lastModified N f = (lmSets N f).map fun e => GOp.setHeader e.1 e.2 := by
  unfold lastModified lmSets; split <;> rfl

def sendSets (N : Net) (enc : Bool) (name : Str) (f : File) (extra : List (Str × Str)) (d : Str) : List (Str × Str) :=
  lmSets N f ++ [(b!"Content-Type", N.ctype name f.data)] ++ extra ++ [(b!"Accept-Ranges", b!"bytes")] ++
    (if enc then [] else [(b!"Content-Length", natDec d.length)])

theorem send_shape (N : Net) (enc : Bool) (r : Req) (name : Str) (f : File) (code : Nat) (extra : List (Str × Str)) (d : Str) :
    lastModified N f ++ [.setHeader b!"Content-Type" (N.ctype name f.data)] ++ send N enc r code (extra.map fun e => GOp.setHeader e.1 e.2) d =
      shape (sendSets N enc name f extra d) code (if r.method = b!"HEAD" then [] else N.cut d) := by
  unfold send shape sendSets
  rw [lastModified_eq]
  by_cases h : r.method = b!"HEAD"
  · rw [if_pos h, if_pos h]; cases enc <;> simp
  · rw [if_neg h, if_neg h]; cases enc <;> simp

/-- 416 -/
theorem beyond_shape (N : Net) (name : Str) (f : File) (extra : List (Str × Str)) (text : Str) :
    lastModified N f ++ [.setHeader b!"Content-Type" (N.ctype name f.data)] ++ ((extra.map fun e => GOp.setHeader e.1 e.2) ++ httpError 416 text) =
      shape (lmSets N f ++ [(b!"Content-Type", N.ctype name f.data)] ++ extra ++
        [(b!"Content-Type", b!"text/plain; charset=utf-8"), (b!"X-Content-Type-Options", b!"nosniff")]) 416 [text ++ b!"\n"] := by
  unfold shape httpError
  rw [lastModified_eq]
  simp

theorem setAll_append (a b : List (Str × Str)) (h : Hdr) : setAll (a ++ b) h = setAll b (setAll a h) := by
  simp [setAll]

theorem setAll_skip (k : Str) : ∀ (a : List (Str × Str)) (h : Hdr), (∀ e ∈ a, e.1 ≠ k) → setAll a h k = h k
  | [], h, _ => rfl
  | e :: a, h, hk => by
    have := setAll_skip k a (h.set e.1 e.2) (fun e he => hk e (by simp [he]))
    show setAll a (h.set e.1 e.2) k = h k
    rw [this, Hdr.set_ne _ _ (fun x => hk e (by simp) x.symm)]

theorem lm_header (N : Net) (f : File) (h0 : f.mtime ≠ 0) (rest : List (Str × Str)) (hr : ∀ e ∈ rest, e.1 ≠ b!"Last-Modified") (h : Hdr) :
    setAll (lmSets N f ++ rest) h b!"Last-Modified" = N.date f.unix := by
  rw [setAll_append, setAll_skip _ _ _ hr]
  unfold lmSets
  rw [if_neg h0]
  simp [setAll, Hdr.set]

theorem prepared_keep (detect : Str → Str) (h : Hdr) (p k : Str) (h1 : k ≠ b!"Content-Length") (h2 : k ≠ b!"Content-Type") :
    Gz.Spec.prepared detect h p k = h k := by
  unfold Gz.Spec.prepared
  rw [if_neg h1, if_neg (fun x => h2 x.1)]

theorem zipped_keep (detect : Str → Str) (sets : List (Str × Str)) (ps : List Str) (k : Str) (h1 : k ≠ b!"Content-Length")
    (h2 : k ≠ b!"Content-Type") : zippedHdr detect sets ps k = setAll sets (Gz.Spec.marked fun _ => []) k := by
  cases ps with
  | nil => rfl
  | cons p ps => exact prepared_keep detect _ p k h1 h2

/-- A header of an answer that neither filter touches. -/
theorem header_keep (hC : C.Lawful) {N : Net} {S : Site} {d : Disk} {r : Req} {sets : List (Str × Str)} {s : Nat} {ps : List Str} (hs : s ≠ 0)
    (h : ops N S (S.enc r) d r = shape sets s ps) (k : Str) (h1 : k ≠ b!"Content-Length") (h2 : k ≠ b!"Content-Type") :
    Spec.header (respond C N S d r) k = setAll sets (if S.enc r then Gz.Spec.marked fun _ => [] else fun _ => []) k := by
  unfold Spec.header
  rw [(respond_out hC hs h).2.1, Option.getD_some]
  split
  · exact zipped_keep _ _ _ k h1 h2
  · rfl

/-- What a request for a file that is served is answered with, if only one range is asked for. -/
theorem full_answer (hC : C.Lawful) {N : Net} (hN : Spec.Reads N) {S : Site} {d : Disk} {r : Req} {f : File} (hr : r.method = b!"GET")
    (hf : Spec.Serves S d r.method r.path f) (hm : notModified r f = false) (hg : (if r.range ≠ [] ∧ rangeOff r f then [] else r.range) = []) :
    Spec.status (respond C N S d r) = some 200 ∧
    (f.mtime ≠ 0 → Spec.header (respond C N S d r) b!"Last-Modified" = N.date f.unix) ∧
    (f.mtime = 0 → Spec.header (respond C N S d r) b!"Last-Modified" = []) ∧
    (S.enc r = false → Gz.Spec.body (respond C N S d r) = f.data ∧ Spec.header (respond C N S d r) b!"Content-Encoding" = []) ∧
    (S.enc r = true → Spec.header (respond C N S d r) b!"Content-Encoding" = b!"gzip" ∧
      (f.data = [] → Gz.Spec.body (respond C N S d r) = []) ∧ (f.data ≠ [] → C.decode (Gz.Spec.body (respond C N S d r)) = some f.data)) := by
  obtain ⟨name, hn⟩ := ops_serves (N := N) hf
  have e : ops N S (S.enc r) d r = shape (sendSets N (S.enc r) name f [] f.data) 200 (N.cut f.data) := by
    rw [hn]
    unfold serveContent
    rw [hm, if_neg Bool.false_ne_true, hg]
    unfold sendRanges
    have : parseRange [] f.data.length = .ok [] := rfl
    rw [this]
    simp only [List.map_nil, List.sum_nil, Nat.not_lt_zero, if_false]
    have := send_shape N (S.enc r) r name f 200 [] f.data
    rw [if_neg (by rw [hr]; decide)] at this
    exact this
  have hk := fun k => header_keep hC (by decide) e k
  have ho := respond_out hC (by decide) e
  have hsplit : sendSets N (S.enc r) name f [] f.data = lmSets N f ++ ([(b!"Content-Type", N.ctype name f.data), (b!"Accept-Ranges", b!"bytes")] ++
      (if S.enc r then [] else [(b!"Content-Length", natDec f.data.length)])) := by
    unfold sendSets; simp
  refine ⟨ho.1, fun h0 => ?_, fun h0 => ?_, fun he => ⟨?_, ?_⟩, fun he => ⟨?_, ?_⟩⟩
  · rw [hk _ (by decide) (by decide), hsplit]
    refine lm_header N f h0 _ ?_ _
    cases S.enc r <;> simp
  · rw [hk _ (by decide) (by decide), hsplit, setAll_skip]
    · split <;> rfl
    · unfold lmSets
      rw [if_pos h0]
      cases S.enc r <;> simp
  · rw [ho.2.2.1 he, hN.all]
  · rw [hk _ (by decide) (by decide), setAll_skip, he]
    · rfl
    · unfold sendSets lmSets
      rw [he]
      split <;> simp
  · rw [hk _ (by decide) (by decide), setAll_skip, he]
    · rfl
    · unfold sendSets lmSets
      rw [he]
      split <;> simp
  · have h2 := ho.2.2.2 he
    refine ⟨fun h0 => h2.1 (by rw [h0, hN.none]), fun h0 => ?_⟩
    have := h2.2 (fun h => h0 (by rw [← hN.all f.data, h]; rfl))
    rwa [hN.all] at this

theorem fmtInt_nat (n : Nat) : fmtInt (n : Int) = natDec n := rfl

/-- What a request for the rest of a file is answered with. -/
theorem rest_answer (hC : C.Lawful) {N : Net} (hN : Spec.Reads N) {S : Site} {d : Disk} {r : Req} {f : File} (hr : r.method = b!"GET")
    (hf : Spec.Serves S d r.method r.path f) (hm : notModified r f = false) {k : Nat} (hk : k < 2 ^ 63)
    (hg : r.range = b!"bytes=" ++ natDec k ++ b!"-") (ho : rangeOff r f = false) :
    (f.data.length ≤ k → Spec.status (respond C N S d r) = some 416 ∧
      Spec.header (respond C N S d r) b!"Content-Range" = b!"bytes */" ++ natDec f.data.length) ∧
    (k < f.data.length → Spec.status (respond C N S d r) = some 206 ∧
      Spec.header (respond C N S d r) b!"Content-Range" = b!"bytes " ++ natDec k ++ b!"-" ++ natDec (f.data.length - 1) ++ b!"/" ++ natDec f.data.length ∧
      (S.enc r = false → Gz.Spec.body (respond C N S d r) = f.data.drop k ∧ Spec.header (respond C N S d r) b!"Content-Encoding" = []) ∧
      (S.enc r = true → Spec.header (respond C N S d r) b!"Content-Encoding" = b!"gzip" ∧
        C.decode (Gz.Spec.body (respond C N S d r)) = some (f.data.drop k))) := by
  obtain ⟨name, hn⟩ := ops_serves (N := N) hf
  have e : ops N S (S.enc r) d r = lastModified N f ++ [.setHeader b!"Content-Type" (N.ctype name f.data)] ++
      sendRanges N (S.enc r) r (b!"bytes=" ++ natDec k ++ b!"-") f.data := by
    rw [hn]
    unfold serveContent
    rw [hm, if_neg Bool.false_ne_true, if_neg (by rw [ho]; simp), hg]
  unfold sendRanges at e
  rw [parse_rest hk] at e
  refine ⟨fun h => ?_, fun h => ?_⟩
  · rw [if_pos h] at e
    have e' := e.trans (beyond_shape N name f [(b!"Content-Range", b!"bytes */" ++ natDec f.data.length)] b!"invalid range: failed to overlap")
    refine ⟨(respond_out hC (by decide) e').1, ?_⟩
    rw [header_keep hC (by decide) e' _ (by decide) (by decide), setAll_append, setAll_skip _ _ _ (by simp), setAll_append]
    simp [setAll, Hdr.set]
  · rw [if_neg (by omega)] at e
    simp only [List.map_cons, List.map_nil, List.sum_cons, List.sum_nil, Nat.add_zero] at e
    rw [if_neg (by omega)] at e
    have ht : (f.data.drop k).take (f.data.length - k) = f.data.drop k := List.take_of_length_le (by simp)
    rw [ht] at e
    have e0 := send_shape N (S.enc r) r name f 206 [(b!"Content-Range", contentRange k (f.data.length - k) f.data.length)] (f.data.drop k)
    rw [if_neg (by rw [hr]; decide)] at e0
    have e' := e.trans e0
    have o := respond_out hC (by decide) e'
    have hce : ∀ e ∈ sendSets N (S.enc r) name f [(b!"Content-Range", contentRange k (f.data.length - k) f.data.length)] (f.data.drop k),
        e.1 ≠ b!"Content-Encoding" := by
      unfold sendSets lmSets
      cases S.enc r <;> by_cases h0 : f.mtime = 0 <;> simp [h0]
    refine ⟨o.1, ?_, fun he => ⟨?_, ?_⟩, fun he => ⟨?_, ?_⟩⟩
    · rw [header_keep hC (by decide) e' _ (by decide) (by decide)]
      unfold sendSets
      rw [setAll_append, setAll_skip _ _ _ (by cases S.enc r <;> simp), setAll_append, setAll_skip _ _ _ (by simp), setAll_append]
      have : (k : Int) + ((f.data.length - k : Nat) : Int) - 1 = ((f.data.length - 1 : Nat) : Int) := by omega
      simp only [setAll, Hdr.set, contentRange, this]
      simp [fmtInt_nat, Hdr.set]
    · rw [o.2.2.1 he, hN.all]
    · rw [header_keep hC (by decide) e' _ (by decide) (by decide), setAll_skip _ _ _ hce, he]; rfl
    · rw [header_keep hC (by decide) e' _ (by decide) (by decide), setAll_skip _ _ _ hce, he]; rfl
    · have := (o.2.2.2 he).2 (fun hx => by
        have := hN.all (f.data.drop k)
        rw [hx] at this
        have := congrArg List.length this
        simp at this
        omega)
      rwa [hN.all] at this

/-! ## C158: downloads -/

theorem ask_method (rd : Str → Option Nat) (path accept : Str) (c : Spec.Dl) : (Spec.ask rd path accept c).method = b!"GET" ∧
    (Spec.ask rd path accept c).path = path ∧ (Spec.ask rd path accept c).accept = accept ∧
    (Spec.ask rd path accept c).ifModifiedSince = none := by
  unfold Spec.ask; split <;> exact ⟨rfl, rfl, rfl, rfl⟩

theorem ask_fresh (rd : Str → Option Nat) (path accept : Str) (c : Spec.Dl) (f : File) : notModified (Spec.ask rd path accept c) f = false := by
  unfold notModified
  rw [(ask_method rd path accept c).2.2.2]
  simp

theorem arrives_prefix (b : Str) (k : Option Nat) : Spec.arrives b k <+: b ∧ (k.isNone = true → Spec.arrives b k = b) := by
  cases k with
  | none => exact ⟨List.prefix_refl _, fun _ => rfl⟩
  | some k => exact ⟨List.take_prefix k b, fun h => by cases h⟩

/-- One attempt. -/
theorem step_ok (hC : C.Lawful) {N : Net} (hN : Spec.Reads N) {S : Site} {rd : Str → Option Nat} (hrd : ∀ t, rd (N.date t) = some t)
    {path accept : Str} (hz : ¬ Spec.Zipped S accept) {d : Disk} {f : File} (hs : Spec.Serves S d b!"GET" path f)
    (hl : f.data.length < 2 ^ 63) (h0 : f.mtime ≠ 0) (c : Spec.Dl)
    (hc : c.got = [] ∨ ∃ f' : File, c.stamp = N.date f'.unix ∧ c.got <+: f'.data ∧ f'.data.length < 2 ^ 63 ∧ (f.unix = f'.unix → f.data = f'.data))
    (k : Option Nat) :
    (Spec.step c (respond C N S d (Spec.ask rd path accept c)) k).stamp = N.date f.unix ∧
    (Spec.step c (respond C N S d (Spec.ask rd path accept c)) k).got <+: f.data ∧
    ((Spec.step c (respond C N S d (Spec.ask rd path accept c)) k).done = true → (Spec.step c (respond C N S d (Spec.ask rd path accept c)) k).got = f.data) ∧
    (k = none → (Spec.step c (respond C N S d (Spec.ask rd path accept c)) k).done = true) := by
  have hm := ask_method rd path accept c
  have hs' : Spec.Serves S d (Spec.ask rd path accept c).method (Spec.ask rd path accept c).path f := by rw [hm.1, hm.2.1]; exact hs
  have he : S.enc (Spec.ask rd path accept c) = false := by
    cases h : S.enc (Spec.ask rd path accept c) with
    | false => rfl
    | true => exact absurd ((enc_iff _ _).1 h) (by rw [hm.2.2.1]; exact hz)
  have full : (if (Spec.ask rd path accept c).range ≠ [] ∧ rangeOff (Spec.ask rd path accept c) f then [] else (Spec.ask rd path accept c).range) = [] →
      (Spec.step c (respond C N S d (Spec.ask rd path accept c)) k).stamp = N.date f.unix ∧
      (Spec.step c (respond C N S d (Spec.ask rd path accept c)) k).got <+: f.data ∧
      ((Spec.step c (respond C N S d (Spec.ask rd path accept c)) k).done = true → (Spec.step c (respond C N S d (Spec.ask rd path accept c)) k).got = f.data) ∧
      (k = none → (Spec.step c (respond C N S d (Spec.ask rd path accept c)) k).done = true) := by
    intro hg
    have a := full_answer hC hN hm.1 hs' (ask_fresh rd path accept c f) hg
    unfold Spec.step
    rw [if_pos a.1, (a.2.2.2.1 he).1]
    have := arrives_prefix f.data k
    exact ⟨a.2.1 h0, this.1, this.2, fun h => by subst h; rfl⟩
  by_cases hgot : c.got = []
  · refine full ?_
    unfold Spec.ask
    rw [if_pos hgot]
    simp
  · obtain ⟨f', h1, h2, h3, h4⟩ := hc.resolve_left hgot
    have hask : Spec.ask rd path accept c = { method := b!"GET", path, accept, range := b!"bytes=" ++ natDec c.got.length ++ b!"-", ifRange := some (some f'.unix) } := by
      unfold Spec.ask
      rw [if_neg hgot, h1, hrd]
      rfl
    by_cases hu : f.unix = f'.unix
    · have hoff : rangeOff (Spec.ask rd path accept c) f = false := by
        rw [hask]
        simp [rangeOff, hu]
      have hlen := h2.length_le
      have a := rest_answer hC hN hm.1 hs' (ask_fresh rd path accept c f) (k := c.got.length) (by omega) (by rw [hask]) hoff
      have hd := h4 hu
      rw [← hd] at h2 hlen
      have h1' : c.stamp = N.date f.unix := by rw [h1, hu]
      unfold Spec.step
      by_cases hb : f.data.length ≤ c.got.length
      · obtain ⟨a1, a2⟩ := a.1 hb
        have hgd : c.got = f.data := h2.eq_of_length (by omega)
        rw [a1, if_neg (by decide), if_neg (by decide), if_pos rfl, a2, hgd]
        exact ⟨h1', List.prefix_refl _, fun _ => rfl, fun _ => decide_eq_true rfl⟩
      · obtain ⟨a1, a2, a3, -⟩ := a.2 (by omega)
        rw [a1, if_neg (by decide), if_pos rfl, (a3 he).1]
        have hp := arrives_prefix (f.data.drop c.got.length) k
        have hsp : f.data = c.got ++ f.data.drop c.got.length := by
          obtain ⟨t, ht⟩ := h2
          rw [← ht, List.drop_left]
        refine ⟨h1', ?_, fun h => ?_, fun h => by subst h; rfl⟩
        · obtain ⟨t, ht⟩ := hp.1
          exact ⟨t, by rw [List.append_assoc, ht]; exact hsp.symm⟩
        · rw [hp.2 h]; exact hsp.symm
    · refine full ?_
      rw [hask, if_pos]
      refine ⟨by simp, ?_⟩
      simp [rangeOff, reads, hu]

theorem download_append (N : Net) (S : Site) (rd : Str → Option Nat) (path accept : Str) (l l' : List (Disk × Option Nat)) (c : Spec.Dl) :
    Spec.download C N S rd path accept (l ++ l') c = Spec.download C N S rd path accept l' (Spec.download C N S rd path accept l c) := by
  induction l generalizing c with
  | nil => rfl
  | cons e l ih => exact ih _

theorem download_inv (hC : C.Lawful) {N : Net} (hN : Spec.Reads N) {S : Site} {rd : Str → Option Nat} (hrd : ∀ t, rd (N.date t) = some t)
    {path accept : Str} (hz : ¬ Spec.Zipped S accept) (all : List Spec.Attempt) (h : Spec.Dated S path all) :
    ∀ (l : List Spec.Attempt), (∀ a ∈ l, a ∈ all) → ∀ c : Spec.Dl,
      (c.got = [] ∨ ∃ a ∈ all, c.stamp = N.date a.file.unix ∧ c.got <+: a.file.data) →
      (Spec.download C N S rd path accept (l.map fun a => (a.disk, a.cut)) c).got = [] ∨
        ∃ a ∈ all, (Spec.download C N S rd path accept (l.map fun a => (a.disk, a.cut)) c).stamp = N.date a.file.unix ∧
          (Spec.download C N S rd path accept (l.map fun a => (a.disk, a.cut)) c).got <+: a.file.data
  | [], _, c, hc => hc
  | a :: l, hl, c, hc => by
    refine download_inv hC hN hrd hz all h l (fun a ha => hl a (by simp [ha])) _ (.inr ⟨a, hl a (by simp), ?_⟩)
    have ha := hl a (by simp)
    have := step_ok hC hN hrd hz (h.served a ha) (h.sane a ha).1 (h.sane a ha).2 c (hc.imp id fun ⟨b, hb, h1, h2⟩ =>
      ⟨b.file, h1, h2, (h.sane b hb).1, h.dated a ha b hb⟩) a.cut
    exact ⟨this.1, this.2.1⟩

/-- **C158 (in part).** A client that downloads a file from the static filter, breaks off any number of times after any number of bytes, and
each time asks for the rest if the file has not changed (`Range` with `If-Range`), has at every time a first part of the file it was
last served; if it takes its download for complete, it has all of that file; and an attempt that is not broken off completes it. The file may be
replaced between the attempts. Missing: clients that get compressed answers (see `C158_gzip_violated`), and files of the same second with
different contents (`C158_same_second_violated`). -/
theorem C158_resume_partial (hC : C.Lawful) {N : Net} (hN : Spec.Reads N) {S : Site} {rd : Str → Option Nat} (hrd : ∀ t, rd (N.date t) = some t)
    {path accept : Str} (hz : ¬ Spec.Zipped S accept) (l : List Spec.Attempt) (a : Spec.Attempt) (h : Spec.Dated S path (l ++ [a])) :
    let c := Spec.download C N S rd path accept ((l ++ [a]).map fun a => (a.disk, a.cut)) {}
    c.got <+: a.file.data ∧ (c.done = true → c.got = a.file.data) ∧ (a.cut = none → c.done = true) := by
  intro c
  have hi := download_inv (C := C) hC hN hrd hz (l ++ [a]) h l (fun a ha => by simp [ha]) {} (.inl rfl)
  have ha : a ∈ l ++ [a] := by simp
  have := step_ok hC hN hrd hz (h.served a ha) (h.sane a ha).1 (h.sane a ha).2 _ (hi.imp id fun ⟨b, hb, h1, h2⟩ =>
      ⟨b.file, h1, h2, (h.sane b hb).1, h.dated a ha b hb⟩) a.cut
  have e : c = Spec.step (Spec.download C N S rd path accept (l.map fun a => (a.disk, a.cut)) {})
      (respond C N S a.disk (Spec.ask rd path accept (Spec.download C N S rd path accept (l.map fun a => (a.disk, a.cut)) {}))) a.cut := by
    show Spec.download C N S rd path accept ((l ++ [a]).map fun a => (a.disk, a.cut)) {} = _
    rw [List.map_append, download_append]
    rfl
  rw [e]
  exact this.2

/-- The second attempt of a client that has a part. -/
theorem ask_part {N : Net} {rd : Str → Option Nat} (hrd : ∀ t, rd (N.date t) = some t) (path accept : Str) {c : Spec.Dl} {f : File}
    (hg : c.got ≠ []) (h1 : c.stamp = N.date f.unix) :
    (Spec.ask rd path accept c).range = b!"bytes=" ++ natDec c.got.length ++ b!"-" ∧ rangeOff (Spec.ask rd path accept c) f = false := by
  have hask : Spec.ask rd path accept c = { method := b!"GET", path, accept, range := b!"bytes=" ++ natDec c.got.length ++ b!"-", ifRange := some (some f.unix) } := by
    unfold Spec.ask
    rw [if_neg hg, h1, hrd]
    rfl
  rw [hask]
  exact ⟨rfl, by simp [rangeOff]⟩

/-- **C158, what resuming a compressed download gives.** A client that has any bytes of the compressed answer asks for the rest behind
them. If they are fewer than the file has, it gets the compressed form of the rest of the *file* behind that many bytes; if they are as many, it
takes its download for complete; if they are more, it gets nothing, and it has not completed. -/
theorem C158_gzip_exact (hC : C.Lawful) {N : Net} (hN : Spec.Reads N) {S : Site} {rd : Str → Option Nat} (hrd : ∀ t, rd (N.date t) = some t)
    {path accept : Str} (hz : Spec.Zipped S accept) {d : Disk} {f : File} (hs : Spec.Serves S d b!"GET" path f) (c : Spec.Dl)
    (hg : c.got ≠ []) (hl : c.got.length < 2 ^ 63) (h1 : c.stamp = N.date f.unix) (k : Option Nat) :
    (c.got.length < f.data.length → ∃ stream, C.decode stream = some (f.data.drop c.got.length) ∧
      Spec.step c (respond C N S d (Spec.ask rd path accept c)) k = ⟨c.got ++ Spec.arrives stream k, c.stamp, k.isNone⟩) ∧
    (c.got.length = f.data.length → Spec.step c (respond C N S d (Spec.ask rd path accept c)) k = ⟨c.got, c.stamp, true⟩) ∧
    (f.data.length < c.got.length → Spec.step c (respond C N S d (Spec.ask rd path accept c)) k = ⟨c.got, c.stamp, false⟩) := by
  have hm := ask_method rd path accept c
  have hs' : Spec.Serves S d (Spec.ask rd path accept c).method (Spec.ask rd path accept c).path f := by rw [hm.1, hm.2.1]; exact hs
  have he : S.enc (Spec.ask rd path accept c) = true := (enc_iff _ _).2 (by rw [hm.2.2.1]; exact hz)
  have hp := ask_part hrd path accept hg h1
  have a := rest_answer hC hN hm.1 hs' (ask_fresh rd path accept c f) hl hp.1 hp.2
  refine ⟨fun h => ?_, fun h => ?_, fun h => ?_⟩
  · obtain ⟨a1, -, -, a4⟩ := a.2 h
    refine ⟨_, (a4 he).2, ?_⟩
    unfold Spec.step
    rw [a1, if_neg (by decide), if_pos rfl]
  · obtain ⟨a1, a2⟩ := a.1 (by omega)
    unfold Spec.step
    rw [a1, if_neg (by decide), if_neg (by decide), if_pos rfl, a2, h]
    simp
  · obtain ⟨a1, a2⟩ := a.1 (by omega)
    unfold Spec.step
    rw [a1, if_neg (by decide), if_neg (by decide), if_pos rfl, a2]
    have : (b!"bytes */" ++ natDec f.data.length = b!"bytes */" ++ natDec c.got.length) = False := by
      simp only [List.append_cancel_left_eq, eq_iff_iff, iff_false]
      intro h'
      have := natDec_inj h'
      omega
    simp only [this, decide_false]

/-- **C158 is false for compressed answers**: once a client has received more bytes than the file has, no attempt gives it anything more,
although its download is not complete. -/
theorem C158_gzip_stuck_violated (hC : C.Lawful) {N : Net} (hN : Spec.Reads N) {S : Site} {rd : Str → Option Nat}
    (hrd : ∀ t, rd (N.date t) = some t) {path accept : Str} (hz : Spec.Zipped S accept) {d : Disk} {f : File}
    (hs : Spec.Serves S d b!"GET" path f) (c : Spec.Dl) (hg : f.data.length < c.got.length) (hl : c.got.length < 2 ^ 63)
    (h1 : c.stamp = N.date f.unix) (hd : c.done = false) (ks : List (Option Nat)) :
    Spec.download C N S rd path accept (ks.map fun k => (d, k)) c = c := by
  induction ks with
  | nil => rfl
  | cons k ks ih =>
    have hne : c.got ≠ [] := fun h => by rw [h] at hg; exact absurd hg (by simp)
    have := (C158_gzip_exact hC hN hrd hz hs c hne hl h1 k).2.2 hg
    have e : (⟨c.got, c.stamp, false⟩ : Spec.Dl) = c := by rw [← hd]
    show Spec.download C N S rd path accept (ks.map fun k => (d, k)) (Spec.step c (respond C N S d (Spec.ask rd path accept c)) k) = c
    rw [this, e]
    exact ih

/-- **C158 is false for files of the same second**: the client puts together the first bytes of one and the rest of the other. -/
theorem C158_same_second_violated (hC : C.Lawful) {N : Net} (hN : Spec.Reads N) {S : Site} {rd : Str → Option Nat}
    (hrd : ∀ t, rd (N.date t) = some t) {path accept : Str} (hz : ¬ Spec.Zipped S accept) {d d' : Disk} {f f' : File}
    (hs : Spec.Serves S d b!"GET" path f) (hs' : Spec.Serves S d' b!"GET" path f') (h0 : f.mtime ≠ 0) (hu : f.unix = f'.unix) (k : Nat)
    (hk : 0 < k) (hkf : k ≤ f.data.length) (hkf' : k < f'.data.length) (hl : k < 2 ^ 63) :
    Spec.download C N S rd path accept [(d, some k), (d', none)] {} = ⟨f.data.take k ++ f'.data.drop k, N.date f.unix, true⟩ := by
  have hze : ∀ c, S.enc (Spec.ask rd path accept c) = false := fun c => by
    cases h : S.enc (Spec.ask rd path accept c) with
    | false => rfl
    | true => exact absurd ((enc_iff _ _).1 h) (by rw [(ask_method rd path accept c).2.2.1]; exact hz)
  have e1 : Spec.step {} (respond C N S d (Spec.ask rd path accept {})) (some k) = ⟨f.data.take k, N.date f.unix, false⟩ := by
    have hm := ask_method rd path accept {}
    have a := full_answer (C := C) hC hN hm.1 (by rw [hm.1, hm.2.1]; exact hs) (ask_fresh rd path accept {} f) (by simp [Spec.ask])
    unfold Spec.step
    rw [if_pos a.1, (a.2.2.2.1 (hze _)).1, a.2.1 h0]
    rfl
  have hlen : (f.data.take k).length = k := by rw [List.length_take]; omega
  have hne : f.data.take k ≠ [] := fun h => by rw [h] at hlen; simp at hlen; omega
  have e2 : Spec.step ⟨f.data.take k, N.date f.unix, false⟩ (respond C N S d' (Spec.ask rd path accept ⟨f.data.take k, N.date f.unix, false⟩)) none =
      ⟨f.data.take k ++ f'.data.drop k, N.date f.unix, true⟩ := by
    have hm := ask_method rd path accept ⟨f.data.take k, N.date f.unix, false⟩
    have hp := ask_part (c := ⟨f.data.take k, N.date f.unix, false⟩) hrd path accept hne (f := f') (by rw [hu])
    have a := rest_answer (C := C) hC hN hm.1 (by rw [hm.1, hm.2.1]; exact hs') (ask_fresh rd path accept _ f') (k := k) hl (by rw [hp.1]; simp only [hlen]) hp.2
    obtain ⟨a1, -, a3, -⟩ := a.2 hkf'
    unfold Spec.step
    rw [a1, if_neg (by decide), if_pos rfl, (a3 (hze _)).1]
    rfl
  show Spec.step (Spec.step {} (respond C N S d (Spec.ask rd path accept {})) (some k)) _ none = _
  rw [e1, e2]

/-! ## C159: cached copies -/

theorem visit_parts (rd : Str → Option Nat) (path accept : Str) (c : Option Spec.Copy) :
    (Spec.visit rd path accept c).method = b!"GET" ∧ (Spec.visit rd path accept c).path = path ∧ (Spec.visit rd path accept c).accept = accept ∧
    (Spec.visit rd path accept c).range = [] ∧ (Spec.visit rd path accept c).ifModifiedSince = c.bind fun c => rd c.stamp :=
  ⟨rfl, rfl, rfl, rfl, rfl⟩

/-- The answer 304. -/
theorem not_modified_answer (hC : C.Lawful) {N : Net} {S : Site} {d : Disk} {r : Req} {f : File}
    (hf : Spec.Serves S d r.method r.path f) (hm : notModified r f = true) : Spec.status (respond C N S d r) = some 304 := by
  obtain ⟨name, hn⟩ := ops_serves (N := N) hf
  have e : ops N S (S.enc r) d r = shape (lmSets N f ++ [(b!"Content-Type", []), (b!"Content-Length", [])]) 304 [] := by
    rw [hn]
    unfold serveContent shape
    rw [hm, if_pos rfl, lastModified_eq]
    simp
  exact (respond_out hC (by decide) e).1

/-- **C159, what a visit shows exactly.** A client with a copy that asks for changes since the copy's date is shown the copy if the file has
a time and its second is not after that date, otherwise the contents of the file; without a copy, or with one that came without a date, the contents. (An
empty file that is compressed is not shown: see C21.) -/
theorem C159_exact (hC : C.Lawful) {N : Net} (hN : Spec.Reads N) {S : Site} {rd : Str → Option Nat} {path accept : Str} {d : Disk} {f : File}
    (hs : Spec.Serves S d b!"GET" path f) (hz : Spec.Zipped S accept → f.data ≠ []) (c : Option Spec.Copy) :
    (∀ x t, c = some x → rd x.stamp = some t → f.mtime ≠ 0 → f.unix ≤ t →
      Spec.shows c (respond C N S d (Spec.visit rd path accept c)) = (some x.data, some x)) ∧
    ((∀ x t, c = some x → rd x.stamp = some t → f.mtime = 0 ∨ t < f.unix) →
      Spec.shows c (respond C N S d (Spec.visit rd path accept c)) =
        (some f.data, some ⟨f.data, if f.mtime = 0 then [] else N.date f.unix⟩)) := by
  have hm := visit_parts rd path accept c
  have hs' : Spec.Serves S d (Spec.visit rd path accept c).method (Spec.visit rd path accept c).path f := by rw [hm.1, hm.2.1]; exact hs
  refine ⟨fun x t hx ht h0 hle => ?_, fun h => ?_⟩
  · have hn : notModified (Spec.visit rd path accept c) f = true := by
      unfold notModified
      rw [hm.1, hm.2.2.2.2, hx]
      simp [ht, h0, hle, reads]
    unfold Spec.shows
    rw [not_modified_answer hC hs' hn, if_neg (by decide), if_pos rfl, hx]
    rfl
  · have hn : notModified (Spec.visit rd path accept c) f = false := by
      unfold notModified
      rw [hm.2.2.2.2]
      cases hc : c with
      | none => simp
      | some x =>
        simp only [Option.bind_some]
        cases ht : rd x.stamp with
        | none => simp
        | some t =>
          rcases h x t hc ht with h | h
          · simp [h]
          · simp [Nat.not_le.2 h]
    have a := full_answer hC hN hm.1 hs' hn (by rw [hm.2.2.2.1]; simp)
    have hlm : Spec.header (respond C N S d (Spec.visit rd path accept c)) b!"Last-Modified" = if f.mtime = 0 then [] else N.date f.unix := by
      split
      · rename_i h0; exact a.2.2.1 h0
      · rename_i h0; exact a.2.1 h0
    have hcont : Spec.contents (respond C N S d (Spec.visit rd path accept c)) = some f.data := by
      unfold Spec.contents
      cases he : S.enc (Spec.visit rd path accept c) with
      | false =>
        obtain ⟨b1, b2⟩ := a.2.2.2.1 he
        rw [b2, if_neg (by decide), b1]
      | true =>
        obtain ⟨b1, -, b3⟩ := a.2.2.2.2 he
        rw [b1, if_pos rfl]
        exact b3 (hz ((enc_iff _ _).1 he))
    unfold Spec.shows
    rw [if_pos a.1, hcont, hlm]
    rfl

/-- A missing file. -/
theorem miss_answer (hC : C.Lawful) {N : Net} {S : Site} {d : Disk} {r : Req} (hf : Spec.Misses S d r.method r.path) :
    ops N S (S.enc r) d r = shape [(b!"Content-Type", b!"text/plain; charset=utf-8"), (b!"X-Content-Type-Options", b!"nosniff")] 404
      [b!"404 page not found" ++ b!"\n"] ∧ Spec.status (respond C N S d r) = some 404 := by
  have e : ops N S (S.enc r) d r = shape [(b!"Content-Type", b!"text/plain; charset=utf-8"), (b!"X-Content-Type-Options", b!"nosniff")] 404
      [b!"404 page not found" ++ b!"\n"] := by rw [ops_misses hf]; rfl
  exact ⟨e, (respond_out hC (by decide) e).1⟩

/-- A visit: the files the server has then, and the one that is served, if any. -/
structure Spec.Visit where
  disk : Disk
  file : Option File

/-- What the visits find: at each the path is served by that file, not an empty one if the answer is compressed, or names nothing. -/
structure Spec.Visited (S : Site) (path accept : Str) (l : List Spec.Visit) : Prop where
  served : ∀ v ∈ l, ∀ f, v.file = some f → Spec.Serves S v.disk b!"GET" path f ∧ (Spec.Zipped S accept → f.data ≠ [])
  missed : ∀ v ∈ l, v.file = none → Spec.Misses S v.disk b!"GET" path

/-- A changed file has a later second. -/
def Spec.Later (v v' : Spec.Visit) : Prop :=
  ∀ f f', v.file = some f → v'.file = some f' → f.data ≠ f'.data → f'.mtime = 0 ∨ f.unix < f'.unix

theorem visits_ok (hC : C.Lawful) {N : Net} (hN : Spec.Reads N) {S : Site} {rd : Str → Option Nat} (hrd : ∀ t, rd (N.date t) = some t)
    (hrd0 : rd [] = none) {path accept : Str} : ∀ (l : List Spec.Visit), Spec.Visited S path accept l → l.Pairwise Spec.Later →
    ∀ (c : Option Spec.Copy) (hc : ∀ x, c = some x → ∃ f : File, x = ⟨f.data, if f.mtime = 0 then [] else N.date f.unix⟩ ∧
      ∀ v ∈ l, ∀ f', v.file = some f' → f.data ≠ f'.data → f'.mtime = 0 ∨ f.unix < f'.unix),
    Spec.visits C N S rd path accept (l.map (·.disk)) c = l.map fun v => v.file.map (·.data)
  | [], _, _, _, _ => rfl
  | v :: l, h, hp, c, hc => by
    have hl : Spec.Visited S path accept l := ⟨fun v hv => h.served v (by simp [hv]), fun v hv => h.missed v (by simp [hv])⟩
    obtain ⟨hp1, hp2⟩ := List.pairwise_cons.1 hp
    have hm := visit_parts rd path accept c
    have goal : ∀ out, Spec.shows c (respond C N S v.disk (Spec.visit rd path accept c)) = out → out.1 = v.file.map (·.data) →
        (∀ x, out.2 = some x → ∃ f : File, x = ⟨f.data, if f.mtime = 0 then [] else N.date f.unix⟩ ∧
          ∀ v ∈ l, ∀ f', v.file = some f' → f.data ≠ f'.data → f'.mtime = 0 ∨ f.unix < f'.unix) →
        Spec.visits C N S rd path accept ((v :: l).map (·.disk)) c = (v :: l).map fun v => v.file.map (·.data) := by
      intro out h1 h2 h3
      show (Spec.shows c (respond C N S v.disk (Spec.visit rd path accept c))).1 ::
        Spec.visits C N S rd path accept (l.map (·.disk)) (Spec.shows c (respond C N S v.disk (Spec.visit rd path accept c))).2 = _
      rw [h1, h2, visits_ok hC hN hrd hrd0 l hl hp2 out.2 h3]
      rfl
    have hc' : ∀ x, c = some x → ∃ f : File, x = ⟨f.data, if f.mtime = 0 then [] else N.date f.unix⟩ ∧
        ∀ v ∈ l, ∀ f', v.file = some f' → f.data ≠ f'.data → f'.mtime = 0 ∨ f.unix < f'.unix := fun x hx => by
      obtain ⟨f, h1, h2⟩ := hc x hx
      exact ⟨f, h1, fun v hv => h2 v (by simp [hv])⟩
    cases hv : v.file with
    | none =>
      have a := (miss_answer (C := C) (N := N) (r := Spec.visit rd path accept c) hC (h.missed v (by simp) hv)).2
      refine goal (none, c) ?_ (by rw [hv]; rfl) hc'
      unfold Spec.shows
      rw [a, if_neg (by decide), if_neg (by decide)]
    | some f =>
      obtain ⟨hs, hz⟩ := h.served v (by simp) f hv
      have ex := C159_exact hC hN (rd := rd) hs hz c
      by_cases hcase : ∃ x t, c = some x ∧ rd x.stamp = some t ∧ f.mtime ≠ 0 ∧ f.unix ≤ t
      · obtain ⟨x, t, h1, h2, h3, h4⟩ := hcase
        refine goal _ (ex.1 x t h1 h2 h3 h4) ?_ (fun y hy => hc' y (by rw [h1]; exact hy))
        obtain ⟨f0, rfl, h6⟩ := hc x h1
        have ht : f0.unix = t := by
          simp only at h2
          split at h2
          · rw [hrd0] at h2; cases h2
          · rw [hrd] at h2; exact Option.some.inj h2
        rw [hv]
        refine congrArg some ?_
        show f0.data = f.data
        by_cases hd : f0.data = f.data
        · exact hd
        · rcases h6 v (by simp) f hv hd with h | h
          · exact absurd h h3
          · omega
      · refine goal _ (ex.2 fun x t h1 h2 => ?_) (by rw [hv]; rfl) (fun y hy => ?_)
        · by_cases h0 : f.mtime = 0
          · exact .inl h0
          · refine .inr (Nat.lt_of_not_le fun hle => hcase ⟨x, t, h1, h2, h0, hle⟩)
        · refine ⟨f, (Option.some.inj hy).symm, fun w hw f' hf' => hp1 w hw f f' hv hf'⟩

/-- **C159 (in part).** A client that keeps its copy of a file and asks for changes is shown, at every visit, the contents the file has
then, or an error if there is none, whatever happened to the file between the visits. Missing: files that were changed without getting a later
second (`C159_stale_violated`). -/
theorem C159_current_partial (hC : C.Lawful) {N : Net} (hN : Spec.Reads N) {S : Site} {rd : Str → Option Nat} (hrd : ∀ t, rd (N.date t) = some t)
    (hrd0 : rd [] = none) {path accept : Str} (l : List Spec.Visit) (h : Spec.Visited S path accept l) (hp : l.Pairwise Spec.Later) :
    Spec.visits C N S rd path accept (l.map (·.disk)) none = l.map fun v => v.file.map (·.data) :=
  visits_ok hC hN hrd hrd0 l h hp none (fun x hx => by cases hx)

/-- **C159 is false of a file that is replaced by one that is not of a later second** — one changed in the same second, or one put back from
a backup, or the fallback file after the file was deleted: the client is shown the old contents, at every later visit. -/
theorem C159_stale_violated (hC : C.Lawful) {N : Net} (hN : Spec.Reads N) {S : Site} {rd : Str → Option Nat} (hrd : ∀ t, rd (N.date t) = some t)
    {path accept : Str} {d d' : Disk} {f f' : File} (hs : Spec.Serves S d b!"GET" path f) (hz : Spec.Zipped S accept → f.data ≠ [])
    (hs' : Spec.Serves S d' b!"GET" path f') (hz' : Spec.Zipped S accept → f'.data ≠ []) (h0 : f.mtime ≠ 0) (h0' : f'.mtime ≠ 0)
    (hu : f'.unix ≤ f.unix) (n : Nat) :
    Spec.visits C N S rd path accept (d :: List.replicate n d') none = List.replicate (n + 1) (some f.data) := by
  have e1 := (C159_exact (C := C) hC hN (rd := rd) hs hz none).2 (fun x t hx => by cases hx)
  rw [if_neg h0] at e1
  have e2 : ∀ n, Spec.visits C N S rd path accept (List.replicate n d') (some ⟨f.data, N.date f.unix⟩) = List.replicate n (some f.data) := by
    intro n
    induction n with
    | zero => rfl
    | succ n ih =>
      have e := (C159_exact (C := C) hC hN (rd := rd) hs' hz' (some ⟨f.data, N.date f.unix⟩)).1 _ _ rfl (hrd _) h0' hu
      rw [List.replicate_succ, List.replicate_succ]
      show (Spec.shows _ _).1 :: Spec.visits C N S rd path accept (List.replicate n d') (Spec.shows _ _).2 = _
      rw [e, ih]
  show (Spec.shows _ _).1 :: Spec.visits C N S rd path accept (List.replicate n d') (Spec.shows _ _).2 = _
  rw [e1, e2]
  rfl

/-! ## C160: HEAD -/

theorem mine_head {S : Site} {path file : Str} (h : Static.Spec.Mine S.pre S.opt b!"GET" path file) :
    Static.Spec.Mine S.pre S.opt b!"HEAD" path file :=
  ⟨by simp [Static.Spec.methodOk], h.2⟩

theorem serves_head {S : Site} {d : Disk} {path : Str} {f : File} (h : Spec.Serves S d b!"GET" path f) : Spec.Serves S d b!"HEAD" path f := by
  obtain ⟨file, h1, h2⟩ := h
  exact ⟨file, mine_head h1, h2⟩

/-- A header without a comma asks for one range at most. -/
theorem one_range {s : Str} (hs : (44 : UInt8) ∉ s) (size : Nat) (l : List (Nat × Nat)) (h : parseRange s size = .ok l) : l.length ≤ 1 := by
  unfold parseRange at h
  by_cases h0 : s = []
  · rw [if_pos h0] at h
    cases h; simp
  · rw [if_neg h0] at h
    split at h
    · cases h
    · rw [splitOn1_of_not_mem _ _ (fun hm => hs (List.mem_of_mem_drop hm))] at h
      have : ∀ x b, rangesGo size [s.drop 6] = some (x, b) → x.length ≤ 1 := by
        intro x b hx
        unfold rangesGo at hx
        split at hx
        · simp only [rangesGo] at hx; cases hx; simp
        · split at hx
          · cases hx
          · split at hx
            · rename_i h1 h2
              simp only [rangesGo] at h2
              cases h2; cases hx; simp
            · rename_i h1 h2
              simp only [rangesGo] at h2
              cases h2; cases hx; simp
            · cases hx
      split at h
      · cases h
      · cases h
      · rename_i x b hx
        cases h
        exact this _ _ hx

/-- The calls for GET and HEAD. -/
theorem head_shape (N : Net) (enc : Bool) (r : Req) (hr : r.method = b!"GET") (hc : (44 : UInt8) ∉ r.range) (name : Str) (f : File) :
    ∃ sets s ps ps', s ≠ 0 ∧ serveContent N enc r name f = shape sets s ps ∧ serveContent N enc { r with method := b!"HEAD" } name f = shape sets s ps' ∧
      (ps' = [] ∧ s ≠ 416 ∨ ps' = ps ∧ s = 416) ∧
      (ps' ≠ ps → (∀ h : Hdr, setAll sets h b!"Content-Type" = N.ctype name f.data) ∧ (enc = true → ∀ e ∈ sets, e.1 ≠ b!"Content-Length")) := by
  have hn : notModified { r with method := b!"HEAD" } f = notModified r f := by simp [notModified, reads, hr]
  have ho : rangeOff { r with method := b!"HEAD" } f = rangeOff r f := by simp [rangeOff, reads, hr]
  have ct : ∀ (extra : List (Str × Str)) (d : Str), (∀ e ∈ extra, e.1 ≠ b!"Content-Type" ∧ e.1 ≠ b!"Content-Length") →
      (∀ h : Hdr, setAll (sendSets N enc name f extra d) h b!"Content-Type" = N.ctype name f.data) ∧
        (enc = true → ∀ e ∈ sendSets N enc name f extra d, e.1 ≠ b!"Content-Length") := by
    intro extra d hx
    constructor
    · intro h
      unfold sendSets
      rw [setAll_append, setAll_skip _ _ _ (by cases enc <;> simp), setAll_append, setAll_skip _ _ _ (by simp), setAll_append,
        setAll_skip _ _ _ (fun e he => (hx e he).1), setAll_append]
      simp [setAll, Hdr.set]
    · intro he e hm
      unfold sendSets lmSets at hm
      rw [he, if_pos rfl] at hm
      simp only [List.append_nil, List.mem_append, List.mem_singleton] at hm
      rcases hm with (((hm | hm) | hm) | hm)
      · split at hm
        · cases hm
        · rw [List.mem_singleton.1 hm]; simp
      · rw [hm]; simp
      · exact (hx e hm).2
      · rw [hm]; simp
  unfold serveContent
  rw [hn, ho]
  split
  · refine ⟨lmSets N f ++ [(b!"Content-Type", []), (b!"Content-Length", [])], 304, [], [], by decide, ?_, ?_, .inl ⟨rfl, by decide⟩, fun h => absurd rfl h⟩ <;>
      (unfold shape; rw [lastModified_eq]; simp)
  · have hrange : (44 : UInt8) ∉ (if r.range ≠ [] ∧ rangeOff r f = true then [] else r.range) := by
      split
      · simp
      · exact hc
    simp only []
    generalize (if r.range ≠ [] ∧ rangeOff r f = true then [] else r.range) = rg at hrange
    have whole : ∃ sets s ps ps', s ≠ 0 ∧
        lastModified N f ++ [.setHeader b!"Content-Type" (N.ctype name f.data)] ++ send N enc r 200 [] f.data = shape sets s ps ∧
        lastModified N f ++ [.setHeader b!"Content-Type" (N.ctype name f.data)] ++ send N enc { r with method := b!"HEAD" } 200 [] f.data = shape sets s ps' ∧
        (ps' = [] ∧ s ≠ 416 ∨ ps' = ps ∧ s = 416) ∧
        (ps' ≠ ps → (∀ h : Hdr, setAll sets h b!"Content-Type" = N.ctype name f.data) ∧ (enc = true → ∀ e ∈ sets, e.1 ≠ b!"Content-Length")) := by
      refine ⟨_, 200, _, [], by decide, send_shape N enc r name f 200 [] f.data, ?_, .inl ⟨rfl, by decide⟩, fun _ => ct [] f.data (by simp)⟩
      exact send_shape N enc { r with method := b!"HEAD" } name f 200 [] f.data
    unfold sendRanges
    cases hp : parseRange rg f.data.length with
    | bad =>
      exact ⟨_, 416, _, _, by decide, beyond_shape N name f [] _, beyond_shape N name f [] _, .inr ⟨rfl, rfl⟩, fun h => absurd rfl h⟩
    | beyond =>
      exact ⟨_, 416, _, _, by decide, beyond_shape N name f [(b!"Content-Range", _)] _, beyond_shape N name f [(b!"Content-Range", _)] _,
        .inr ⟨rfl, rfl⟩, fun h => absurd rfl h⟩
    | ok l =>
      have hl := one_range hrange _ _ hp
      simp only []
      split
      · exact whole
      · match l, hl with
        | [], _ => exact whole
        | [(a, n)], _ =>
          refine ⟨_, 206, _, [], by decide, send_shape N enc r name f 206 [(b!"Content-Range", _)] _, ?_, .inl ⟨rfl, by decide⟩,
            fun _ => ct _ _ (by simp)⟩
          exact send_shape N enc { r with method := b!"HEAD" } name f 206 [(b!"Content-Range", _)] _
        | _ :: _ :: _, h => simp at h

/-- **C160.** HEAD for a file of the static filter, or for one that does not exist, is answered with the status and exactly the headers that GET
with the same conditions and the same range is answered with, compressed or not, and if that is no error, without a body. -/
theorem C160_head (hC : C.Lawful) {N : Net} (hct : ∀ n x, N.ctype n x ≠ []) {S : Site} {d : Disk} (r : Req) (hr : r.method = b!"GET")
    (hc : (44 : UInt8) ∉ r.range) (h : (∃ f, Spec.Serves S d b!"GET" r.path f) ∨ Spec.Misses S d b!"GET" r.path) :
    Spec.status (respond C N S d { r with method := b!"HEAD" }) = Spec.status (respond C N S d r) ∧
    (∀ k, Spec.header (respond C N S d { r with method := b!"HEAD" }) k = Spec.header (respond C N S d r) k) ∧
    (∀ s, Spec.status (respond C N S d r) = some s → s < 400 → Gz.Spec.body (respond C N S d { r with method := b!"HEAD" }) = []) := by
  have henc : S.enc { r with method := b!"HEAD" } = S.enc r := rfl
  rcases h with ⟨f, hf⟩ | hm
  · obtain ⟨file, hn1, hn2⟩ := hf
    obtain ⟨name, hnn⟩ := ops_found hn2
    have hn : ∀ enc, ops N S enc d r = serveContent N enc r name f := hnn N r rfl (by rw [hr]; exact hn1)
    have hn' : ∀ enc, ops N S enc d { r with method := b!"HEAD" } = serveContent N enc { r with method := b!"HEAD" } name f :=
      hnn N { r with method := b!"HEAD" } rfl (mine_head hn1)
    obtain ⟨sets, s, ps, ps', hs, e1, e2, h3, h4⟩ := head_shape N (S.enc r) r hr hc name f
    have o1 := respond_out (C := C) hC (N := N) (S := S) (d := d) (r := r) hs ((hn _).trans e1)
    have o2 := respond_out (C := C) hC (N := N) (S := S) (d := d) (r := { r with method := b!"HEAD" }) hs ((hn' _).trans e2)
    refine ⟨by rw [o1.1, o2.1], fun k => ?_, fun s' hs' hlt => ?_⟩
    · unfold Spec.header
      rw [o1.2.1, o2.2.1, henc, Option.getD_some, Option.getD_some]
      cases he : S.enc r with
      | false => rfl
      | true =>
        simp only [if_true]
        by_cases hps : ps' = ps
        · rw [hps]
        · obtain ⟨h5, h6⟩ := h4 hps
          have hp' : ps' = [] := h3.elim (fun h => h.1) (fun h => absurd h.1 hps)
          subst hp'
          cases ps with
          | nil => rfl
          | cons p ps =>
            show setAll sets _ k = Gz.Spec.prepared S.detect _ p k
            unfold Gz.Spec.prepared
            split
            · rename_i hk
              rw [hk, setAll_skip _ _ _ (h6 he)]
              rfl
            · rw [if_neg]
              rintro ⟨rfl, h7⟩
              rw [h5] at h7
              exact hct _ _ h7
    · rw [o1.1] at hs'
      obtain rfl := Option.some.inj hs'
      have hp' : ps' = [] := h3.elim (fun h => h.1) (fun h => by omega)
      subst hp'
      cases he : S.enc { r with method := b!"HEAD" } with
      | false => rw [o2.2.2.1 he]; rfl
      | true => exact (o2.2.2.2 he).1 rfl
  · have hm' : Spec.Misses S d b!"HEAD" r.path := by
      obtain ⟨file, h1, h2⟩ := hm
      exact ⟨file, mine_head h1, h2⟩
    obtain ⟨e1, s1⟩ := miss_answer (C := C) (N := N) (r := r) hC (by rw [hr]; exact hm)
    obtain ⟨e2, s2⟩ := miss_answer (C := C) (N := N) (r := { r with method := b!"HEAD" }) hC hm'
    refine ⟨by rw [s1, s2], fun k => ?_, fun s hs hlt => ?_⟩
    · unfold Spec.header
      rw [(respond_out (C := C) hC (by decide) e1).2.1, (respond_out (C := C) hC (by decide) e2).2.1, henc]
    · rw [s1] at hs
      obtain rfl := Option.some.inj hs
      omega

/-! ## Examples -/

namespace Ex

/-- Dates are written as decimal numbers; files are read in pieces of three bytes. -/
def pieces : Nat → Str → List Str
  | 0, _ => []
  | n + 1, s => if s = [] then [] else s.take 3 :: pieces n (s.drop 3)

def net : Net where
  date := natDec
  ctype _ _ := b!"text/plain"
  cut s := pieces s.length s
  multi _ _ := []

def rd (s : Str) : Option Nat := if s = [] then none else some (parseUint 64 s).1

theorem mem2 {α : Type} {a b x : α} (h : x ∈ [a, b]) : x = a ∨ x = b := by simpa using h

theorem pieces_flatten : ∀ (n : Nat) (s : Str), s.length ≤ n → (pieces n s).flatten = s
  | 0, [], _ => rfl
  | n + 1, s, h => by
    unfold pieces
    split
    · rename_i h0; rw [h0]; rfl
    · rename_i h0
      have : 0 < s.length := List.length_pos_iff.2 h0
      rw [List.flatten_cons, pieces_flatten n _ (by rw [List.length_drop]; omega), List.take_append_drop]

theorem net_reads : Spec.Reads net := ⟨fun s => pieces_flatten _ s (Nat.le_refl _), rfl⟩

def site (gz : Bool) : Site where
  gz := gz
  pre := b!"/s"
  root := b!"/srv"
  opt := {}
  detect _ := b!"text/plain"
  redirect _ := [.writeHeader 302]
  rest _ := [.writeHeader 404]

/-- The file `/srv/f`. -/
def disk (f : File) : Disk := fun p => if p = b!"/srv/f" then some (.file f) else none

theorem serves (gz : Bool) (f : File) : Spec.Serves (site gz) (disk f) b!"GET" b!"/s/f" f := by
  have h : (Static.serve (fsOf (disk f)) b!"/s" b!"/srv" {} b!"GET" b!"/s/f") =
      (⟨[b!"/srv/f"], [b!"/srv/f"], [0]⟩, .content b!"/f" 0) := by
    have : fsOf (disk f) = fun p => if p = b!"/srv/f" then some (some false) else none := by
      funext p; unfold fsOf disk; split <;> simp_all
    rw [this]; decide +kernel
  by_cases hm : ∃ file, Static.Spec.Mine b!"/s" {} b!"GET" b!"/s/f" file
  · obtain ⟨file, hf⟩ := hm
    refine ⟨file, hf, .inl ?_⟩
    have h1 := Static.C69_mine_opened (fsOf (disk f)) b!"/s" b!"/srv" {} b!"GET" b!"/s/f" file hf
    rw [h] at h1
    have h2 : Static.Spec.osPath b!"/srv" file = b!"/srv/f" := (Option.some.inj h1).symm
    show disk f (Static.Spec.osPath b!"/srv" file) = _
    rw [h2]
    rfl
  · have := (Static.C69_others_untouched (fsOf (disk f)) b!"/s" b!"/srv" {} b!"GET" b!"/s/f" (fun file hf => hm ⟨file, hf⟩)).1
    rw [h] at this
    cases this

def f1 : File := ⟨5000000000, b!"hello, world"⟩
def f2 : File := ⟨7200000000, b!"another text"⟩
/-- Changed in the second of `f1`. -/
def f3 : File := ⟨5900000000, b!"HELLO, WORLD"⟩

end Ex

open Ex in
/-- **C158, examples.** A download that is broken off after 4 bytes, then after all of the new version's, then resumed; and with gzip (a toy
codec), where one broken off after two bytes is completed to something else, and one broken off after twelve is taken for complete. -/
theorem C158_example :
    Spec.download escCodec net (site true) rd b!"/s/f" b!"br" [(disk f1, some 4), (disk f1, some 3)] {} = ⟨b!"hello, ", b!"5", false⟩ ∧
    Spec.download escCodec net (site true) rd b!"/s/f" b!"br" [(disk f1, some 4), (disk f2, some 50), (disk f2, none)] {} =
      ⟨b!"another text", b!"7", true⟩ ∧
    Spec.download escCodec net (site false) rd b!"/s/f" b!"gzip" [(disk f1, some 5), (disk f3, none)] {} = ⟨b!"hello, WORLD", b!"5", true⟩ := by
  decide +kernel

open Ex in
/-- **C158 is false for compressed answers**: the client takes its download for complete and has a stream of something else, or none. -/
theorem C158_gzip_violated :
    (Spec.download escCodec net (site true) rd b!"/s/f" b!"gzip" [(disk f1, some 2), (disk f1, none)] {}).done = true ∧
    escCodec.decode (Spec.download escCodec net (site true) rd b!"/s/f" b!"gzip" [(disk f1, some 2), (disk f1, none)] {}).got =
      some b!"hllo, world" ∧
    (Spec.download escCodec net (site true) rd b!"/s/f" b!"gzip" [(disk f1, some 12), (disk f1, none)] {}).done = true ∧
    escCodec.decode (Spec.download escCodec net (site true) rd b!"/s/f" b!"gzip" [(disk f1, some 12), (disk f1, none)] {}).got = none := by
  decide +kernel

open Ex in
/-- **C159, examples.** -/
theorem C159_example :
    Spec.visits escCodec net (site true) rd b!"/s/f" b!"gzip" [disk f1, disk f1, fun _ => none, disk f2, disk f1, disk f3] none =
      [some f1.data, some f1.data, none, some f2.data, some f2.data, some f2.data] := by
  decide +kernel

open Ex in
/-- The hypotheses of `C158_resume_partial` and `C159_current_partial` are met. -/
theorem C158_hypotheses : Spec.Dated (site true) b!"/s/f" [⟨disk f1, f1, some 4⟩, ⟨disk f2, f2, none⟩] ∧
    Spec.Visited (site true) b!"/s/f" b!"gzip" [⟨disk f1, some f1⟩, ⟨disk f2, some f2⟩] ∧
    [(⟨disk f1, some f1⟩ : Spec.Visit), ⟨disk f2, some f2⟩].Pairwise Spec.Later := by
  refine ⟨⟨?_, ?_, ?_⟩, ⟨?_, ?_⟩, ?_⟩
  · intro a ha
    rcases mem2 ha with rfl | rfl <;> exact serves true _
  · intro a ha
    rcases mem2 ha with rfl | rfl <;> decide
  · intro a ha a' ha'
    rcases mem2 ha with rfl | rfl <;> rcases mem2 ha' with rfl | rfl <;> decide
  · intro v hv f hf
    rcases mem2 hv with rfl | rfl <;> (cases hf; exact ⟨serves true _, fun _ => by decide⟩)
  · intro v hv hf
    rcases mem2 hv with rfl | rfl <;> cases hf
  · simp only [List.pairwise_cons, List.mem_singleton, forall_eq, List.not_mem_nil, false_implies, implies_true, List.Pairwise.nil, and_true]
    intro f f' h1 h2 _
    cases h1; cases h2
    exact .inr (by decide)

end Verif.Down
