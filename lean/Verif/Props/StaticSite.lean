import Verif.Props.Ranges
/-!
# C166: what the visitor of a static site gets, for every path
-/
namespace Verif.Down
open Verif.Go Verif.Gz

variable {C : Codec}

/-- The answer of an application whose handlers make these calls, behind the gzip filter if there is one. -/
def Spec.answered (C : Codec) (S : Site) (r : Req) (l : List GOp) : GS C :=
  GS.rawWrite (if S.gz then filter S.detect r.accept {} l else l.foldl GS.rawOp {}) []

/-- What there is for a request. -/
inductive Spec.Finds (S : Site) (d : Disk) (r : Req) : Type where
  /-- a file: the one named, the index file of the directory named, or the one for missing files -/
  | file (f : File) (h : Spec.Serves S d r.method r.path f)
  /-- nothing -/
  | nothing (h : Spec.Misses S d r.method r.path)
  /-- a directory, without a slash at the end of the path -/
  | directory (file : Str) (h : Static.Spec.Mine S.pre S.opt r.method r.path file) (hd : d (Static.Spec.osPath S.root file) = some .dir)
      (hs : r.path.getLast? ≠ some 47)
  /-- the request is not for the static filter: other method, other path, or skipped -/
  | elsewhere (h : ∀ file, ¬ Static.Spec.Mine S.pre S.opt r.method r.path file)
  /-- a directory whose index file is a directory -/
  | oddIndex (file : Str) (h : Static.Spec.Mine S.pre S.opt r.method r.path file) (hd : d (Static.Spec.osPath S.root file) = some .dir)
      (hs : r.path.getLast? = some 47) (hi : d (Static.Spec.osPath S.root (file ++ b!"/index.html")) = some .dir)
  /-- nothing, and what is there for missing files is a directory -/
  | oddFallback (file : Str) (h : Static.Spec.Mine S.pre S.opt r.method r.path file) (hd : d (Static.Spec.osPath S.root file) = none)
      (ht : S.opt.tryFilesThen ≠ []) (hi : d (Static.Spec.osPath S.root S.opt.tryFilesThen) = some .dir)

/-- What is answered then. -/
def Spec.Answers (C : Codec) (N : Net) (S : Site) (d : Disk) (r : Req) : Spec.Finds S d r → Prop
  | .file f _ => r.method = b!"GET" → r.range = [] → r.ifModifiedSince = none → Spec.status (respond C N S d r) = some 200 ∧
      (¬ Spec.Zipped S r.accept → Gz.Spec.body (respond C N S d r) = f.data) ∧
      (Spec.Zipped S r.accept → Spec.header (respond C N S d r) b!"Content-Encoding" = b!"gzip" ∧
        (f.data ≠ [] → C.decode (Gz.Spec.body (respond C N S d r)) = some f.data))
  | .nothing _ => Spec.status (respond C N S d r) = some 404
  | .directory .. => respond C N S d r = Spec.answered C S r (S.redirect (r.path ++ b!"/"))
  | .elsewhere _ => respond C N S d r = Spec.answered C S r (S.rest r)
  | .oddIndex .. => respond C N S d r = Spec.answered C S r (S.rest r)
  | .oddFallback .. => Spec.status (respond C N S d r) = some 500

theorem ops_pass {N : Net} {S : Site} {d : Disk} {r : Req} (enc : Bool)
    (e1 : (Static.serve (fsOf d) S.pre S.root S.opt r.method r.path).2 = .pass) : ops N S enc d r = S.rest r := by
  unfold ops
  generalize Static.serve (fsOf d) S.pre S.root S.opt r.method r.path = z at e1
  obtain ⟨st, rep⟩ := z
  dsimp only at e1
  subst e1
  rfl

theorem ops_redirect {N : Net} {S : Site} {d : Disk} {r : Req} {p : Str} (enc : Bool)
    (e1 : (Static.serve (fsOf d) S.pre S.root S.opt r.method r.path).2 = .redirect p) : ops N S enc d r = S.redirect p := by
  unfold ops
  generalize Static.serve (fsOf d) S.pre S.root S.opt r.method r.path = z at e1
  obtain ⟨st, rep⟩ := z
  dsimp only at e1
  subst e1
  rfl

theorem ops_dir {N : Net} {S : Site} {d : Disk} {r : Req} {name p : Str} {h : Nat} (enc : Bool)
    (e1 : (Static.serve (fsOf d) S.pre S.root S.opt r.method r.path).2 = .content name h)
    (e2 : (Static.serve (fsOf d) S.pre S.root S.opt r.method r.path).1.opened[h]? = some p) (e3 : d p = some .dir) :
    ops N S enc d r = httpError 500 b!"seeker can't seek" := by
  unfold ops
  generalize Static.serve (fsOf d) S.pre S.root S.opt r.method r.path = z at e1 e2
  obtain ⟨st, rep⟩ := z
  dsimp only at e1 e2
  subst e1
  simp [e2, e3]

/-- **C166**: for every site, all files and every request there is one of the six, and it is answered accordingly: with the contents of the
file; 404; a redirection to the path with a slash; and a request that is not for the static filter is answered by the rest of the application as if the
filter were not there. -/
theorem C166_answers (hC : C.Lawful) {N : Net} (hN : Spec.Reads N) (S : Site) (d : Disk) (r : Req) (w : Spec.Finds S d r) :
    Spec.Answers C N S d r w := by
  cases w with
  | file f h =>
    intro hm hr hc
    have a := full_answer (C := C) (N := N) hC hN hm h (by simp [notModified, hc]) (by simp [hr])
    refine ⟨a.1, fun hz => ?_, fun hz => ?_⟩
    · refine (a.2.2.2.1 ?_).1
      cases he : S.enc r with
      | false => rfl
      | true => exact absurd ((enc_iff S r).1 he) hz
    · have b := a.2.2.2.2 ((enc_iff S r).2 hz)
      exact ⟨b.1, b.2.2⟩
  | nothing h => exact (miss_answer hC h).2
  | directory file h hd hs =>
    have e := (Static.C75_redirect_iff (fsOf d) S.pre S.root S.opt r.method r.path (r.path ++ b!"/")).2 ⟨rfl, hs, file, h, fsOf_dir hd⟩
    show respond C N S d r = _
    unfold respond Spec.answered
    rw [ops_redirect _ e]
  | elsewhere h =>
    have e := (Static.C69_others_untouched (fsOf d) S.pre S.root S.opt r.method r.path h).1
    show respond C N S d r = _
    unfold respond Spec.answered
    rw [ops_pass _ e]
  | oddIndex file h hd hs hi =>
    have e := (Static.index_answer (fsOf d) S.pre S.root S.opt r.method r.path file h (fsOf_dir hd) hs).2.2 (fsOf_dir hi)
    show respond C N S d r = _
    unfold respond Spec.answered
    rw [ops_pass _ e]
  | oddFallback file h hd ht hi =>
    obtain ⟨e1, e2⟩ := (Static.C75_missing (fsOf d) S.pre S.root S.opt r.method r.path file h (fsOf_none hd)).2 true ht (fsOf_dir hi)
    have e : ops N S (S.enc r) d r = shape [(b!"Content-Type", b!"text/plain; charset=utf-8"), (b!"X-Content-Type-Options", b!"nosniff")] 500
        [b!"seeker can't seek" ++ b!"\n"] := by
      rw [ops_dir _ e1 (by rw [e2]; rfl) hi]; rfl
    exact (respond_out (C := C) hC (by decide) e).1

/-- **C166**: one of the six there is. -/
theorem C166_total (S : Site) (d : Disk) (r : Req) : Nonempty (Spec.Finds S d r) := by
  by_cases hm : ∃ file, Static.Spec.Mine S.pre S.opt r.method r.path file
  · obtain ⟨file, h⟩ := hm
    cases hd : d (Static.Spec.osPath S.root file) with
    | none =>
      cases ht : d (Static.Spec.osPath S.root S.opt.tryFilesThen) with
      | none => exact ⟨.nothing ⟨file, h, .inl ⟨hd, .inr ht⟩⟩⟩
      | some n =>
        by_cases h0 : S.opt.tryFilesThen = []
        · exact ⟨.nothing ⟨file, h, .inl ⟨hd, .inl h0⟩⟩⟩
        · cases n with
          | dir => exact ⟨.oddFallback file h hd h0 ht⟩
          | file f => exact ⟨.file f ⟨file, h, .inr (.inr ⟨hd, h0, ht⟩)⟩⟩
    | some n =>
      cases n with
      | file f => exact ⟨.file f ⟨file, h, .inl hd⟩⟩
      | dir =>
        by_cases hs : r.path.getLast? = some 47
        · cases hi : d (Static.Spec.osPath S.root (file ++ b!"/index.html")) with
          | none => exact ⟨.nothing ⟨file, h, .inr ⟨hd, hs, hi⟩⟩⟩
          | some n =>
            cases n with
            | dir => exact ⟨.oddIndex file h hd hs hi⟩
            | file f => exact ⟨.file f ⟨file, h, .inr (.inl ⟨hd, hs, hi⟩)⟩⟩
        · exact ⟨.directory file h hd hs⟩
  · exact ⟨.elsewhere fun file hf => hm ⟨file, hf⟩⟩

/-! ## Example -/

/-- A directory with an index file. -/
def SiteEx.disk : Disk := fun p =>
  if p = b!"/srv/docs" then some .dir else if p = b!"/srv/docs/index.html" then some (.file Ex.f1) else none

/-- `/s/docs/` is the index file, `/s/docs` is redirected, `/s/x` is missing, `/other` is not the filter's business. -/
theorem C166_example :
    Gz.Spec.body (respond escCodec Ex.net (Ex.site false) SiteEx.disk { method := b!"GET", path := b!"/s/docs/" }) = b!"hello, world" ∧
    Spec.status (respond escCodec Ex.net (Ex.site false) SiteEx.disk { method := b!"GET", path := b!"/s/docs" }) = some 302 ∧
    Spec.status (respond escCodec Ex.net (Ex.site false) SiteEx.disk { method := b!"GET", path := b!"/s/x" }) = some 404 ∧
    respond escCodec Ex.net (Ex.site false) SiteEx.disk { method := b!"GET", path := b!"/other" } =
      Spec.answered escCodec (Ex.site false) { method := b!"GET", path := b!"/other" } [.writeHeader 404] := by
  refine ⟨by decide +kernel, by decide +kernel, by decide +kernel, ?_⟩
  exact C166_answers escCodec_lawful Ex.net_reads (Ex.site false) SiteEx.disk { method := b!"GET", path := b!"/other" } (.elsewhere fun file h => by
    obtain ⟨-, ⟨p, hp, h⟩, -⟩ := h
    have hp := (Static.normal_iff _ _).1 hp
    subst hp
    exact absurd ((Static.strip_iff _ _ _).2 h) (by
      have : Static.stripPrefix (Static.normPrefix (Ex.site false).pre) b!"/other" = none := by decide +kernel
      rw [this]; simp))

end Verif.Down
