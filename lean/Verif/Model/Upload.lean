import Verif.Model.Params
import Verif.Model.ConfigBind
/-!
# Model of the `Params` provider: file uploads, temporary files and JSON bodies (params/params.go)

`ParamsParser` parses the request, and removes the temporary files of the upload in a deferred call, that is
before the injector hands `*Params` to the action. net/http and mime/multipart (of the Go version of go.mod) are modelled by `readForm`.
-/
namespace Verif.Upload
open Verif.Go Verif.Params

/-- The temporary directory: file names (numbers) and contents (params/params.go:69, 276). -/
abbrev Disk := List (Nat × Str)

/-- The contents of a file, if there is one of this name (params/params.go:38, 74). -/
def readFile (d : Disk) (n : Nat) : Option Str := (d.find? (fun e => e.1 = n)).map (fun e => e.2)

/-- `os.Remove` (params/params.go:276, 283). -/
def removeFile (d : Disk) (n : Nat) : Disk := d.filter (fun e => e.1 ≠ n)

/-- A part of a multipart body: its form name, its file name (empty for a plain value) and its contents (params/params.go:69). -/
structure Part where
  name : Str
  filename : Str
  content : Str

/-- `multipart.FileHeader`: the contents, when they were kept in memory, or else the name of the temporary file (params/params.go:37, 74). -/
structure FileHeader where
  filename : Str
  content : Option Str
  tmpfile : Nat

/-- `FileHeader.Open` and reading everything (what an action does with `Params.Files`, params/params.go:37). -/
def openFile (d : Disk) (h : FileHeader) : Option Str :=
  match h.content with
  | some c => some c
  | none => readFile d h.tmpfile

/-- `multipart.Form`, with the entries of its two maps in order of arrival (params/params.go:73-74). -/
structure Form where
  values : List (Str × Str)
  files : List (Str × FileHeader)

/-- `Form.RemoveAll`: the temporary files of all file headers are removed (params/params.go:276, and in `ReadForm` after an error). -/
def removeAll (files : List (Str × FileHeader)) (d : Disk) : Disk :=
  files.foldl (fun d e => if e.2.content = none then removeFile d e.2.tmpfile else d) d

/-- mime/multipart `ReadForm` behind `ParseMultipartForm` (params/params.go:69): `mem` is what is left of the memory for files, `val` what
is left for everything (`maxMemory` and 10 MB more). `create d` is the name of a new temporary file after a complete write, `none` when
creating or writing it failed; `tail` says whether the body ends properly after the parts. Sizes are below 2^63 - 10 MB. -/
def readForm (create : Disk → Option Nat) (tail : Bool) : Int → Int → List Part → Form → Disk → Option Form × Disk
  | _, _, [], f, d => if tail then (some f, d) else (none, removeAll f.files d)
  | mem, val, p :: ps, f, d =>
    if p.name = [] then readForm create tail mem val ps f d
    else if p.filename = [] then
      if val - p.content.length < 0 then (none, removeAll f.files d)
      else readForm create tail mem (val - p.content.length) ps { f with values := f.values ++ [(p.name, p.content)] } d
    else if (p.content.length : Int) > mem then
      match create d with
      | none => (none, removeAll f.files d)
      | some n => readForm create tail mem val ps
          { f with files := f.files ++ [(p.name, { filename := p.filename, content := none, tmpfile := n })] } (d ++ [(n, p.content)])
    else readForm create tail (mem - p.content.length) (val - p.content.length) ps
          { f with files := f.files ++ [(p.name, { filename := p.filename, content := some p.content, tmpfile := 0 })] } d

/-- `10 << 20`, mime/multipart's reserve for values (behind params/params.go:69). -/
def reserve : Int := 10485760

/-- params/params.go:18 `DefaultMaxMemory`. -/
def defaultMaxMemory : Int := 33554432

/-- A request as `ParamsParser` sees it: headers, query and route parameters, and the body: `postForm` is the result of `ParseForm` for a
form body, `parts`/`tail` the parts of a multipart body and whether it ends properly, `wellFormed` whether query and boundary parse.
`create` is the temporary directory's answer while this request is parsed. (params/params.go:245-268) -/
structure Request where
  contentType : Str
  query : Values
  route : Values
  postForm : Option Values
  wellFormed : Bool
  parts : List Part
  tail : Bool
  create : Disk → Option Nat

/-- What the provider returns: `Params.Values` (`none`: nil) and `Params.Files` (params/params.go:27-42). -/
structure Parsed where
  values : Option Values
  files : List (Str × FileHeader)

/-- `url.Values` of the values of a multipart form (params/params.go:73). -/
def formValues (l : List (Str × Str)) : Values := l.foldl (fun m e => appendAt m e.1 [e.2]) []

/-- params/params.go:66-68: the limit `ParseMultipartForm` gets. -/
def effective (maxMemory : Int) : Int := if maxMemory ≤ 0 then defaultMaxMemory else maxMemory

/-- params/params.go:44-81 `ParseParams`, with the temporary files. -/
def parseParams (r : Request) (maxMemory : Int) (d : Disk) : Parsed × Disk :=
  if mediaType r.contentType = b!"multipart/form-data" then
    if r.wellFormed then
      match readForm r.create r.tail (effective maxMemory) (effective maxMemory + reserve) r.parts ⟨[], []⟩ d with
      | (some f, d') => (⟨Params.parseParams r.contentType r.query r.route ⟨r.postForm, some (formValues f.values)⟩, f.files⟩, d')
      | (none, d') => (⟨Params.parseParams r.contentType r.query r.route ⟨r.postForm, none⟩, []⟩, d')
    else (⟨Params.parseParams r.contentType r.query r.route ⟨r.postForm, none⟩, []⟩, d)
  else (⟨Params.parseParams r.contentType r.query r.route ⟨r.postForm, none⟩, []⟩, d)

/-- params/params.go:260-265: the limit kept in the closure, after the request's configuration was asked for `max_memory`. -/
def bindLimit {F : Type} (pf : Conf.FloatParser F) (find? : Option (Str → Str)) (max : Int) : Int :=
  if max = 0 then
    match Conf.bind pf find? (.int .int64) (.int max) b!"max_memory" with
    | .ok (.int v) => if v = 0 then defaultMaxMemory else v
    | _ => defaultMaxMemory
  else max

/-- params/params.go:248-291: one call of the provider: the limit in the closure, the result, and the temporary directory when the action
gets the result, after the deferred cleanup (`tmpFiles` is never filled). -/
def provide {F : Type} (pf : Conf.FloatParser F) (max : Int) (d : Disk) (find? : Option (Str → Str)) (r : Request) : Int × Parsed × Disk :=
  (bindLimit pf find? max, (parseParams r (bindLimit pf find? max) d).1,
    removeAll (parseParams r (bindLimit pf find? max) d).1.files (parseParams r (bindLimit pf find? max) d).2)

/-- The requests of an application, one after the other: the limit in the closure, the directory, and for each request what the provider
returned with the directory its action saw (params/params.go:245-292). -/
def serve {F : Type} (pf : Conf.FloatParser F) : Int → Disk → List (Option (Str → Str) × Request) → List (Int × Parsed × Disk)
  | _, _, [] => []
  | max, d, q :: qs =>
    provide pf max d q.1 q.2 :: serve pf (provide pf max d q.1 q.2).1 (provide pf max d q.1 q.2).2.2 qs

/-! ## Concurrent first requests: the limit in the closure is read and written without a lock -/

/-- Where a request is in params/params.go:260-267: before the test of the limit, before the binding, before the second test, before passing it on;
or it has passed it to `ParseParams`. -/
inductive Pc where
  | start
  | bind
  | fix
  | read
  | used (limit : Int)
deriving DecidableEq, Repr

/-- The limit and the requests (params/params.go:246). -/
structure Shared where
  max : Int
  pcs : List Pc

/-- What `config.Bind(&maxMemory, "max_memory")` writes: nothing, or a number (params/params.go:261, config.go:72-94). -/
def boundLimit (find? : Option (Str → Str)) : Option Int :=
  match find? with
  | none => none
  | some f => if f b!"max_memory" = [] then none else some (Conv.rootStrTo .int64 (f b!"max_memory")).1

/-- One step of a request at `pc`: the limit and its next place (params/params.go:260-267). Reads and writes are atomic. -/
def pcStep (find? : Option (Str → Str)) (max : Int) : Pc → Int × Pc
  | .start => (max, if max = 0 then .bind else .read)
  | .bind => ((boundLimit find?).getD max, .fix)
  | .fix => (if max = 0 then defaultMaxMemory else max, .read)
  | .read => (max, .used max)
  | .used l => (max, .used l)

/-- Any number of requests, in any order of their steps; new requests may arrive (params/params.go:245-267). -/
inductive SharedReach (find? : Option (Str → Str)) : Shared → Prop where
  | init : SharedReach find? ⟨0, []⟩
  | arrive (s : Shared) : SharedReach find? s → SharedReach find? ⟨s.max, s.pcs ++ [.start]⟩
  | step (s : Shared) (i : Nat) (pc : Pc) : SharedReach find? s → s.pcs[i]? = some pc →
      SharedReach find? ⟨(pcStep find? s.max pc).1, s.pcs.set i (pcStep find? s.max pc).2⟩

/-! ## JSON bodies -/

/-- The body of a request while it is read: what is left, and whether reading it fails (params/params.go:99). -/
structure BodyState where
  rest : Str
  broken : Bool

/-- `encoding/json`'s `Decoder.Decode` of the first value of a text into a variable: the variable's new contents and the error text.
(params/params.go:108-112) -/
abbrev Decoder (D : Type) := Bool → Str → D → D × Option Str

/-- params/params.go:98-121 `BindJsonBody`; the result is the error text. -/
def bindJsonBody {D : Type} (dec : Decoder D) (useNumber : List Bool) (b : BodyState) (dest : D) : Option Str × D × BodyState :=
  if b.broken then (some b!"read error", dest, { b with rest := [] })
  else if b.rest = [] then (none, dest, b)
  else match dec (useNumber.headD false) b.rest dest with
    | (v, none) => (none, v, { b with rest := [] })
    | (v, some e) => (some (b!"decode body err: " ++ e ++ b!", " ++ b.rest.take 512), v, { b with rest := [] })

/-- Several calls during one request, each with a variable of its own: their results (params/params.go:98-121). -/
def bindAll {D : Type} (dec : Decoder D) : BodyState → List (List Bool × D) → List (Option Str × D)
  | _, [] => []
  | b, c :: cs => ((bindJsonBody dec c.1 b c.2).1, (bindJsonBody dec c.1 b c.2).2.1) :: bindAll dec (bindJsonBody dec c.1 b c.2).2.2 cs

end Verif.Upload
