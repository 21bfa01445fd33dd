import Verif.Go.Path
/-!
# The static file filter: static-serve/static.go

The file system is a parameter: what opening a path yields. `http.NotFound`, `http.Redirect` and `http.ServeContent` are
modelled by tags in the result; logging is left out.
-/
namespace Verif.Static
open Verif.Go

/-- static.go:14-18 `StaticOption` (`AnyMethod`, `TryFilesThen`, `SkipPrefix`). -/
structure Opt where
  anyMethod : Bool := false
  tryFilesThen : Str := []
  skipPrefix : List Str := []

/-- What opening a path yields: `none`, it cannot be opened; `some none`, it can but `Stat` fails; `some (some d)`: a
directory (`d`) or a file (static-serve/static.go:46, 57, 119, 125). -/
abbrev FS := Str → Option (Option Bool)

/-- What the filter writes (static-serve/static.go:77, 114, 148). -/
inductive Reply where
  /-- nothing: the request is passed on -/
  | pass
  | notFound
  /-- 302 to this path (and the request's query) -/
  | redirect (path : Str)
  /-- `http.ServeContent` from the handle, under this name -/
  | content (name : Str) (handle : Nat)
deriving DecidableEq, Repr

/-- The effects of a request so far: the paths it tried to open, those it opened (a handle is an index in this list) and
the handles closed (static-serve/static.go:45-62, 99-148). -/
structure St where
  tried : List Str := []
  opened : List Str := []
  closed : List Nat := []
deriving DecidableEq, Repr

/-- static-serve/static.go:53, 103, 123. -/
def St.close (st : St) (h : Nat) : St := { st with closed := st.closed ++ [h] }

/-- net/http `Dir(root).Open(name)`: opens `filepath.Join(root, path.Clean("/" + name))`; the root is absolute
(static.go:27). Also `f.Stat()` on the result. -/
def openFile (fs : FS) (root name : Str) (st : St) : St × Option (Nat × Option Bool) :=
  match fs (cleanRooted (root ++ 47 :: cleanRooted (47 :: name))) with
  | none => ({ st with tried := st.tried ++ [cleanRooted (root ++ 47 :: cleanRooted (47 :: name))] }, none)
  | some d =>
    ({ st with tried := st.tried ++ [cleanRooted (root ++ 47 :: cleanRooted (47 :: name))],
               opened := st.opened ++ [cleanRooted (root ++ 47 :: cleanRooted (47 :: name))] },
     some (st.opened.length, d))

/-- static.go:45-62 `serveFile`: the handle and whether it is a directory; `none` for an error (the file is closed
then). -/
def serveFile (fs : FS) (root name : Str) (st : St) : St × Option (Nat × Bool) :=
  match openFile fs root name st with
  | (st, none) => (st, none)
  | (st, some (h, none)) => (st.close h, none)
  | (st, some (h, some d)) => (st, some (h, d))

/-- static.go:35-43: the prefix is given a leading '/' and loses its trailing ones (`strings.TrimRight(prefix, "/")`). -/
def trimSlashes (p : Str) : Str := (p.reverse.dropWhile (fun c => c == 47)).reverse

/-- static-serve/static.go:35-43. -/
def normPrefix (p : Str) : Str :=
  match p with
  | [] => []
  | c :: r => trimSlashes (if c ≠ 47 then 47 :: c :: r else c :: r)

/-- static.go:82-91: the file below the prefix; `none` if the request is not under it. -/
def stripPrefix (pre path : Str) : Option Str :=
  if pre ≠ [] then
    if hasPrefix path pre then
      match path.drop pre.length with
      | [] => some []
      | c :: r => if c ≠ 47 then none else some (c :: r)
    else none
  else some path

/-- static.go:118 `path.Join(file, "index.html")`. Simplified: the result is made rooted; `Dir.Open`, which it is passed
to, does the same. -/
def indexFile (file : Str) : Str := cleanRooted (47 :: file ++ b!"/index.html")

/-- static.go:105-129 and 148: `f` is open; `h` its handle. Its deferred `Close` runs last, the one of the index file
before it. -/
def serveOpened (fs : FS) (root path file : Str) (h : Nat) (isDir : Bool) (st : St) : St × Reply :=
  if isDir then
    if !hasSuffix path b!"/" then (st.close h, .redirect (path ++ b!"/"))
    else
      match openFile fs root (indexFile file) st with
      | (st, none) => (st.close h, .notFound)
      | (st, some (h2, none)) => ((st.close h2).close h, .notFound)
      | (st, some (h2, some true)) => ((st.close h2).close h, .pass)
      | (st, some (h2, some false)) => ((st.close h2).close h, .content (indexFile file) h2)
  else (st.close h, .content file h)

/-- static.go:131-148 after an error: `TryFilesThen`; its file is not closed. -/
def tryThen (fs : FS) (root file : Str) (opt : Opt) (st : St) : St × Reply :=
  if opt.tryFilesThen ≠ [] then
    match serveFile fs root opt.tryFilesThen st with
    | (st, none) => (st, .notFound)
    | (st, some (h, _)) => (st, .content file h)
  else (st, .notFound)

/-- static.go:64-149: the filter made by `ServeFilter(prefix, root, opt)` (21-43), for one request. -/
def serve (fs : FS) (pre root : Str) (opt : Opt) (method path : Str) : St × Reply :=
  if !opt.anyMethod && method ≠ b!"GET" && method ≠ b!"HEAD" then ({}, .pass)
  else
    match stripPrefix (normPrefix pre) path with
    | none => ({}, .pass)
    | some file =>
      if opt.skipPrefix.any (fun p => hasPrefix file p) then ({}, .pass)
      else
        match serveFile fs root file {} with
        | (st, none) => tryThen fs root file opt st
        | (st, some (h, d)) => serveOpened fs root path file h d st

end Verif.Static
