import Verif.Go.Strconv
/-!
# Configuration: the INI parser, lookup, and the file list

Models config/config.go and the file loading of utils/helpers/config.go.

Simplifications, for the whole file:
* Go maps are functions; a configuration with its chain of parents is a list, nearest first;
* the environment is a function from names to values (empty: not set);
* `strings.ToUpper` upper-cases ASCII letters only (environment names);
* the reader returns its bytes and then end-of-file, or an error (`fail`).
-/
namespace Verif.Conf
open Verif.Go

/-- config/config.go:30 `data`: section → key → value. -/
abbrev Data := Str → Option (Str → Option Str)

/-- the empty configuration (config/config.go:35-37 `Global`) -/
def empty : Data := fun _ => none

/-- config/config.go:12 -/
def defaultSection : Str := b!"default"

/-- config/config.go:129-131, 115-117: the empty section name means the default section. -/
def sectionName (section_ : Str) : Str := if section_ = [] then defaultSection else section_

/-- config/config.go:128-144 `setValue`. -/
def setValue (d : Data) (section_ key value : Str) : Data :=
  fun s =>
    if s = sectionName section_ then
      let m := (d s).getD (fun _ => none)
      some (if key = [] then m else fun k => if k = key then some value else m k)
    else d s

/-- config/config.go:302-307: the two parse errors, with the line. -/
inductive PErr where
  | blankSection (line : Str)
  | couldNotParse (line : Str)
  | read
deriving DecidableEq, Repr

/-- Results of code that may panic (out-of-range index or slice) or return an error (config/config.go:155-298). -/
inductive Res (α : Type) where
  | ok (a : α)
  | err (e : PErr)
  | panic

/-- `x >>= f` (the sequencing of statements in config/config.go:155-298). -/
def Res.bind {α β : Type} : Res α → (α → Res β) → Res β
  | .ok a, f => f a
  | .err e, _ => .err e
  | .panic, _ => .panic

/-- `s[i]` (config/config.go:193, 196, 221, 227). -/
def at1 (s : Str) (i : Int) : Res UInt8 :=
  if 0 ≤ i ∧ i < s.length then (match s[i.toNat]? with | some c => .ok c | none => .panic) else .panic

/-- `s[a:b]` (config/config.go:198, 222, 233, 239, 245, 252, 263, 267, 272, 278, 283). -/
def slice (s : Str) (a b : Int) : Res Str :=
  if 0 ≤ a ∧ a ≤ b ∧ b ≤ s.length then .ok ((s.take b.toNat).drop a.toNat) else .panic

/-- `strings.Index(s, sub)`: the first position, or -1 (config/config.go:233). -/
def index (sub : Str) : Str → Int
  | [] => if sub = [] then 0 else -1
  | c :: cs =>
    if sub <+: c :: cs then 0
    else
      let i := index sub cs
      if i < 0 then -1 else i + 1

/-- `strings.LastIndex(s, sub)`: the last position, or -1 (config/config.go:278). -/
def lastIndex (sub : Str) : Str → Int
  | [] => if sub = [] then 0 else -1
  | c :: cs =>
    let i := lastIndex sub cs
    if i < 0 then (if sub <+: c :: cs then 0 else -1) else i + 1

/-- `strings.IndexAny(s, "=:")` (config/config.go:239, 248). -/
def indexSep : Str → Int
  | [] => -1
  | c :: cs =>
    if c = 61 ∨ c = 58 then 0
    else
      let i := indexSep cs
      if i < 0 then -1 else i + 1

/-- The parser's state between lines: config/config.go:166-169 and the data. -/
structure PState where
  data : Data
  section_ : Str
  count : Nat

/-- config/config.go:220-229: the quote the key starts with (`line` is not empty). -/
def keyQuote (line : Str) : Res Str :=
  (at1 line 0).bind fun c =>
    if c = 34 then
      if line.length ≥ 6 then
        (slice line 0 3).bind fun p => .ok (if p = b!"\"\"\"" then b!"\"\"\"" else b!"\"")
      else .ok b!"\""
    else if c = 96 then .ok b!"`"
    else .ok []

/-- config/config.go:231-253: the key and the position of the separator. -/
def keyPart (line : Str) : Res (Str × Int) :=
  (keyQuote line).bind fun q =>
    if q ≠ [] then
      (slice line q.length line.length).bind fun rest =>
        if index q rest = -1 then .err (.couldNotParse line)
        else
          (slice line (index q rest + q.length) line.length).bind fun tail =>
            if indexSep tail ≤ 0 then .err (.couldNotParse line)
            else
              (slice line q.length (index q rest + q.length)).bind fun key =>
                .ok (key, indexSep tail + (index q rest + q.length))
    else if indexSep line ≤ 0 then .err (.couldNotParse line)
    else (slice line 0 (indexSep line)).bind fun k => .ok (trimSpace k, indexSep line)

/-- config/config.go:265-274: the quote the value starts with. -/
def valQuote (r : Str) : Res Str :=
  (if r.length ≥ 2 then slice r 0 1 else .ok []).bind fun firstChar =>
    if firstChar = b!"`" then .ok b!"`"
    else if r.length ≥ 6 then
      (slice r 0 3).bind fun p => .ok (if p = b!"\"\"\"" then b!"\"\"\"" else [])
    else .ok []

/-- config/config.go:276-286: the value (`line` only for the error). -/
def valPart (line r : Str) : Res Str :=
  (valQuote r).bind fun q =>
    if q ≠ [] then
      (slice r q.length r.length).bind fun rest =>
        if lastIndex q rest = -1 then .err (.couldNotParse line)
        else slice r q.length (lastIndex q rest + q.length)
    else .ok (trimSpace r)

/-- config/config.go:211-290: a line that is a key and a value; `-` is an automatic key (256-260). -/
def entryLine (st : PState) (line : Str) : Res PState :=
  (keyPart line).bind fun ki =>
    (slice line (ki.2 + 1) line.length).bind fun right =>
      (valPart line (trimSpace right)).bind fun value =>
        if ki.1 = b!"-" then
          .ok { st with data := setValue st.data st.section_ (35 :: natDec st.count) value,
                        count := st.count + 1 }
        else .ok { st with data := setValue st.data st.section_ ki.1 value }

/-- config/config.go:188-290: one line, already trimmed. -/
def parseLine (st : PState) (line : Str) : Res PState :=
  if line.length = 0 then .ok st
  else
    (at1 line 0).bind fun c =>
      if c = 35 ∨ c = 59 then .ok st
      else
        (at1 line (line.length - 1)).bind fun e =>
          if c = 91 ∧ e = 93 then
            (slice line 1 (line.length - 1)).bind fun inner =>
              if trimSpace inner = [] then .err (.blankSection line)
              else .ok { data := setValue st.data (trimSpace inner) [] [], section_ := trimSpace inner, count := 1 }
          else entryLine st line

/-- config/config.go:171-296: the lines one after another. -/
def parseLines : PState → List Str → Res PState
  | st, [] => .ok st
  | st, l :: ls => (parseLine st (trimSpace l)).bind fun st' => parseLines st' ls

/-- config/config.go:158-164: the byte order mark. -/
def stripBOM (s : Str) : Str := if [239, 187, 191] <+: s then s.drop 3 else s

/-- config/config.go:155-298 `loadFromReader` into `d`: `s` is what the reader delivers, then end of file,
or an error (`fail`), which is returned when it is met. The lines are the pieces between line feeds (a piece
after the last line feed is a line only when it is not blank: an empty line changes nothing). -/
def loadFromReader (d : Data) (s : Str) (fail : Bool) : Res Data :=
  let ls := splitOn1 10 (stripBOM s)
  (parseLines { data := d, section_ := [], count := 1 } (if fail then ls.dropLast else ls)).bind fun st =>
    if fail then .err .read else .ok st.data

/-- config/config.go:66-70 `LoadIniFromReader` -/
def loadIni (s : Str) : Res Data := loadFromReader empty s false

/-- the first position of `::` and what is around it: `strings.SplitN(name, "::", 2)` (config/config.go:90-96). -/
def splitName : Str → Option (Str × Str)
  | [] => none
  | [_] => none
  | c :: d :: cs =>
    if c = 58 ∧ d = 58 then some ([], cs)
    else (splitName (d :: cs)).map (fun p => (c :: p.1, p.2))

/-- config/config.go:89-96: section and key of a name. -/
def sectionKey (name : Str) : Str × Str :=
  match splitName name with
  | some p => p
  | none => ([], name)

/-- config/config.go:326-331 -/
def envByte (c : UInt8) : UInt8 := if c = 46 ∨ c = 45 ∨ c = 58 ∨ c = 32 then 95 else c

/-- config/config.go:333-338 `convertToEnvKey`. -/
def envKey (section_ key : Str) : Str :=
  toUpper (((if section_ = [] then [] else section_ ++ [95]) ++ key).map envByte)

/-- config/config.go:115-125: the value in one file (empty when there is none). -/
def ownValue (d : Data) (section_ key : Str) : Str :=
  ((d (sectionName section_)).bind (fun m => m key)).getD []

/-- config/config.go:88-126 `Find` on a configuration with its parents. -/
def find (env : Str → Str) : List Data → Str → Str
  | [], _ => []
  | d :: parents, name =>
    let sk := sectionKey name
    if sk.2 = [] then []
    else if env (envKey sk.1 sk.2) ≠ [] then env (envKey sk.1 sk.2)
    else if ownValue d sk.1 sk.2 ≠ [] then ownValue d sk.1 sk.2
    else find env parents name

/-- config/config.go:76-86 `ListSection`: nil when the section does not exist. -/
def listSection (d : Data) (section_ : Str) : Option (Str → Option Str) := d section_

/-- utils/helpers/config.go:57-77: the files, in loading order, before removing repeated ones; the flag says
whether it is one of the standard ones. `dirs` are the directories of 51-55 (absolute), `join` is
`filepath.Join`. -/
def fileList (join : Str → Str → Str) (dirs : List Str) (app mode : Str) (add : List Str) : List (Str × Bool) :=
  (dirs.flatMap fun d => [(join d b!"default.ini", true), (join d (b!"default." ++ mode ++ b!".ini"), true)]) ++
  (dirs.flatMap fun d => [(join d (app ++ b!".ini"), true), (join d (app ++ b!"." ++ mode ++ b!".ini"), true)]) ++
  (dirs.flatMap fun d => [(join d b!"override.ini", true), (join d (b!"override." ++ mode ++ b!".ini"), true)]) ++
  add.map (fun f => (f, false))

/-- utils/helpers/config.go:79-98: load the files one after another, each becoming the child of the last one
loaded; a standard file already seen is skipped, a file that cannot be loaded is left out. `load` is what
`LoadIniFile` gives for a path (`none`: an error). -/
def loadChain (load : Str → Option Data) : List (Str × Bool) → List Str → List Data → List Data
  | [], _, last => last
  | (path, standard) :: fs, seen, last =>
    if standard ∧ path ∈ seen then loadChain load fs seen last
    else
      match load path with
      | none => loadChain load fs (path :: seen) last
      | some d => loadChain load fs (path :: seen) (d :: last)

/-- utils/helpers/config.go:46-108 `LoadConfigFiles`, the configuration it returns. -/
def loadConfigFiles (join : Str → Str → Str) (load : Str → Option Data) (dirs : List Str) (app mode : Str)
    (add : List Str) : List Data :=
  match loadChain load (fileList join dirs app mode add) [] [] with
  | [] => [empty]
  | c => c

/-- config.go:61-70: `Find` of the application configuration with an optional default; without a
configuration system the default is not used. -/
def appFind (find? : Option (Str → Str)) (name : Str) (dflt : Option Str) : Str :=
  match find? with
  | none => []
  | some f =>
    match dflt with
    | some d => if f name = [] then d else f name
    | none => f name

end Verif.Conf
