import Verif.Model.Config
/-! Opening a configuration: `config.NewConfiger`, `LoadIniFile`, `LoadIniFromReader`, and the text of the parse
errors (config/config.go:39-70, 146-153, 316-324). A reader is what it delivers and whether it then fails instead of
ending; a disk says for each name what opening and reading the file gives. -/
namespace Verif.Conf
open Verif.Go

/-- What a reader delivers: bytes, then end of file (`false`) or an error (`true`) (`io.Reader`,
config/config.go:17, 174-178). -/
abbrev Source := Str × Bool

/-- config/config.go:316-324 `readError.Error` (the reasons not in `PErr` never occur). The text of an error of the
reader is the reader's own and is not modelled: `none`. -/
def PErr.text : PErr → Option Str
  | .blankSection _ => some b!"empty section name not allowed"
  | .couldNotParse line => some (b!"could not parse line: " ++ line)
  | .read => none

/-- What `NewConfiger` gives back: a configuration, or an error. `message` is `none` for an error of the operating
system (opening or reading), whose text is not modelled. -/
inductive Opened where
  | ok (d : Data)
  | error (message : Option Str)
  | panic

/-- The statements `err := …; if err != nil { return nil, err }` of config/config.go:44-56. -/
def opened : Res Data → Opened
  | .ok d => .ok d
  | .err e => .error e.text
  | .panic => .panic

/-- config/config.go:146-153 `loadFile`; `none`: `os.Open` fails. -/
def loadFile (d : Data) : Option Source → Opened
  | none => .error none
  | some s => opened (loadFromReader d s.1 s.2)

/-- config/config.go:44-49: the file of the options, if one is named. -/
def loadNamed (disk : Str → Option Source) (name : Str) : Opened :=
  if name = [] then .ok empty else loadFile empty (disk name)

/-- config/config.go:51-56: the reader of the options, if there is one. -/
def loadReader (reader : Option Source) (d : Data) : Opened :=
  match reader with
  | none => .ok d
  | some s => opened (loadFromReader d s.1 s.2)

/-- config/config.go:39-58 `NewConfiger`: first the file, then the reader, into the same data. -/
def newConfiger (disk : Str → Option Source) (name : Str) (reader : Option Source) : Opened :=
  match loadNamed disk name with
  | .ok d => loadReader reader d
  | e => e

/-- config/config.go:60-64 -/
def loadIniFile (disk : Str → Option Source) (name : Str) : Opened := newConfiger disk name none

/-- config/config.go:66-70 -/
def loadIniFromReader (disk : Str → Option Source) (reader : Option Source) : Opened := newConfiger disk [] reader

end Verif.Conf
