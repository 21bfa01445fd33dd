import Verif.Model.Setup
/-!
# Loading the settings of an application: utils/helpers/config.go:42-108, config/config.go:39-70
-/
namespace Verif.Setup
open Verif.Go Verif.Conf

/-- config/config.go:39-64 `LoadIniFile`: `disk` gives the contents of the files that can be read. An empty name loads
nothing and succeeds (44). -/
def loadIniFile (disk : Str → Option Str) (path : Str) : Option Data :=
  if path = [] then some empty
  else
    match disk path with
    | none => none
    | some s =>
      match loadIni s with
      | .ok d => some d
      | _ => none

/-- What `LoadConfigFiles` leaves: the application's configuration and the caller's struct (or its panic). -/
structure Loaded (F : Type) where
  app : Option AppConf
  env : Res (List (Fld F))

/-- utils/helpers/config.go:51-55: the directories of the program, the working directory and the one given, if any. -/
def configDirs (prog wd : Str) (dir : Option Str) : List Str :=
  match dir with
  | none => [prog, wd]
  | some d => [prog, wd, d]

/-- utils/helpers/config.go:46-108 `LoadConfigFiles` (and `LoadClassicEnv`, 42-44): the files named after the run mode the
application has so far; then `ImportConfig`, then `Decode` into the caller's struct. `genv` is `os.Getenv`; paths are
absolute already; `config.Global` (100-102) is taken to be empty. -/
def loadClassicEnv {F : Type} (pf : FloatParser F) (genv : Str → Str) (join : Str → Str → Str) (disk : Str → Option Str)
    (prog wd : Str) (dir : Option Str) (app : Str) (add : List Str) (c : AppConf) (fs : List (Fld F)) : Loaded F :=
  ⟨importConfig (some (find genv (loadConfigFiles join (loadIniFile disk) (configDirs prog wd dir) app c.runMode add))) c,
    decode pf (some (find genv (loadConfigFiles join (loadIniFile disk) (configDirs prog wd dir) app c.runMode add))) fs⟩

end Verif.Setup
