import Verif.Model.ConfigBind
/-!
# Application configuration (config.go, app.go:58-64, 126-131), command line lists (utils/helpers/config.go:13-40),
session garbage collection (sessions/manager.go:14-46) and the dummy session store (sessions/store_dummy.go)
-/
namespace Verif.Setup
open Verif.Go Verif.Conf

/-! ## The application's configuration -/

/-- config.go:35-42 `Config`, without the imported configuration. -/
structure AppConf where
  runPath : Str
  runMode : Str
  httpAddr : Str
  httpPort : Str
deriving DecidableEq

/-- app_util.go:346-352 `getEnv`; `env` is `os.Getenv` (empty for unset variables). -/
def getEnv (env : Str → Str) (key dflt : Str) : Str := if env key = [] then dflt else env key

/-- config.go:44-59 `newConfig`; `root` is the working directory. -/
def newConfig (env : Str → Str) (root : Str) : AppConf :=
  ⟨getEnv env b!"RUN_PATH" root, getEnv env b!"RUN_MODE" b!"prod", getEnv env b!"HTTP_ADDR" b!"127.0.0.1",
    getEnv env b!"HTTP_PORT" b!"3000"⟩

/-- config.go:72-94: `Bind` of a string variable (`Mode` converts from string), with `Model/ConfigBind.lean`'s `bind`. -/
def bindStr (find? : Option (Str → Str)) (v name : Str) : Option Str :=
  match bind (F := Unit) (fun _ _ => ()) find? .string (.string v) name with
  | .ok (.string s) => some s
  | _ => none

/-- app.go:58-64 `ImportConfig`; `none` would be a panic. `find?` is the imported system (`none`: nil). -/
def importConfig (find? : Option (Str → Str)) (c : AppConf) : Option AppConf :=
  match bindStr find? c.runPath b!"run_path", bindStr find? c.runMode b!"run_mode",
      bindStr find? c.httpAddr b!"http_addr", bindStr find? c.httpPort b!"http_port" with
  | some p, some m, some a, some o => some ⟨p, m, a, o⟩
  | _, _, _, _ => none

/-- app.go:128-130: the address `Run` listens on. -/
def runAddr (c : AppConf) : Str := c.httpAddr ++ b!":" ++ c.httpPort

/-- A sequence of `ImportConfig` calls (app.go:58-64). -/
def imports : List (Option (Str → Str)) → AppConf → Option AppConf
  | [], c => some c
  | f :: fs, c => match importConfig f c with
    | some c => imports fs c
    | none => none

/-! ## SliceValue -/

/-- utils/helpers/config.go:15-23 `Set`. -/
def sliceSet (s : List Str) (v : Str) : List Str :=
  (splitOn1 44 v).foldl (fun s p => if trimSpace p ≠ [] then s ++ [v] else s) s

/-- utils/helpers/config.go:25-27 `String`. -/
def sliceString (s : List Str) : Str := join1 44 s

/-- utils/helpers/config.go:29-40 `Unique`; `m` is the map of the values seen. -/
def uniqueLoop : List Str → List Str → List Str → List Str
  | [], _, v => v
  | p :: s, m, v => if p ∈ m then uniqueLoop s m v else uniqueLoop s (p :: m) (v ++ [p])

/-- utils/helpers/config.go:29-40 `Unique`. -/
def sliceUnique (s : List Str) : List Str := uniqueLoop s [] []

/-! ## Session manager -/

/-- sessions/manager.go:14-23 `NewSessionManager`: whether it panics. -/
def newManagerPanics (secretKey : Str) : Bool := secretKey = []

/-- `time.Minute`, `time.Hour` (sessions/manager.go:31-32). -/
def minute : Int := 60000000000
/-- `time.Hour` (sessions/manager.go:32). -/
def hour : Int := 60 * minute

/-- sessions/manager.go:25-34: the interval of a `GC` call. -/
def gcInterval : List Int → Int
  | [] => 0
  | d :: _ => if d < minute then hour else d

/-- sessions/manager.go:25-46 `GC`: the time of collection `n` when `GC(intervals...)` is called at `t`; `late k ≥ 0` is how
long collection `k` took plus how late its timer fired. An error of a collection is only printed (:38-40). -/
def gcTime (late : Nat → Int) : List Int → Nat → Int → Nat → Int
  | _, _, t, 0 => t
  | is, k, t, n + 1 => gcTime late [gcInterval is] (k + 1) (t + late k + gcInterval is) n

/-! ## The dummy session store -/

variable {V : Type}

/-- A map value (sessions/store_dummy.go:9). -/
abbrev MapV (V : Type) := Str → Option V

/-- `make(map[string]interface{})` (sessions/store_dummy.go:54). -/
def emptyMap : MapV V := fun _ => none

/-- assignment and deletion in a map (sessions/store_dummy.go:24, 36). -/
def upd (m : MapV V) (k : Str) (v : Option V) : MapV V := fun x => if x = k then v else m x

/-- sessions/store_dummy.go:7-13 `dummyStore`; `values` is the address of a map. -/
structure Dummy where
  sid : Str
  values : Nat
  changed : Bool
  closed : Bool

/-- The maps of the program and the store (sessions/store_dummy.go:9). -/
structure World (V : Type) where
  heap : List (MapV V)
  store : Dummy

/-- sessions/store_dummy.go:82-93 `NewDummySessionStore`; `values` is the address of the caller's map, `none` for nil. -/
def newDummy (heap : List (MapV V)) (sid : Str) (values : Option Nat) : World V :=
  match values with
  | some a => ⟨heap, ⟨sid, a, false, false⟩⟩
  | none => ⟨heap ++ [emptyMap], ⟨sid, heap.length, true, false⟩⟩

/-- What the program does: calls on the store, and changes of the map the store was made with.
(sessions/store_dummy.go:22-80). -/
inductive DOp (V : Type) where
  | set (k : Str) (v : V)
  | delete (k : Str)
  | clean
  | flush
  | destroy
  | touch
  /-- the caller changes its own map -/
  | own (k : Str) (v : Option V)

/-- sessions/store_dummy.go:22-80, one call; `mine` is the address of the caller's map. -/
def dstep (mine : Nat) (w : World V) : DOp V → World V
  | .set k v => ⟨w.heap.modify w.store.values (upd · k (some v)), { w.store with changed := true }⟩
  | .delete k => ⟨w.heap.modify w.store.values (upd · k none), { w.store with changed := true }⟩
  | .clean => ⟨w.heap ++ [emptyMap], { w.store with changed := true, values := w.heap.length }⟩
  | .flush => if w.store.closed then w else if !w.store.changed then w else ⟨w.heap, { w.store with changed := false }⟩
  | .destroy => ⟨w.heap ++ [emptyMap], { w.store with closed := true, values := w.heap.length }⟩
  | .touch => w
  | .own k v => ⟨w.heap.modify mine (upd · k v), w.store⟩

/-- sessions/store_dummy.go:27-32 `Get`. -/
def World.get (w : World V) (k : Str) : Option V := (w.heap.getD w.store.values emptyMap) k

/-- sessions/store_dummy.go:39-42 `Has`. -/
def World.has (w : World V) (k : Str) : Bool := ((w.heap.getD w.store.values emptyMap) k).isSome

/-- sessions/store_dummy.go:44-50 `Values`: a new map. -/
def World.values (w : World V) : World V × Nat :=
  (⟨w.heap ++ [w.heap.getD w.store.values emptyMap], w.store⟩, w.heap.length)

end Verif.Setup
