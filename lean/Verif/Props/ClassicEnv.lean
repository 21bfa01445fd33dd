import Verif.Model.ClassicEnv
import Verif.Props.Setup
import Verif.Props.ConfigFiles
import Verif.Props.ConfigBind
/-!
# C126: from files and environment to the settings of an application
-/
namespace Verif.Setup
open Verif.Go Verif.Conf
variable {F : Type}

/-! ## Specification -/

/-- The files on the disk: `files p` are the lines of a well-formed file (with or without a byte order mark); where it is
`none` there is no readable file, or one the parser rejects. -/
def Spec.Disk (disk : Str → Option Str) (files : Str → Option (List Conf.Spec.Line)) : Prop :=
  files [] = none ∧ ∀ p, p ≠ [] →
    match files p with
    | none => disk p = none ∨ ∃ s, disk p = some s ∧ ∀ d, loadIni s ≠ .ok d
    | some ls => (∀ l ∈ ls, l.WF) ∧ ∃ s, disk p = some s ∧
        (s = [239, 187, 191] ++ Conf.Spec.render ls ∨ (s = Conf.Spec.render ls ∧ ¬ ([239, 187, 191] : Str) <+: s))

/-- The last value a file assigns to a key of a section; lines before the first header, and no section, are the section
`default`. -/
def Spec.inFile (f : Option (List Conf.Spec.Line)) (sec key : Str) : Str :=
  match f with
  | none => []
  | some ls => (Conf.Spec.value (Conf.Spec.assignments b!"default" 1 ls) (if sec = [] then b!"default" else sec) key).getD []

/-- The names of the files, in the order of their weight: `default`, the application's, `override`, each for every directory
without and with the run mode (a repeated one only the first time); then the additional ones. -/
def Spec.listed (join : Str → Str → Str) (dirs : List Str) (app mode : Str) (add : List Str) : List Str :=
  Conf.Spec.firstOnly (Conf.Spec.standard join dirs app mode) ++ add

/-- How a name is read: the section before the first `::` and the key after it; without one the key of no section. -/
def Spec.Name (n sec key : Str) : Prop :=
  (n = sec ++ 58 :: 58 :: key ∧ ∀ a b, sec ++ [58] ≠ a ++ 58 :: 58 :: b) ∨ (n = key ∧ sec = [] ∧ ∀ a b, key ≠ a ++ 58 :: 58 :: b)

/-- The setting: the environment variable if it is not empty, otherwise the last value in the files that is not empty;
empty if there is none, or no key. -/
def Spec.setting (genv : Str → Str) (files : Str → Option (List Conf.Spec.Line)) (listed : List Str) (sec key : Str) : Str :=
  if key = [] then []
  else if genv (envKey sec key) ≠ [] then genv (envKey sec key)
  else Conf.Spec.lastNonEmpty (listed.map (fun p => Spec.inFile (files p) sec key))

/-! ## Proofs -/

theorem last_filterMap {D : Type} (load : Str → Option D) (g : D → Str) (h : Str → Str) :
    ∀ (l : List Str), (∀ p, (∀ d, load p = some d → g d = h p) ∧ (load p = none → h p = [])) →
      Conf.Spec.lastNonEmpty ((l.filterMap load).map g) = Conf.Spec.lastNonEmpty (l.map h) := by
  intro l hl
  unfold Conf.Spec.lastNonEmpty
  rw [← List.map_reverse, ← List.map_reverse, ← List.filterMap_reverse]
  generalize l.reverse = r
  induction r with
  | nil => rfl
  | cons p r ih =>
    have hp := hl p
    rw [List.filterMap_cons, List.map_cons, List.find?_cons]
    cases e : load p with
    | none =>
      have hp := hp.2 e
      simp only [hp, ne_eq, not_true_eq_false, decide_false]
      exact ih
    | some d =>
      have hp := hp.1 d e
      simp only [List.map_cons, List.find?_cons, hp]
      cases decide (h p ≠ []) with
      | true => rfl
      | false => exact ih

theorem load_inFile (disk : Str → Option Str) (files : Str → Option (List Conf.Spec.Line)) (hd : Spec.Disk disk files)
    (sec key p : Str) :
    (∀ d, loadIniFile disk p = some d → ownValue d sec key = Spec.inFile (files p) sec key) ∧
    (loadIniFile disk p = none → Spec.inFile (files p) sec key = []) := by
  unfold loadIniFile
  by_cases h0 : p = []
  · subst h0
    rw [if_pos rfl, hd.1]
    exact ⟨fun d e => (by cases e; rfl), fun e => (by cases e)⟩
  · rw [if_neg h0]
    have := hd.2 p h0
    cases hf : files p with
    | none =>
      rw [hf] at this
      rcases this with h | ⟨s, h, hl⟩
      · rw [h]; exact ⟨fun d e => (by cases e), fun _ => rfl⟩
      · rw [h]
        simp only
        cases hr : loadIni s with
        | ok d => exact absurd hr (hl d)
        | err e => exact ⟨fun d e => (by cases e), fun _ => rfl⟩
        | panic => exact ⟨fun d e => (by cases e), fun _ => rfl⟩
    | some ls =>
      rw [hf] at this
      obtain ⟨hw, s, h, hs⟩ := this
      obtain ⟨d, h1, h2, _⟩ := C48_round_trip ls hw s hs
      rw [h]
      simp only
      rw [h1]
      refine ⟨fun d' e => ?_, fun e => (by cases e)⟩
      cases e
      simp only [Spec.inFile]
      unfold ownValue sectionName
      rw [← h2]
      rfl

theorem name_split (n sec key : Str) (h : Spec.Name n sec key) : sectionKey n = (sec, key) := by
  rcases h with ⟨rfl, h⟩ | ⟨rfl, rfl, h⟩
  · exact C46_name_with_section sec key h
  · exact C46_name_without_section _ h

theorem find_setting (genv : Str → Str) (join : Str → Str → Str) (disk : Str → Option Str)
    (files : Str → Option (List Conf.Spec.Line)) (hd : Spec.Disk disk files) (dirs : List Str) (app mode : Str) (add : List Str)
    (n sec key : Str) (hn : Spec.Name n sec key) :
    find genv (loadConfigFiles join (loadIniFile disk) dirs app mode add) n =
      Spec.setting genv files (Spec.listed join dirs app mode add) sec key := by
  have hs := name_split n sec key hn
  unfold Spec.setting
  by_cases hk : key = []
  · rw [if_pos hk]
    exact C46_find_no_key _ _ _ (by rw [hs]; exact hk)
  · rw [if_neg hk]
    have := C49_last_file_wins genv join (loadIniFile disk) dirs app mode add n (by rw [hs]; exact hk)
    simp only [hs] at this
    rw [this, last_filterMap (loadIniFile disk) _ (fun p => Spec.inFile (files p) sec key) _
      (load_inFile disk files hd sec key)]
    rfl

theorem configDirs_eq (prog wd : Str) (dir : Option Str) : configDirs prog wd dir = [prog, wd] ++ dir.toList := by
  cases dir <;> rfl

/-- **C126**, the caller's struct: `LoadConfigFiles` does not panic for structs whose tagged fields are exported and of
types that can be bound, and afterwards each field at any depth that has a name and a setting for it holds what its type
reads from the setting; every other field is as before. -/
theorem C126_struct (pf : FloatParser F) (genv : Str → Str) (join : Str → Str → Str) (disk : Str → Option Str)
    (files : Str → Option (List Conf.Spec.Line)) (hd : Spec.Disk disk files) (prog wd : Str) (dir : Option Str) (app : Str)
    (add : List Str) (c : AppConf) (fs : List (Fld F)) (hf : Conf.Spec.Fields fs) :
    ∃ fs', (loadClassicEnv pf genv join disk prog wd dir app add c fs).env = .ok fs' ∧
      (∀ p n sec key, Conf.Spec.nameAt fs p = some n → Spec.Name n sec key →
        Conf.Spec.fieldAt fs' p = (Conf.Spec.fieldAt fs p).map (fun tv => (tv.1,
          if Spec.setting genv files (Spec.listed join ([prog, wd] ++ dir.toList) app c.runMode add) sec key = [] then tv.2
          else Conf.Spec.read pf (Spec.setting genv files (Spec.listed join ([prog, wd] ++ dir.toList) app c.runMode add) sec key)
            tv.2 tv.1))) ∧
      (∀ p, Conf.Spec.nameAt fs p = none → Conf.Spec.fieldAt fs' p = Conf.Spec.fieldAt fs p) := by
  obtain ⟨fs', h⟩ := C50_decode_succeeds pf
    (some (find genv (loadConfigFiles join (loadIniFile disk) (configDirs prog wd dir) app c.runMode add))) fs hf
  refine ⟨fs', h, ?_, ?_⟩
  · intro p n sec key hn hs
    rw [C50_decode_exactly_present pf _ p fs fs' h, hn]
    have e := find_setting genv join disk files hd (configDirs prog wd dir) app c.runMode add n sec key hs
    rw [configDirs_eq] at e ⊢
    rw [← e]
    rfl
  · intro p hn
    rw [C50_decode_exactly_present pf _ p fs fs' h, hn]
    cases Conf.Spec.fieldAt fs p <;> rfl

/-- Every name can be read in exactly one way. -/
theorem C126_names (n : Str) : ∃ sec key, Spec.Name n sec key ∧ ∀ sec' key', Spec.Name n sec' key' → sec' = sec ∧ key' = key := by
  have ex : ∀ n : Str, ∃ sec key, Spec.Name n sec key := by
    intro n
    induction n with
    | nil => exact ⟨[], [], .inr ⟨rfl, rfl, fun a b e => by cases a <;> cases e⟩⟩
    | cons x n ih =>
      cases n with
      | nil =>
        refine ⟨[], [x], .inr ⟨rfl, rfl, fun a b e => ?_⟩⟩
        cases a with
        | nil => cases e
        | cons y a =>
          injection e with _ e
          cases a <;> cases e
      | cons y n =>
        by_cases hxy : x = 58 ∧ y = 58
        · obtain ⟨rfl, rfl⟩ := hxy
          refine ⟨[], n, .inl ⟨rfl, fun a b e => ?_⟩⟩
          cases a with
          | nil => cases e
          | cons z a =>
            injection e with _ e
            cases a <;> cases e
        · obtain ⟨sec, key, h⟩ := ih
          rcases h with ⟨h1, h2⟩ | ⟨h1, rfl, h2⟩
          · refine ⟨x :: sec, key, .inl ⟨by rw [h1]; rfl, fun a b e => ?_⟩⟩
            cases a with
            | nil =>
              simp only [List.nil_append, List.cons_append] at e
              injection e with e1 e
              cases sec with
              | nil =>
                simp only [List.nil_append] at h1
                injection h1 with h1 _
                exact hxy ⟨e1, h1⟩
              | cons z sec =>
                simp only [List.cons_append] at e h1
                injection e with e2 _
                injection h1 with h1 _
                exact hxy ⟨e1, h1.trans e2⟩
            | cons z a =>
              simp only [List.cons_append] at e
              injection e with _ e
              exact h2 a b e
          · refine ⟨[], x :: y :: n, .inr ⟨rfl, rfl, fun a b e => ?_⟩⟩
            cases a with
            | nil =>
              injection e with e1 e
              injection e with e2 _
              exact hxy ⟨e1, e2⟩
            | cons z a =>
              injection e with _ e
              exact h2 a b (h1 ▸ e)
  obtain ⟨sec, key, h⟩ := ex n
  refine ⟨sec, key, h, fun sec' key' h' => ?_⟩
  have a := name_split n sec key h
  rw [name_split n sec' key' h'] at a
  cases a
  exact ⟨rfl, rfl⟩

/-- **C126**, the application: a new application that loads its files has for run path, run mode, address and port what the
environment says, otherwise what the files say, otherwise the default. The names of the files come from the environment's
run mode alone (or `prod`): a run mode set in a file does not select further files. -/
theorem C126_application (pf : FloatParser F) (genv : Str → Str) (root : Str) (join : Str → Str → Str) (disk : Str → Option Str)
    (files : Str → Option (List Conf.Spec.Line)) (hd : Spec.Disk disk files) (prog wd : Str) (dir : Option Str) (app : Str)
    (add : List Str) (fs : List (Fld F)) :
    ∃ c, (loadClassicEnv pf genv join disk prog wd dir app add (newConfig genv root) fs).app = some c ∧
      let listed := Spec.listed join ([prog, wd] ++ dir.toList) app (Spec.firstSet [genv b!"RUN_MODE"] b!"prod") add
      let says := fun key => Conf.Spec.lastNonEmpty (listed.map (fun p => Spec.inFile (files p) [] key))
      c.runPath = Spec.firstSet [genv b!"RUN_PATH", says b!"run_path"] root ∧
      c.runMode = Spec.firstSet [genv b!"RUN_MODE", says b!"run_mode"] b!"prod" ∧
      c.httpAddr = Spec.firstSet [genv b!"HTTP_ADDR", says b!"http_addr"] b!"127.0.0.1" ∧
      c.httpPort = Spec.firstSet [genv b!"HTTP_PORT", says b!"http_port"] b!"3000" := by
  have hm : (newConfig genv root).runMode = Spec.firstSet [genv b!"RUN_MODE"] b!"prod" := rfl
  have hb : ∀ (key : Str) (ev : Str) (d : Str), key ≠ [] → (∀ a b, key ≠ a ++ 58 :: 58 :: b) → envKey [] key = ev →
      bindStr (some (find genv (loadConfigFiles join (loadIniFile disk) (configDirs prog wd dir) app
        (Spec.firstSet [genv b!"RUN_MODE"] b!"prod") add))) (getEnv genv ev d) key =
      some (Spec.firstSet [genv ev, Conf.Spec.lastNonEmpty ((Spec.listed join ([prog, wd] ++ dir.toList) app
        (Spec.firstSet [genv b!"RUN_MODE"] b!"prod") add).map (fun p => Spec.inFile (files p) [] key))] d) := by
    intro key ev d hk hc he
    rw [bindStr_eq]
    have e := find_setting genv join disk files hd (configDirs prog wd dir) app (Spec.firstSet [genv b!"RUN_MODE"] b!"prod") add
      key [] key (.inr ⟨rfl, rfl, hc⟩)
    rw [configDirs_eq] at e ⊢
    simp only [e]
    unfold Spec.setting
    rw [if_neg hk, he]
    unfold getEnv
    generalize Spec.listed join ([prog, wd] ++ dir.toList) app (Spec.firstSet [genv b!"RUN_MODE"] b!"prod") add = L
    simp only [Spec.firstSet]
    by_cases h1 : genv ev = []
    · simp [h1]
    · simp [h1]
  have nocol : ∀ key : Str, (∀ c ∈ key, c ≠ 58) → ∀ a b, key ≠ a ++ 58 :: 58 :: b := by
    intro key h a b e
    exact h 58 (by rw [e]; simp) rfl
  refine ⟨⟨_, _, _, _⟩, ?_, rfl, rfl, rfl, rfl⟩
  show importConfig _ _ = _
  rw [hm]
  unfold importConfig newConfig
  simp only
  rw [hb b!"run_path" b!"RUN_PATH" root (by decide) (nocol _ (by decide)) (by decide),
    hb b!"run_mode" b!"RUN_MODE" b!"prod" (by decide) (nocol _ (by decide)) (by decide),
    hb b!"http_addr" b!"HTTP_ADDR" b!"127.0.0.1" (by decide) (nocol _ (by decide)) (by decide),
    hb b!"http_port" b!"HTTP_PORT" b!"3000" (by decide) (nocol _ (by decide)) (by decide)]
  rfl

/-! ## Example -/

/-- a line `key=value` -/
def Spec.kv (k v : Str) : Conf.Spec.Line := ⟨[], .entry .bare k [] 61 [] .bare v, []⟩

/-- the program's `default.ini` sets run mode and port; `app.dev.ini` and `app.prod.ini` of the working directory set a port of a
data base -/
def Spec.exFiles (p : Str) : Option (List Conf.Spec.Line) :=
  if p = b!"/p/default.ini" then some [Spec.kv b!"run_mode" b!"dev", Spec.kv b!"http_port" b!"80"]
  else if p = b!"/w/app.dev.ini" then some [⟨[], .header [] b!"db" [], []⟩, Spec.kv b!"port" b!"1"]
  else if p = b!"/w/app.prod.ini" then some [⟨[], .header [] b!"db" [], []⟩, Spec.kv b!"port" b!"2"]
  else none

def Spec.exDisk (p : Str) : Option Str := (Spec.exFiles p).map Conf.Spec.render

theorem kv_wf (k v : Str) (h1 : Conf.Spec.KeyWF .bare k) (h2 : Conf.Spec.ValueWF .bare v) : (Spec.kv k v).WF :=
  ⟨fun _ h => absurd h (by simp [Spec.kv]), fun _ h => absurd h (by simp [Spec.kv]), h1, fun _ h => absurd h (by simp), .inl rfl,
    fun _ h => absurd h (by simp), h2⟩

theorem keyWF_of (k : Str) (h : k ≠ [] ∧ 10 ∉ k ∧ (k ≠ [] ∧ spaceLen k = 0 ∧ spaceLenRev k.reverse = 0) ∧ 61 ∉ k ∧ 58 ∉ k ∧
    (k.head? ≠ some 35 ∧ k.head? ≠ some 59 ∧ k.head? ≠ some 34 ∧ k.head? ≠ some 96 ∧ k.head? ≠ some 91)) :
    Conf.Spec.KeyWF .bare k := by
  obtain ⟨a, b, c, d, e, f1, f2, f3, f4, f5⟩ := h
  refine ⟨a, b, c, d, e, fun x hx => ⟨?_, ?_, ?_, ?_, ?_⟩⟩ <;> (rintro rfl; contradiction)

theorem valueWF_of (v : Str) (h : 10 ∉ v ∧ (v ≠ [] ∧ spaceLen v = 0 ∧ spaceLenRev v.reverse = 0) ∧ v.head? ≠ some 96 ∧
    ¬ (b!"\"\"\"" <+: v)) : Conf.Spec.ValueWF .bare v := ⟨h.1, .inr h.2⟩

theorem exDisk_ok : Spec.Disk Spec.exDisk Spec.exFiles := by
  refine ⟨by decide, fun p hp => ?_⟩
  have hdr : (⟨[], .header [] b!"db" [], []⟩ : Conf.Spec.Line).WF :=
    ⟨fun _ h => absurd h (by simp), fun _ h => absurd h (by simp), fun _ h => absurd h (by simp), fun _ h => absurd h (by simp),
      ⟨by decide, by decide +kernel, by decide +kernel⟩, by decide⟩
  unfold Spec.exDisk Spec.exFiles
  by_cases h1 : p = b!"/p/default.ini"
  · simp only [if_pos h1, Option.map_some]
    refine ⟨fun l hl => ?_, _, rfl, .inr ⟨rfl, by decide +kernel⟩⟩
    rcases List.mem_cons.1 hl with rfl | hl
    · exact kv_wf _ _ (keyWF_of _ (by decide +kernel)) (valueWF_of _ (by decide +kernel))
    · rw [List.mem_singleton] at hl
      subst hl
      exact kv_wf _ _ (keyWF_of _ (by decide +kernel)) (valueWF_of _ (by decide +kernel))
  · by_cases h2 : p = b!"/w/app.dev.ini"
    · simp only [if_neg h1, if_pos h2, Option.map_some]
      refine ⟨fun l hl => ?_, _, rfl, .inr ⟨rfl, by decide +kernel⟩⟩
      rcases List.mem_cons.1 hl with rfl | hl
      · exact hdr
      · rw [List.mem_singleton] at hl
        subst hl
        exact kv_wf _ _ (keyWF_of _ (by decide +kernel)) (valueWF_of _ (by decide +kernel))
    · by_cases h3 : p = b!"/w/app.prod.ini"
      · simp only [if_neg h1, if_neg h2, if_pos h3, Option.map_some]
        refine ⟨fun l hl => ?_, _, rfl, .inr ⟨rfl, by decide +kernel⟩⟩
        rcases List.mem_cons.1 hl with rfl | hl
        · exact hdr
        · rw [List.mem_singleton] at hl
          subst hl
          exact kv_wf _ _ (keyWF_of _ (by decide +kernel)) (valueWF_of _ (by decide +kernel))
      · simp only [if_neg h1, if_neg h2, if_neg h3, Option.map_none]
        exact .inl trivial

/-- The run mode `dev` set in a file is the application's run mode, but `app.prod.ini` is the file that was read. -/
theorem C126_mode_in_file :
    (loadClassicEnv Conf.Spec.toyPF (fun _ => []) Conf.Spec.toyJoin Spec.exDisk b!"/p" b!"/w" none b!"app" []
      (newConfig (fun _ => []) b!"/r") []).app = some ⟨b!"/r", b!"dev", b!"127.0.0.1", b!"80"⟩ ∧
    Spec.setting (fun _ => []) Spec.exFiles (Spec.listed Conf.Spec.toyJoin [b!"/p", b!"/w"] b!"app"
      (newConfig (fun _ => []) b!"/r").runMode []) b!"db" b!"port" = b!"2" := by
  decide +kernel

end Verif.Setup
