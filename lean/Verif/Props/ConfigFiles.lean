import Verif.Props.Config
/-!
# C49: several configuration files
-/
namespace Verif.Conf
open Verif.Go

/-- Keep the first occurrence of each path. -/
def Spec.firstOnly : List Str → List Str
  | [] => []
  | p :: ps => p :: (Spec.firstOnly ps).filter (fun q => q ≠ p)

/-- Paths of the standard files in their documented order: for each of default, application, override, for each
directory, the plain file then the one of the run mode. -/
def Spec.standard (join : Str → Str → Str) (dirs : List Str) (app mode : Str) : List Str :=
  [b!"default", app, b!"override"].flatMap fun base =>
    dirs.flatMap fun d => [join d (base ++ b!".ini"), join d (base ++ b!"." ++ mode ++ b!".ini")]

/-- The last non-empty value. -/
def Spec.lastNonEmpty (vs : List Str) : Str := (vs.reverse.find? (fun v => v ≠ [])).getD []

theorem fileList_eq (join : Str → Str → Str) (dirs : List Str) (app mode : Str) (add : List Str) :
    fileList join dirs app mode add =
      (Spec.standard join dirs app mode).map (fun p => (p, true)) ++ add.map (fun p => (p, false)) := by
  simp [fileList, Spec.standard, List.map_flatMap]

theorem loadChain_added (load : Str → Option Data) (add : List Str) (seen : List Str) (last : List Data) :
    loadChain load (add.map (fun p => (p, false))) seen last = (add.filterMap load).reverse ++ last := by
  induction add generalizing seen last with
  | nil => rfl
  | cons p ps ih =>
    simp only [List.map_cons, loadChain, Bool.false_eq_true, false_and, if_false]
    cases h : load p with
    | none => simp [ih, h]
    | some d => simp [ih, h]

theorem filter_firstOnly (ps : List Str) (p : Str) (s : Str → Bool) :
    ((Spec.firstOnly ps).filter (fun q => q ≠ p)).filter s = (Spec.firstOnly ps).filter (fun q => s q && decide (q ≠ p)) := by
  rw [List.filter_filter]

theorem loadChain_standard (load : Str → Option Data) (ps : List Str) (tail : List (Str × Bool)) (seen : List Str)
    (last : List Data) :
    ∃ seen', loadChain load (ps.map (fun p => (p, true)) ++ tail) seen last =
      loadChain load tail seen'
        ((((Spec.firstOnly ps).filter (fun q => q ∉ seen)).filterMap load).reverse ++ last) := by
  induction ps generalizing seen last with
  | nil => exact ⟨seen, rfl⟩
  | cons p ps ih =>
    by_cases hp : p ∈ seen
    · obtain ⟨s', h⟩ := ih seen last
      refine ⟨s', ?_⟩
      simp only [List.map_cons, List.cons_append, loadChain]
      rw [if_pos ⟨trivial, hp⟩, h]
      simp only [Spec.firstOnly]
      rw [List.filter_cons_of_neg (by simp [hp]), List.filter_filter]
      congr 4
      refine List.filter_congr fun q _ => ?_
      by_cases hq : q ∈ seen
      · simp [hq]
      · have : q ≠ p := fun e => hq (e ▸ hp)
        simp [hq, this]
    · have hf : ((Spec.firstOnly (p :: ps)).filter (fun q => q ∉ seen)) =
          p :: (Spec.firstOnly ps).filter (fun q => q ∉ p :: seen) := by
        simp only [Spec.firstOnly]
        rw [List.filter_cons_of_pos (by simp [hp]), List.filter_filter]
        congr 1
        refine List.filter_congr fun q _ => ?_
        by_cases hq : q = p <;> by_cases hs : q ∈ seen <;> simp [hq, hs]
      rw [hf]
      simp only [List.map_cons, List.cons_append, loadChain]
      rw [if_neg (by simp [hp])]
      cases h : load p with
      | none =>
        obtain ⟨s', e⟩ := ih (p :: seen) last
        exact ⟨s', by simp only [e]; simp [h]⟩
      | some d =>
        obtain ⟨s', e⟩ := ih (p :: seen) (d :: last)
        exact ⟨s', by simp only [e]; simp [h]⟩

/-- The configuration consists of the loadable files, last one first: the standard files without repetitions
(first position kept), then every additional file. -/
theorem loadChain_eq (join : Str → Str → Str) (load : Str → Option Data) (dirs : List Str) (app mode : Str)
    (add : List Str) :
    loadChain load (fileList join dirs app mode add) [] [] =
      ((Spec.firstOnly (Spec.standard join dirs app mode) ++ add).filterMap load).reverse := by
  rw [fileList_eq]
  obtain ⟨s', e⟩ := loadChain_standard load (Spec.standard join dirs app mode)
    (add.map (fun p => (p, false))) [] []
  rw [e, loadChain_added, List.filter_eq_self.2 (by simp)]
  simp

/-- **C49**, for any directories: each name has the value of the environment when that is not empty, and otherwise
of the last file (standard files in order without repetitions, then the additional ones) that gives it a
non-empty value; files that cannot be loaded are skipped. -/
theorem C49_last_file_wins (env : Str → Str) (join : Str → Str → Str) (load : Str → Option Data)
    (dirs : List Str) (app mode : Str) (add : List Str) (name : Str) (hk : (sectionKey name).2 ≠ []) :
    let s := (sectionKey name).1
    let k := (sectionKey name).2
    find env (loadConfigFiles join load dirs app mode add) name =
      if env (envKey s k) ≠ [] then env (envKey s k)
      else Spec.lastNonEmpty
        (((Spec.firstOnly (Spec.standard join dirs app mode) ++ add).filterMap load).map (fun d => ownValue d s k)) := by
  intro s k
  unfold loadConfigFiles
  have e := loadChain_eq join load dirs app mode add
  cases h : loadChain load (fileList join dirs app mode add) [] [] with
  | nil =>
    rw [h] at e
    have := C46_find_precedence env empty [] name hk
    simp only at this ⊢
    rw [this]
    have he : (Spec.firstOnly (Spec.standard join dirs app mode) ++ add).filterMap load = [] :=
      List.reverse_eq_nil_iff.1 e.symm
    rw [he]
    rfl
  | cons d c =>
    rw [h] at e
    have := C46_find_precedence env d c name hk
    simp only at this ⊢
    rw [this, e, List.map_reverse]
    rfl

theorem firstOnly_nodup (ps : List Str) (h : ps.Nodup) : Spec.firstOnly ps = ps := by
  induction ps with
  | nil => rfl
  | cons p ps ih =>
    rw [List.nodup_cons] at h
    simp only [Spec.firstOnly, ih h.2]
    rw [List.filter_eq_self.2]
    intro q hq
    have : q ≠ p := fun e => h.1 (e ▸ hq)
    simpa using this

/-- **C49** as documented: when the directories give different paths, later files override earlier ones in the
full list, with nothing removed from it. -/
theorem C49_documented_order (env : Str → Str) (join : Str → Str → Str) (load : Str → Option Data)
    (dirs : List Str) (app mode : Str) (add : List Str) (name : Str) (hk : (sectionKey name).2 ≠ [])
    (hn : (Spec.standard join dirs app mode).Nodup)
    (he : env (envKey (sectionKey name).1 (sectionKey name).2) = []) :
    find env (loadConfigFiles join load dirs app mode add) name =
      Spec.lastNonEmpty (((Spec.standard join dirs app mode ++ add).filterMap load).map
        (fun d => ownValue d (sectionKey name).1 (sectionKey name).2)) := by
  have := C49_last_file_wins env join load dirs app mode add name hk
  simp only at this
  rw [this, if_neg (by simpa using he), firstOnly_nodup _ hn]

/-- **C49**: what the last additional file says (non-empty) is what counts. -/
theorem C49_added_file_wins (env : Str → Str) (join : Str → Str → Str) (load : Str → Option Data)
    (dirs : List Str) (app mode : Str) (add : List Str) (f : Str) (d : Data) (name : Str)
    (hk : (sectionKey name).2 ≠ []) (hl : load f = some d)
    (hv : ownValue d (sectionKey name).1 (sectionKey name).2 ≠ [])
    (he : env (envKey (sectionKey name).1 (sectionKey name).2) = []) :
    find env (loadConfigFiles join load dirs app mode (add ++ [f])) name =
      ownValue d (sectionKey name).1 (sectionKey name).2 := by
  have := C49_last_file_wins env join load dirs app mode (add ++ [f]) name hk
  simp only at this
  rw [this, if_neg (by simpa using he)]
  simp [Spec.lastNonEmpty, hl, hv, List.filterMap_append]

def Spec.toyJoin (d f : Str) : Str := d ++ 47 :: f

/-- the example: `k` of the default section is defined in the override files of both directories -/
def Spec.toyLoad (p : Str) : Option Data :=
  if p = b!"/a/override.ini" then some (setValue empty [] b!"k" b!"from-a")
  else if p = b!"/b/override.ini" then some (setValue empty [] b!"k" b!"from-b")
  else if p = b!"/x/extra.ini" then some (setValue empty [] b!"k" b!"extra")
  else if p = b!"/x/empty.ini" then some (setValue empty [] b!"k" [])
  else none

/-- **C49 fails** when the configuration directory named in the call is also the program's: its files keep their
early position, so files of the working directory (earlier in the documented order) override them. -/
theorem C49_repeated_directory_violated :
    find (fun _ => []) (loadConfigFiles Spec.toyJoin Spec.toyLoad [b!"/a", b!"/b", b!"/a"] b!"app" b!"prod" []) b!"k"
      = b!"from-b" ∧
    Spec.lastNonEmpty (((Spec.standard Spec.toyJoin [b!"/a", b!"/b", b!"/a"] b!"app" b!"prod").filterMap Spec.toyLoad).map
      (fun d => ownValue d [] b!"k")) = b!"from-a" := by decide +kernel

/-- **C49 fails** for empty values: a later file cannot set a key back to empty. -/
theorem C49_empty_value_violated :
    find (fun _ => []) (loadConfigFiles Spec.toyJoin Spec.toyLoad [b!"/a", b!"/b"] b!"app" b!"prod" [b!"/x/empty.ini"])
      b!"k" = b!"from-b" := by decide +kernel

example : (Spec.standard Spec.toyJoin [b!"/a", b!"/b"] b!"app" b!"prod").Nodup ∧
    find (fun _ => []) (loadConfigFiles Spec.toyJoin Spec.toyLoad [b!"/a", b!"/b"] b!"app" b!"prod" [b!"/x/extra.ini"])
      b!"k" = b!"extra" ∧ (sectionKey b!"k").2 ≠ [] := by decide +kernel

end Verif.Conf
