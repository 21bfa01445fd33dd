import Verif.Model.ConfigBind
import Verif.Props.Conv
import Verif.Proofs.Bytes
/-!
# C50: binding configuration to variables and structs
-/
namespace Verif.Conf
open Verif.Go Verif.Conv
variable {F : Type}

/-- The field at a path (indexes of nested struct fields), when it is not a struct: its type and value. -/
def Spec.fieldAt : List (Fld F) → List Nat → Option (Ty × Val F)
  | _, [] => none
  | fs, i :: p =>
    match fs[i]?, p with
    | some (.leaf _ t v), [] => some (t, v)
    | some (.struct _ gs), _ :: _ => Spec.fieldAt gs p
    | _, _ => none

/-- The configuration name a tag gives. -/
def Spec.named (tag : Str) : Option Str := if tag = [] ∨ tag = b!"-" then none else some tag

/-- The configuration name of the field at a path: its tag; fields of an embedded struct are those of the outer
struct; a field of a tagged struct has that tag as section. Fields deeper inside a section have no name. -/
def Spec.nameAt : List (Fld F) → List Nat → Option Str
  | _, [] => none
  | fs, i :: p =>
    match fs[i]?, p with
    | some (.leaf info _ _), [] => Spec.named info.tag
    | some (.struct info gs), j :: q =>
      if info.anonymous = true then Spec.nameAt gs p
      else
        match Spec.named info.tag, q, gs[j]? with
        | some sec, [], some (.leaf info' _ _) => (Spec.named info'.tag).map (fun k => sec ++ b!"::" ++ k)
        | _, _, _ => none
    | _, _ => none

/-- The value a variable of a type takes from a configuration value `s`, when it had `v`. -/
def Spec.read (pf : FloatParser F) (s : Str) (v : Val F) : Ty → Val F
  | .bool => .bool (s = b!"on" ∨ s ∈ [b!"1", b!"t", b!"T", b!"true", b!"TRUE", b!"True"])
  | .float bits => .float (pf bits s)
  | .int k => .int (match rootStrTo k s with | (i, none) => i | (_, some _) => 0)
  | .string => .string s
  | .slice .byte => .bytes s
  | .slice .string => .strings (splitList s)
  | .ptr .bool => .ptr (some (Spec.read pf s v .bool))
  | .ptr (.float b) => .ptr (some (Spec.read pf s v (.float b)))
  | .ptr (.int k) => .ptr (some (Spec.read pf s v (.int k)))
  | .ptr .string => .ptr (some (Spec.read pf s v .string))
  | .ptr (.slice .byte) => .ptr (some (.bytes s))
  | .ptr (.slice .string) => .ptr (some (.strings (splitList s)))
  | _ => v

theorem strToBool_eq (s : Str) :
    (strToBool s).1 = decide (s = b!"on" ∨ s ∈ [b!"1", b!"t", b!"T", b!"true", b!"TRUE", b!"True"]) := by
  unfold strToBool parseBool
  by_cases h : s = b!"on"
  · rw [if_pos h]; simp [h]
  · rw [if_neg h]
    by_cases h2 : s = b!"1" ∨ s = b!"t" ∨ s = b!"T" ∨ s = b!"true" ∨ s = b!"TRUE" ∨ s = b!"True"
    · rw [if_pos h2]
      symm
      rw [decide_eq_true_iff]
      right
      simpa using h2
    · rw [if_neg h2]
      have : ¬ (s = b!"on" ∨ s ∈ [b!"1", b!"t", b!"T", b!"true", b!"TRUE", b!"True"]) := by
        rintro (e | e)
        · exact h e
        · exact h2 (by simpa using e)
      rw [decide_eq_false this]
      split <;> rfl

theorem rootStrTo_value (k : IntKind) (s : Str) :
    (rootStrTo k s).1 = match rootStrTo k s with | (i, none) => i | (_, some _) => 0 := by
  rw [rootStrTo_eq]
  unfold zeroOnErr
  cases (parseK k (rootBits k) s).2 <;> rfl

/-- One variable: `Bind` gives it the value read from a present name. -/
theorem bind_spec (pf : FloatParser F) (find? : Option (Str → Str)) (t : Ty) (v v' : Val F) (name : Str)
    (h : bind pf find? t v name = .ok v') :
    v' = if appFind find? name none = [] then v else Spec.read pf (appFind find? name none) v t := by
  unfold bind at h
  cases find? with
  | none =>
    simp only at h
    rw [if_pos (show appFind none name none = [] from rfl)]
    cases h; rfl
  | some f =>
    simp only at h
    by_cases he : appFind (some f) name none = []
    · rw [if_pos he] at h ⊢; cases h; rfl
    · rw [if_neg he] at h ⊢
      generalize appFind (some f) name none = s at h he
      unfold convertStringAsType at h
      cases t with
      | bool => simp only [indirectTy] at h; cases h; simp only [Spec.read, strToBool_eq]
      | float b => simp only [indirectTy] at h; cases h; rfl
      | int k => simp only [indirectTy] at h; cases h; simp only [Spec.read]; rw [rootStrTo_value]
      | string => simp only [indirectTy] at h; cases h; rfl
      | slice e => cases e <;> simp only [indirectTy] at h <;> cases h <;> rfl
      | other => simp only [indirectTy] at h; cases h; rfl
      | ptr t =>
        cases t with
        | bool => simp only [indirectTy] at h; cases h; simp only [Spec.read, strToBool_eq]
        | float b => simp only [indirectTy] at h; cases h; rfl
        | int k => simp only [indirectTy] at h; cases h; simp only [Spec.read]; rw [rootStrTo_value]
        | string => simp only [indirectTy] at h; cases h; rfl
        | slice e => cases e <;> simp only [indirectTy] at h <;> cases h <;> rfl
        | other => simp only [indirectTy] at h; cases h; rfl
        | ptr t =>
          have key : ∀ r : Res (Option (Val F)),
              (match r with
                | .ok none => Res.ok v
                | .ok (some _) => .panic
                | .err e => .err e
                | .panic => .panic) = Res.ok v' → v' = v := by
            intro r hr
            cases r with
            | ok o => cases o with
              | none => simp at hr; exact hr.symm
              | some x => simp at hr
            | err e => simp at hr
            | panic => simp at hr
          have : v' = v := key _ h
          rw [this]; rfl

/-- What a field holds after binding. -/
def Spec.after (pf : FloatParser F) (find? : Option (Str → Str)) (name : Option Str) (tv : Ty × Val F) : Ty × Val F :=
  match name with
  | none => tv
  | some n => (tv.1, if appFind find? n none = [] then tv.2 else Spec.read pf (appFind find? n none) tv.2 tv.1)

theorem after_none (pf : FloatParser F) (find? : Option (Str → Str)) : Spec.after pf find? none = id := rfl

theorem res_bind_ok {α β : Type} {r : Res α} {f : α → Res β} {b : β} (h : r.bind f = .ok b) :
    ∃ a, r = .ok a ∧ f a = .ok b := by
  cases r with
  | ok a => exact ⟨a, rfl, h⟩
  | err e => cases h
  | panic => cases h

/-- pointwise effect of `parseSection` -/
theorem parseSection_spec (pf : FloatParser F) (find? : Option (Str → Str)) (ro : Bool) (sec : Str) :
    ∀ (fs fs' : List (Fld F)), parseSection pf find? ro sec fs = .ok fs' → ∀ j : Nat,
      (∀ i gs, fs[j]? = some (.struct i gs) → fs'[j]? = some (.struct i gs)) ∧
      (∀ i t v, fs[j]? = some (.leaf i t v) → ∃ v', fs'[j]? = some (.leaf i t v') ∧
        (t, v') = Spec.after pf find? ((Spec.named i.tag).map (fun k => sec ++ b!"::" ++ k)) (t, v)) ∧
      (fs[j]? = none → fs'[j]? = none)
  | [], fs', h, j => by
    cases h
    simp
  | f :: fs, fs', h, j => by
    unfold parseSection at h
    by_cases hs : skipped f.info.tag = true
    · rw [if_pos hs] at h
      obtain ⟨gs, h1, h2⟩ := res_bind_ok h
      cases h2
      cases j with
      | succ j => simpa using parseSection_spec pf find? ro sec fs gs h1 j
      | zero =>
        have hn : Spec.named f.info.tag = none := by
          unfold Spec.named skipped at *
          rw [if_pos (by simpa using hs)]
        refine ⟨fun i gs e => by simpa using e, fun i t v e => ?_, fun e => by simp at e⟩
        simp only [List.getElem?_cons_zero, Option.some.injEq] at e
        subst e
        refine ⟨v, by simp, ?_⟩
        rw [show i.tag = (Fld.leaf i t v).info.tag from rfl, hn]
        rfl
    · rw [if_neg hs] at h
      by_cases hr : ro = true ∨ f.info.exported = false
      · rw [if_pos hr] at h; cases h
      · rw [if_neg hr] at h
        cases f with
        | struct i gs =>
          simp only at h
          obtain ⟨_, _, h⟩ := res_bind_ok h
          obtain ⟨gs', h1, h2⟩ := res_bind_ok h
          cases h2
          cases j with
          | succ j => simpa using parseSection_spec pf find? ro sec fs gs' h1 j
          | zero => exact ⟨fun i gs e => by simpa using e, fun i t v e => by simp at e, fun e => by simp at e⟩
        | leaf i t v =>
          simp only at h
          obtain ⟨v', hv, h⟩ := res_bind_ok h
          obtain ⟨gs', h1, h2⟩ := res_bind_ok h
          cases h2
          cases j with
          | succ j => simpa using parseSection_spec pf find? ro sec fs gs' h1 j
          | zero =>
            refine ⟨fun i gs e => by simp at e, fun i0 t0 v0 e => ?_, fun e => by simp at e⟩
            simp only [List.getElem?_cons_zero, Option.some.injEq, Fld.leaf.injEq] at e
            obtain ⟨rfl, rfl, rfl⟩ := e
            refine ⟨v', by simp, ?_⟩
            have hn : Spec.named i.tag = some i.tag := by
              unfold Spec.named
              rw [if_neg]
              intro e
              exact hs (decide_eq_true (show i.tag = [] ∨ i.tag = b!"-" from e))
            rw [hn]
            simp only [Option.map_some, Spec.after]
            rw [bind_spec pf find? t v v' _ hv]

theorem decode_get (pf : FloatParser F) (find? : Option (Str → Str)) :
    ∀ (fs fs' : List (Fld F)), decode pf find? fs = .ok fs' → ∀ j : Nat,
      (fs[j]? = none → fs'[j]? = none) ∧
      (∀ f, fs[j]? = some f → ∃ f', fs'[j]? = some f' ∧ decode1 pf find? f = .ok f')
  | [], fs', h, j => by
    unfold decode at h
    cases h
    simp
  | f :: fs, fs', h, j => by
    unfold decode at h
    obtain ⟨f', h1, h⟩ := res_bind_ok h
    obtain ⟨gs, h2, h3⟩ := res_bind_ok h
    cases h3
    cases j with
    | succ j => simpa using decode_get pf find? fs gs h2 j
    | zero =>
      refine ⟨fun e => by simp at e, fun g e => ?_⟩
      simp only [List.getElem?_cons_zero, Option.some.injEq] at e
      subst e
      exact ⟨f', by simp, h1⟩

theorem named_skipped (tag : Str) : Spec.named tag = none ↔ skipped tag = true := by
  unfold Spec.named skipped
  by_cases h : tag = [] ∨ tag = b!"-"
  · rw [if_pos h]; simp [h]
  · rw [if_neg h]; simp [h]

theorem named_some (tag : Str) (h : skipped tag ≠ true) : Spec.named tag = some tag := by
  unfold Spec.named
  rw [if_neg]
  intro e
  exact h (by simpa [skipped] using e)

/-- **C50**: after binding a struct, every field at every depth has the value read from the configuration when it
has a configuration name with a non-empty value, and is otherwise unchanged. -/
theorem C50_decode_exactly_present (pf : FloatParser F) (find? : Option (Str → Str)) :
    ∀ (p : List Nat) (fs fs' : List (Fld F)), decode pf find? fs = .ok fs' →
      Spec.fieldAt fs' p = (Spec.fieldAt fs p).map (Spec.after pf find? (Spec.nameAt fs p))
  | [], _, _, _ => rfl
  | i :: p, fs, fs', h => by
    obtain ⟨hnone, hsome⟩ := decode_get pf find? fs fs' h i
    simp only [Spec.fieldAt, Spec.nameAt]
    cases hf : fs[i]? with
    | none => rw [hnone hf]; cases p <;> rfl
    | some f =>
      obtain ⟨f', hf', hd⟩ := hsome f hf
      rw [hf']
      cases f with
      | leaf info t v =>
        unfold decode1 at hd
        by_cases hs : skipped info.tag = true
        · rw [if_pos hs] at hd
          cases hd
          cases p with
          | nil => simp only [(named_skipped _).2 hs]; rfl
          | cons _ _ => rfl
        · rw [if_neg hs] at hd
          by_cases he : info.exported = false
          · rw [if_pos he] at hd; cases hd
          · rw [if_neg he] at hd
            obtain ⟨v', hv, h2⟩ := res_bind_ok hd
            cases h2
            cases p with
            | nil =>
              simp only [named_some _ hs, Option.map_some, Spec.after]
              rw [bind_spec pf find? t v v' _ hv]
            | cons _ _ => rfl
      | struct info gs =>
        unfold decode1 at hd
        by_cases ha : info.anonymous = true
        · rw [if_pos ha] at hd
          by_cases he : info.exported = false
          · rw [if_pos he] at hd; cases hd
          · rw [if_neg he] at hd
            obtain ⟨gs', hg, h2⟩ := res_bind_ok hd
            cases h2
            cases p with
            | nil => rfl
            | cons j q =>
              simp only [if_pos ha]
              exact C50_decode_exactly_present pf find? (j :: q) gs gs' hg
        · rw [if_neg ha] at hd
          by_cases hs : skipped info.tag = true
          · rw [if_pos hs] at hd
            cases hd
            cases p with
            | nil => rfl
            | cons j q =>
              simp only [if_neg ha, (named_skipped _).2 hs]
              rw [after_none]; simp
          · rw [if_neg hs] at hd
            obtain ⟨gs', hg, h2⟩ := res_bind_ok hd
            cases h2
            cases p with
            | nil => rfl
            | cons j q =>
              simp only [if_neg ha, named_some _ hs]
              obtain ⟨s1, s2, s3⟩ := parseSection_spec pf find? (!info.exported) info.tag gs gs' hg j
              simp only [Spec.fieldAt]
              cases hj : gs[j]? with
              | none =>
                rw [s3 hj]
                cases q <;> rfl
              | some g =>
                cases g with
                | leaf info' t v =>
                  obtain ⟨v', e1, e2⟩ := s2 info' t v hj
                  rw [e1]
                  cases q with
                  | nil => simp only [Option.map_some, e2]
                  | cons _ _ => rfl
                | struct info' ks =>
                  rw [s1 info' ks hj]
                  cases q with
                  | nil => rfl
                  | cons a b => simp only; rw [after_none]; simp

/-- **C50** for a field without a value in the configuration: unchanged. -/
theorem C50_missing_unchanged (pf : FloatParser F) (f : Str → Str) (fs fs' : List (Fld F))
    (h : decode pf (some f) fs = .ok fs') (p : List Nat) (n : Str) (hn : Spec.nameAt fs p = some n) (he : f n = []) :
    Spec.fieldAt fs' p = Spec.fieldAt fs p := by
  rw [C50_decode_exactly_present pf _ p fs fs' h, hn]
  cases Spec.fieldAt fs p with
  | none => rfl
  | some tv => simp [Spec.after, appFind, he]

/-- **C50** without a configuration system: nothing changes. -/
theorem C50_no_config (pf : FloatParser F) (fs fs' : List (Fld F)) (h : decode pf none fs = .ok fs') (p : List Nat) :
    Spec.fieldAt fs' p = Spec.fieldAt fs p := by
  rw [C50_decode_exactly_present pf _ p fs fs' h]
  cases Spec.fieldAt fs p with
  | none => rfl
  | some tv => cases Spec.nameAt fs p <;> simp [Spec.after, appFind]

/-! ### when binding succeeds -/

/-- Types whose binding never panics: no slice of something else than bytes and strings, no pointer to a
pointer. -/
def Spec.Bindable : Ty → Prop
  | .ptr (.ptr _) => False
  | .slice .other => False
  | .ptr (.slice .other) => False
  | _ => True

/-- A field of a section: untagged, or exported and of a bindable type. -/
def Spec.SectionField (f : Fld F) : Prop :=
  Spec.named f.info.tag = none ∨
    (f.info.exported = true ∧ match f with | .leaf _ t _ => Spec.Bindable t | .struct _ _ => True)

mutual
/-- A field `Decode` accepts: tagged fields and embedded structs are exported, of bindable types. -/
def Spec.Field : Fld F → Prop
  | .leaf i t _ => Spec.named i.tag = none ∨ (i.exported = true ∧ Spec.Bindable t)
  | .struct i gs =>
    if i.anonymous = true then i.exported = true ∧ Spec.Fields gs
    else Spec.named i.tag = none ∨ ((i.exported = true ∨ ∀ g ∈ gs, Spec.named g.info.tag = none) ∧
      ∀ g ∈ gs, Spec.SectionField g)
def Spec.Fields : List (Fld F) → Prop
  | [] => True
  | f :: fs => Spec.Field f ∧ Spec.Fields fs
end

theorem bind_ok (pf : FloatParser F) (find? : Option (Str → Str)) (t : Ty) (v : Val F) (name : Str)
    (h : Spec.Bindable t) : ∃ v', bind pf find? t v name = .ok v' := by
  unfold bind
  cases find? with
  | none => exact ⟨v, rfl⟩
  | some f =>
    simp only
    by_cases he : appFind (some f) name none = []
    · rw [if_pos he]; exact ⟨v, rfl⟩
    · rw [if_neg he]
      generalize appFind (some f) name none = s
      unfold convertStringAsType
      cases t with
      | slice e => cases e <;> first | exact absurd h id | exact ⟨_, rfl⟩
      | ptr t =>
        cases t with
        | slice e => cases e <;> first | exact absurd h id | exact ⟨_, rfl⟩
        | ptr t => exact absurd h id
        | _ => exact ⟨_, rfl⟩
      | _ => exact ⟨_, rfl⟩

theorem parseSection_ok (pf : FloatParser F) (find? : Option (Str → Str)) (ro : Bool) (sec : Str) :
    ∀ fs : List (Fld F), (∀ g ∈ fs, Spec.SectionField g) → (ro = true → ∀ g ∈ fs, Spec.named g.info.tag = none) →
      ∃ fs', parseSection pf find? ro sec fs = .ok fs'
  | [], _, _ => ⟨[], rfl⟩
  | f :: fs, h, hr => by
    obtain ⟨fs', ih⟩ := parseSection_ok pf find? ro sec fs (fun g hg => h g (by simp [hg]))
      (fun e g hg => hr e g (by simp [hg]))
    unfold parseSection
    by_cases hs : skipped f.info.tag = true
    · rw [if_pos hs, ih]; exact ⟨_, rfl⟩
    · rw [if_neg hs]
      have hn : Spec.named f.info.tag ≠ none := fun e => hs ((named_skipped _).1 e)
      rcases h f (by simp) with e | ⟨he, ht⟩
      · exact absurd e hn
      · rw [if_neg (by
          rintro (e | e)
          · exact hn (hr e f (by simp))
          · rw [he] at e; cases e)]
        cases f with
        | leaf i t v =>
          obtain ⟨v', hv⟩ := bind_ok pf find? t v (sec ++ b!"::" ++ i.tag) ht
          simp only [hv, ih, Res.bind]
          exact ⟨_, rfl⟩
        | struct i gs =>
          obtain ⟨v', hv⟩ := bind_ok pf find? .other (.opaque 0) (sec ++ b!"::" ++ i.tag) trivial
          simp only [hv, ih, Res.bind]
          exact ⟨_, rfl⟩

mutual
theorem decode1_ok (pf : FloatParser F) (find? : Option (Str → Str)) :
    ∀ f : Fld F, Spec.Field f → ∃ f', decode1 pf find? f = .ok f'
  | .leaf i t v, h => by
    unfold decode1
    by_cases hs : skipped i.tag = true
    · rw [if_pos hs]; exact ⟨_, rfl⟩
    · rw [if_neg hs]
      rcases h with e | ⟨he, ht⟩
      · exact absurd ((named_skipped _).1 e) hs
      · rw [if_neg (by rw [he]; simp)]
        obtain ⟨v', hv⟩ := bind_ok pf find? t v i.tag ht
        rw [hv]; exact ⟨_, rfl⟩
  | .struct i gs, h => by
    unfold decode1
    unfold Spec.Field at h
    by_cases ha : i.anonymous = true
    · rw [if_pos ha] at h ⊢
      rw [if_neg (by rw [h.1]; simp)]
      obtain ⟨gs', hg⟩ := decode_ok pf find? gs h.2
      rw [hg]; exact ⟨_, rfl⟩
    · rw [if_neg ha] at h ⊢
      by_cases hs : skipped i.tag = true
      · rw [if_pos hs]; exact ⟨_, rfl⟩
      · rw [if_neg hs]
        rcases h with e | ⟨he, ht⟩
        · exact absurd ((named_skipped _).1 e) hs
        · obtain ⟨gs', hg⟩ := parseSection_ok pf find? (!i.exported) i.tag gs ht (by
            intro e
            rcases he with h | h
            · rw [h] at e; cases e
            · exact h)
          rw [hg]; exact ⟨_, rfl⟩
theorem decode_ok (pf : FloatParser F) (find? : Option (Str → Str)) :
    ∀ fs : List (Fld F), Spec.Fields fs → ∃ fs', decode pf find? fs = .ok fs'
  | [], _ => ⟨[], by unfold decode; rfl⟩
  | f :: fs, h => by
    unfold Spec.Fields at h
    obtain ⟨f', h1⟩ := decode1_ok pf find? f h.1
    obtain ⟨fs', h2⟩ := decode_ok pf find? fs h.2
    unfold decode
    rw [h1, h2]
    exact ⟨_, rfl⟩
end

/-- **C50**: binding never panics for structs whose tagged fields are exported and of bindable types, whatever the
configuration contains. -/
theorem C50_decode_succeeds (pf : FloatParser F) (find? : Option (Str → Str)) (fs : List (Fld F))
    (h : Spec.Fields fs) : ∃ fs', decode pf find? fs = .ok fs' := decode_ok pf find? fs h

/-- **C50** (`[]string`): elements are the non-empty trimmed parts between commas. -/
theorem C50_list_values (parts : List Str) (hne : parts ≠ []) (h : ∀ p ∈ parts, (44 : UInt8) ∉ p) :
    splitList (join1 44 parts) = (parts.map trimSpace).filter (fun e => e ≠ []) := by
  unfold splitList
  rw [splitOn1_join1 44 parts hne h]

/-! ### what goes wrong -/

def Spec.toyPF : FloatParser Unit := fun _ _ => ()

/-- **C50 fails** for values that cannot be read: the field is set to zero instead of being left, with no error. -/
theorem C50_malformed_zeroes_violated :
    bind Spec.toyPF (some fun _ => b!"80O0") (.int .int) (.int 8080) b!"port" = .ok (.int 0) ∧
    bind Spec.toyPF (some fun _ => b!"4294967296") (.int .uint) (.int 7) b!"limit" = .ok (.int 0) ∧
    bind Spec.toyPF (some fun _ => b!"yes") .bool (.bool true) b!"debug" = .ok (.bool false) := by
  refine ⟨?_, ?_, ?_⟩ <;> rfl

/-- **C50 fails** for some types: binding a `[]int` or a `**int` panics when the key is present. -/
theorem C50_panics_violated :
    bind Spec.toyPF (some fun _ => b!"1") (.slice .other) (.opaque 0) b!"k" = .panic ∧
    bind Spec.toyPF (some fun _ => b!"1") (.ptr (.ptr (.int .int))) (.ptr none) b!"k" = .panic := ⟨rfl, rfl⟩

/-- an embedded struct, a section, a nested struct inside the section and a plain field -/
def Spec.exampleStruct : List (Fld Unit) :=
  [.struct ⟨true, true, []⟩ [.leaf ⟨true, false, b!"name"⟩ .string (.string b!"old")],
    .struct ⟨true, false, b!"db"⟩
      [.leaf ⟨true, false, b!"port"⟩ (.ptr (.int .int)) (.ptr none), .leaf ⟨false, false, []⟩ .other (.opaque 3),
        .struct ⟨true, false, b!"deep"⟩ [.leaf ⟨true, false, b!"x"⟩ .string (.string b!"kept")]],
    .leaf ⟨true, false, b!"hosts"⟩ (.slice .string) (.strings [])]

def Spec.exampleFind (n : Str) : Str :=
  if n = b!"name" then b!"new" else if n = b!"db::port" then b!"5432" else if n = b!"hosts" then b!"a, b,,c"
  else if n = b!"x" then b!"no" else []

example : Spec.Fields Spec.exampleStruct ∧
    Spec.nameAt Spec.exampleStruct [1, 0] = some b!"db::port" ∧ Spec.nameAt Spec.exampleStruct [0, 0] = some b!"name" ∧
    Spec.nameAt Spec.exampleStruct [1, 2, 0] = none := by
  refine ⟨?_, by decide, by decide, by decide⟩
  simp [Spec.exampleStruct, Spec.Fields, Spec.Field, Spec.SectionField, Spec.Bindable, Spec.named, Fld.info]

example : ∃ fs', decode Spec.toyPF (some Spec.exampleFind) Spec.exampleStruct = .ok fs' ∧
    Spec.fieldAt fs' [1, 0] = some (.ptr (.int .int), .ptr (some (.int (rootStrTo .int b!"5432").1))) ∧
    (rootStrTo .int b!"5432").1 = 5432 ∧
    Spec.fieldAt fs' [0, 0] = some (.string, .string b!"new") ∧
    Spec.fieldAt fs' [1, 2, 0] = some (.string, .string b!"kept") ∧
    Spec.fieldAt fs' [2] = some (.slice .string, .strings (splitList b!"a, b,,c")) ∧
    splitList b!"a, b,,c" = [b!"a", b!"b", b!"c"] :=
  by
  refine ⟨_, rfl, ?_⟩
  refine ⟨rfl, by decide +kernel, rfl, rfl, rfl, by decide +kernel⟩

end Verif.Conf
