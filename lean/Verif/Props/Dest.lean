import Verif.Model.Dest
import Verif.Props.StructExact
import Verif.Props.SliceExact
/-!
# C188: what may be given to Bind and BindValuesToStruct
-/
namespace Verif.Params
open Verif.Go Verif.Conv

/-! ## Specification -/

/-- The path stays inside the struct itself: it passes no embedded pointer. -/
def Spec.inside : List SF → List Nat → Prop
  | _, [] => True
  | fs, i :: q =>
    match fs[i]?, q with
    | _, [] => True
    | some (.emb _ _ gs), _ :: _ => Spec.inside gs q
    | _, _ => False

/-- Some field that lies in the struct itself would be written: a plain field with a parameter name, or an embedded pointer
whose struct has a parameter. -/
def Spec.writesInside (p : P) (fs : List SF) : Prop :=
  ∃ q, Spec.inside fs q ∧ ((∃ n, Spec.nameAt fs q = some n) ∨ (∃ e gs, Spec.pointerAt fs q = some (e, gs) ∧ Spec.hasParam p gs))

/-! ## Params.Bind -/

/-- **C188**: exactly a pointer to a variable is written to; the value is what binding makes of the parameter. -/
theorem C188_bind (x : Ext) (it : Order) (p : P) (name : Str) (d : BindDest) (v : V) :
    bindInto x it p name d = .ok v ↔ ∃ t cur, d = .ptr t (some cur) ∧ bind x it t [] p name = some v := by
  cases d with
  | nothing => simp [bindInto]
  | value t w => simp [bindInto]
  | ptr t cur =>
    cases cur with
    | none => simp [bindInto]
    | some c =>
      cases hb : bind x it t [] p name with
      | none => simp [bindInto, hb]
      | some w => simp [bindInto, hb]

/-- **C188**: the texts of the panics name the parameter; a pointer to a variable panics only for an index of a slice out of
any proportion. -/
theorem C188_bind_panics (x : Ext) (it : Order) (hv : Spec.ValidOrder it) (p : P) (name text : Str) (d : BindDest) :
    (bindInto x it p name d = .own text ↔
      ((d = .nothing ∨ ∃ t v, d = .value t v) ∧ text = b!"non-pointer passed to Bind: " ++ name) ∨
      ((∃ t, d = .ptr t none) ∧ text = b!"non-settable variable passed to Bind: " ++ name)) ∧
    (∀ t cur, Spec.GoNames t → (bindInto x it p name (.ptr t (some cur)) = .reflect ↔ Spec.Panics x.maxLen p t name)) := by
  constructor
  · cases d with
    | nothing => simp [bindInto, eq_comm]
    | value t w => simp [bindInto, eq_comm]
    | ptr t cur =>
      cases cur with
      | none => simp [bindInto, eq_comm]
      | some c => cases hb : bind x it t [] p name <;> simp [bindInto, hb]
  · intro t cur hg
    rw [← C138_panics x it hv t hg [] p name]
    cases hb : bind x it t [] p name <;> simp [bindInto, hb]

/-- **C188**: without the parameter the variable is reset to zero, whatever it held. -/
theorem C188_bind_absent (x : Ext) (it : Order) (p : P) (name : Str) (h : lookup p.values name = none) (t : Ty) (cur : V)
    (ht : match t with | .struct _ => False | .slice _ => False | _ => True) :
    bindInto x it p name (.ptr t (some cur)) = .ok (zero t) := by
  show (match bind x it t [] p name with | none => DestRes.reflect | some v => .ok v) = _
  rw [C55_absent_is_zero x it [] p name h t ht]

/-! ## BindValuesToStruct -/

mutual
/-- Nothing of this field would be written (no plain field, no embedded pointer whose struct has a parameter). -/
def idleF (p : P) : SF → Bool
  | .leaf exported tag _ _ _ => !exported || decide (tag = b!"-")
  | .emb _ tag fs => decide (tag = b!"-") || idle p fs
  | .embPtr _ tag _ fs => decide (tag = b!"-") || !anyParam p fs
  | .embOther _ => true
def idle (p : P) : List SF → Bool
  | [] => true
  | f :: fs => idleF p f && idle p fs
end

mutual
theorem bindRO_eq (x : Ext) (it : Order) (p : P) : ∀ (f : SF) (path : List Nat),
    bindRO x it p path f = if idleF p f = true then bindSF x it p path f else none
  | .leaf exported tag name t v, path => by
    unfold bindRO bindSF idleF
    by_cases h : exported = false ∨ tag = b!"-"
    · rw [if_pos h, if_pos h, if_pos (by rcases h with h | h <;> simp [h])]
    · have h2 : ¬ (!exported || decide (tag = b!"-")) = true := by
        intro hc
        apply h
        simpa using hc
      rw [if_neg h, if_neg h2]
  | .emb exported tag fs, path => by
    unfold bindRO bindSF idleF
    by_cases h : tag = b!"-"
    · rw [if_pos h, if_pos h, if_pos (by simp [h])]
    · rw [if_neg h, if_neg h, bindROs_eq x it p fs path 0]
      by_cases hi : idle p fs = true
      · rw [if_pos hi, if_pos (by simp [hi])]
      · rw [if_neg hi, if_neg (by simp [hi, h])]
        rfl
  | .embPtr exported tag isNil fs, path => by
    unfold bindRO bindSF idleF
    by_cases h : tag = b!"-"
    · rw [if_pos h, if_pos h, if_pos (by simp [h])]
    · rw [if_neg h, if_neg h]
      by_cases ha : anyParam p fs = true
      · rw [if_neg (by simp [h, ha])]
        cases bindSFs x it p path 0 fs with
        | none => rfl
        | some gs => simp [ha]
      · rw [if_pos (by simp [ha])]
        cases bindSFs x it p path 0 fs with
        | none => rfl
        | some gs => simp [ha]
  | .embOther v, path => by
    unfold bindRO bindSF idleF
    rw [if_pos rfl]
theorem bindROs_eq (x : Ext) (it : Order) (p : P) : ∀ (fs : List SF) (path : List Nat) (n : Nat),
    bindROs x it p path n fs = if idle p fs = true then bindSFs x it p path n fs else none
  | [], path, n => by
    unfold bindROs bindSFs idle
    rw [if_pos rfl]
  | f :: fs, path, n => by
    unfold bindROs bindSFs idle
    rw [bindRO_eq x it p f (n :: path), bindROs_eq x it p fs path (n + 1)]
    by_cases h1 : idleF p f = true
    · by_cases h2 : idle p fs = true
      · rw [if_pos h1, if_pos h2, if_pos (by simp [h1, h2])]
        cases bindSF x it p (n :: path) f <;> cases bindSFs x it p path (n + 1) fs <;> rfl
      · rw [if_pos h1, if_neg h2, if_neg (by simp [h1, h2])]
        cases bindSF x it p (n :: path) f <;> rfl
    · rw [Bool.not_eq_true] at h1
      simp only [h1, Bool.false_and]
      rfl
end

theorem idle_iff_all (p : P) : ∀ fs : List SF, idle p fs = true ↔ ∀ (i : Nat) f, fs[i]? = some f → idleF p f = true
  | [] => by simp [idle]
  | f :: fs => by
    unfold idle
    rw [Bool.and_eq_true, idle_iff_all p fs]
    constructor
    · rintro ⟨h1, h2⟩ i g hg
      cases i with
      | zero => simp only [List.getElem?_cons_zero, Option.some.injEq] at hg; exact hg ▸ h1
      | succ i => exact h2 i g (by simpa using hg)
    · intro h
      exact ⟨h 0 f rfl, fun i g hg => h (i + 1) g (by simpa using hg)⟩

theorem idle_iff_of (p : P) (fs : List SF) (hall : ∀ f ∈ fs, ∀ (i : Nat) (fs : List SF), fs[i]? = some f →
    (idleF p f = false ↔ ∃ q, Spec.inside fs (i :: q) ∧
      ((∃ n, Spec.nameAt fs (i :: q) = some n) ∨ (∃ e gs, Spec.pointerAt fs (i :: q) = some (e, gs) ∧ Spec.hasParam p gs)))) :
    idle p fs = true ↔ ¬ Spec.writesInside p fs := by
    rw [idle_iff_all p fs]
    constructor
    · rintro h ⟨q, hq, hw⟩
      cases q with
      | nil =>
        rcases hw with ⟨n, hn⟩ | ⟨e, g, hp, _⟩
        · simp [Spec.nameAt] at hn
        · simp [Spec.pointerAt] at hp
      | cons i q =>
        cases hf : fs[i]? with
        | none =>
          rcases hw with ⟨n, hn⟩ | ⟨e, g, hp, _⟩
          · simp [Spec.nameAt, hf] at hn
          · simp [Spec.pointerAt, hf] at hp
        | some f =>
          have h1 := h i f hf
          have h2 := (hall f (List.mem_of_getElem? hf) i fs hf).mpr ⟨q, hq, hw⟩
          rw [h1] at h2
          exact absurd h2 (by simp)
    · intro h i f hf
      cases hi : idleF p f with
      | true => rfl
      | false =>
        rcases (hall f (List.mem_of_getElem? hf) i fs hf).mp hi with ⟨q, hq, hw⟩
        exact absurd ⟨i :: q, hq, hw⟩ h

mutual
theorem idleF_iff (p : P) : ∀ (f : SF) (i : Nat) (fs : List SF), fs[i]? = some f →
    (idleF p f = false ↔ ∃ q, Spec.inside fs (i :: q) ∧
      ((∃ n, Spec.nameAt fs (i :: q) = some n) ∨ (∃ e gs, Spec.pointerAt fs (i :: q) = some (e, gs) ∧ Spec.hasParam p gs)))
  | .leaf exported tag name t v, i, fs, hf => by
    unfold idleF
    constructor
    · intro h
      refine ⟨[], by simp [Spec.inside, hf], Or.inl ?_⟩
      simp only [Spec.nameAt, hf]
      rw [if_pos (by simpa using h)]
      exact ⟨_, rfl⟩
    · rintro ⟨q, hq, hw⟩
      cases q with
      | nil =>
        rcases hw with ⟨n, hn⟩ | ⟨e, gs, hp, _⟩
        · simp only [Spec.nameAt, hf] at hn
          split at hn
          · rename_i hc
            simp [hc.1, hc.2]
          · exact absurd hn (by simp)
        · simp [Spec.pointerAt, hf] at hp
      | cons j q =>
        simp [Spec.inside, hf] at hq
  | .emb exported tag gs, i, fs, hf => by
    unfold idleF
    constructor
    · intro h
      simp only [Bool.or_eq_false_iff, decide_eq_false_iff_not] at h
      have hi : ¬ idle p gs = true := by simp [h.2]
      rw [idle_iff_of p gs (idleL_iff p gs)] at hi
      rcases Classical.not_not.mp hi with ⟨q, hq, hw⟩
      cases q with
      | nil =>
        exfalso
        rcases hw with ⟨n, hn⟩ | ⟨e', g', hp, _⟩
        · simp [Spec.nameAt] at hn
        · simp [Spec.pointerAt] at hp
      | cons j q =>
        refine ⟨j :: q, ?_, ?_⟩
        · simp only [Spec.inside, hf]; exact hq
        · rcases hw with ⟨n, hn⟩ | ⟨e', g', hp, hh⟩
          · exact Or.inl ⟨n, by simp only [Spec.nameAt, hf]; rw [if_neg h.1]; exact hn⟩
          · exact Or.inr ⟨e', g', by simp only [Spec.pointerAt, hf]; rw [if_neg h.1]; exact hp, hh⟩
    · rintro ⟨q, hq, hw⟩
      cases q with
      | nil =>
        rcases hw with ⟨n, hn⟩ | ⟨e, g, hp, _⟩
        · simp [Spec.nameAt, hf] at hn
        · simp [Spec.pointerAt, hf] at hp
      | cons j q =>
        simp only [Spec.inside, hf] at hq
        have ht : tag ≠ b!"-" := by
          intro ht
          rcases hw with ⟨n, hn⟩ | ⟨e, g, hp, _⟩
          · simp [Spec.nameAt, hf, ht] at hn
          · simp [Spec.pointerAt, hf, ht] at hp
        have hi : ¬ idle p gs = true := by
          rw [idle_iff_of p gs (idleL_iff p gs)]
          intro hn
          apply hn
          refine ⟨j :: q, hq, ?_⟩
          rcases hw with ⟨n, hn⟩ | ⟨e, g, hp, hh⟩
          · simp only [Spec.nameAt, hf] at hn
            rw [if_neg ht] at hn
            exact Or.inl ⟨n, hn⟩
          · simp only [Spec.pointerAt, hf] at hp
            rw [if_neg ht] at hp
            exact Or.inr ⟨e, g, hp, hh⟩
        simp only [Bool.or_eq_false_iff, decide_eq_false_iff_not]
        exact ⟨ht, by simpa using hi⟩
  | .embPtr exported tag isNil gs, i, fs, hf => by
    unfold idleF
    constructor
    · intro h
      simp only [Bool.or_eq_false_iff, decide_eq_false_iff_not, Bool.not_eq_false'] at h
      refine ⟨[], by simp [Spec.inside, hf], Or.inr ⟨exported, gs, ?_, (anyParam_iff p gs).mp h.2⟩⟩
      simp only [Spec.pointerAt, hf]
      rw [if_neg h.1]
    · rintro ⟨q, hq, hw⟩
      cases q with
      | nil =>
        rcases hw with ⟨n, hn⟩ | ⟨e, g, hp, hh⟩
        · simp [Spec.nameAt, hf] at hn
        · simp only [Spec.pointerAt, hf] at hp
          split at hp
          · exact absurd hp (by simp)
          · rename_i ht
            simp only [Option.some.injEq, Prod.mk.injEq] at hp
            simp only [Bool.or_eq_false_iff, decide_eq_false_iff_not, Bool.not_eq_false']
            exact ⟨ht, (anyParam_iff p gs).mpr (hp.2 ▸ hh)⟩
      | cons j q =>
        simp [Spec.inside, hf] at hq
  | .embOther v, i, fs, hf => by
    unfold idleF
    constructor
    · intro h; exact absurd h (by simp)
    · rintro ⟨q, hq, hw⟩
      exfalso
      cases q with
      | nil =>
        rcases hw with ⟨n, hn⟩ | ⟨e, g, hp, _⟩
        · simp [Spec.nameAt, hf] at hn
        · simp [Spec.pointerAt, hf] at hp
      | cons j q =>
        simp [Spec.inside, hf] at hq
theorem idleL_iff (p : P) : ∀ (l : List SF), ∀ f ∈ l, ∀ (i : Nat) (fs : List SF), fs[i]? = some f →
    (idleF p f = false ↔ ∃ q, Spec.inside fs (i :: q) ∧
      ((∃ n, Spec.nameAt fs (i :: q) = some n) ∨ (∃ e gs, Spec.pointerAt fs (i :: q) = some (e, gs) ∧ Spec.hasParam p gs)))
  | [], f, hm, _, _, _ => absurd hm (by simp)
  | g :: l, f, hm, i, fs, hf => by
    by_cases he : f = g
    · rw [he]
      exact idleF_iff p g i fs (he ▸ hf)
    · exact idleL_iff p l f (by simpa [he] using hm) i fs hf
end

theorem idle_iff (p : P) (fs : List SF) : idle p fs = true ↔ ¬ Spec.writesInside p fs :=
  idle_iff_of p fs (idleL_iff p fs)

/-- **C188**: given a pointer to a struct, the call is the binding of C71 and C137. -/
theorem C188_pointer (x : Ext) (it : Order) (p : P) (fs gs : List SF) :
    bindStructInto x it p (.ptrStruct (some fs)) = .ok gs ↔ bindSFs x it p [] 0 fs = some gs := by
  show (match bindSFs x it p [] 0 fs with | none => DestRes.reflect | some gs => .ok gs) = _ ↔ _
  cases bindSFs x it p [] 0 fs <;> simp

/-- **C188**: a struct given by value is never half written: the call returns exactly if nothing in the struct itself is to
be written, and then it does what it does for a pointer; otherwise it panics. -/
theorem C188_by_value (x : Ext) (it : Order) (p : P) (fs gs : List SF) :
    bindStructInto x it p (.struct fs) = .ok gs ↔
      bindStructInto x it p (.ptrStruct (some fs)) = .ok gs ∧ ¬ Spec.writesInside p fs := by
  rw [C188_pointer, ← idle_iff p fs]
  show (match bindROs x it p [] 0 fs with | none => DestRes.reflect | some gs => .ok gs) = _ ↔ _
  rw [bindROs_eq x it p fs [] 0]
  by_cases h : idle p fs = true
  · rw [if_pos h]
    cases bindSFs x it p [] 0 fs <;> simp [h]
  · rw [if_neg h]
    simp [h]

/-- **C188**: nothing but a struct or a pointer to one is accepted. -/
theorem C188_others_panic (x : Ext) (it : Order) (p : P) (d : StructDest) (gs : List SF)
    (h : bindStructInto x it p d = .ok gs) : (∃ fs, d = .struct fs) ∨ (∃ fs, d = .ptrStruct (some fs)) := by
  cases d with
  | nothing => simp [bindStructInto, needPtr] at h
  | value v => simp [bindStructInto, needPtr] at h
  | ptrValue v => simp [bindStructInto, needPtr] at h
  | struct fs => exact Or.inl ⟨fs, rfl⟩
  | ptrStruct cur =>
    cases cur with
    | none => simp [bindStructInto, needPtr] at h
    | some fs => exact Or.inr ⟨fs, rfl⟩

/-- **C188**: the text "need ptr of struct" is given exactly for what is neither a pointer nor a struct. -/
theorem C188_text (x : Ext) (it : Order) (p : P) (d : StructDest) (text : Str) :
    bindStructInto x it p d = .own text ↔ (d = .nothing ∨ ∃ v, d = .value v) ∧ text = b!"need ptr of struct" := by
  cases d with
  | nothing => simp [bindStructInto, needPtr, eq_comm]
  | value v => simp [bindStructInto, needPtr, eq_comm]
  | ptrValue v => simp [bindStructInto, needPtr]
  | struct fs =>
    simp only [bindStructInto, needPtr]
    cases bindROs x it p [] 0 fs <;> simp
  | ptrStruct cur =>
    cases cur with
    | none => simp [bindStructInto, needPtr]
    | some fs =>
      simp only [bindStructInto, needPtr]
      cases bindSFs x it p [] 0 fs <;> simp

/-- **C188**: so that text is missing where a struct is given by value, a pointer is nil or points to something else: these
panic inside reflect. -/
theorem C188_text_missing (x : Ext) (it : Order) (p : P) :
    bindStructInto x it p (.struct [.leaf true [] b!"Name" .string (.str [])]) = .reflect ∧
    bindStructInto x it p (.ptrStruct none) = .reflect ∧
    bindStructInto x it p (.ptrValue (some (.int 3))) = .reflect := ⟨rfl, rfl, rfl⟩

/-- A struct by value whose only plain fields are behind a pointer, with and without a parameter for them. -/
theorem C188_example (x : Ext) (it : Order) :
    bindStructInto x it ⟨[(b!"Page", [b!"7"])], []⟩
      (.struct [.embPtr true b!"Paging" false [.emb true [] [.leaf true [] b!"Page" (.int .int) (.int 1)]]]) =
      .ok [.embPtr true b!"Paging" false [.emb true [] [.leaf true [] b!"Page" (.int .int) (.int 7)]]] ∧
    bindStructInto x it ⟨[(b!"Page", [b!"7"])], []⟩
      (.struct [.embPtr true b!"Paging" false [.leaf true [] b!"Page" (.int .int) (.int 1)]]) = .reflect ∧
    bindStructInto x it ⟨[(b!"Page", [b!"7"])], []⟩
      (.ptrStruct (some [.leaf true [] b!"Page" (.int .int) (.int 1)])) = .ok [.leaf true [] b!"Page" (.int .int) (.int 7)] ∧
    bindInto x it ⟨[(b!"Page", [b!"7"])], []⟩ b!"Page" (.ptr (.int .int) (some (.int 1))) = .ok (.int 7) :=
by
  have hb : ∀ path, bind x it (.int .int) path ⟨[(b!"Page", [b!"7"])], []⟩ b!"Page" = some (.int 7) := fun path => by
    rw [C55_bind_int_param x it path ⟨[(b!"Page", [b!"7"])], []⟩ b!"Page" .int b!"7" [] (by decide +kernel),
      show bindInt .int b!"7" = 7 by decide +kernel]
  have hn : paramName [] b!"Page" = b!"Page" := rfl
  have ha : (firstValue ⟨[(b!"Page", [b!"7"])], []⟩ b!"Page").isSome = true := by decide +kernel
  have ht : ¬ (true = false ∨ ([] : Str) = b!"-") := by decide
  have hd : ¬ (b!"Paging" = b!"-") := by decide
  have hd' : ¬ (([] : Str) = b!"-") := by decide
  refine ⟨?_, ?_, ?_, ?_⟩
  · simp only [bindStructInto, needPtr, bindROs, bindRO, bindSFs, bindSF, hn, hb, if_neg ht, if_neg hd, if_neg hd', anyParam]
    rfl
  · simp only [bindStructInto, needPtr, bindROs, bindRO, bindSFs, bindSF, hn, hb, if_neg ht, if_neg hd, anyParam, ha]
    rfl
  · simp only [bindStructInto, needPtr, bindSFs, bindSF, hn, hb, if_neg ht]
    rfl
  · simp only [bindInto, hb]

end Verif.Params
