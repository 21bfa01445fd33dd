import Verif.Model.Upload
import Verif.Props.Conv
/-! # C110-C113: uploaded files, temporary files, the memory limit, JSON bodies -/
namespace Verif.Upload
open Verif.Go Verif.Go.NumSpec Verif.Params Verif.Conv

/-! ## Specification -/

/-- The uploaded files among the parts of a multipart body. -/
def Spec.uploads (parts : List Part) : List Part := parts.filter (fun p => p.name ≠ [] ∧ p.filename ≠ [])

/-- Which files stay in memory: every file that fits into what the files before it left of `room` bytes. -/
def Spec.kept : Int → List Part → List (Part × Bool)
  | _, [] => []
  | room, p :: ps =>
    if (p.content.length : Int) ≤ room then (p, true) :: Spec.kept (room - p.content.length) ps else (p, false) :: Spec.kept room ps

/-- The number of bytes of some parts. -/
def Spec.total (ps : List Part) : Int := (ps.map (fun p => (p.content.length : Int))).sum

/-- New temporary files do not replace existing ones. -/
def Spec.Fresh (create : Disk → Option Nat) : Prop := ∀ d n, create d = some n → n ∉ d.map (fun e => e.1)

/-- What an action finds in `Params.Files`: form names, file names, and the contents, if the file can be opened. -/
def Spec.seen (d : Disk) (files : List (Str × FileHeader)) : List (Str × Str × Option Str) :=
  files.map (fun e => (e.1, e.2.filename, openFile d e.2))

/-- The memory limit a configuration asks for: the positive decimal number under `max_memory`, 32 MB without one. -/
def Spec.Limit (find? : Option (Str → Str)) (lim : Int) : Prop :=
  (∃ f, find? = some f ∧ Denotes true (f b!"max_memory") lim ∧ 0 < lim ∧ lim < 2 ^ 63) ∨
  (lim = 32 * 1024 * 1024 ∧ ¬ ∃ f v, find? = some f ∧ Denotes true (f b!"max_memory") v ∧ 0 < v ∧ v < 2 ^ 63)

/-! ## Temporary files -/

/-- The temporary files of some file headers. -/
def tmps (files : List (Str × FileHeader)) : List Nat := (files.filter (fun e => e.2.content = none)).map (fun e => e.2.tmpfile)

theorem tmps_append (a b : List (Str × FileHeader)) : tmps (a ++ b) = tmps a ++ tmps b := by simp [tmps]

theorem removeAll_eq (files : List (Str × FileHeader)) : ∀ d, removeAll files d = d.filter (fun e => e.1 ∉ tmps files) := by
  induction files with
  | nil => intro d; exact (List.filter_eq_self.2 (fun e _ => by simp [tmps])).symm
  | cons e es ih =>
    intro d
    have hs : removeAll (e :: es) d = removeAll es (if e.2.content = none then removeFile d e.2.tmpfile else d) := rfl
    rw [hs, ih]
    by_cases h : e.2.content = none
    · rw [if_pos h]
      have ht : tmps (e :: es) = e.2.tmpfile :: tmps es := by simp [tmps, h]
      rw [ht]
      unfold removeFile
      rw [List.filter_filter]
      apply List.filter_congr
      intro x _
      simp only [ne_eq, List.mem_cons, not_or]
      by_cases h1 : x.1 = e.2.tmpfile <;> by_cases h2 : x.1 ∈ tmps es <;> simp [h1, h2]
    · rw [if_neg h]
      have ht : tmps (e :: es) = tmps es := by simp [tmps, h]
      rw [ht]

/-- The directory is the old one and temporary files of the form, which are new. -/
def Inv (d0 : Disk) (f : Form) (d : Disk) : Prop :=
  ∃ T : Disk, d = d0 ++ T ∧ (∀ e ∈ T, e.1 ∈ tmps f.files) ∧ ∀ n ∈ tmps f.files, n ∉ d0.map (fun e => e.1)

theorem Inv.removed {d0 : Disk} {f : Form} {d : Disk} (h : Inv d0 f d) : removeAll f.files d = d0 := by
  obtain ⟨T, rfl, hT, hn⟩ := h
  rw [removeAll_eq, List.filter_append]
  have h1 : d0.filter (fun e => e.1 ∉ tmps f.files) = d0 := by
    rw [List.filter_eq_self]
    intro e he
    have : e.1 ∉ tmps f.files := fun hm => hn _ hm (List.mem_map.2 ⟨e, he, rfl⟩)
    simp [this]
  have h2 : T.filter (fun e => e.1 ∉ tmps f.files) = [] := by
    rw [List.filter_eq_nil_iff]
    intro e he
    simp [hT e he]
  rw [h1, h2, List.append_nil]

/-- What the form knows about its files. -/
def view (files : List (Str × FileHeader)) : List (Str × Str × Option Str) := files.map (fun e => (e.1, e.2.filename, e.2.content))

/-- The specification's account of the files. -/
def keptView (l : List (Part × Bool)) : List (Str × Str × Option Str) :=
  l.map (fun e => (e.1.name, e.1.filename, if e.2 then some e.1.content else none))

theorem readForm_inv {create : Disk → Option Nat} (hc : Spec.Fresh create) (tail : Bool) (d0 : Disk) :
    ∀ (ps : List Part) (mem val : Int) (f : Form) (d : Disk), Inv d0 f d →
      ((readForm create tail mem val ps f d).1 = none → (readForm create tail mem val ps f d).2 = d0) ∧
      (∀ f', (readForm create tail mem val ps f d).1 = some f' → Inv d0 f' (readForm create tail mem val ps f d).2 ∧
        view f'.files = view f.files ++ keptView (Spec.kept mem (Spec.uploads ps))) := by
  intro ps
  induction ps with
  | nil =>
    intro mem val f d hi
    unfold readForm
    cases tail with
    | true =>
      simp only [if_true]
      refine ⟨fun h => by simp at h, fun f' h => ?_⟩
      cases h
      exact ⟨hi, by simp [Spec.uploads, Spec.kept, keptView]⟩
    | false =>
      simp only [Bool.false_eq_true, if_false]
      exact ⟨fun _ => hi.removed, fun f' h => by simp at h⟩
  | cons p ps ih =>
    intro mem val f d hi
    unfold readForm
    by_cases hn : p.name = []
    · rw [if_pos hn]
      have : Spec.uploads (p :: ps) = Spec.uploads ps := by simp [Spec.uploads, hn]
      rw [this]
      exact ih mem val f d hi
    rw [if_neg hn]
    by_cases hf : p.filename = []
    · rw [if_pos hf]
      have : Spec.uploads (p :: ps) = Spec.uploads ps := by simp [Spec.uploads, hf]
      rw [this]
      by_cases hv : val - p.content.length < 0
      · rw [if_pos hv]
        exact ⟨fun _ => hi.removed, fun f' h => by simp at h⟩
      · rw [if_neg hv]
        exact ih mem _ { f with values := f.values ++ [(p.name, p.content)] } d hi
    rw [if_neg hf]
    have hu : Spec.uploads (p :: ps) = p :: Spec.uploads ps := by simp [Spec.uploads, hn, hf]
    rw [hu]
    by_cases hm : (p.content.length : Int) > mem
    · rw [if_pos hm]
      cases hcd : create d with
      | none => exact ⟨fun _ => hi.removed, fun f' h => by simp at h⟩
      | some n =>
        simp only
        have hk : Spec.kept mem (p :: Spec.uploads ps) = (p, false) :: Spec.kept mem (Spec.uploads ps) := by
          conv => lhs; unfold Spec.kept
          exact if_neg (by omega)
        rw [hk]
        obtain ⟨T, hd, hT, hnew⟩ := hi
        have hfresh := hc d n hcd
        have hi' : Inv d0 { f with files := f.files ++ [(p.name, { filename := p.filename, content := none, tmpfile := n })] }
            (d ++ [(n, p.content)]) := by
          refine ⟨T ++ [(n, p.content)], by rw [hd, List.append_assoc], ?_, ?_⟩
          · intro e he
            simp only [tmps_append]
            rcases List.mem_append.1 he with he | he
            · exact List.mem_append.2 (.inl (hT e he))
            · simp at he; subst he; simp [tmps]
          · intro m hm'
            simp only [tmps_append] at hm'
            rcases List.mem_append.1 hm' with hm' | hm'
            · exact hnew m hm'
            · simp [tmps] at hm'
              subst hm'
              intro hmem
              exact hfresh (by rw [hd, List.map_append]; exact List.mem_append.2 (.inl hmem))
        obtain ⟨h1, h2⟩ := ih mem val _ _ hi'
        refine ⟨h1, fun f' hf' => ?_⟩
        obtain ⟨h3, h4⟩ := h2 f' hf'
        exact ⟨h3, by rw [h4]; simp [view, keptView]⟩
    · rw [if_neg hm]
      have hk : Spec.kept mem (p :: Spec.uploads ps) = (p, true) :: Spec.kept (mem - p.content.length) (Spec.uploads ps) := by
        conv => lhs; unfold Spec.kept
        exact if_pos (by omega)
      rw [hk]
      have hi' : Inv d0 { f with files := f.files ++ [(p.name, { filename := p.filename, content := some p.content, tmpfile := 0 })] } d := by
        obtain ⟨T, hd, hT, hnew⟩ := hi
        have ht : tmps (f.files ++ [(p.name, { filename := p.filename, content := some p.content, tmpfile := 0 })]) = tmps f.files := by
          simp [tmps]
        exact ⟨T, hd, by simp only [ht]; exact hT, by simp only [ht]; exact hnew⟩
      obtain ⟨h1, h2⟩ := ih (mem - p.content.length) (val - p.content.length) _ _ hi'
      refine ⟨h1, fun f' hf' => ?_⟩
      obtain ⟨h3, h4⟩ := h2 f' hf'
      exact ⟨h3, by rw [h4]; simp [view, keptView]⟩

theorem readFile_none {d : Disk} {n : Nat} (h : n ∉ d.map (fun e => e.1)) : readFile d n = none := by
  unfold readFile
  rw [Option.map_eq_none_iff, List.find?_eq_none]
  intro e he
  simp only [decide_eq_true_eq]
  exact fun h1 => h (List.mem_map.2 ⟨e, he, h1⟩)

theorem seen_eq_view {d0 : Disk} {f : Form} {d : Disk} (h : Inv d0 f d) : Spec.seen d0 f.files = view f.files := by
  obtain ⟨_, _, _, hn⟩ := h
  unfold Spec.seen view
  apply List.map_congr_left
  intro e he
  cases hc : e.2.content with
  | some c => simp only [openFile, hc]
  | none =>
    have : e.2.tmpfile ∈ tmps f.files := List.mem_map.2 ⟨e, List.mem_filter.2 ⟨he, by simp [hc]⟩, rfl⟩
    simp only [openFile, hc, readFile_none (hn _ this)]

theorem inv_nil (d : Disk) : Inv d ⟨[], []⟩ d := ⟨[], by simp, by simp, by simp [tmps]⟩

/-! ## One request -/

variable {F : Type} (pf : Conf.FloatParser F)

theorem parse_multipart_some {ct : Str} {q r v : Values} {pv : Option Values} (h : mediaType ct = b!"multipart/form-data") :
    Params.parseParams ct q r ⟨pv, some v⟩ = some (calcValues q r v) := by
  unfold Params.parseParams
  rw [h, if_neg (by decide), if_pos rfl]

theorem parse_multipart_none {ct : Str} {q r : Values} {pv : Option Values} (h : mediaType ct = b!"multipart/form-data") :
    Params.parseParams ct q r ⟨pv, none⟩ = none := by
  unfold Params.parseParams
  rw [h, if_neg (by decide), if_pos rfl]

/-- The three ways a request is parsed. -/
theorem parse_cases (r : Request) (m : Int) (d : Disk) (hc : Spec.Fresh r.create) :
    ((parseParams r m d).1.files = [] ∧ (parseParams r m d).2 = d ∧
      (mediaType r.contentType = b!"multipart/form-data" → (parseParams r m d).1.values = none)) ∨
    (∃ f d', mediaType r.contentType = b!"multipart/form-data" ∧ parseParams r m d = (⟨some (calcValues r.query r.route (formValues f.values)), f.files⟩, d') ∧
      Inv d f d' ∧ view f.files = keptView (Spec.kept (effective m) (Spec.uploads r.parts))) := by
  by_cases h : mediaType r.contentType = b!"multipart/form-data"
  · by_cases hw : r.wellFormed = true
    · have hi := readForm_inv hc r.tail d r.parts (effective m) (effective m + reserve) ⟨[], []⟩ d (inv_nil d)
      unfold parseParams
      rw [if_pos h, if_pos hw]
      generalize readForm r.create r.tail (effective m) (effective m + reserve) r.parts ⟨[], []⟩ d = o at hi ⊢
      obtain ⟨o, d'⟩ := o
      cases o with
      | none => exact .inl ⟨rfl, hi.1 rfl, fun _ => parse_multipart_none h⟩
      | some f =>
        obtain ⟨h1, h2⟩ := hi.2 f rfl
        refine .inr ⟨f, d', h, ?_, h1, by simpa [view] using h2⟩
        simp only
        rw [parse_multipart_some h]
    · have hp : parseParams r m d = (⟨Params.parseParams r.contentType r.query r.route ⟨r.postForm, none⟩, []⟩, d) := by
        unfold parseParams
        rw [if_pos h, if_neg hw]
      rw [hp]
      exact .inl ⟨rfl, rfl, fun _ => parse_multipart_none h⟩
  · have hp : parseParams r m d = (⟨Params.parseParams r.contentType r.query r.route ⟨r.postForm, none⟩, []⟩, d) := by
      unfold parseParams
      rw [if_neg h]
    rw [hp]
    exact .inl ⟨rfl, rfl, fun hh => absurd hh h⟩

/-- **C111**: when the action starts, the temporary directory is as it was before the request was parsed. -/
theorem C111_no_temp_left (max : Int) (d : Disk) (find? : Option (Str → Str)) (r : Request) (hc : Spec.Fresh r.create) :
    (provide pf max d find? r).2.2 = d := by
  show removeAll (parseParams r (bindLimit pf find? max) d).1.files (parseParams r (bindLimit pf find? max) d).2 = d
  rcases parse_cases r (bindLimit pf find? max) d hc with ⟨h1, h2, _⟩ | ⟨f, d', _, h1, h2, _⟩
  · rw [h1, h2]; rfl
  · rw [h1]; exact h2.removed

/-- **C111**: over any history of requests, none leaves a temporary file, however its parsing ends. -/
theorem C111_history (qs : List (Option (Str → Str) × Request)) :
    ∀ (max : Int) (d : Disk), (∀ q ∈ qs, Spec.Fresh q.2.create) → ∀ o ∈ serve pf max d qs, o.2.2 = d := by
  induction qs with
  | nil => intro max d _ o ho; simp [serve] at ho
  | cons q qs ih =>
    intro max d h o ho
    have h0 := C111_no_temp_left pf max d q.1 q.2 (h q (by simp))
    rcases List.mem_cons.1 ho with rfl | ho
    · exact h0
    · rw [h0] at ho
      exact ih _ d (fun x hx => h x (by simp [hx])) o ho

/-- **C110, exactly**: of a multipart request that was parsed, the action sees all uploaded files, in order, and can open those that
were kept in memory, with the uploaded contents; the others cannot be opened. A request that was not parsed has no files. -/
theorem C110_files_exact (max : Int) (d : Disk) (find? : Option (Str → Str)) (r : Request) (hc : Spec.Fresh r.create)
    (hm : mediaType r.contentType = b!"multipart/form-data") :
    ((provide pf max d find? r).2.1.values = none → (provide pf max d find? r).2.1.files = []) ∧
    ((provide pf max d find? r).2.1.values ≠ none →
      Spec.seen (provide pf max d find? r).2.2 (provide pf max d find? r).2.1.files =
        (Spec.kept (effective (provide pf max d find? r).1) (Spec.uploads r.parts)).map
          (fun e => (e.1.name, e.1.filename, if e.2 then some e.1.content else none))) := by
  rw [C111_no_temp_left pf max d find? r hc]
  show ((parseParams r (bindLimit pf find? max) d).1.values = none → (parseParams r (bindLimit pf find? max) d).1.files = []) ∧
    ((parseParams r (bindLimit pf find? max) d).1.values ≠ none → Spec.seen d (parseParams r (bindLimit pf find? max) d).1.files =
      keptView (Spec.kept (effective (bindLimit pf find? max)) (Spec.uploads r.parts)))
  rcases parse_cases r (bindLimit pf find? max) d hc with ⟨h1, _, h3⟩ | ⟨f, d', _, h1, h2, h3⟩
  · exact ⟨fun _ => h1, fun h => absurd (h3 hm) h⟩
  · rw [h1]
    exact ⟨fun h => by simp at h, fun _ => by rw [seen_eq_view h2, h3]⟩

theorem total_nonneg : ∀ ps : List Part, 0 ≤ Spec.total ps := by
  intro ps
  unfold Spec.total
  induction ps with
  | nil => simp
  | cons a l ih => simp only [List.map_cons, List.sum_cons]; omega

theorem total_cons (p : Part) (ps : List Part) : Spec.total (p :: ps) = p.content.length + Spec.total ps := by simp [Spec.total]

theorem kept_all : ∀ (ps : List Part) (room : Int), Spec.total ps ≤ room → Spec.kept room ps = ps.map (fun p => (p, true)) := by
  intro ps
  induction ps with
  | nil => intro room _; rfl
  | cons p ps ih =>
    intro room h
    have ht := total_cons p ps
    have hp := total_nonneg ps
    rw [ht] at h
    unfold Spec.kept
    rw [if_pos (by omega), ih _ (by omega)]
    rfl

/-- **C110** (partial: for files that fit into the memory limit together): the action can open every uploaded file and finds the uploaded
contents. -/
theorem C110_files_open_partial (max : Int) (d : Disk) (find? : Option (Str → Str)) (r : Request) (hc : Spec.Fresh r.create)
    (hm : mediaType r.contentType = b!"multipart/form-data") (hv : (provide pf max d find? r).2.1.values ≠ none)
    (hfit : Spec.total (Spec.uploads r.parts) ≤ effective (provide pf max d find? r).1) :
    Spec.seen (provide pf max d find? r).2.2 (provide pf max d find? r).2.1.files =
      (Spec.uploads r.parts).map (fun p => (p.name, p.filename, some p.content)) := by
  rw [(C110_files_exact pf max d find? r hc hm).2 hv, kept_all _ _ hfit, List.map_map]
  apply List.map_congr_left
  intro p _
  rfl

theorem kept_large : ∀ (ps : List Part) (room : Int) (p : Part), p ∈ ps → room < p.content.length → (p, false) ∈ Spec.kept room ps := by
  intro ps
  induction ps with
  | nil => intro room p h; simp at h
  | cons a ps ih =>
    intro room p h hl
    unfold Spec.kept
    by_cases ha : (a.content.length : Int) ≤ room
    · rw [if_pos ha]
      rcases List.mem_cons.1 h with rfl | h
      · omega
      · exact List.mem_cons_of_mem _ (ih _ p h (by omega))
    · rw [if_neg ha]
      rcases List.mem_cons.1 h with rfl | h
      · exact List.mem_cons_self
      · exact List.mem_cons_of_mem _ (ih _ p h hl)

/-- **C110 fails** for every uploaded file larger than the limit: the action sees it in `Params.Files` but cannot open it, its temporary
file was removed by the provider. -/
theorem C110_large_file_violated (max : Int) (d : Disk) (find? : Option (Str → Str)) (r : Request) (hc : Spec.Fresh r.create)
    (hm : mediaType r.contentType = b!"multipart/form-data") (hv : (provide pf max d find? r).2.1.values ≠ none)
    (p : Part) (hp : p ∈ Spec.uploads r.parts) (hl : effective (provide pf max d find? r).1 < p.content.length) :
    (p.name, p.filename, none) ∈ Spec.seen (provide pf max d find? r).2.2 (provide pf max d find? r).2.1.files := by
  rw [(C110_files_exact pf max d find? r hc hm).2 hv]
  exact List.mem_map.2 ⟨(p, false), kept_large _ _ p hp hl, rfl⟩

theorem readForm_accepts (create : Disk → Option Nat) (d : Disk) : ∀ (ps : List Part) (m mem val : Int) (f : Form),
    Spec.total ps ≤ m → m ≤ mem → m ≤ val → ((readForm create true mem val ps f d).1).isSome = true := by
  intro ps
  induction ps with
  | nil => intro m mem val f _ _ _; rfl
  | cons q qs ih =>
    intro m mem val f h2 h1 h3
    rw [total_cons] at h2
    have hq := total_nonneg qs
    unfold readForm
    by_cases hn : q.name = []
    · rw [if_pos hn]; exact ih m mem val f (by omega) h1 h3
    rw [if_neg hn]
    by_cases hf : q.filename = []
    · rw [if_pos hf, if_neg (by omega)]
      exact ih (m - q.content.length) mem _ _ (by omega) (by omega) (by omega)
    · rw [if_neg hf, if_neg (by omega)]
      exact ih (m - q.content.length) _ _ _ (by omega) (by omega) (by omega)

/-- **C110**: a well-formed, complete multipart request no larger than the limit is parsed, whatever the temporary directory does: with
`C110_files_open_partial`, all its files can be opened. -/
theorem C110_accepted (max : Int) (d : Disk) (find? : Option (Str → Str)) (r : Request)
    (hm : mediaType r.contentType = b!"multipart/form-data") (hw : r.wellFormed = true) (ht : r.tail = true)
    (hs : Spec.total r.parts ≤ effective (provide pf max d find? r).1) : (provide pf max d find? r).2.1.values ≠ none := by
  show (parseParams r (bindLimit pf find? max) d).1.values ≠ none
  have hs' : Spec.total r.parts ≤ effective (bindLimit pf find? max) := hs
  generalize bindLimit pf find? max = m at hs' ⊢
  have ha := readForm_accepts r.create d r.parts (effective m) (effective m) (effective m + reserve) ⟨[], []⟩ hs' (Int.le_refl _) (by unfold reserve; omega)
  unfold parseParams
  rw [if_pos hm, if_pos hw, ht]
  generalize readForm r.create true (effective m) (effective m + reserve) r.parts ⟨[], []⟩ d = o at ha ⊢
  obtain ⟨o, d'⟩ := o
  cases o with
  | none => simp at ha
  | some f =>
    simp only
    rw [parse_multipart_some hm]
    simp

/-! ## The limit -/

theorem bind_int64 (find? : Option (Str → Str)) : Conf.bind pf find? (.int .int64) (.int 0) b!"max_memory" =
    .ok (.int (match find? with
      | none => 0
      | some f => if f b!"max_memory" = [] then 0 else (rootStrTo .int64 (f b!"max_memory")).1)) := by
  cases find? with
  | none => rfl
  | some f =>
    have ha : Conf.appFind (some f) b!"max_memory" none = f b!"max_memory" := by
      simp [Conf.appFind]
    unfold Conf.bind
    simp only [ha]
    by_cases h : f b!"max_memory" = []
    · rw [if_pos h, if_pos h]
    · rw [if_neg h, if_neg h]
      rfl

theorem bindLimit_spec (find? : Option (Str → Str)) : bindLimit pf find? 0 ≠ 0 ∧ Spec.Limit find? (effective (bindLimit pf find? 0)) := by
  have hd : defaultMaxMemory = 32 * 1024 * 1024 := by decide
  have hb : bindLimit pf find? 0 = (let v := (match find? with
      | none => 0
      | some f => if f b!"max_memory" = [] then 0 else (rootStrTo .int64 (f b!"max_memory")).1)
      if v = 0 then defaultMaxMemory else v) := by
    unfold bindLimit
    rw [if_pos rfl, bind_int64]
  have nope : ∀ f : Str → Str, find? = some f → (f b!"max_memory" = [] ∨ (rootStrTo .int64 (f b!"max_memory")).1 ≤ 0) →
      ¬ ∃ f v, find? = some f ∧ Denotes true (f b!"max_memory") v ∧ 0 < v ∧ v < 2 ^ 63 := by
    rintro f rfl h ⟨f', v, hf', hv, h0, h1⟩
    cases hf'
    have := (C52_root_accepts_iff .int64 (f b!"max_memory") v).2 ⟨hv, by
      unfold Conv.Spec.InType Fits
      simp [IntKind.signed, IntKind.width]
      omega, by intro h; cases h⟩
    rcases h with h | h
    · rw [h] at this
      have h2 : rootStrTo .int64 [] = (0, some .syn) := by decide +kernel
      rw [h2] at this
      cases this
    · rw [this] at h
      simp only at h
      omega
  rw [hb]
  cases find? with
  | none =>
    refine ⟨by decide, .inr ⟨by rw [← hd]; decide, ?_⟩⟩
    rintro ⟨f, v, h, _⟩
    cases h
  | some f =>
    simp only
    by_cases h : f b!"max_memory" = []
    · rw [if_pos h, if_pos rfl]
      exact ⟨by decide, .inr ⟨by decide, nope f rfl (.inl h)⟩⟩
    rw [if_neg h]
    by_cases hz : (rootStrTo .int64 (f b!"max_memory")).1 = 0
    · rw [if_pos hz]
      exact ⟨by decide, .inr ⟨by decide, nope f rfl (.inr (by omega))⟩⟩
    rw [if_neg hz]
    refine ⟨hz, ?_⟩
    by_cases hn : (rootStrTo .int64 (f b!"max_memory")).1 ≤ 0
    · unfold effective
      rw [if_pos hn]
      exact .inr ⟨hd, nope f rfl (.inr hn)⟩
    · unfold effective
      rw [if_neg hn]
      have he : (rootStrTo .int64 (f b!"max_memory")).2 = none := by
        cases hh : (rootStrTo .int64 (f b!"max_memory")).2 with
        | none => rfl
        | some e =>
          exfalso
          apply hz
          revert hh
          show (zeroOnErr .int64 (parseInt 64 (f b!"max_memory"))).2 = some e → (zeroOnErr .int64 (parseInt 64 (f b!"max_memory"))).1 = 0
          generalize parseInt 64 (f b!"max_memory") = o
          obtain ⟨a, b⟩ := o
          cases b <;> simp [zeroOnErr]
      have hp : rootStrTo .int64 (f b!"max_memory") = ((rootStrTo .int64 (f b!"max_memory")).1, none) := by rw [← he]
      obtain ⟨h1, h2, _⟩ := (C52_root_accepts_iff .int64 _ _).1 hp
      refine .inl ⟨f, rfl, h1, by omega, ?_⟩
      unfold Conv.Spec.InType Fits at h2
      simp [IntKind.signed, IntKind.width] at h2
      omega

theorem serve_fixed (qs : List (Option (Str → Str) × Request)) : ∀ (max : Int) (d : Disk), max ≠ 0 → ∀ o ∈ serve pf max d qs, o.1 = max := by
  induction qs with
  | nil => intro max d _ o ho; simp [serve] at ho
  | cons q qs ih =>
    intro max d h o ho
    have hb : bindLimit pf q.1 max = max := if_neg h
    rcases List.mem_cons.1 ho with rfl | ho
    · exact hb
    · have : (provide pf max d q.1 q.2).1 = max := hb
      rw [this] at ho
      exact ih max _ h o ho

/-- **C112**: the memory limit is the one the first request's configuration asks for, and all requests use it. -/
theorem C112_limit (d : Disk) (q : Option (Str → Str) × Request) (qs : List (Option (Str → Str) × Request)) :
    ∃ lim, Spec.Limit q.1 lim ∧ ∀ o ∈ serve pf 0 d (q :: qs), effective o.1 = lim := by
  obtain ⟨h0, h1⟩ := bindLimit_spec pf q.1
  refine ⟨_, h1, fun o ho => ?_⟩
  rcases List.mem_cons.1 ho with rfl | ho
  · rfl
  · rw [serve_fixed pf qs _ _ h0 o ho]

/-- The limit a configuration asks for is unique. -/
theorem C112_limit_unique {find? : Option (Str → Str)} {a b : Int} (ha : Spec.Limit find? a) (hb : Spec.Limit find? b) : a = b := by
  rcases ha with ⟨f, hf, h1, h2, h3⟩ | ⟨h1, h2⟩
  · rcases hb with ⟨g, hg, h4, h5, h6⟩ | ⟨h4, h5⟩
    · rw [hf] at hg; cases hg
      exact (by
        have e1 := (C52_root_accepts_iff .int64 _ a).2 ⟨h1, by unfold Conv.Spec.InType Fits; simp [IntKind.signed, IntKind.width]; omega, by intro h; cases h⟩
        have e2 := (C52_root_accepts_iff .int64 _ b).2 ⟨h4, by unfold Conv.Spec.InType Fits; simp [IntKind.signed, IntKind.width]; omega, by intro h; cases h⟩
        rw [e1] at e2
        cases e2; rfl)
    · exact absurd ⟨f, a, hf, h1, h2, h3⟩ h5
  · rcases hb with ⟨g, hg, h4, h5, h6⟩ | ⟨h4, h5⟩
    · exact absurd ⟨g, b, hg, h4, h5, h6⟩ h2
    · omega

theorem boundLimit_limit (find? : Option (Str → Str)) (lim : Int) (h : Spec.Limit find? lim) :
    ((boundLimit find?).getD 0 ≤ 0 → lim = defaultMaxMemory) ∧ (0 < (boundLimit find?).getD 0 → lim = (boundLimit find?).getD 0) := by
  have hb := bindLimit_spec (F := Unit) (fun _ _ => ()) find?
  have hu := C112_limit_unique h hb.2
  have he : bindLimit (F := Unit) (fun _ _ => ()) find? 0 = if (boundLimit find?).getD 0 = 0 then defaultMaxMemory else (boundLimit find?).getD 0 := by
    unfold bindLimit
    rw [if_pos rfl, bind_int64]
    unfold boundLimit
    cases find? with
    | none => rfl
    | some f =>
      simp only
      by_cases h0 : f b!"max_memory" = []
      · simp [h0]
      · simp [h0]
  rw [he] at hu
  have hd : defaultMaxMemory = 33554432 := rfl
  unfold effective at hu
  generalize (boundLimit find?).getD 0 = v at hu ⊢
  refine ⟨fun hv => ?_, fun hv => ?_⟩
  · by_cases h0 : v = 0
    · rw [if_pos h0] at hu; simpa [hd] using hu
    · rw [if_neg h0, if_pos hv] at hu; exact hu
  · rw [if_neg (by omega), if_neg (by omega)] at hu; exact hu

/-- The limit under concurrency: untouched, the bound number, or the default. -/
theorem shared_inv (find? : Option (Str → Str)) (s : Shared) (h : SharedReach find? s) :
    (s.max = 0 ∨ s.max = (boundLimit find?).getD 0 ∨ (s.max = defaultMaxMemory ∧ (boundLimit find?).getD 0 = 0)) ∧
    ∀ pc ∈ s.pcs, (pc = .fix ∨ pc = .read → (boundLimit find?).getD 0 ≠ 0 → s.max ≠ 0) ∧
      ∀ l, pc = .used l → (l = 0 ∧ (boundLimit find?).getD 0 = 0) ∨ l = (boundLimit find?).getD 0 ∨ (l = defaultMaxMemory ∧ (boundLimit find?).getD 0 = 0) := by
  induction h with
  | init => exact ⟨.inl rfl, by simp⟩
  | arrive s _ ih =>
    refine ⟨ih.1, fun pc hpc => ?_⟩
    rcases List.mem_append.1 hpc with hpc | hpc
    · exact ih.2 pc hpc
    · simp at hpc; subst hpc; exact ⟨by simp, by simp⟩
  | step s i pc _ hi ih =>
    obtain ⟨i1, i2⟩ := ih
    have hme := i2 pc (List.mem_of_getElem? hi)
    have hd : defaultMaxMemory ≠ 0 := by decide
    have hgd : ∀ m : Int, (boundLimit find?).getD m = (boundLimit find?).getD 0 ∨ (boundLimit find?).getD m = m ∧ (boundLimit find?).getD 0 = 0 := by
      intro m
      cases boundLimit find? with
      | none => exact .inr ⟨rfl, rfl⟩
      | some v => exact .inl rfl
    generalize hv : (boundLimit find?).getD 0 = v at *
    -- the new limit
    have hmax : ((pcStep find? s.max pc).1 = 0 ∨ (pcStep find? s.max pc).1 = v ∨ ((pcStep find? s.max pc).1 = defaultMaxMemory ∧ v = 0)) ∧
        (v ≠ 0 → s.max ≠ 0 → (pcStep find? s.max pc).1 ≠ 0) := by
      cases pc with
      | start => exact ⟨i1, fun _ h => h⟩
      | bind =>
        show ((boundLimit find?).getD s.max = 0 ∨ (boundLimit find?).getD s.max = v ∨ ((boundLimit find?).getD s.max = defaultMaxMemory ∧ v = 0)) ∧ _
        rcases hgd s.max with h | ⟨h, h0⟩
        · refine ⟨.inr (.inl h), fun h1 _ => ?_⟩
          show (boundLimit find?).getD s.max ≠ 0
          rw [h]; exact h1
        · rw [h]
          refine ⟨i1, fun h1 _ => absurd h0 h1⟩
      | fix =>
        show ((if s.max = 0 then defaultMaxMemory else s.max) = 0 ∨ (if s.max = 0 then defaultMaxMemory else s.max) = v ∨
          ((if s.max = 0 then defaultMaxMemory else s.max) = defaultMaxMemory ∧ v = 0)) ∧ (v ≠ 0 → s.max ≠ 0 → (if s.max = 0 then defaultMaxMemory else s.max) ≠ 0)
        by_cases h0 : s.max = 0
        · rw [if_pos h0]
          by_cases hv0 : v = 0
          · exact ⟨.inr (.inr ⟨rfl, hv0⟩), fun _ _ => hd⟩
          · exact absurd h0 (hme.1 (.inl rfl) hv0)
        · rw [if_neg h0]; exact ⟨i1, fun _ h => h⟩
      | read => exact ⟨i1, fun _ h => h⟩
      | used l => exact ⟨i1, fun _ h => h⟩
    refine ⟨hmax.1, fun q hq => ?_⟩
    rcases List.mem_or_eq_of_mem_set hq with hq | hq
    · obtain ⟨j1, j2⟩ := i2 q hq
      exact ⟨fun h1 h2 => hmax.2 h2 (j1 h1 h2), j2⟩
    · subst hq
      cases pc with
      | start =>
        refine ⟨fun h1 h2 => ?_, fun l hl => ?_⟩
        · show s.max ≠ 0
          intro h0
          simp [pcStep, h0] at h1
        · simp only [pcStep] at hl
          by_cases h0 : s.max = 0
          · rw [if_pos h0] at hl; cases hl
          · rw [if_neg h0] at hl; cases hl
      | bind =>
        refine ⟨fun _ h2 => ?_, fun l hl => by cases hl⟩
        show (boundLimit find?).getD s.max ≠ 0
        rcases hgd s.max with h | ⟨_, h0⟩
        · rw [h]; exact h2
        · exact absurd h0 h2
      | fix =>
        refine ⟨fun _ h2 => hmax.2 h2 (hme.1 (.inl rfl) h2), fun l hl => by cases hl⟩
      | read =>
        refine ⟨fun h1 => by simp [pcStep] at h1, fun l hl => ?_⟩
        cases hl
        rcases i1 with h | h | h
        · by_cases hv0 : v = 0
          · exact .inl ⟨h, hv0⟩
          · exact absurd h (hme.1 (.inr rfl) hv0)
        · exact .inr (.inl h)
        · exact .inr (.inr h)
      | used l' => exact ⟨fun h1 => by simp [pcStep] at h1, fun l hl => by cases hl; exact hme.2 l' rfl⟩

/-- **C112 (concurrent requests)**: although the limit is kept without a lock, in every interleaving of any number of requests with one configuration
each passes on a limit equivalent to the one the configuration asks for. -/
theorem C112_limit_concurrent (find? : Option (Str → Str)) (lim : Int) (hl : Spec.Limit find? lim) (s : Shared) (h : SharedReach find? s) (l : Int)
    (hu : Pc.used l ∈ s.pcs) : effective l = lim := by
  obtain ⟨h1, h2⟩ := boundLimit_limit find? lim hl
  have h3 := (shared_inv find? s h).2 _ hu
  have hd : defaultMaxMemory = 33554432 := rfl
  generalize (boundLimit find?).getD 0 = v at *
  unfold effective
  rcases h3.2 l rfl with ⟨hl0, h0⟩ | hl0 | ⟨hl0, h0⟩ <;> rw [hl0]
  · rw [if_pos (Int.le_refl _), h1 (by omega)]
  · by_cases hv : v ≤ 0
    · rw [if_pos hv, h1 hv]
    · rw [if_neg hv, h2 (by omega)]
  · rw [if_neg (by omega), h1 (by omega)]

/-- Two requests, both before the first binding, with a malformed number: one passes on 0, which `ParseParams` takes for the default. -/
example : SharedReach (some (fun _ => b!"x")) ⟨0, [.used 0, .fix]⟩ ∧ effective 0 = 33554432 := by
  refine ⟨?_, by decide⟩
  have a : SharedReach (some (fun _ => b!"x")) ⟨0, [.start, .start]⟩ := .arrive ⟨0, [.start]⟩ (.arrive ⟨0, []⟩ .init)
  have b := SharedReach.step _ 0 _ a rfl
  have c := SharedReach.step _ 1 _ b rfl
  have d := SharedReach.step _ 0 _ c rfl
  have e := SharedReach.step _ 0 _ d rfl
  have f := SharedReach.step _ 1 _ e rfl
  have g := SharedReach.step _ 0 _ f rfl
  have hx : boundLimit (some (fun _ => b!"x")) = some 0 := by decide +kernel
  simpa [pcStep, hx] using g

/-! ## JSON bodies -/

theorem bindAll_empty {D : Type} (dec : Decoder D) (cs : List (List Bool × D)) :
    bindAll dec ⟨[], false⟩ cs = cs.map (fun c => (none, c.2)) := by
  induction cs with
  | nil => rfl
  | cons c cs ih =>
    have h : bindJsonBody dec c.1 ⟨[], false⟩ c.2 = (none, c.2, ⟨[], false⟩) := by
      unfold bindJsonBody
      rw [if_neg (by simp), if_pos rfl]
    unfold bindAll
    rw [h, ih]
    rfl

/-- **C113**: of the calls of `BindJsonBody` during a request, the first gets the first JSON value of the body and reports the decoder's
error, with the first 512 bytes of the body (or all of a shorter one); all others leave their variable alone and report no error, and so does the first for an empty body. -/
theorem C113_json_body {D : Type} (dec : Decoder D) (body : Str) (u : List Bool) (v : D) (cs : List (List Bool × D)) :
    ∃ e w, bindAll dec ⟨body, false⟩ ((u, v) :: cs) = (e, w) :: cs.map (fun c => (none, c.2)) ∧
      (body = [] → e = none ∧ w = v) ∧
      (body ≠ [] → w = (dec (u.headD false) body v).1 ∧
        (e = none ↔ (dec (u.headD false) body v).2 = none) ∧
        ∀ t, (dec (u.headD false) body v).2 = some t → e = some (b!"decode body err: " ++ t ++ b!", " ++ body.take 512)) := by
  by_cases hb : body = []
  · subst hb
    refine ⟨none, v, bindAll_empty dec ((u, v) :: cs), fun _ => ⟨rfl, rfl⟩, fun h => absurd rfl h⟩
  · have hj : bindJsonBody dec u ⟨body, false⟩ v = match dec (u.headD false) body v with
        | (v, none) => (none, v, ⟨[], false⟩)
        | (v, some e) => (some (b!"decode body err: " ++ e ++ b!", " ++ body.take 512), v, ⟨[], false⟩) := by
      unfold bindJsonBody
      rw [if_neg (by simp), if_neg hb]
      generalize dec (u.headD false) body v = o
      obtain ⟨a, b⟩ := o
      cases b <;> rfl
    have hall : bindAll dec ⟨body, false⟩ ((u, v) :: cs) = ((bindJsonBody dec u ⟨body, false⟩ v).1, (bindJsonBody dec u ⟨body, false⟩ v).2.1) ::
        bindAll dec (bindJsonBody dec u ⟨body, false⟩ v).2.2 cs := rfl
    rw [hall, hj]
    generalize dec (u.headD false) body v = o
    obtain ⟨a, b⟩ := o
    cases b with
    | none => exact ⟨none, a, by rw [bindAll_empty], fun h => absurd h hb, fun _ => ⟨rfl, by simp, fun t h => by simp at h⟩⟩
    | some t =>
      exact ⟨_, a, by rw [bindAll_empty], fun h => absurd h hb, fun _ => ⟨rfl, by simp, fun t' h => by cases h; rfl⟩⟩

/-! ## Examples -/

/-- A configuration with `max_memory = 2`. -/
def exConf : Option (Str → Str) := some (fun k => if k = b!"max_memory" then b!"2" else [])

/-- The next free number. -/
def exCreate (d : Disk) : Option Nat := some ((d.map (fun e => e.1)).foldr Nat.max 0 + 1)

theorem exFresh : Spec.Fresh exCreate := by
  intro d n h hm
  unfold exCreate at h
  cases h
  have : ∀ (l : List Nat) (x : Nat), x ∈ l → x ≤ l.foldr Nat.max 0 := by
    intro l
    induction l with
    | nil => intro x h; cases h
    | cons a l ih =>
      intro x h
      rcases List.mem_cons.1 h with rfl | h
      · exact Nat.le_max_left _ _
      · exact Nat.le_trans (ih x h) (Nat.le_max_right _ _)
  have := this _ _ hm
  omega

/-- A request with a value, a file of three bytes, one of two and one of one. -/
def exReq : Request :=
  { contentType := b!"multipart/form-data; boundary=x", query := [], route := [], postForm := none, wellFormed := true,
    parts := [⟨b!"a", [], b!"1"⟩, ⟨b!"f", b!"big", b!"xyz"⟩, ⟨b!"f", b!"fits", b!"xy"⟩, ⟨b!"g", b!"late", b!"x"⟩], tail := true, create := exCreate }

example : Spec.seen (provide (fun _ _ => ()) 0 [(0, b!"other")] exConf exReq).2.2 (provide (fun _ _ => ()) 0 [(0, b!"other")] exConf exReq).2.1.files =
    [(b!"f", b!"big", none), (b!"f", b!"fits", some b!"xy"), (b!"g", b!"late", none)] := by decide +kernel
example : (provide (fun _ _ => ()) 0 [(0, b!"other")] exConf exReq).2.1.values = some [(b!"a", [b!"1"])] := by decide +kernel
example : (provide (fun _ _ => ()) 0 [(0, b!"other")] exConf exReq).2.2 = [(0, b!"other")] := by decide +kernel
/-- In between, two temporary files existed. -/
example : (parseParams exReq 2 [(0, b!"other")]).2 = [(0, b!"other"), (1, b!"xyz"), (2, b!"x")] := by decide +kernel
example : effective (provide (fun _ _ => ()) 0 [] exConf exReq).1 = 2 ∧ effective (provide (fun _ _ => ()) 0 [] none exReq).1 = 33554432 := by
  decide +kernel
/-- With 32 MB everything fits and can be opened. -/
example : Spec.seen (provide (fun _ _ => ()) 0 [] none exReq).2.2 (provide (fun _ _ => ()) 0 [] none exReq).2.1.files =
    [(b!"f", b!"big", some b!"xyz"), (b!"f", b!"fits", some b!"xy"), (b!"g", b!"late", some b!"x")] := by decide +kernel
/-- The second request keeps the limit of the first. -/
example : (serve (fun _ _ => ()) 0 [] [(exConf, exReq), (none, exReq)]).map (fun o => effective o.1) = [2, 2] := by decide +kernel
/-- A body cut off after the parts leaves nothing behind. -/
example : (parseParams { exReq with tail := false } 2 [(0, b!"other")]).2 = [(0, b!"other")] ∧
    (parseParams { exReq with tail := false } 2 [(0, b!"other")]).1.values = none := by decide +kernel
example : bindAll (D := Str) (fun _ b _ => if b = b!"{}" then (b, none) else ([], some b!"bad")) ⟨b!"{}", false⟩ [([], []), ([true], b!"x")] =
    [(none, b!"{}"), (none, b!"x")] := by decide +kernel

end Verif.Upload
