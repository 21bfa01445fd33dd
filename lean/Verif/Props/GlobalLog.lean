import Verif.Model.GlobalLog
import Verif.Props.Log
/-! C179: the lines of the global logger. -/
namespace Verif.Log

/-! ## Specification -/

/-- The run mode of the application that adopted the logger last (`none`: no application has yet). -/
def GSpec.mode : List GStep → Option Str
  | [] => none
  | .log _ :: h => GSpec.mode h
  | .use m :: h => some ((GSpec.mode h).getD m)

/-- One line per message: in production, and before any application has adopted the logger. -/
def GSpec.flat (m : Option Str) : Bool := m = none ∨ m = some b!"prod"
/-- Colors: in development only. -/
def GSpec.colored (m : Option Str) : Bool := m = some b!"dev"
/-- Short file names: as `flat`. -/
def GSpec.short (m : Option Str) : Bool := m = none ∨ m = some b!"prod"

/-- How many callers up the shown position is. -/
def GSpec.depth (c : Call) : Int := 4 + (match c.opt with | some o => o.depth | none => 0)

/-- The position of the call, unless it is hidden by the call. -/
def GSpec.site (m : Option Str) (c : Call) : Str :=
  if (∀ o, c.opt = some o → o.hidden = false) ∧ 0 < GSpec.depth c then c.caller (GSpec.short m) (GSpec.depth c) else []

open Classical in
/-- A stack trace for the severities emergency, alert and critical and for calls that ask for one, unless the message is a
report already. -/
noncomputable def GSpec.trace (c : Call) : Str :=
  if ((c.method = .emergency ∨ c.method = .alert ∨ c.method = .critical) ∨ ∃ o, c.opt = some o ∧ o.stack = true) ∧
      ¬ Spec.Report (Spec.text c) then [10] ++ c.trace (GSpec.depth c) else []

/-- The line before it is flattened. -/
noncomputable def GSpec.line (host : Str) (m : Option Str) (c : Call) : Str :=
  Spec.head (GSpec.colored m) (Spec.tag c.method) (Spec.color c.method) (b!"[" ++ host ++ b!"]" ++ GSpec.site m c)
    ++ b!" " ++ Spec.text c ++ GSpec.trace c

/-! ## Lemmas -/

theorem last_append {α : Type} (sel : Ev → Option α) (d : α) (a b : List Ev) :
    Spec.last sel d (a ++ b) = Spec.last sel (Spec.last sel d a) b := by
  unfold Spec.last
  rw [List.reverse_append, List.findSome?_append]
  cases b.reverse.findSome? sel <;> rfl

theorem last_none {α : Type} (sel : Ev → Option α) (d : α) (es : List Ev) (h : ∀ e ∈ es, sel e = none) :
    Spec.last sel d es = d := by
  unfold Spec.last
  rw [List.findSome?_eq_none_iff.2 (fun x hx => h x (List.mem_reverse.1 hx))]
  rfl

/-- A setting that the steps do not change. -/
theorem last_steps_none {α : Type} (sel : Ev → Option α) (d : α) (h : List GStep)
    (hs : ∀ s : GStep, ∀ e ∈ s.events, sel e = none) : Spec.last sel d (h.flatMap GStep.events) = d := by
  apply last_none
  intro e he
  obtain ⟨s, _, hse⟩ := List.mem_flatMap.1 he
  exact hs s e hse

/-- A setting that `UseGlobalLogger` makes. -/
theorem last_steps_mode {α : Type} (sel : Ev → Option α) (f : Str → α) (hu : ∀ m d, Spec.last sel d (useGlobal m) = f m)
    (hc : ∀ c, sel (.call c) = none) : ∀ (h : List GStep) (d : α),
    Spec.last sel d (h.flatMap GStep.events) = ((GSpec.mode h).map f).getD d
  | [], d => rfl
  | .log c :: h, d => by
    rw [List.flatMap_cons, last_append, last_steps_mode sel f hu hc h]
    have : Spec.last sel d [.call c] = d := last_none sel d _ (by
      intro e he; rw [List.mem_singleton.1 he]; exact hc c)
    show ((GSpec.mode h).map f).getD (Spec.last sel d [.call c]) = _
    rw [this]
    rfl
  | .use m :: h, d => by
    rw [List.flatMap_cons, last_append, last_steps_mode sel f hu hc h]
    show ((GSpec.mode h).map f).getD (Spec.last sel d (useGlobal m)) = _
    rw [hu]
    simp only [GSpec.mode]
    cases GSpec.mode h <;> rfl

theorem no_setting {α : Type} (sel : Ev → Option α) (h1 : ∀ b, sel (.setFlat b) = none) (h2 : ∀ b, sel (.setColor b) = none)
    (h3 : ∀ b, sel (.setShort b) = none) (h4 : ∀ c, sel (.call c) = none) : ∀ s : GStep, ∀ e ∈ s.events, sel e = none := by
  intro s e he
  cases s with
  | use m =>
    simp only [GStep.events, useGlobal, List.mem_cons, List.not_mem_nil, or_false] at he
    rcases he with rfl | rfl | rfl
    · exact h1 _
    · exact h2 _
    · exact h3 _
  | log c =>
    simp only [GStep.events, List.mem_cons, List.not_mem_nil, or_false] at he
    rw [he]; exact h4 c

theorem beq_dec (a b : Str) : (a == b) = decide (a = b) := by
  rw [Bool.eq_iff_iff]; simp

theorem global_settings (h : List GStep) :
    Spec.last Spec.flatSet true (globalEvents h) = GSpec.flat (GSpec.mode h) ∧
    Spec.last Spec.colorSet false (globalEvents h) = GSpec.colored (GSpec.mode h) ∧
    Spec.last Spec.shortSet false (globalEvents h) = GSpec.short (GSpec.mode h) ∧
    Spec.last Spec.lineSet false (globalEvents h) = true ∧
    Spec.last Spec.stackSet 0 (globalEvents h) = 3 ∧
    Spec.last Spec.depthSet 4 (globalEvents h) = 4 ∧
    Spec.last Spec.parserSet false (globalEvents h) = false ∧
    Spec.last Spec.prefixSet [] (globalEvents h) = [] ∧
    Spec.last Spec.levelSet 8 (globalEvents h) = 8 ∧
    Spec.last Spec.globalSet 8 (globalEvents h) = 8 := by
  unfold globalEvents
  simp only [last_append]
  refine ⟨?_, ?_, ?_, ?_, ?_, ?_, ?_, ?_, ?_, ?_⟩
  · rw [last_steps_mode Spec.flatSet (fun m => m == modeProd) (fun m d => rfl) (fun c => rfl)]
    cases GSpec.mode h with
    | none => rfl
    | some m => simp [GSpec.flat, modeProd]; exact beq_dec m _
  · rw [last_steps_mode Spec.colorSet (fun m => m == modeDev) (fun m d => rfl) (fun c => rfl)]
    cases GSpec.mode h with
    | none => rfl
    | some m => simp [GSpec.colored, modeDev]; exact beq_dec m _
  · rw [last_steps_mode Spec.shortSet (fun m => m == modeProd) (fun m d => rfl) (fun c => rfl)]
    cases GSpec.mode h with
    | none => rfl
    | some m => simp [GSpec.short, modeProd]; exact beq_dec m _
  · rw [last_steps_none _ _ h (no_setting _ (fun _ => rfl) (fun _ => rfl) (fun _ => rfl) (fun _ => rfl))]; rfl
  · rw [last_steps_none _ _ h (no_setting _ (fun _ => rfl) (fun _ => rfl) (fun _ => rfl) (fun _ => rfl))]; rfl
  · rw [last_steps_none _ _ h (no_setting _ (fun _ => rfl) (fun _ => rfl) (fun _ => rfl) (fun _ => rfl))]; rfl
  · rw [last_steps_none _ _ h (no_setting _ (fun _ => rfl) (fun _ => rfl) (fun _ => rfl) (fun _ => rfl))]; rfl
  · rw [last_steps_none _ _ h (no_setting _ (fun _ => rfl) (fun _ => rfl) (fun _ => rfl) (fun _ => rfl))]; rfl
  · rw [last_steps_none _ _ h (no_setting _ (fun _ => rfl) (fun _ => rfl) (fun _ => rfl) (fun _ => rfl))]; rfl
  · rw [last_steps_none _ _ h (no_setting _ (fun _ => rfl) (fun _ => rfl) (fun _ => rfl) (fun _ => rfl))]; rfl

theorem rank_three {m : Method} (h : Spec.Standard m) :
    Spec.rank m ≤ 3 ↔ (m = .emergency ∨ m = .alert ∨ m = .critical) := by
  unfold Spec.Standard Spec.severities at h
  simp only [List.mem_cons, List.not_mem_nil, or_false] at h
  rcases h with rfl | rfl | rfl | rfl | rfl | rfl | rfl | rfl <;> decide

/-! ## The property -/

/-- **C179**: whatever has been logged and whichever applications have adopted the global logger before, a call of a
logging method prints exactly the line of the specification: flattened to one line in production (and before any
application has adopted the logger), colored in development, after the settings of the application that adopted it
last. -/
theorem C179_line (host : Str) (h : List GStep) (c : Call) (hs : Spec.Standard c.method) :
    globalCall host h c = some (.printed (if GSpec.flat (GSpec.mode h) then flatten (GSpec.line host (GSpec.mode h) c)
      else GSpec.line host (GSpec.mode h) c)) := by
  obtain ⟨e1, e2, e3, e4, e5, e6, e7, e8, e9, e10⟩ := global_settings h
  have hr : Spec.rank c.method ≤ 8 := by rw [← rank_eq hs]; exact (rank_range hs).2
  have hx := C80_line (newReqLogger host) (b!"[" ++ host ++ b!"]") (Or.inr ⟨host, rfl, rfl⟩) (globalEvents h) c hs
    (by rw [e9]; exact hr) (by rw [e10]; exact hr)
  have hd : Spec.depth (globalEvents h) c = GSpec.depth c := by unfold Spec.depth GSpec.depth; rw [e6]; cases c.opt <;> rfl
  have hsite : Spec.site (globalEvents h) c = GSpec.site (GSpec.mode h) c := by
    unfold Spec.site GSpec.site
    rw [e4, hd, e3]
    simp only [true_and]
  have htr : Spec.trace (globalEvents h) c = GSpec.trace c := by
    unfold Spec.trace GSpec.trace
    rw [e5, hd]
    have hr3 := rank_three hs
    by_cases hW : (Spec.rank c.method ≤ 3 ∨ ∃ o, c.opt = some o ∧ o.stack = true) ∧ ¬ Spec.Report (Spec.text c)
    · rw [if_pos hW, if_pos ⟨hW.1.imp hr3.1 id, hW.2⟩]
    · rw [if_neg hW, if_neg (fun h => hW ⟨h.1.imp hr3.2 id, h.2⟩)]
  rw [e1, e2, e7, e8, hsite, htr] at hx
  unfold globalCall
  unfold Spec.resultAfter at hx
  rw [hx]
  unfold Spec.shown GSpec.line
  simp

/-- In production every message of the global logger is one line: the text given to the printer has no newline, whatever
the message, the file names and the stack trace are. -/
theorem C179_production (host : Str) (h : List GStep) (m : GSpec.mode h = none ∨ GSpec.mode h = some b!"prod") (c : Call)
    (hs : Spec.Standard c.method) : ∃ s, globalCall host h c = some (.printed s) ∧ (10 : UInt8) ∉ s := by
  refine ⟨_, C179_line host h c hs, ?_⟩
  have : GSpec.flat (GSpec.mode h) = true := by
    unfold GSpec.flat
    rcases m with m | m <;> rw [m] <;> decide
  rw [if_pos this]
  exact escapeNL_no_nl _

/-- Two applications of one process share it: when a second one adopts the logger, the messages of the first one are
printed in the second one's way. -/
theorem C179_last_application_wins (host : Str) (h : List GStep) (m : Str) (c : Call) (hs : Spec.Standard c.method) :
    globalCall host (h ++ [.use m]) c = globalCall host [.use m] c := by
  have : ∀ h : List GStep, GSpec.mode (h ++ [.use m]) = some m := by
    intro h
    induction h with
    | nil => rfl
    | cons s h ih =>
      cases s with
      | use m' => simp only [List.cons_append, GSpec.mode, ih, Option.getD]
      | log c => simp only [List.cons_append, GSpec.mode, ih]
  rw [C179_line host _ c hs, C179_line host _ c hs, this h]
  rfl

/-- A message of two lines, in production, in development and in the test mode. -/
example : globalCall b!"web1" [.log (Spec.call .info b!"up"), .use b!"prod"] (Spec.call .warn b!"a\nb") =
      some (.printed b!"[WARN][web1] a\\nb") ∧
    globalCall b!"web1" [.use b!"prod", .use b!"dev"] (Spec.call .warn b!"a\nb") =
      some (.printed b!"\x1b[1;33m[WARN][web1]\x1b[0m a\nb\n") ∧
    globalCall b!"web1" [.use b!"test"] (Spec.call .warn b!"a\nb") = some (.printed b!"[WARN][web1] a\nb\n") := by
  decide +kernel

end Verif.Log
