import Verif.Model.CallSite
import Verif.Props.Log
import Verif.Props.DevPage
import Verif.Proofs.Num
/-!
# Where log lines and traces point (C147)
-/
namespace Verif.Where
open Verif.Go Verif.Log
open Verif.Page (Frame)

namespace Spec

/-- `t` is the file name as shown: the whole path, or with short names what follows the first `/src/`, if there is one. -/
def FileShown (short : Bool) (file t : Str) : Prop :=
  if short then
    (∃ a, file = a ++ b!"/src/" ++ t ∧ ∀ a' t', file = a' ++ b!"/src/" ++ t' → a.length ≤ a'.length) ∨
    ((∀ a' t', file ≠ a' ++ b!"/src/" ++ t') ∧ t = file)
  else t = file

/-- `t` is the text for the frame at the head of a stack: file and line, nothing if the stack is exhausted. -/
def Points (short : Bool) : List Frame → Str → Prop
  | [], t => t = []
  | f :: _, t => ∃ name digits, FileShown short f.file name ∧ NumSpec.Digits digits ∧ NumSpec.decimal digits = f.line ∧
      t = b!"[\"" ++ name ++ b!":" ++ digits ++ b!"\"]"

/-- The trace of a stack: `Stack(0)` of it, see C92. -/
def traceOf (read : Str → Option Str) (fs : List Frame) : Str := Page.stack read fs 0

end Spec

theorem afterSrc_spec : ∀ (s : Str),
    (∀ t, afterSrc s = some t → ∃ a, s = a ++ b!"/src/" ++ t ∧ ∀ a' t', s = a' ++ b!"/src/" ++ t' → a.length ≤ a'.length) ∧
    (afterSrc s = none → ∀ a' t', s ≠ a' ++ b!"/src/" ++ t')
  | [] => by
    refine ⟨fun t h => by simp [afterSrc] at h, fun _ a' t' h => ?_⟩
    have := congrArg List.length h
    simp at this
  | c :: s => by
    obtain ⟨i1, i2⟩ := afterSrc_spec s
    unfold afterSrc
    by_cases h : (c :: s).take 5 = b!"/src/"
    · rw [if_pos h]
      refine ⟨fun t ht => ⟨[], ?_, fun _ _ _ => Nat.zero_le _⟩, fun hn => by simp at hn⟩
      have e : (c :: s).drop 5 = t := by simpa using ht
      rw [← e, ← h]
      simp only [List.nil_append]
      exact (List.take_append_drop 5 (c :: s)).symm
    · rw [if_neg h]
      have nz : ∀ a' t', c :: s = a' ++ b!"/src/" ++ t' → ∃ a'', a' = c :: a'' ∧ s = a'' ++ b!"/src/" ++ t' := by
        intro a' t' e
        cases a' with
        | nil =>
          exfalso; apply h; rw [e]; simp
        | cons d a'' =>
          simp only [List.cons_append, List.cons.injEq] at e
          exact ⟨a'', by rw [e.1], e.2⟩
      refine ⟨fun t ht => ?_, fun hn a' t' e => ?_⟩
      · obtain ⟨a, h1, h2⟩ := i1 t ht
        refine ⟨c :: a, by rw [h1]; rfl, fun a' t' e => ?_⟩
        obtain ⟨a'', rfl, e2⟩ := nz a' t' e
        have := h2 a'' t' e2
        simp; exact this
      · obtain ⟨a'', rfl, e2⟩ := nz a' t' e
        exact i2 hn a'' t' e2

theorem shown_file (short : Bool) (file : Str) : Spec.FileShown short file (if short then shortFile file else file) := by
  cases short with
  | false => rfl
  | true =>
    show Spec.FileShown true file (shortFile file)
    unfold Spec.FileShown shortFile
    rw [if_pos rfl]
    obtain ⟨i1, i2⟩ := afterSrc_spec file
    cases h : afterSrc file with
    | some t => exact Or.inl (i1 t h)
    | none => exact Or.inr ⟨i2 h, rfl⟩

theorem points (fs : List Frame) (short : Bool) (d : Int) : Spec.Points short (fs.drop d.toNat) (position fs short d) := by
  unfold position
  cases h : fs[d.toNat]? with
  | none =>
    rw [List.drop_eq_nil_of_le (List.getElem?_eq_none_iff.1 h)]
    rfl
  | some f =>
    obtain ⟨hl, hf⟩ := List.getElem?_eq_some_iff.1 h
    rw [List.drop_eq_getElem_cons hl, hf]
    exact ⟨_, _, shown_file short f.file, natDec_Digits _, natDec_decimal _, rfl⟩


theorem stack_skip (read : Str → Option Str) (fs : List Frame) (n : Nat) : Page.stack read fs n = Spec.traceOf read (fs.drop n) := by
  unfold Spec.traceOf Page.stack
  rfl

/-- `es` are the settings made so far: is the position shown on the line of a call with this `LineOpt`? -/
def Spec.wantsPosition (es : List Ev) (opt : Option LineOpt) : Prop :=
  Log.Spec.last Log.Spec.lineSet false es = true ∧ ∀ o, opt = some o → o.hidden = false

/-- Is the trace added? -/
def Spec.wantsTrace (es : List Ev) (m : Method) (opt : Option LineOpt) (msg : Str) : Prop :=
  (Log.Spec.rank m ≤ Log.Spec.last Log.Spec.stackSet 0 es ∨ ∃ o, opt = some o ∧ o.stack = true) ∧ ¬Log.Spec.Report msg

open Classical in
/-- A line that shows `fs`: tag, request id, prefix, the position of the head of `fs` if wanted, the message, the trace of `fs` if
wanted. -/
def Spec.LineShows (read : Str → Option Str) (id : Str) (es : List Ev) (m : Method) (opt : Option LineOpt) (msg parsed : Str) (fs : List Frame)
    (out : Str) : Prop :=
  ∃ pos, Spec.Points (Log.Spec.last Log.Spec.shortSet false es) fs pos ∧
    out = Log.Spec.shown (Log.Spec.last Log.Spec.flatSet true es)
      (Log.Spec.head (Log.Spec.last Log.Spec.colorSet false es) (Log.Spec.tag m) (Log.Spec.color m)
          (id ++ Log.Spec.last Log.Spec.prefixSet [] es ++ (if Log.Spec.last Log.Spec.parserSet false es then parsed else []) ++
            (if Spec.wantsPosition es opt then pos else []))
        ++ b!" " ++ msg ++ (if Spec.wantsTrace es m opt msg then [10] ++ Spec.traceOf read fs else []))

open Classical in
/-- the stack a call shows, from the stacks seen by `funcCallMsg` and `Stack` -/
theorem line_shows (read : Str → Option Str) (l : Logger) (id : Str)
    (hl : (l = newLogger ∧ id = []) ∨ ∃ i, l = newReqLogger i ∧ id = b!"[" ++ i ++ b!"]")
    (es : List Ev) (c : Call) (hs : Log.Spec.Standard c.method)
    (h1 : Log.Spec.rank c.method ≤ Log.Spec.last Log.Spec.levelSet 8 es)
    (h2 : Log.Spec.rank c.method ≤ Log.Spec.last Log.Spec.globalSet 8 es)
    (a b : Frame) (as fs : List Frame) (hc : c.caller = position (a :: as ++ fs)) (ht : c.trace = trace read (b :: as ++ fs))
    (n : Nat) (hd : Log.Spec.depth es c = as.length + 1 + n) :
    ∃ out, Log.Spec.resultAfter l es c = some (.printed out) ∧
      Spec.LineShows read id es c.method c.opt (Log.Spec.text c) c.parsed (fs.drop n) out := by
  have drops : ∀ x : Frame, (x :: as ++ fs).drop (Log.Spec.depth es c).toNat = fs.drop n := by
    intro x
    have e : (Log.Spec.depth es c).toNat = (x :: as).length + n := by
      rw [hd]; simp; omega
    rw [e, List.drop_length_add_append]
  refine ⟨_, Log.C80_line l id hl es c hs h1 h2, ?_⟩
  refine ⟨position (a :: as ++ fs) (Log.Spec.last Log.Spec.shortSet false es) (Log.Spec.depth es c), ?_, ?_⟩
  · have := points (a :: as ++ fs) (Log.Spec.last Log.Spec.shortSet false es) (Log.Spec.depth es c)
    rwa [drops a] at this
  · have hp : 0 < Log.Spec.depth es c := by rw [hd]; omega
    have e1 : Log.Spec.site es c = (if Spec.wantsPosition es c.opt then
        position (a :: as ++ fs) (Log.Spec.last Log.Spec.shortSet false es) (Log.Spec.depth es c) else []) := by
      unfold Log.Spec.site Spec.wantsPosition
      rw [hc]
      by_cases hw : Log.Spec.last Log.Spec.lineSet false es = true ∧ ∀ o, c.opt = some o → o.hidden = false
      · rw [if_pos ⟨hw.1, hw.2, hp⟩, if_pos hw]
      · rw [if_neg (fun h => hw ⟨h.1, h.2.1⟩), if_neg hw]
    have e2 : Log.Spec.trace es c = (if Spec.wantsTrace es c.method c.opt (Log.Spec.text c) then
        [10] ++ Spec.traceOf read (fs.drop n) else []) := by
      unfold Log.Spec.trace Spec.wantsTrace
      rw [ht, trace, stack_skip, drops b]
      by_cases hw : (Log.Spec.rank c.method ≤ Log.Spec.last Log.Spec.stackSet 0 es ∨ ∃ o, c.opt = some o ∧ o.stack = true) ∧
          ¬Log.Spec.Report (Log.Spec.text c)
      · rw [if_pos hw, if_pos hw]
      · rw [if_neg hw, if_neg hw]
    rw [e1, e2]

/-- **C147**: the line of an enabled call of a logging method points at the program: with the default depth at the place that contains
the call, and with `SetFuncDepth (4 + a)` and `LineOpt{Depth: b}` at the place `a + b` callers further up; the trace begins there too. -/
theorem C147_call (own : Fn → Frame) (read : Str → Option Str) (us : List Frame) (l : Logger) (id : Str)
    (hl : (l = newLogger ∧ id = []) ∨ ∃ i, l = newReqLogger i ∧ id = b!"[" ++ i ++ b!"]")
    (es : List Ev) (m : Method) (hs : Log.Spec.Standard m)
    (h1 : Log.Spec.rank m ≤ Log.Spec.last Log.Spec.levelSet 8 es) (h2 : Log.Spec.rank m ≤ Log.Spec.last Log.Spec.globalSet 8 es)
    (formatted : Bool) (text : Str) (opt : Option LineOpt) (parsed : Str) (n : Nat)
    (hd : Log.Spec.last Log.Spec.depthSet 4 es + opt.elim 0 LineOpt.depth = 4 + n) :
    ∃ out, Log.Spec.resultAfter l es (call own read us m formatted text opt parsed) = some (.printed out) ∧
      Spec.LineShows read id es m opt (if formatted then text else text ++ [10]) parsed (us.drop n) out :=
  line_shows read l id hl es (call own read us m formatted text opt parsed) hs h1 h2
    (own .funcCallMsg) (own .stack) [own .print, own .write, own .method] us rfl rfl n (by
      unfold Log.Spec.depth call
      cases opt <;> simp at hd ⊢ <;> omega)

/-- The eight methods by their rank. -/
def Spec.methodOf (v : Int) : Method :=
  if v = 1 then .emergency else if v = 2 then .alert else if v = 3 then .critical else if v = 4 then .error
  else if v = 5 then .warn else if v = 6 then .notice else if v = 7 then .info else .debug

theorem methodOf_level {v : Int} (h1 : 1 ≤ v) (h2 : v ≤ 8) :
    (Spec.methodOf v).level = v ∧ Log.Spec.Standard (Spec.methodOf v) ∧ (Log.Spec.rank (Spec.methodOf v) : Int) = v := by
  have : v = 1 ∨ v = 2 ∨ v = 3 ∨ v = 4 ∨ v = 5 ∨ v = 6 ∨ v = 7 ∨ v = 8 := by omega
  unfold Log.Spec.Standard
  rcases this with rfl | rfl | rfl | rfl | rfl | rfl | rfl | rfl <;> decide

/-- the method matters for a line by its level only -/
theorem write_level (glob : Int) (l : Logger) (m m' : Method) (h : m.level = m'.level) (f : Bool) (t : Str) (o : Option LineOpt) (p : Str)
    (cl : Bool → Int → Str) (tr : Int → Str) : write glob l ⟨m, f, t, o, p, cl, tr⟩ = write glob l ⟨m', f, t, o, p, cl, tr⟩ := by
  unfold write
  rw [show (Call.mk m f t o p cl tr).method.level = (Call.mk m' f t o p cl tr).method.level from h]
  rfl

/-- **C147**: what `Recover` prints of a function that panicked, exactly: the position and the trace are those of the stack of the
panicking function, the runtime's frames in front, *without its first `d` frames*, where `d` is the logger's depth (4 by default). -/
theorem C147_recover (own : Fn → Frame) (read : Str → Option Str) (rt fs us : List Frame) (l : Logger) (id : Str)
    (hl : (l = newLogger ∧ id = []) ∨ ∃ i, l = newReqLogger i ∧ id = b!"[" ++ i ++ b!"]")
    (es : List Ev) (level : Option Int) (hv : ∀ v, level = some v → 1 ≤ v ∧ v ≤ 8)
    (h1 : level.getD 4 ≤ Log.Spec.last Log.Spec.levelSet 8 es) (h2 : level.getD 4 ≤ Log.Spec.last Log.Spec.globalSet 8 es)
    (text parsed : Str) (d : Nat) (hd : Log.Spec.last Log.Spec.depthSet 4 es = d) :
    ∃ out, recoverAt own read rt fs us (states es (start l)).glob (states es (start l)).log text level parsed = (some (some text), .printed out) ∧
      ∃ opt : LineOpt, opt.stack = true ∧ opt.hidden = false ∧
        Spec.LineShows read id es (Spec.methodOf (level.getD 4)) (some opt) (text ++ [10]) parsed
          ((rt ++ fs ++ own .recover :: us).drop d) out := by
  cases level with
  | none =>
    obtain ⟨out, ho, hsh⟩ := line_shows read l id hl es
      ⟨.error, false, text, some { depth := 5, stack := true }, parsed,
        position (own .funcCallMsg :: recoverOwn own none ++ rt ++ fs ++ own .recover :: us),
        trace read (own .stack :: recoverOwn own none ++ rt ++ fs ++ own .recover :: us)⟩
      (show Method.error ∈ Log.Spec.severities by decide) h1 h2 (own .funcCallMsg) (own .stack) (recoverOwn own none) (rt ++ fs ++ own .recover :: us)
      (by simp) (by simp) d (by
        show Log.Spec.last Log.Spec.depthSet 4 es + 5 = _
        rw [hd]; simp [recoverOwn]; omega)
    rw [resultAfter_eq] at ho
    refine ⟨out, ?_, _, rfl, rfl, hsh⟩
    unfold recoverAt recover
    simp only
    rw [Option.some.inj ho]
  | some v =>
    obtain ⟨a1, a2⟩ := hv v rfl
    obtain ⟨m1, m2, m3⟩ := methodOf_level a1 a2
    simp only [Option.getD_some] at h1 h2
    obtain ⟨out, ho, hsh⟩ := line_shows read l id hl es
      ⟨Spec.methodOf v, false, text, some { depth := 4, stack := true }, parsed,
        position (own .funcCallMsg :: recoverOwn own (some v) ++ rt ++ fs ++ own .recover :: us),
        trace read (own .stack :: recoverOwn own (some v) ++ rt ++ fs ++ own .recover :: us)⟩
      m2 (by show (Log.Spec.rank (Spec.methodOf v) : Int) ≤ _; rw [m3]; exact h1)
      (by show (Log.Spec.rank (Spec.methodOf v) : Int) ≤ _; rw [m3]; exact h2)
      (own .funcCallMsg) (own .stack) (recoverOwn own (some v)) (rt ++ fs ++ own .recover :: us)
      (by simp) (by simp) d (by
        show Log.Spec.last Log.Spec.depthSet 4 es + 4 = _
        rw [hd]; simp [recoverOwn]; omega)
    rw [resultAfter_eq] at ho
    refine ⟨out, ?_, _, rfl, rfl, hsh⟩
    unfold recoverAt recover
    simp only
    rw [write_level _ _ (.recoverAt v) (Spec.methodOf v) m1.symm, Option.some.inj ho]

/-- **C147**: what `RecoveryFilter` logs and shows as the trace, exactly: the stack of the panicking function, the runtime's frames in
front, without its first three frames. -/
theorem C147_filter (own : Fn → Frame) (read : Str → Option Str) (rt fs : List Frame) :
    filterTrace own read rt fs = Spec.traceOf read ((rt ++ fs).drop 3) := by
  unfold filterTrace
  rw [stack_skip]
  rfl

/-- **C147**: so it begins with the function that panicked exactly if the runtime has three frames on the stack; with one or two, as for
a call of `panic`, the function that panicked is skipped and the trace begins with a function that called it. -/
theorem C147_filter_skips_violated (own : Fn → Frame) (read : Str → Option Str) (rt : List Frame) (f : Frame) (fs : List Frame) :
    (rt.length = 3 → filterTrace own read rt (f :: fs) = Spec.traceOf read (f :: fs)) ∧
    (rt.length = 2 → filterTrace own read rt (f :: fs) = Spec.traceOf read fs) ∧
    (rt.length = 1 → filterTrace own read rt (f :: fs) = Spec.traceOf read (fs.drop 1)) := by
  refine ⟨fun h => ?_, fun h => ?_, fun h => ?_⟩
  · rw [C147_filter, List.drop_append_of_le_length (by omega), ← h]; simp
  · rw [C147_filter, List.drop_append, h, List.drop_eq_nil_of_le (by omega)]; rfl
  · rw [C147_filter, List.drop_append, h, List.drop_eq_nil_of_le (by omega)]; rfl

/-! ## Examples -/

/-- frames of the framework, of the runtime and of a program -/
def exOwn : Fn → Frame := fun _ => ⟨b!"/strip/log.go", 1, b!"0", none⟩
def exRt : List Frame := [⟨b!"/go/asm.s", 5, b!"1", none⟩, ⟨b!"/go/panic.go", 6, b!"2", none⟩]
def exFs : List Frame := [⟨b!"/w/src/app/divide.go", 10, b!"3", none⟩, ⟨b!"/w/src/app/shop.go", 20, b!"4", none⟩, ⟨b!"/w/src/app/serve.go", 30, b!"5", none⟩]
def exUs : List Frame := [⟨b!"/w/src/app/main.go", 40, b!"6", none⟩, ⟨b!"/go/proc.go", 7, b!"7", none⟩]

/-- The hypotheses of `C147_call`, and what it says: a plain call, and one in a helper that asks for its caller. -/
theorem C147_example :
    write 8 { newLogger with line := true, short := true } (call exOwn (fun _ => none) exFs .info true b!"hi" none []) =
      .printed b!"[INFO][\"app/divide.go:10\"] hi" ∧
    write 8 { newLogger with line := true } (call exOwn (fun _ => none) exFs .warn true b!"hi" (some { depth := 1 }) []) =
      .printed b!"[WARN][\"/w/src/app/shop.go:20\"] hi" ∧
    write 8 { newLogger with flat := false } (call exOwn (fun _ => none) exUs .error true b!"hi" (some { stack := true }) []) =
      .printed b!"[ERROR] hi\n/w/src/app/main.go:40 (0x6)\n/go/proc.go:7 (0x7)\n" := by
  decide +kernel

/-- `t` occurs in `s`. -/
def Spec.Occurs (t s : Str) : Prop := ∃ a b, s = a ++ t ++ b

theorem occurs_iff (t s : Str) :
    ((List.range (s.length + 1)).any fun n => (s.drop n).take t.length == t) = true ↔ Spec.Occurs t s := by
  simp only [List.any_eq_true, beq_iff_eq]
  constructor
  · rintro ⟨n, -, h⟩
    refine ⟨s.take n, (s.drop n).drop t.length, ?_⟩
    have : s = s.take n ++ ((s.drop n).take t.length ++ (s.drop n).drop t.length) := by
      rw [List.take_append_drop, List.take_append_drop]
    rw [h] at this
    rw [List.append_assoc]; exact this
  · rintro ⟨a, b, rfl⟩
    refine ⟨a.length, by simp; omega, ?_⟩
    rw [List.append_assoc, List.drop_left, List.take_left]

instance (t s : Str) : Decidable (Spec.Occurs t s) := decidable_of_iff _ (occurs_iff t s)

/-- **C147 fails** for `Recover`: a function that calls `panic` in `divide.go`, called from `shop.go`: neither is on the line `Recover`
logs, at any level, with the default settings. -/
theorem C147_recover_hides_panic_violated : ∀ level ∈ [none, some 1, some 4, some 8],
    ∃ out, (recoverAt exOwn (fun _ => none) exRt exFs exUs 8 newLogger b!"boom" level []).2 = .printed out ∧
      ¬ Spec.Occurs b!"divide.go" out ∧ ¬ Spec.Occurs b!"shop.go" out ∧ Spec.Occurs b!"main.go" out := by
  intro level hl
  simp only [List.mem_cons, List.not_mem_nil, or_false] at hl
  rcases hl with rfl | rfl | rfl | rfl <;>
    exact ⟨_, rfl, by decide +kernel, by decide +kernel, by decide +kernel⟩

/-- **C147 fails** for `RecoveryFilter` too: the function that calls `panic` is not in the trace. -/
theorem C147_filter_hides_panic_violated : ¬ Spec.Occurs b!"divide.go" (filterTrace exOwn (fun _ => none) exRt exFs) ∧
    Spec.Occurs b!"shop.go" (filterTrace exOwn (fun _ => none) exRt exFs) := by decide +kernel

end Verif.Where
