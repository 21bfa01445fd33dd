import Verif.Model.Log
/-!
# C59, C60, C73: loggers
-/
namespace Verif.Log
open Verif.Go

/-! ## Specification -/

/-- RFC 5424 severities, most severe first, numbered from one. -/
def Spec.severities : List Method := [.emergency, .alert, .critical, .error, .warn, .notice, .info, .debug]

/-- One of the sixteen ordinary methods. -/
def Spec.Standard (m : Method) : Prop := m ∈ Spec.severities

/-- Its rank: position in the list above, from one. -/
def Spec.rank (m : Method) : Int := (Spec.severities.idxOf m : Int) + 1

/-- The tag of a method's lines ("CRITCIAL" is spelled so). -/
def Spec.tag : Method → Str
  | .emergency => b!"[EMERGENCY]"
  | .alert => b!"[ALERT]"
  | .critical => b!"[CRITCIAL]"
  | .error => b!"[ERROR]"
  | .warn => b!"[WARN]"
  | .notice => b!"[NOTICE]"
  | .info => b!"[INFO]"
  | .debug => b!"[DEBUG]"
  | .recoverAt _ => []

/-- The level set last (by default `LevelDebug`). -/
def Spec.levelAfter : List Ev → Int
  | [] => 8
  | es@(_ :: _) => ((es.reverse.findSome? (fun e => match e with | .setLevel v => some v | _ => none))).getD 8

/-- The global level set last (by default `LevelDebug`). -/
def Spec.globalAfter : List Ev → Int
  | [] => 8
  | es@(_ :: _) => ((es.reverse.findSome? (fun e => match e with | .setGlobal v => some v | _ => none))).getD 8

/-- The result of the call that comes after `pre` in a history. -/
def Spec.resultAfter (l : Logger) (pre : List Ev) (c : Call) : Option Res :=
  ((run (pre ++ [.call c]) (start l)).getLast?).map (fun r => r.2)

/-! ## Histories -/

def states : List Ev → St → St
  | [], s => s
  | e :: es, s => states es (s.set e)

theorem run_append (a b : List Ev) : ∀ s, run (a ++ b) s = run a s ++ run b (states a s) := by
  induction a with
  | nil => intro s; rfl
  | cons e r ih =>
    intro s
    cases e <;> simp [run, states, ih, St.set]

theorem states_append (a b : List Ev) : ∀ s, states (a ++ b) s = states b (states a s) := by
  induction a with
  | nil => intro s; rfl
  | cons e r ih => intro s; simp only [List.cons_append, states, ih]

theorem resultAfter_eq (l : Logger) (pre : List Ev) (c : Call) :
    Spec.resultAfter l pre c = some (write (states pre (start l)).glob (states pre (start l)).log c) := by
  unfold Spec.resultAfter
  rw [run_append]
  simp [run]

theorem reverse_ind {P : List Ev → Prop} (h0 : P []) (h1 : ∀ es e, P es → P (es ++ [e])) (es : List Ev) : P es := by
  suffices h : ∀ n (es : List Ev), es.length = n → P es from h _ es rfl
  intro n
  induction n with
  | zero => intro es h; rw [List.length_eq_zero_iff.1 h]; exact h0
  | succ n ih =>
    intro es h
    have hne : es ≠ [] := by intro e; rw [e] at h; simp at h
    rw [← List.dropLast_concat_getLast hne]
    exact h1 _ _ (ih _ (by rw [List.length_dropLast]; omega))

theorem levelAfter_snoc (es : List Ev) (e : Ev) :
    Spec.levelAfter (es ++ [e]) = (match e with | .setLevel v => v | _ => Spec.levelAfter es) := by
  cases es with
  | nil => cases e <;> simp [Spec.levelAfter]
  | cons a r => cases e <;> simp [Spec.levelAfter]

theorem globalAfter_snoc (es : List Ev) (e : Ev) :
    Spec.globalAfter (es ++ [e]) = (match e with | .setGlobal v => v | _ => Spec.globalAfter es) := by
  cases es with
  | nil => cases e <;> simp [Spec.globalAfter]
  | cons a r => cases e <;> simp [Spec.globalAfter]

theorem states_level (l : Logger) (hl : l.level = 8) (es : List Ev) :
    (states es (start l)).log.level = Spec.levelAfter es ∧ (states es (start l)).glob = Spec.globalAfter es := by
  refine reverse_ind (P := fun es => (states es (start l)).log.level = Spec.levelAfter es ∧
    (states es (start l)).glob = Spec.globalAfter es) ⟨hl, rfl⟩ ?_ es
  intro es e ih
  rw [states_append, levelAfter_snoc, globalAfter_snoc]
  cases e <;> simp [states, St.set, ih]

theorem states_reqPrefix (l : Logger) (es : List Ev) : ∀ g, (states es ⟨l, g⟩).log.reqPrefix = l.reqPrefix := by
  induction es generalizing l with
  | nil => intro g; rfl
  | cons e r ih => intro g; cases e <;> simp only [states, St.set, ih]

theorem rank_eq {m : Method} (h : Spec.Standard m) : m.level = Spec.rank m := by
  unfold Spec.Standard Spec.severities at h
  simp only [List.mem_cons, List.not_mem_nil, or_false] at h
  rcases h with rfl | rfl | rfl | rfl | rfl | rfl | rfl | rfl <;> decide

theorem rank_range {m : Method} (h : Spec.Standard m) : 1 ≤ m.level ∧ m.level ≤ 8 := by
  unfold Spec.Standard Spec.severities at h
  simp only [List.mem_cons, List.not_mem_nil, or_false] at h
  rcases h with rfl | rfl | rfl | rfl | rfl | rfl | rfl | rfl <;> decide

theorem tag_eq {m : Method} (h : Spec.Standard m) : levelTag[(m.level - 1).toNat]? = some (Spec.tag m) := by
  unfold Spec.Standard Spec.severities at h
  simp only [List.mem_cons, List.not_mem_nil, or_false] at h
  rcases h with rfl | rfl | rfl | rfl | rfl | rfl | rfl | rfl <;> decide

/-- Levels 1 to 8 have a tag and a color. -/
theorem tags (v : Int) (h1 : 1 ≤ v) (h8 : v ≤ 8) :
    ∃ tag col, levelTag[(v - 1).toNat]? = some tag ∧ colors[(v - 1).toNat]? = some (some col) := by
  have : ∀ n : Fin 8, ∃ tag col, levelTag[n.val]? = some tag ∧ colors[n.val]? = some (some col) := by
    intro n
    have e : ∀ n : Fin 8, (levelTag[n.val]?).isSome = true ∧ ((colors[n.val]?).getD none).isSome = true := by decide
    obtain ⟨a, b⟩ := e n
    obtain ⟨t, ht⟩ := Option.isSome_iff_exists.1 a
    obtain ⟨c, hc⟩ := Option.isSome_iff_exists.1 b
    refine ⟨t, c, ht, ?_⟩
    cases hx : colors[n.val]? with
    | none => rw [hx] at hc; cases hc
    | some y => rw [hx] at hc; simp at hc; rw [hc]
  exact this ⟨(v - 1).toNat, by omega⟩

/-- What is printed before the message. -/
def Spec.head (color : Bool) (tag col rest : Str) : Str :=
  if color then b!"\x1b[1;" ++ col ++ b!"m" ++ (tag ++ rest) ++ b!"\x1b[0m" else tag ++ rest

theorem print_eq (l : Logger) (v : Int) (h1 : 1 ≤ v) {tag col : Str}
    (ht : levelTag[(v - 1).toNat]? = some tag) (hc : colors[(v - 1).toNat]? = some (some col)) (pref msg : Str) (c : Call) (o : LineOpt) :
    ∃ site st, print l v pref msg c o =
      some ((fun out => if l.flat then flatten out else out)
        (Spec.head l.color tag col (pref ++ site) ++ b!" " ++ msg ++ st)) ∧
      (l.line = false → site = []) ∧ (v > l.stack → o.stack = false → st = []) := by
  refine ⟨if l.line && !o.hidden then funcCallMsg l c o.depth else [],
    if wantsStack l v o msg then [10] ++ c.trace o.depth else [], ?_, ?_, ?_⟩
  · unfold print
    rw [if_neg (by omega), ht, hc]
    simp only [Spec.head]
    cases l.color <;> simp [brush, List.append_assoc]
  · intro h; simp [h]
  · intro h h'
    have : wantsStack l v o msg = false := by
      unfold wantsStack
      rw [h']
      have : decide (v ≤ l.stack) = false := by simp; omega
      simp [this]
    rw [this]; rfl

/-! ## C59 -/

/-- **C59**: after any history of settings and calls, on a plain or a request logger, a call of one of the ordinary
methods prints one line if its severity is at least the logger's current level and the global level, and
nothing otherwise; it never panics. -/
theorem C59_written_iff (l : Logger) (hl : l = newLogger ∨ ∃ id, l = newReqLogger id) (pre : List Ev) (c : Call)
    (hs : Spec.Standard c.method) :
    ((∃ line, Spec.resultAfter l pre c = some (.printed line)) ↔
      Spec.rank c.method ≤ Spec.levelAfter pre ∧ Spec.rank c.method ≤ Spec.globalAfter pre) ∧
    (¬ (Spec.rank c.method ≤ Spec.levelAfter pre ∧ Spec.rank c.method ≤ Spec.globalAfter pre) →
      Spec.resultAfter l pre c = some .silent) := by
  have hl8 : l.level = 8 := by rcases hl with rfl | ⟨id, rfl⟩ <;> rfl
  obtain ⟨e1, e2⟩ := states_level l hl8 pre
  rw [resultAfter_eq, ← rank_eq hs, ← e1, ← e2]
  generalize states pre (start l) = s
  obtain ⟨h1, h8⟩ := rank_range hs
  obtain ⟨tag, col, ht, hc⟩ := tags _ h1 h8
  unfold write
  by_cases hg : c.method.level > s.log.level ∨ c.method.level > s.glob
  · rw [if_pos hg]
    exact ⟨⟨fun ⟨_, h⟩ => by simp at h, fun h => by omega⟩, fun _ => rfl⟩
  · rw [if_neg hg]
    obtain ⟨_, _, hp, _⟩ := print_eq s.log c.method.level h1 ht hc (getPrefix s.log c) (message c) c (lineOpt s.log c)
    rw [hp]
    exact ⟨⟨fun _ => by omega, fun _ => ⟨_, rfl⟩⟩, fun h => by omega⟩

/-- **C59**: calls at one logger never affect later calls: the results of a history are those of its calls alone,
each under the settings made before it. -/
theorem C59_calls_have_no_effect (l : Logger) (pre : List Ev) (c : Call) :
    Spec.resultAfter l pre c =
      Spec.resultAfter l (pre.filter (fun e => match e with | .call _ => false | _ => true)) c := by
  rw [resultAfter_eq, resultAfter_eq]
  have h : ∀ (es : List Ev) s, states es s = states (es.filter (fun e => match e with | .call _ => false | _ => true)) s := by
    intro es
    induction es with
    | nil => intro s; rfl
    | cons e r ih => intro s; cases e <;> simp [states, ih, St.set]
  rw [h pre]

/-- **C59 fails** for `Recover` with a level that is not one of the constants: the logging itself panics (levels
below one), after the panic it should report was recovered. -/
theorem C59_recover_level_zero_violated (text parsed : Str) (cl : Bool → Int → Str) (tr : Int → Str) (v : Int) (h : v < 1) :
    recover 8 newLogger (some text) (some v) cl tr parsed = (none, .panics) := by
  unfold recover
  simp only
  have hw : write 8 newLogger ⟨.recoverAt v, false, text, some { depth := 4, stack := true }, parsed, cl, tr⟩ = .panics := by
    unfold write print
    rw [if_neg (by simp [Method.level, newLogger]; omega)]
    simp [Method.level, h]
  rw [hw]

/-- **C59** (`Recover`): with one of the eight levels, or none, the panic of the function is always swallowed, its
value returned, and logged at that level (`LevelError` by default) iff the level is enabled; a function that
returns normally gives nil and logs nothing. -/
theorem C59_recover (glob : Int) (l : Logger) (panicked : Option Str) (level : Option Int)
    (hv : ∀ v, level = some v → 1 ≤ v ∧ v ≤ 8) (cl : Bool → Int → Str) (tr : Int → Str) (parsed : Str) :
    (recover glob l panicked level cl tr parsed).1 = some panicked ∧
    ((∃ s, (recover glob l panicked level cl tr parsed).2 = .printed s) ↔
      panicked ≠ none ∧ level.getD 4 ≤ l.level ∧ level.getD 4 ≤ glob) := by
  cases panicked with
  | none => exact ⟨rfl, ⟨fun ⟨_, h⟩ => by simp [recover] at h, fun h => absurd rfl h.1⟩⟩
  | some t =>
    have key : ∀ (c : Call), 1 ≤ c.method.level → c.method.level ≤ 8 →
        write glob l c ≠ .panics ∧ ((∃ s, write glob l c = .printed s) ↔ c.method.level ≤ l.level ∧ c.method.level ≤ glob) := by
      intro c h1 h8
      obtain ⟨tag, col, ht, hc⟩ := tags _ h1 h8
      unfold write
      by_cases hg : c.method.level > l.level ∨ c.method.level > glob
      · rw [if_pos hg]; exact ⟨by simp, ⟨fun ⟨_, h⟩ => by simp at h, fun h => by omega⟩⟩
      · rw [if_neg hg]
        obtain ⟨_, _, hp, _⟩ := print_eq l c.method.level h1 ht hc (getPrefix l c) (message c) c (lineOpt l c)
        rw [hp]
        exact ⟨by simp, ⟨fun _ => by omega, fun _ => ⟨_, rfl⟩⟩⟩
    unfold recover
    cases level with
    | none =>
      obtain ⟨a, b⟩ := key ⟨.error, false, t, some { depth := 5, stack := true }, parsed, cl, tr⟩ (by simp [Method.level]) (by simp [Method.level])
      simp only
      cases hw : write glob l ⟨.error, false, t, some { depth := 5, stack := true }, parsed, cl, tr⟩ with
      | panics => exact absurd hw a
      | silent => rw [hw] at b; refine ⟨trivial, b.trans ?_⟩; simp [Method.level]
      | printed s => rw [hw] at b; refine ⟨trivial, b.trans ?_⟩; simp [Method.level]
    | some v =>
      obtain ⟨h1, h8⟩ := hv v rfl
      obtain ⟨a, b⟩ := key ⟨.recoverAt v, false, t, some { depth := 4, stack := true }, parsed, cl, tr⟩ h1 h8
      simp only
      cases hw : write glob l ⟨.recoverAt v, false, t, some { depth := 4, stack := true }, parsed, cl, tr⟩ with
      | panics => exact absurd hw a
      | silent => rw [hw] at b; refine ⟨trivial, b.trans ?_⟩; simp [Method.level]
      | printed s => rw [hw] at b; refine ⟨trivial, b.trans ?_⟩; simp [Method.level]

/-! ## C60 -/

theorem escapeNL_no_nl (s : Str) : (10 : UInt8) ∉ escapeNL s := by
  induction s with
  | nil => simp [escapeNL]
  | cons c r ih =>
    unfold escapeNL
    by_cases h : c = 10
    · rw [if_pos h]; simp [ih]
    · rw [if_neg h]; simp [ih, Ne.symm h]

theorem escapeNL_append (a b : Str) : escapeNL (a ++ b) = escapeNL a ++ escapeNL b := by
  induction a with
  | nil => rfl
  | cons c r ih =>
    rw [List.cons_append]
    simp only [escapeNL, ih]
    by_cases h : c = 10 <;> simp [h]

theorem escapeNL_id {a : Str} (h : (10 : UInt8) ∉ a) : escapeNL a = a := by
  induction a with
  | nil => rfl
  | cons c r ih =>
    unfold escapeNL
    rw [if_neg (by intro e; exact h (by simp [e])), ih (fun e => h (by simp [e]))]

/-- Flat mode is on: it is by default, until it is switched off. -/
def Spec.flatAfter : List Ev → Bool
  | [] => true
  | es@(_ :: _) => ((es.reverse.findSome? (fun e => match e with | .setFlat v => some v | _ => none))).getD true

theorem flatAfter_snoc (es : List Ev) (e : Ev) :
    Spec.flatAfter (es ++ [e]) = (match e with | .setFlat v => v | _ => Spec.flatAfter es) := by
  cases es with
  | nil => cases e <;> simp [Spec.flatAfter]
  | cons a r => cases e <;> simp [Spec.flatAfter]

theorem states_flat (l : Logger) (hl : l.flat = true) (es : List Ev) :
    (states es (start l)).log.flat = Spec.flatAfter es := by
  refine reverse_ind (P := fun es => (states es (start l)).log.flat = Spec.flatAfter es) hl ?_ es
  intro es e ih
  rw [states_append, flatAfter_snoc]
  cases e <;> simp [states, St.set, ih]

theorem print_flat (l : Logger) (hl : l.flat = true) (v : Int) (pref msg : Str) (c : Call) (o : LineOpt) (s : Str)
    (h : print l v pref msg c o = some s) : (10 : UInt8) ∉ s := by
  unfold print at h
  by_cases hv : v < 1
  · rw [if_pos hv] at h; cases h
  · rw [if_neg hv] at h
    cases ht : levelTag[(v - 1).toNat]? with
    | none => rw [ht] at h; cases h
    | some tag =>
      cases hc : colors[(v - 1).toNat]? with
      | none => rw [ht, hc] at h; cases h
      | some col =>
        rw [ht, hc] at h
        simp only [hl, if_true] at h
        split at h
        · cases h
        · simp only [Option.some.injEq] at h
          rw [← h]
          exact escapeNL_no_nl _

/-- **C60**: in flat mode (the default), after any history, whatever the message, the prefix, the source position and
the stack trace contain, what is handed to the printer contains no newline; the standard printer then writes
exactly one line: one newline, at the end. -/
theorem C60_one_line (l : Logger) (hl : l = newLogger ∨ ∃ id, l = newReqLogger id) (pre : List Ev) (c : Call)
    (hf : Spec.flatAfter pre = true) (line : Str) (h : Spec.resultAfter l pre c = some (.printed line)) :
    (10 : UInt8) ∉ line ∧
    ∀ hdr : Str, (10 : UInt8) ∉ hdr → ∃ t, stdPrint hdr line = t ++ [10] ∧ (10 : UInt8) ∉ t := by
  have hlf : l.flat = true := by rcases hl with rfl | ⟨id, rfl⟩ <;> rfl
  rw [resultAfter_eq] at h
  have e1 := states_flat l hlf pre
  rw [hf] at e1
  generalize states pre (start l) = s at h e1
  simp only [Option.some.injEq] at h
  unfold write at h
  by_cases hg : c.method.level > s.log.level ∨ c.method.level > s.glob
  · rw [if_pos hg] at h; cases h
  · rw [if_neg hg] at h
    cases hp : print s.log c.method.level (getPrefix s.log c) (message c) c (lineOpt s.log c) with
    | none => rw [hp] at h; cases h
    | some x =>
      rw [hp] at h
      simp only [Res.printed.injEq] at h
      subst h
      have hn := print_flat _ e1 _ _ _ _ _ _ hp
      refine ⟨hn, fun hdr hh => ⟨hdr ++ x, ?_, by simp [hh, hn]⟩⟩
      unfold stdPrint
      rw [if_neg]
      intro e
      exact hn (List.mem_of_getLast? e)

theorem trimSuffix_nl (a : Str) : trimSuffix (a ++ [10]) [10] = a := by
  unfold trimSuffix hasSuffix
  rw [if_pos (by rw [List.isSuffixOf_iff_suffix]; exact List.suffix_append a [10])]
  simp

/-- **C60**: and the line is the message, with each newline written as `\n`: for the methods without format, on a
logger without colors, source positions and stack traces. -/
theorem C60_content (l : Logger) (glob : Int) (c : Call) (hs : Spec.Standard c.method) (hf : l.flat = true)
    (hc : l.color = false) (hln : l.line = false) (hst : c.method.level > l.stack) (hp : l.hasParser = false)
    (hfm : c.formatted = false) (ho : c.opt = none)
    (he : c.method.level ≤ l.level ∧ c.method.level ≤ glob) :
    write glob l c = .printed (Spec.tag c.method ++ escapeNL l.pref ++ b!" " ++ escapeNL c.text) := by
  obtain ⟨h1, h8⟩ := rank_range hs
  obtain ⟨tag, col, ht, hcol⟩ := tags _ h1 h8
  obtain ⟨site, st, hpr, hsite, hstk⟩ :=
    print_eq l c.method.level h1 ht hcol (getPrefix l c) (message c) c (lineOpt l c)
  have et := tag_eq hs
  rw [ht] at et
  simp only [Option.some.injEq] at et
  rw [← et]
  unfold write
  rw [if_neg (by omega), hpr, hsite hln, hstk hst (by unfold lineOpt; rw [ho])]
  simp only [hf, if_true, Spec.head, hc, Bool.false_eq_true, if_false, List.append_nil]
  unfold flatten message getPrefix
  rw [hfm, hp]
  simp only [Bool.false_eq_true, if_false]
  have htag : escapeNL tag = tag := by
    apply escapeNL_id
    have : ∀ n : Fin 9, ∀ t, levelTag[n.val]? = some t → (10 : UInt8) ∉ t := by decide
    exact this ⟨(c.method.level - 1).toNat, by omega⟩ tag ht
  have e : tag ++ l.pref ++ b!" " ++ (c.text ++ [10]) = (tag ++ l.pref ++ b!" " ++ c.text) ++ [10] := by simp
  rw [e, trimSuffix_nl, escapeNL_append, escapeNL_append, escapeNL_append, htag]
  rfl

/-- **C60**, limit: the escaping is not reversible: two different messages give the same line. -/
theorem C60_escaping_ambiguous :
    escapeNL b!"a\nb" = escapeNL b!"a\\nb" ∧ b!"a\nb" ≠ b!"a\\nb" := by decide

/-! ## C73 -/

theorem flatten_prefix {a b : Str} (h : (10 : UInt8) ∉ a) (hb : b ≠ []) : ∃ r, flatten (a ++ b) = a ++ r := by
  unfold flatten trimSuffix hasSuffix
  by_cases hs : ([10] : Str).isSuffixOf (a ++ b) = true
  · rw [if_pos hs]
    refine ⟨escapeNL (b.take (b.length - 1)), ?_⟩
    have : (a ++ b).length - 1 = a.length + (b.length - 1) := by
      have := List.length_pos_iff.2 hb
      rw [List.length_append]; omega
    simp only [List.length_singleton]
    rw [this, List.take_length_add_append, escapeNL_append, escapeNL_id h]
  · rw [if_neg hs]
    exact ⟨escapeNL b, by rw [escapeNL_append, escapeNL_id h]⟩

/-- **C73**: after any history of settings (prefix, prefix parser, colors, …) each line of a request logger starts
with its level's tag followed by the bracketed request id — after the color code in color mode. -/
theorem C73_line_has_reqid (id : Str) (hid : (10 : UInt8) ∉ id) (pre : List Ev) (c : Call) (hs : Spec.Standard c.method)
    (line : Str) (h : Spec.resultAfter (newReqLogger id) pre c = some (.printed line)) :
    ∃ code rest, (code = [] ∨ ∃ col, code = b!"\x1b[1;" ++ col ++ b!"m") ∧
      line = code ++ Spec.tag c.method ++ b!"[" ++ id ++ b!"]" ++ rest := by
  rw [resultAfter_eq] at h
  have hpref : ∃ r, (states pre (start (newReqLogger id))).log.pref = b!"[" ++ id ++ b!"]" ++ r := by
    refine reverse_ind (P := fun es => ∃ r, (states es (start (newReqLogger id))).log.pref = b!"[" ++ id ++ b!"]" ++ r)
      ⟨[], by simp [states, start, newReqLogger]⟩ ?_ pre
    rintro es e ⟨r, ih⟩
    rw [states_append]
    cases e with
    | setPrefix p =>
      refine ⟨p, ?_⟩
      simp only [states, St.set]
      unfold start
      rw [states_reqPrefix]
      rfl
    | _ => exact ⟨r, by simpa [states, St.set] using ih⟩
  generalize states pre (start (newReqLogger id)) = s at h hpref
  obtain ⟨r, hr⟩ := hpref
  simp only [Option.some.injEq] at h
  obtain ⟨h1, h8⟩ := rank_range hs
  obtain ⟨tag, col, ht, hcol⟩ := tags _ h1 h8
  have et := tag_eq hs
  rw [ht] at et
  simp only [Option.some.injEq] at et
  rw [← et]
  have htag : (10 : UInt8) ∉ tag := by
    have : ∀ n : Fin 9, ∀ t, levelTag[n.val]? = some t → (10 : UInt8) ∉ t := by decide
    exact this ⟨(c.method.level - 1).toNat, by omega⟩ tag ht
  have hcl : (10 : UInt8) ∉ col := by
    have e : ∀ n : Fin 9, (10 : UInt8) ∉ ((colors[n.val]?).getD none).getD [] := by decide
    have := e ⟨(c.method.level - 1).toNat, by omega⟩
    simp only [hcol, Option.getD_some] at this
    exact this
  unfold write at h
  by_cases hg : c.method.level > s.log.level ∨ c.method.level > s.glob
  · rw [if_pos hg] at h; cases h
  · rw [if_neg hg] at h
    obtain ⟨site, st, hpr, -, -⟩ :=
      print_eq s.log c.method.level h1 ht hcol (getPrefix s.log c) (message c) c (lineOpt s.log c)
    rw [hpr] at h
    simp only [Res.printed.injEq] at h
    have hpx : ∃ q, getPrefix s.log c = b!"[" ++ id ++ b!"]" ++ q := by
      unfold getPrefix
      by_cases hq : s.log.hasParser = true
      · rw [if_pos hq]; exact ⟨r ++ c.parsed, by rw [hr, List.append_assoc]⟩
      · rw [if_neg hq]; exact ⟨r, hr⟩
    obtain ⟨q, hq⟩ := hpx
    refine ⟨if s.log.color then b!"\x1b[1;" ++ col ++ b!"m" else [], ?_⟩
    have hn : (10 : UInt8) ∉ (if s.log.color then b!"\x1b[1;" ++ col ++ b!"m" else []) ++ tag ++ b!"[" ++ id ++ b!"]" := by
      cases s.log.color <;> simp [htag, hcl, hid]
    have hout : ∃ z, z ≠ [] ∧ Spec.head s.log.color tag col (getPrefix s.log c ++ site) ++ b!" " ++ message c ++ st =
        ((if s.log.color then b!"\x1b[1;" ++ col ++ b!"m" else []) ++ tag ++ b!"[" ++ id ++ b!"]") ++ z := by
      rw [hq]
      unfold Spec.head
      cases s.log.color with
      | true => exact ⟨q ++ site ++ b!"\x1b[0m" ++ b!" " ++ message c ++ st, by simp, by simp [List.append_assoc]⟩
      | false => exact ⟨q ++ site ++ b!" " ++ message c ++ st, by simp, by simp [List.append_assoc]⟩
    obtain ⟨z, hz, hout⟩ := hout
    rw [hout] at h
    have hcode : (if s.log.color then b!"\x1b[1;" ++ col ++ b!"m" else []) = [] ∨
        ∃ col', (if s.log.color then b!"\x1b[1;" ++ col ++ b!"m" else []) = b!"\x1b[1;" ++ col' ++ b!"m" := by
      cases s.log.color with
      | true => exact Or.inr ⟨col, rfl⟩
      | false => exact Or.inl rfl
    cases hfl : s.log.flat with
    | true =>
      rw [hfl] at h
      obtain ⟨y, hy⟩ := flatten_prefix hn hz
      simp only [if_true] at h
      rw [hy] at h
      exact ⟨y, hcode, h.symm⟩
    | false =>
      rw [hfl] at h
      simp only [Bool.false_eq_true, if_false] at h
      exact ⟨z, hcode, h.symm⟩

/-! ## C80: the whole line -/

/-- The value a setting has after a history: the last one given, or the default. -/
def Spec.last {α : Type} (sel : Ev → Option α) (dflt : α) (es : List Ev) : α := (es.reverse.findSome? sel).getD dflt

def Spec.depthSet : Ev → Option Int | .setDepth d => some d | _ => none
def Spec.lineSet : Ev → Option Bool | .setLine d => some d | _ => none
def Spec.shortSet : Ev → Option Bool | .setShort d => some d | _ => none
def Spec.colorSet : Ev → Option Bool | .setColor d => some d | _ => none
def Spec.flatSet : Ev → Option Bool | .setFlat d => some d | _ => none
def Spec.parserSet : Ev → Option Bool | .setParser d => some d | _ => none
def Spec.stackSet : Ev → Option Int | .enableStack d => some d | _ => none
def Spec.levelSet : Ev → Option Int | .setLevel d => some d | _ => none
def Spec.globalSet : Ev → Option Int | .setGlobal d => some d | _ => none
def Spec.prefixSet : Ev → Option Str | .setPrefix d => some d | _ => none

theorem last_snoc {α : Type} (sel : Ev → Option α) (d : α) (es : List Ev) (e : Ev) :
    Spec.last sel d (es ++ [e]) = (sel e).getD (Spec.last sel d es) := by
  unfold Spec.last
  rw [List.reverse_append, List.reverse_singleton, List.singleton_append, List.findSome?_cons]
  cases sel e <;> rfl

/-- The settings of a logger after a history. `id`: the bracketed request id of a request logger, else empty. -/
theorem settings (l : Logger) (id : Str) (hl : (l = newLogger ∧ id = []) ∨ ∃ i, l = newReqLogger i ∧ id = b!"[" ++ i ++ b!"]")
    (es : List Ev) :
    (states es (start l)).log.depth = Spec.last Spec.depthSet 4 es ∧
    (states es (start l)).log.line = Spec.last Spec.lineSet false es ∧
    (states es (start l)).log.short = Spec.last Spec.shortSet false es ∧
    (states es (start l)).log.color = Spec.last Spec.colorSet false es ∧
    (states es (start l)).log.flat = Spec.last Spec.flatSet true es ∧
    (states es (start l)).log.hasParser = Spec.last Spec.parserSet false es ∧
    (states es (start l)).log.stack = Spec.last Spec.stackSet 0 es ∧
    (states es (start l)).log.level = Spec.last Spec.levelSet 8 es ∧
    (states es (start l)).glob = Spec.last Spec.globalSet 8 es ∧
    (states es (start l)).log.pref = id ++ Spec.last Spec.prefixSet [] es ∧
    (states es (start l)).log.reqPrefix.getD [] = id := by
  refine reverse_ind (P := fun es => (states es (start l)).log.depth = Spec.last Spec.depthSet 4 es ∧
    (states es (start l)).log.line = Spec.last Spec.lineSet false es ∧
    (states es (start l)).log.short = Spec.last Spec.shortSet false es ∧
    (states es (start l)).log.color = Spec.last Spec.colorSet false es ∧
    (states es (start l)).log.flat = Spec.last Spec.flatSet true es ∧
    (states es (start l)).log.hasParser = Spec.last Spec.parserSet false es ∧
    (states es (start l)).log.stack = Spec.last Spec.stackSet 0 es ∧
    (states es (start l)).log.level = Spec.last Spec.levelSet 8 es ∧
    (states es (start l)).glob = Spec.last Spec.globalSet 8 es ∧
    (states es (start l)).log.pref = id ++ Spec.last Spec.prefixSet [] es ∧
    (states es (start l)).log.reqPrefix.getD [] = id) ?_ ?_ es
  · rcases hl with ⟨rfl, rfl⟩ | ⟨i, rfl, rfl⟩
    · exact ⟨rfl, rfl, rfl, rfl, rfl, rfl, rfl, rfl, rfl, rfl, rfl⟩
    · refine ⟨rfl, rfl, rfl, rfl, rfl, rfl, rfl, rfl, rfl, ?_, rfl⟩
      simp [states, start, newReqLogger, Spec.last]
  · intro es e ih
    obtain ⟨h1, h2, h3, h4, h5, h6, h7, h8, h9, h10, h11⟩ := ih
    simp only [last_snoc, states_append]
    cases e <;> simp [states, St.set, Spec.depthSet, Spec.lineSet, Spec.shortSet, Spec.colorSet, Spec.flatSet,
      Spec.parserSet, Spec.stackSet, Spec.levelSet, Spec.globalSet, Spec.prefixSet, h1, h2, h3, h4, h5, h6, h7, h8, h9, h10, h11]

/-- The color of a severity's lines. -/
def Spec.color : Method → Str
  | .emergency => b!"37"
  | .alert => b!"36"
  | .critical => b!"35"
  | .error => b!"31"
  | .warn => b!"33"
  | .notice => b!"32"
  | .info => b!"34"
  | .debug => b!"30"
  | .recoverAt _ => []

theorem color_eq {m : Method} (h : Spec.Standard m) : colors[(m.level - 1).toNat]? = some (some (Spec.color m)) := by
  unfold Spec.Standard Spec.severities at h
  simp only [List.mem_cons, List.not_mem_nil, or_false] at h
  rcases h with rfl | rfl | rfl | rfl | rfl | rfl | rfl | rfl <;> decide

/-- How many callers up the shown position is: the depth set for the logger (4 by default) plus the call's own. -/
def Spec.depth (es : List Ev) (c : Call) : Int :=
  Spec.last Spec.depthSet 4 es + (match c.opt with | some o => o.depth | none => 0)

/-- The source position: shown iff positions are switched on, the call does not hide it and the depth is positive. -/
def Spec.site (es : List Ev) (c : Call) : Str :=
  if Spec.last Spec.lineSet false es = true ∧ (∀ o, c.opt = some o → o.hidden = false) ∧ 0 < Spec.depth es c then
    c.caller (Spec.last Spec.shortSet false es) (Spec.depth es c) else []

/-- The message as the method makes it: the methods without format end it with a newline. -/
def Spec.text (c : Call) : Str := if c.formatted then c.text else c.text ++ [10]

/-- A message that is a panic or stack report already. -/
def Spec.Report (msg : Str) : Prop := ∃ r, r ≠ [] ∧ (msg = b!"PANIC" ++ r ∨ msg = b!"STACK" ++ r)

open Classical in
/-- The stack trace: added, on a new line, when the call asks for it or its severity is enabled for traces, unless the
message is a report. -/
noncomputable def Spec.trace (es : List Ev) (c : Call) : Str :=
  if (Spec.rank c.method ≤ Spec.last Spec.stackSet 0 es ∨ ∃ o, c.opt = some o ∧ o.stack = true) ∧ ¬Spec.Report (Spec.text c) then
    [10] ++ c.trace (Spec.depth es c) else []

theorem report_iff (msg : Str) :
    (decide (5 < msg.length) && (msg.take 5 == b!"PANIC" || msg.take 5 == b!"STACK")) = true ↔ Spec.Report msg := by
  unfold Spec.Report
  simp only [Bool.and_eq_true, decide_eq_true_eq, Bool.or_eq_true, beq_iff_eq]
  constructor
  · rintro ⟨h1, h2⟩
    refine ⟨msg.drop 5, ?_, ?_⟩
    · intro e
      have := congrArg List.length e
      rw [List.length_drop, List.length_nil] at this
      omega
    · rcases h2 with h2 | h2
      · left; rw [← h2, List.take_append_drop]
      · right; rw [← h2, List.take_append_drop]
  · rintro ⟨r, hr, h | h⟩
    · subst h
      have := List.length_pos_iff.2 hr
      exact ⟨by simp; omega, Or.inl rfl⟩
    · subst h
      have := List.length_pos_iff.2 hr
      exact ⟨by simp; omega, Or.inr rfl⟩

/-- In flat mode one final newline goes and the others become `\\n`. -/
def Spec.shown (flat : Bool) (s : Str) : Str := if flat then flatten s else s

open Classical in
/-- **C80**: after any history, the line of an enabled call is exactly: the severity's tag, the request id if there is
one, the prefix last set, what the prefix parser adds if one is set, and the source position (see `Spec.site`) — in the
severity's color if colors are on — then a blank, the message, and the stack trace (see `Spec.trace`). -/
theorem C80_line (l : Logger) (id : Str) (hl : (l = newLogger ∧ id = []) ∨ ∃ i, l = newReqLogger i ∧ id = b!"[" ++ i ++ b!"]")
    (es : List Ev) (c : Call) (hs : Spec.Standard c.method)
    (h1 : Spec.rank c.method ≤ Spec.last Spec.levelSet 8 es) (h2 : Spec.rank c.method ≤ Spec.last Spec.globalSet 8 es) :
    Spec.resultAfter l es c = some (.printed (Spec.shown (Spec.last Spec.flatSet true es)
      (Spec.head (Spec.last Spec.colorSet false es) (Spec.tag c.method) (Spec.color c.method)
          (id ++ Spec.last Spec.prefixSet [] es ++ (if Spec.last Spec.parserSet false es then c.parsed else []) ++ Spec.site es c)
        ++ b!" " ++ Spec.text c ++ Spec.trace es c))) := by
  rw [resultAfter_eq]
  obtain ⟨e1, e2, e3, e4, e5, e6, e7, e8, e9, e10, -⟩ := settings l id hl es
  unfold Spec.site Spec.trace Spec.depth
  rw [← rank_eq hs] at h1 h2 ⊢
  rw [← e8] at h1
  rw [← e9] at h2
  rw [← e10, ← e1, ← e2, ← e3, ← e4, ← e5, ← e6, ← e7]
  generalize states es (start l) = s at h1 h2 ⊢
  obtain ⟨r1, -⟩ := rank_range hs
  unfold write
  rw [if_neg (by omega)]
  unfold print
  rw [if_neg (by omega), tag_eq hs, color_eq hs]
  dsimp only
  have hdepth : (lineOpt s.log c).depth = s.log.depth + (match c.opt with | some o => o.depth | none => 0) := by
    unfold lineOpt
    cases c.opt <;> simp [Int.add_comm]
  have hsite : (if s.log.line && !(lineOpt s.log c).hidden then funcCallMsg s.log c (lineOpt s.log c).depth else []) =
      (if s.log.line = true ∧ (∀ o, c.opt = some o → o.hidden = false) ∧
          0 < s.log.depth + (match c.opt with | some o => o.depth | none => 0) then
        c.caller s.log.short (s.log.depth + (match c.opt with | some o => o.depth | none => 0)) else []) := by
    rw [hdepth]
    unfold funcCallMsg
    have hh : (!(lineOpt s.log c).hidden) = true ↔ (∀ o, c.opt = some o → o.hidden = false) := by
      unfold lineOpt
      cases c.opt <;> simp
    generalize (match c.opt with | some o => o.depth | none => 0) = d
    by_cases hA : s.log.line = true
    · by_cases hB : (!(lineOpt s.log c).hidden) = true
      · rw [if_pos (by simp [hA] at hB ⊢; exact hB)]
        by_cases hC : s.log.depth + d > 0
        · rw [if_pos hC, if_pos ⟨hA, hh.1 hB, hC⟩]
        · rw [if_neg hC, if_neg (fun h => hC h.2.2)]
      · rw [if_neg (by simp at hB ⊢; intro _; exact hB), if_neg (fun h => hB (hh.2 h.2.1))]
    · rw [if_neg (by simp [hA]), if_neg (fun h => hA h.1)]
  have htrace : (if wantsStack s.log c.method.level (lineOpt s.log c) (message c) then [10] ++ c.trace (lineOpt s.log c).depth else []) =
      (if (c.method.level ≤ s.log.stack ∨ ∃ o, c.opt = some o ∧ o.stack = true) ∧ ¬Spec.Report (Spec.text c) then
        [10] ++ c.trace (s.log.depth + (match c.opt with | some o => o.depth | none => 0)) else []) := by
    rw [hdepth]
    have hst : (lineOpt s.log c).stack = true ↔ ∃ o, c.opt = some o ∧ o.stack = true := by
      unfold lineOpt
      cases c.opt <;> simp
    have hw : wantsStack s.log c.method.level (lineOpt s.log c) (message c) = true ↔
        (c.method.level ≤ s.log.stack ∨ ∃ o, c.opt = some o ∧ o.stack = true) ∧ ¬Spec.Report (Spec.text c) := by
      unfold wantsStack
      rw [← hst, ← report_iff]
      show _ ↔ _ ∧ ¬((decide (5 < (message c).length) && ((message c).take 5 == b!"PANIC" || (message c).take 5 == b!"STACK")) = true)
      simp only [Bool.and_eq_true, Bool.not_eq_true', Bool.or_eq_true, decide_eq_true_eq]
      rw [Bool.eq_false_iff]
      simp only [ne_eq, Bool.and_eq_true, Bool.or_eq_true, decide_eq_true_eq]
    by_cases hW : wantsStack s.log c.method.level (lineOpt s.log c) (message c) = true
    · rw [if_pos hW, if_pos (hw.1 hW)]
    · rw [if_neg hW, if_neg (fun h => hW (hw.2 h))]
  simp only [hsite, htrace]
  have hpre : getPrefix s.log c = s.log.pref ++ (if s.log.hasParser then c.parsed else []) := by
    unfold getPrefix
    cases s.log.hasParser <;> simp
  rw [hpre]
  unfold Spec.head Spec.shown
  cases s.log.color <;> simp [brush, message, Spec.text, List.append_assoc]

/-! ## Concrete cases -/

def Spec.call (m : Method) (text : Str) : Call := ⟨m, false, text, none, [], fun _ _ => [], fun _ => []⟩

example : Spec.resultAfter (newReqLogger b!"r1") [.setLevel 5, .call (Spec.call .debug b!"x"), .setPrefix b!"[p]"]
      (Spec.call .warn b!"a\nb") = some (.printed b!"[WARN][r1][p] a\\nb") ∧
    Spec.resultAfter (newReqLogger b!"r1") [.setLevel 5] (Spec.call .notice b!"a") = some .silent ∧
    Spec.Standard .warn ∧ Spec.flatAfter [.setLevel 5] = true := by
  refine ⟨by rfl, by rfl, by unfold Spec.Standard; decide, by rfl⟩

/-- A call with its own depth, on a logger that shows positions. -/
example : Spec.resultAfter newLogger [.setLine true, .setDepth 2]
      ⟨.info, true, b!"m", some { depth := 3 }, [], fun s d => if s = false ∧ d = 5 then b!"[x.go:7]" else b!"?", fun _ => []⟩ =
    some (.printed b!"[INFO][x.go:7] m") := by rfl

end Verif.Log
