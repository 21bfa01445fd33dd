import Verif.Model.Action
import Verif.Props.Conv
import Verif.Props.ConfigBind
import Verif.Props.FilterOrigin
/-!
# C84, C85: the arguments of a controller's method, and its receiver
-/
namespace Verif.Action
open Verif.Go Verif.Conv Verif.Conf Verif.Router
variable {F : Type}

/-! ## Specification of an argument -/

/-- The number an integer parameter accepts as `s`. -/
def Spec.Accepts (k : IntKind) (s : Str) (i : Int) : Prop :=
  NumSpec.Denotes k.signed s i ∧ Conv.Spec.InType k i ∧ (k = .uint → i < 2 ^ 32)

/-- Go's zero values: false, 0, the empty string, nil. -/
inductive Spec.Zero (w : World F) : Ty → Val F → Prop where
  | bool : Spec.Zero w .bool (.bool (1 = 2))
  | float (bits) : Spec.Zero w (.float bits) (.float w.zeroF)
  | int (k) : Spec.Zero w (.int k) (.int 0)
  | string : Spec.Zero w .string (.string [])
  | bytes : Spec.Zero w (.slice .byte) (.bytes [])
  | strings : Spec.Zero w (.slice .string) (.strings [])
  | slice (e) : e ≠ .byte → e ≠ .string → Spec.Zero w (.slice e) (.opaque 0)
  | ptr (t) : Spec.Zero w (.ptr t) (.ptr none)
  | other : Spec.Zero w .other (.opaque 0)

theorem zero_spec (w : World F) (t : Ty) : Spec.Zero w t (zero w t) := by
  cases t with
  | bool => exact .bool
  | float => exact .float _
  | int => exact .int _
  | string => exact .string
  | slice e => cases e <;> first | exact .bytes | exact .strings | exact .slice _ (by simp) (by simp)
  | ptr => exact .ptr _
  | other => exact .other

theorem zero_unique (w : World F) {t : Ty} {v v' : Val F} (h : Spec.Zero w t v) (h' : Spec.Zero w t v') : v = v' := by
  cases h <;> cases h' <;> first | rfl | contradiction

/-- What a parameter of type `t` receives, when the path parameter at its position is `o` (`none`: there is none). -/
inductive Spec.Arg (w : World F) : GT → Option Str → Val F → Prop where
  | missing (t : GT) (v) : Spec.Zero w t.ty v → Spec.Arg w t none v
  | int (n k s i) : Spec.Accepts k s i → Spec.Arg w (.base n (.int k)) (some s) (.int i)
  | intBad (n k s) : (∀ i, ¬ Spec.Accepts k s i) → Spec.Arg w (.base n (.int k)) (some s) (.int 0)
  | bool (n s) : Spec.Arg w (.base n .bool) (some s)
      (.bool (s = b!"on" ∨ s ∈ [b!"1", b!"t", b!"T", b!"true", b!"TRUE", b!"True"]))
  | float (n bits s) : Spec.Arg w (.base n (.float bits)) (some s) (.float (w.pf bits s))
  | string (n s) : Spec.Arg w (.base n .string) (some s) (.string s)
  | bytes (n s) : Spec.Arg w (.base n (.slice .byte)) (some s) (.bytes s)
  | strings (n s) : Spec.Arg w (.base n (.slice .string)) (some s) (.strings (splitList s))
  /-- structs, maps, interfaces and the like cannot be read from a path -/
  | other (n s) : Spec.Arg w (.base n .other) (some s) (.opaque 0)
  | namedByte (n s) : Spec.Arg w (.base n (.slice .namedByte)) (some s) (.opaque 0)
  | namedString (n s) : Spec.Arg w (.base n (.slice .namedString)) (some s) (.opaque 0)

/-- Parameter types that can be given a path parameter: no pointers, no slices but those of bytes and strings. -/
def Spec.Plain : GT → Prop
  | .base _ (.slice .other) => False
  | .base _ (.ptr _) => False
  | .base _ _ => True
  | .ptr _ => False

theorem rootStrTo_arg (w : World F) (n : Nat) (k : IntKind) (s : Str) :
    Spec.Arg w (.base n (.int k)) (some s) (.int (rootStrTo k s).1) := by
  rw [rootStrTo_value]
  cases h : rootStrTo k s with
  | mk i e =>
    cases e with
    | none => exact .int n k s i ((C52_root_accepts_iff k s i).1 h)
    | some e =>
      refine .intBad n k s fun j hj => ?_
      have := (C52_root_accepts_iff k s j).2 hj
      rw [h] at this
      cases this

theorem arg_spec (w : World F) (ps : Params) (i : Nat) (t : GT) (ht : i < ps.length → Spec.Plain t) :
    ∃ v, arg w ps i t = .ok (t, v) ∧ Spec.Arg w t (ps[i]?.map (·.2)) v := by
  unfold arg
  cases h : ps[i]? with
  | none => exact ⟨_, rfl, .missing t _ (zero_spec w _)⟩
  | some p =>
    obtain ⟨name, s⟩ := p
    have ht := ht (by
      have := (List.getElem?_eq_some_iff.mp h).1
      exact this)
    simp only [Option.map_some]
    cases t with
    | ptr e => exact ht.elim
    | base n t =>
      cases t with
      | bool =>
        refine ⟨.bool (strToBool s).1, rfl, ?_⟩
        rw [strToBool_eq]
        exact .bool n s
      | float b => exact ⟨_, rfl, .float n b s⟩
      | int k => exact ⟨_, rfl, rootStrTo_arg w n k s⟩
      | string => exact ⟨_, rfl, .string n s⟩
      | slice e =>
        cases e with
        | byte => exact ⟨_, rfl, .bytes n s⟩
        | namedByte => exact ⟨_, rfl, .namedByte n s⟩
        | string => exact ⟨_, rfl, .strings n s⟩
        | namedString => exact ⟨_, rfl, .namedString n s⟩
        | other => exact ht.elim
      | ptr t => exact ht.elim
      | other => exact ⟨_, rfl, .other n s⟩

theorem args_spec (w : World F) (ps : Params) (ts : List GT) : ∀ (i : Nat),
    (∀ (j : Nat) t, ts[j]? = some t → i + j < ps.length → Spec.Plain t) →
    ∃ as : List (GT × Val F), args w ps i ts = .ok as ∧ as.map (·.1) = ts ∧
      ∀ (j : Nat) t, ts[j]? = some t → ∃ v, as[j]? = some (t, v) ∧ Spec.Arg w t (ps[i + j]?.map (·.2)) v := by
  induction ts with
  | nil => intro i _; exact ⟨[], rfl, rfl, by simp⟩
  | cons t ts ih =>
    intro i h
    obtain ⟨v, h1, h2⟩ := arg_spec w ps i t (fun hi => h 0 t rfl hi)
    obtain ⟨as, g1, g2, g3⟩ := ih (i + 1) (fun j t' hj hlt => h (j + 1) t' hj (by omega))
    refine ⟨(t, v) :: as, ?_, by simp [g2], ?_⟩
    · unfold args
      rw [h1]
      simp only [Res.bind]
      rw [g1]
    · intro j t' hj
      cases j with
      | zero => cases hj; exact ⟨v, rfl, h2⟩
      | succ j =>
        obtain ⟨v', e1, e2⟩ := g3 j t' hj
        exact ⟨v', e1, by rw [show i + (j + 1) = i + 1 + j from by omega]; exact e2⟩

theorem callable_self (w : World F) (hr : ∀ t, w.assignable t t = true) (ts : List GT) :
    ∀ as : List (GT × Val F), as.map (·.1) = ts → callable w ts as = true := by
  induction ts with
  | nil => intro as h; cases as with
    | nil => rfl
    | cons a as => cases h
  | cons t ts ih => intro as h; cases as with
    | nil => cases h
    | cons a as =>
      simp only [List.map_cons, List.cons.injEq] at h
      unfold callable
      rw [h.1, hr t, ih as h.2]
      rfl

/-- **C84**: a route whose action is `f` calls the controller's method `f` with one argument for each of its parameters:
the `i`-th is read from the `i`-th path parameter — a number that is not one of the parameter's type reads as 0 — and is
the zero value when the path has fewer parameters. Path parameters beyond the method's are ignored. -/
theorem C84_arguments (w : World F) (hr : ∀ t, w.assignable t t = true) (ra : RouteAction) (ps : Params)
    (hne : ra.action ≠ []) (hex : ra.ctl.actionFuncExists ra.action = true)
    (hp : ∀ (i : Nat) t, (w.sig ra.ctl.id ra.action)[i]? = some t → i < ps.length → Spec.Plain t) :
    ∃ vs, callStructFunc w true ra ps ra.action = .ok vs ∧ vs.length = (w.sig ra.ctl.id ra.action).length ∧
      ∀ (i : Nat) t, (w.sig ra.ctl.id ra.action)[i]? = some t → ∃ v, vs[i]? = some v ∧ Spec.Arg w t (ps[i]?.map (·.2)) v := by
  have hin : actionIn w ra = w.sig ra.ctl.id ra.action := by unfold actionIn; rw [if_neg hne]
  obtain ⟨as, h1, h2, h3⟩ := args_spec w ps (w.sig ra.ctl.id ra.action) 0 (fun j t hj hlt => hp j t hj (by omega))
  refine ⟨as.map (·.2), ?_, ?_, ?_⟩
  · unfold callStructFunc
    rw [hin, h1]
    simp only
    rw [if_neg (by simp [hex]), if_neg (by simp), if_neg (by rw [callable_self w hr _ as h2]; simp)]
  · rw [← h2]; simp
  · intro i t hi
    obtain ⟨v, e1, e2⟩ := h3 i t hi
    refine ⟨v, by simp [e1], ?_⟩
    rw [Nat.zero_add] at e2
    exact e2

/-- **C84**: the arguments are determined by the specification. -/
theorem C84_arg_unique (w : World F) {t : GT} {o : Option Str} {v v' : Val F} (h : Spec.Arg w t o v) (h' : Spec.Arg w t o v') :
    v = v' := by
  have key : ∀ (k : IntKind) (s : Str) (i j : Int), Spec.Accepts k s i → Spec.Accepts k s j → i = j := by
    intro k s i j hi hj
    have a := (C52_root_accepts_iff k s i).2 hi
    have b := (C52_root_accepts_iff k s j).2 hj
    rw [a] at b
    cases b; rfl
  cases h with
  | int n k s i hi =>
    cases h' with
    | int _ _ _ j hj => rw [key k s i j hi hj]
    | intBad _ _ _ hb => exact (hb i hi).elim
  | intBad n k s hb =>
    cases h' with
    | int _ _ _ j hj => exact (hb j hj).elim
    | intBad => rfl
  | missing _ _ hz => cases h' with | missing _ _ hz' => exact zero_unique w hz hz'
  | bool => cases h'; rfl
  | float => cases h'; rfl
  | string => cases h'; rfl
  | bytes => cases h'; rfl
  | strings => cases h'; rfl
  | other => cases h'; rfl
  | namedByte => cases h'; rfl
  | namedString => cases h'; rfl

/-- **C84**: a method with too few or too many parameters for the arguments prepared is not called: the action panics. -/
theorem C84_arity (w : World F) (b : Bool) (ra : RouteAction) (ps : Params) (f : Str) (vs : List (Val F))
    (h : callStructFunc w b ra ps f = .ok vs) :
    vs.length = (w.sig ra.ctl.id f).length ∧ (actionIn w ra).length = (w.sig ra.ctl.id f).length ∧
    ra.ctl.actionFuncExists f = true := by
  have hlen : ∀ (ts : List GT) (i : Nat) (as : List (GT × Val F)), args w ps i ts = .ok as → as.length = ts.length := by
    intro ts
    induction ts with
    | nil => intro i as h; cases h; rfl
    | cons t ts ih =>
      intro i as h
      unfold args at h
      obtain ⟨a, h1, h2⟩ := res_bind_ok h
      obtain ⟨as', h3, h4⟩ := res_bind_ok h2
      cases h4
      simp [ih (i + 1) as' h3]
  have hcall : ∀ (ts : List GT) (as : List (GT × Val F)), callable w ts as = true → as.length = ts.length := by
    intro ts
    induction ts with
    | nil => intro as h; cases as with
      | nil => rfl
      | cons a as => cases h
    | cons t ts ih => intro as h; cases as with
      | nil => cases h
      | cons a as =>
        unfold callable at h
        simp only [Bool.and_eq_true] at h
        simp [ih as h.2]
  unfold callStructFunc at h
  cases ha : args w ps 0 (actionIn w ra) with
  | err e => rw [ha] at h; cases h
  | panic => rw [ha] at h; cases h
  | ok as =>
    rw [ha] at h
    simp only at h
    by_cases h1 : ra.ctl.actionFuncExists f = false
    · rw [if_pos h1] at h; cases h
    · rw [if_neg h1] at h
      by_cases h2 : b = false
      · rw [if_pos h2] at h; cases h
      · rw [if_neg h2] at h
        by_cases h3 : callable w (w.sig ra.ctl.id f) as = false
        · rw [if_pos h3] at h; cases h
        · rw [if_neg h3] at h
          cases h
          have hc := hcall _ as (by simpa using h3)
          exact ⟨by simp [hc], by rw [← hlen _ _ _ ha, hc], by simpa using h1⟩

/-! ## Which routes meet the hypotheses -/

/-- **C84**: a request answered by a route declared for its method, or by an `Any` route, calls the action the route was
declared with. -/
theorem C84_declared_action (t : Table) (m : Str) (ra : RouteAction) (f : Str) (h : chooseAction t m = some (ra, f))
    (hall : t.get m ≠ none ∨ t.allRoute = none) : f = ra.action := by
  unfold chooseAction at h
  cases hm : t.get m with
  | some a => rw [hm] at h; cases h; rfl
  | none =>
    rw [hm] at h
    have ha : t.allRoute = none := by
      rcases hall with e | e
      · exact absurd hm e
      · exact e
    rw [ha] at h
    simp only at h
    cases hy : t.anyRoute with
    | none => rw [hy] at h; cases h
    | some a =>
      rw [hy] at h
      simp only at h
      split at h
      · cases h; rfl
      · cases h

/-- A route's action exists as a method of its struct controller. -/
def HasMethod (a : RouteAction) : Prop := a.ctl.kind = .struct → a.ctl.methods.contains a.action = true

/-- The table invariant. -/
def TableOk (t : Table) : Prop :=
  (∀ M a, t.get M = some a → HasMethod a) ∧ (∀ a, t.anyRoute = some a → HasMethod a)

theorem items_action (items : List MItem) (c : Controller) : ∀ (a0 : Str),
    (items.all (fun i => match i with | .action a => c.ensureHasAction a | _ => true) = true) →
    (items.foldl (fun acc i => match i with | .action a => a | _ => acc) a0 = a0 ∨
      c.ensureHasAction (items.foldl (fun acc i => match i with | .action a => a | _ => acc) a0) = true) := by
  induction items with
  | nil => intro a0 _; exact Or.inl rfl
  | cons i items ih =>
    intro a0 h
    simp only [List.all_cons, Bool.and_eq_true] at h
    cases i with
    | action a =>
      rcases ih a h.2 with e | e
      · right
        simp only [List.foldl_cons]
        rw [e]; exact h.1
      · exact Or.inr e
    | filter fs => exact ih a0 h.2
    | exempt fs => exact ih a0 h.2

theorem decl_hasMethod (m : MethodDecl) (hok : m.ok = true) (hall : isAll m.method = false) (hany : isAny m.method = false)
    (fs : List Filter) : HasMethod ⟨m.ctl, if m.action = [] then methodAction m.method else m.action, fs⟩ := by
  intro hs
  have hs : m.ctl.kind = .struct := hs
  show m.ctl.methods.contains (if m.action = [] then methodAction m.method else m.action) = true
  unfold MethodDecl.ok at hok
  simp only [Bool.and_eq_true] at hok
  obtain ⟨h1, h2⟩ := hok
  by_cases ha : m.action = []
  · rw [if_pos ha]
    have hf : m.ctl.isFunc = false := by unfold Controller.isFunc; rw [hs]; rfl
    rw [ha, hall, hany, hf] at h2
    simp [Controller.ensureHasAction, hs] at h2
    simpa using h2
  · rw [if_neg ha]
    rcases items_action m.items m.ctl [] h1 with e | e
    · exact absurd e ha
    · have : m.ctl.ensureHasAction m.action = true := e
      simpa [Controller.ensureHasAction, hs] using this

theorem configExact_ok (fs : List Filter) : ∀ (l : List MethodDecl) (t t' : Table), TableOk t → configExact fs t l = some t' → TableOk t' := by
  intro l
  induction l with
  | nil => intro t t' h e; simp [configExact] at e; subst e; exact h
  | cons m l ih =>
    intro t t' h e
    unfold configExact at e
    by_cases hok : m.ok = true
    · rw [hok] at e
      simp only [Bool.not_true, Bool.false_eq_true, if_false] at e
      by_cases hx : (isAll m.method || isAny m.method) = true
      · rw [if_pos hx] at e; exact ih _ _ h e
      · rw [if_neg hx] at e
        simp only [Bool.or_eq_true, not_or, Bool.not_eq_true] at hx
        refine ih _ _ ?_ e
        refine ⟨?_, h.2⟩
        intro M a ha
        by_cases hM : M = m.method
        · subst hM
          have : a = ⟨m.ctl, if m.action = [] then methodAction m.method else m.action, fremove (fappend fs m.filters) m.exempts⟩ := by
            simp [Table.get, Table.set] at ha
            exact ha.symm
          rw [this]
          exact decl_hasMethod m hok hx.1 hx.2 _
        · refine h.1 M a ?_
          have hb : (M == m.method) = false := by simpa using hM
          simpa [Table.get, Table.set, List.lookup_cons, hb, lookup_filter_ne, hM] using ha
    · rw [Bool.not_eq_true] at hok
      rw [hok] at e
      cases e

theorem headDefault_ok (t : Table) (h : TableOk t) : TableOk (headDefault t) := by
  unfold headDefault
  split
  · rename_i a h1 h2
    refine ⟨?_, h.2⟩
    intro M b hb
    by_cases hM : M = HEAD
    · subst hM
      have : b = a := by
        simp [Table.get, Table.set] at hb
        exact hb.symm
      rw [this]
      exact h.1 GET a h2
    · refine h.1 M b ?_
      have hq : (M == HEAD) = false := by simpa using hM
      simpa [Table.get, Table.set, List.lookup_cons, hq, lookup_filter_ne, hM] using hb
  · exact h

theorem configMethods_ok {fs : List Filter} {ms : List MethodDecl} {t t' : Table} (h : TableOk t)
    (e : configMethods fs t ms = some t') : TableOk t' := by
  unfold configMethods at e
  cases h1 : configExact fs t ms with
  | none => rw [h1] at e; cases e
  | some t1 =>
    rw [h1] at e
    simp only [Option.bind_some] at e
    cases h2 : configAllRoute fs (headDefault t1) ms with
    | none => rw [h2] at e; cases e
    | some t2 =>
      rw [h2] at e
      simp only [Option.bind_some] at e
      have k1 := headDefault_ok t1 (configExact_ok fs ms t t1 h h1)
      have k2 : TableOk t2 := by
        unfold configAllRoute at h2
        split at h2
        · cases h2; exact k1
        · have := of_guard h2
          subst this
          exact k1
      unfold configAnyRoute at e
      split at e
      · cases e; exact k2
      · rename_i m hm
        simp only at e
        have hg := e
        have := of_guard e
        subst this
        refine ⟨k2.1, ?_⟩
        intro a ha
        cases ha
        intro hs
        have hs : m.ctl.kind = .struct := hs
        show m.ctl.methods.contains (if m.action = [] ∧ !m.ctl.isFunc then b!"Any" else m.action) = true
        have hf : m.ctl.isFunc = false := by unfold Controller.isFunc; rw [hs]; rfl
        rw [hf] at hg ⊢
        simp only [Bool.not_false, and_true] at hg ⊢
        generalize hact : (if m.action = [] then b!"Any" else m.action) = act at hg ⊢
        have hne : act ≠ [] := by
          rw [← hact]
          split
          · decide
          · assumption
        by_cases hens : m.ctl.ensureHasAction act = true
        · simpa [Controller.ensureHasAction, hs] using hens
        · rw [if_pos ⟨hne, by simpa using hens⟩] at hg
          cases hg

theorem foldlM_ok : ∀ (l : List Router.Spec.Reg) (t t' : Table), TableOk t →
    l.foldlM (fun t e => configMethods e.filters t e.methods) t = some t' → TableOk t' := by
  intro l
  induction l with
  | nil => intro t t' h e; simp at e; subst e; exact h
  | cons r l ih =>
    intro t t' h e
    rw [List.foldlM_cons] at e
    cases h1 : configMethods r.filters t r.methods with
    | none => rw [h1] at e; cases e
    | some t1 =>
      rw [h1] at e
      exact ih t1 t' (configMethods_ok h h1) e

/-- **C84** for requests: in any application, a request dispatched to a route declared for its method or with `Any` (no
`All` route at the pattern), with a struct controller whose injected fields can be resolved, calls the declared method
with the path parameters, converted to the types of its parameters. `ps` are the parameters of the pattern the path
matches, in order (C01). -/
theorem C84_request (w : World F) (hr : ∀ t, w.assignable t t = true) {hss : List (List Handler)} {root rt : Route}
    {m path f info : Str} {ra : RouteAction} {ps : Params} (h : registerAll hss newRoot = some root)
    (hd : handle root m path = .dispatch rt ra f ps info) (hs : ra.ctl.kind = .struct) (hm : [] ∉ ra.ctl.methods)
    (hall : rt.tbl.get (toUpper m) ≠ none ∨ rt.tbl.allRoute = none)
    (hp : ∀ (i : Nat) t, (w.sig ra.ctl.id f)[i]? = some t → i < ps.length → Spec.Plain t) :
    ∃ q vs, Router.Spec.Served hss q ∧ Router.Spec.Matches (q.map Router.Spec.segOf) (Router.Spec.pathSegs path) ps ∧
      callStructFunc w true ra ps f = .ok vs ∧ vs.length = (w.sig ra.ctl.id f).length ∧
      ∀ (i : Nat) t, (w.sig ra.ctl.id f)[i]? = some t → ∃ v, vs[i]? = some v ∧ Spec.Arg w t (ps[i]?.map (·.2)) v := by
  obtain ⟨q, h1, h2, -, -⟩ := C01_route_match_sound h hd
  unfold handle at hd
  cases hsel : selectRoute root path with
  | none => rw [hsel] at hd; cases hd
  | some x =>
    obtain ⟨rt', ps'⟩ := x
    rw [hsel] at hd
    simp only [] at hd
    cases hc : chooseAction rt'.tbl (toUpper m) with
    | none => rw [hc] at hd; cases hd
    | some y =>
      obtain ⟨a', f'⟩ := y
      rw [hc] at hd
      cases hd
      have hf := C84_declared_action _ _ _ _ hc hall
      subst hf
      obtain ⟨q', -, -, h3, -⟩ := select_sound h hsel
      obtain ⟨l, ht⟩ := select_foldTable h hsel
      have hok : TableOk rt.tbl := foldlM_ok _ {} _ ⟨(by intro M a ha; cases ha), (by intro a ha; cases ha)⟩ ht
      have hex : ra.ctl.methods.contains ra.action = true := by
        unfold chooseAction at hc
        cases hg : rt.tbl.get (toUpper m) with
        | some a => rw [hg] at hc; cases hc; exact hok.1 _ _ hg hs
        | none =>
          rw [hg] at hc
          have ha : rt.tbl.allRoute = none := by
            rcases hall with e | e
            · exact absurd hg e
            · exact e
          rw [ha] at hc
          simp only at hc
          cases hy : rt.tbl.anyRoute with
          | none => rw [hy] at hc; cases hc
          | some a =>
            rw [hy] at hc
            simp only at hc
            split at hc
            · cases hc; exact hok.2 _ hy hs
            · cases hc
      have hne : ra.action ≠ [] := by
        intro e
        rw [e] at hex
        exact hm (by simpa using hex)
      obtain ⟨vs, e1, e2, e3⟩ := C84_arguments w hr ra ps hne
        (by unfold Controller.actionFuncExists; rw [hs, hex]; rfl) hp
      exact ⟨q, vs, h1, h2, e1, e2, e3⟩

namespace Ex
/-- A controller with methods `Get(id int, name string)`, `Post()` and `All()`. -/
def ctl : Controller := ⟨1, .struct, [b!"Get", b!"Post", b!"All"]⟩
def ctl2 : Controller := ⟨1, .struct, [b!"Get", b!"Post"]⟩
def world : World Nat where
  pf := fun _ _ => 0
  zeroF := 0
  sig := fun _ m => if m = b!"Get" then [.base 1 (.int .int), .base 2 .string] else []
  assignable := fun a b => a == b
def ptrWorld : World Nat where
  pf := fun _ _ => 0
  zeroF := 0
  sig := fun _ _ => [.ptr (.base 1 (.int .int))]
  assignable := fun a b => a == b
def sliceWorld : World Nat where
  pf := fun _ _ => 0
  zeroF := 0
  sig := fun _ _ => [.base 3 (.slice .other)]
  assignable := fun a b => a == b
def params : Params := [(b!"id", b!"-7"), (b!"name", b!"x")]

/-- The outcome as something that can be compared. -/
def out : Res (List (Val Nat)) → Option (List (Int × Str))
  | .ok vs => some (vs.map fun v => match v with | .int i => (i, []) | .string s => (0, s) | _ => (1, []))
  | _ => none
end Ex

example : Ex.out (callStructFunc Ex.world true ⟨Ex.ctl, b!"Get", []⟩ Ex.params b!"Get") = some [(-7, []), (0, b!"x")] := by
  decide +kernel
example : Ex.out (callStructFunc Ex.world true ⟨Ex.ctl, b!"Get", []⟩ [(b!"id", b!"1x")] b!"Get") = some [(0, []), (0, [])] := by
  decide +kernel

/-- An application with `Router("/item/:id/:name", Get(Ctl{}))`, and what a request for it calls. -/
def Ex.app : List (List Handler) := [[.router b!"/item/:id/:name" [.method ⟨Ex.ctl, GET, []⟩]]]
def Ex.call (path : Str) : Option (Option (List (Int × Str))) :=
  (registerAll Ex.app newRoot).map fun root =>
    match handle root b!"GET" path with
    | .dispatch _ ra f ps _ => Ex.out (callStructFunc Ex.world true ra ps f)
    | .notFound => none

example : Ex.call b!"/item/-7/x" = some (some [(-7, []), (0, b!"x")]) := by decide +kernel
example : Ex.call b!"/item/" = some none := by decide +kernel

/-- **C84 fails** for `All` with a controller that has a method of the request's own method name: the arguments are those
of the method `All`, not of the method called, so `Get(id, name)` panics although the path has both parameters; the same
without a method `All`. -/
theorem C84_all_wrong_arguments_violated :
    (let t : Table := { allRoute := some ⟨Ex.ctl, b!"All", []⟩ }
     chooseAction t b!"GET" = some (⟨Ex.ctl, b!"All", []⟩, b!"Get") ∧
     Ex.out (callStructFunc Ex.world true ⟨Ex.ctl, b!"All", []⟩ Ex.params b!"Get") = none) ∧
    (let t : Table := { allRoute := some ⟨Ex.ctl2, [], []⟩ }
     chooseAction t b!"GET" = some (⟨Ex.ctl2, [], []⟩, b!"Get") ∧
     Ex.out (callStructFunc Ex.world true ⟨Ex.ctl2, [], []⟩ Ex.params b!"Get") = none) := by
  decide +kernel

/-- **C84 fails** for parameters of pointer type: the value passed is the number, not a pointer to it, and the call panics;
it panics as well for slices of other types. -/
theorem C84_pointer_violated :
    Ex.out (callStructFunc Ex.ptrWorld true ⟨Ex.ctl, b!"Get", []⟩ Ex.params b!"Get") = none ∧
    Ex.out (callStructFunc Ex.sliceWorld true ⟨Ex.ctl, b!"Get", []⟩ Ex.params b!"Get") = none := by
  decide +kernel

/-! ## C85: every request has its own receiver -/

/-- `k` steps of an action on a struct variable of its own. -/
def Spec.solo : Nat → List Nat × Prog → List Nat × Prog
  | 0, x => x
  | k + 1, (c, .done) => Spec.solo k (c, .done)
  | k + 1, (c, .get i f) => Spec.solo k (c, f (c[i]?.getD 0))
  | k + 1, (c, .set i v f) => Spec.solo k (c.set i v, f)

/-- One more step. -/
def Spec.soloStep : List Nat × Prog → List Nat × Prog
  | (c, .done) => (c, .done)
  | (c, .get i f) => (c, f (c[i]?.getD 0))
  | (c, .set i v f) => (c.set i v, f)

theorem solo_succ (k : Nat) : ∀ x, Spec.solo (k + 1) x = Spec.soloStep (Spec.solo k x) := by
  induction k with
  | zero => intro x; obtain ⟨c, p⟩ := x; cases p <;> rfl
  | succ k ih =>
    intro x
    obtain ⟨c, p⟩ := x
    cases p with
    | done => exact ih (c, .done)
    | get i f => exact ih (c, f (c[i]?.getD 0))
    | set i v f => exact ih (c.set i v, f)

/-- The fields assigned by injection, one after the other. -/
def Spec.injected (c : List Nat) (l : List (Nat × Nat)) : List Nat := l.foldl (fun c p => c.set p.1 p.2) c

theorem applyFields_eq (l : List (Nat × Nat)) : ∀ c, applyFields c l = Spec.injected c l := by
  induction l with
  | nil => intro c; rfl
  | cons p l ih => intro c; exact ih _

/-- The receiver a request's action starts with: a copy of the registered controller, then the injected fields. -/
def Spec.receiver (h0 : Heap) (reg : Registered) (n : Nat) (inj : List (Nat × Nat)) : List Nat :=
  Spec.injected (match reg with
    | .ptr a => (h0.cells[a]?).getD (List.replicate n 0)
    | .nil => List.replicate n 0
    | .value fs => fs) inj

/-- The state after a schedule in which request `q` was chosen `cnt q` times. -/
structure Inv (h0 : Heap) (reg : Registered) (n : Nat) (init : List (List (Nat × Nat) × Prog)) (cnt : Nat → Nat) (s : Sys) : Prop where
  len : s.reqs.length = init.length
  keep : ∃ t, s.heap.cells = h0.cells ++ t
  idle : ∀ q (hq : q < init.length), cnt q = 0 → s.reqs[q]? = some (.waiting init[q].1 init[q].2)
  run : ∀ q (hq : q < init.length), 0 < cnt q → ∃ a, h0.cells.length ≤ a ∧ a < s.heap.cells.length ∧
    s.reqs[q]? = some (.running a (Spec.solo (cnt q - 1) (Spec.receiver h0 reg n init[q].1, init[q].2)).2) ∧
    s.heap.cells[a]? = some (Spec.solo (cnt q - 1) (Spec.receiver h0 reg n init[q].1, init[q].2)).1
  apart : ∀ (q q' a : Nat) (p p' : Prog), s.reqs[q]? = some (.running a p) → s.reqs[q']? = some (.running a p') → q = q'

theorem Inv.step {h0 : Heap} {reg : Registered} {n : Nat} {init : List (List (Nat × Nat) × Prog)} {cnt : Nat → Nat} {s : Sys}
    (hreg : ∀ a, reg = .ptr a → a < h0.cells.length) (I : Inv h0 reg n init cnt s) (q : Nat) (hq : q < init.length) (r : Req)
    (hr : s.reqs[q]? = some r) :
    Inv h0 reg n init (fun x => if x = q then cnt x + 1 else cnt x)
      ⟨(Action.step reg n s.heap r).1, s.reqs.set q (Action.step reg n s.heap r).2⟩ := by
  have hql : q < s.reqs.length := by rw [I.len]; exact hq
  obtain ⟨t, ht⟩ := I.keep
  have hall : ∀ (q' a : Nat) (p : Prog), s.reqs[q']? = some (.running a p) → h0.cells.length ≤ a ∧ a < s.heap.cells.length := by
    intro q' a p h
    have hq' : q' < init.length := by
      have := (List.getElem?_eq_some_iff.mp h).1
      rw [I.len] at this; exact this
    by_cases hc : cnt q' = 0
    · rw [I.idle q' hq' hc] at h; cases h
    · obtain ⟨b, h1, h2, h3, h4⟩ := I.run q' hq' (by omega)
      rw [h3] at h
      cases h
      exact ⟨h1, h2⟩
  by_cases hc : cnt q = 0
  · -- the request starts
    have e := I.idle q hq hc
    rw [e] at hr
    cases hr
    have hrec : applyFields (fresh s.heap reg n) init[q].1 = Spec.receiver h0 reg n init[q].1 := by
      rw [applyFields_eq]
      unfold Spec.receiver fresh
      cases reg with
      | nil => rfl
      | value fs => rfl
      | ptr a =>
        simp only
        rw [ht, List.getElem?_append_left (hreg a rfl)]
    refine ⟨by simp [I.len], ⟨t ++ [applyFields (fresh s.heap reg n) init[q].1], by simp [Action.step, ht]⟩, ?_, ?_, ?_⟩
    · intro q' hq' hc'
      by_cases hqq : q' = q
      · rw [if_pos hqq] at hc'; omega
      · rw [if_neg hqq] at hc'
        simp only [List.getElem?_set_ne (Ne.symm hqq)]
        exact I.idle q' hq' hc'
    · intro q' hq' hc'
      by_cases hqq : q' = q
      · subst hqq
        refine ⟨s.heap.cells.length, by rw [ht]; simp, by simp [Action.step], ?_, ?_⟩
        · rw [List.getElem?_set_self hql, if_pos rfl, hc]
          rfl
        · rw [if_pos rfl, hc]
          show (s.heap.cells ++ [applyFields (fresh s.heap reg n) init[q'].1])[s.heap.cells.length]? = _
          rw [List.getElem?_append_right (Nat.le_refl _), hrec]
          simp [Spec.solo]
      · rw [if_neg hqq] at hc' ⊢
        obtain ⟨a, h1, h2, h3, h4⟩ := I.run q' hq' hc'
        refine ⟨a, h1, by simp [Action.step]; omega, ?_, ?_⟩
        · rw [List.getElem?_set_ne (Ne.symm hqq)]; exact h3
        · show (s.heap.cells ++ [_])[a]? = _
          rw [List.getElem?_append_left h2]; exact h4
    · intro x y a p p' hx hy
      simp only [Action.step] at hx hy
      by_cases hxq : x = q
      · subst hxq
        rw [List.getElem?_set_self hql] at hx
        by_cases hyq : y = x
        · exact hyq.symm
        · rw [List.getElem?_set_ne (Ne.symm hyq)] at hy
          have := hall y a p' hy
          cases hx
          omega
      · rw [List.getElem?_set_ne (Ne.symm hxq)] at hx
        by_cases hyq : y = q
        · subst hyq
          rw [List.getElem?_set_self hql] at hy
          have := hall x a p hx
          cases hy
          omega
        · rw [List.getElem?_set_ne (Ne.symm hyq)] at hy
          exact I.apart x y a p p' hx hy
  · -- the request goes on
    obtain ⟨a, h1, h2, h3, h4⟩ := I.run q hq (by omega)
    rw [h3] at hr
    cases hr
    generalize hz : Spec.solo (cnt q - 1) (Spec.receiver h0 reg n init[q].1, init[q].2) = z at h3 h4
    obtain ⟨c, p⟩ := z
    simp only at h3 h4
    have hsucc : Spec.solo (cnt q) (Spec.receiver h0 reg n init[q].1, init[q].2) = Spec.soloStep (c, p) := by
      have : cnt q = (cnt q - 1) + 1 := by omega
      rw [this, solo_succ, hz]
    have hstep : ∃ cells', (Action.step reg n s.heap (.running a p)) = (⟨cells'⟩, .running a (Spec.soloStep (c, p)).2) ∧
        cells'.length = s.heap.cells.length ∧ cells'[a]? = some (Spec.soloStep (c, p)).1 ∧
        (∀ b, b ≠ a → cells'[b]? = s.heap.cells[b]?) ∧ (∃ t, cells' = h0.cells ++ t) := by
      cases p with
      | done => exact ⟨s.heap.cells, rfl, rfl, h4, fun _ _ => rfl, t, ht⟩
      | get i f =>
        refine ⟨s.heap.cells, ?_, rfl, h4, fun _ _ => rfl, t, ht⟩
        show (s.heap, Req.running a (f ((((s.heap.cells)[a]?).getD [])[i]?.getD 0))) = _
        rw [h4]
        rfl
      | set i v f =>
        refine ⟨s.heap.cells.set a (c.set i v), ?_, by simp, ?_, ?_, ?_⟩
        · show ((⟨s.heap.cells.set a (setField (((s.heap.cells)[a]?).getD []) i v)⟩ : Heap), Req.running a f) = _
          rw [h4]
          rfl
        · rw [List.getElem?_set_self h2]; rfl
        · intro b hb; exact List.getElem?_set_ne (Ne.symm hb)
        · exact ⟨t.set (a - h0.cells.length) (c.set i v), by rw [ht, List.set_append_right _ _ h1]⟩
    obtain ⟨cells', e1, e2, e3, e4, e5⟩ := hstep
    rw [e1]
    refine ⟨by simp [I.len], e5, ?_, ?_, ?_⟩
    · intro q' hq' hc'
      by_cases hqq : q' = q
      · rw [if_pos hqq] at hc'; omega
      · rw [if_neg hqq] at hc'
        simp only [List.getElem?_set_ne (Ne.symm hqq)]
        exact I.idle q' hq' hc'
    · intro q' hq' hc'
      by_cases hqq : q' = q
      · subst hqq
        refine ⟨a, h1, by rw [e2]; exact h2, ?_, ?_⟩
        · rw [List.getElem?_set_self hql, if_pos rfl, show cnt q' + 1 - 1 = cnt q' from rfl, hsucc]
        · rw [if_pos rfl, show cnt q' + 1 - 1 = cnt q' from rfl, hsucc]; exact e3
      · rw [if_neg hqq] at hc' ⊢
        obtain ⟨b, g1, g2, g3, g4⟩ := I.run q' hq' hc'
        have hab : b ≠ a := by
          intro e
          subst e
          exact hqq (I.apart q' q b _ _ g3 h3)
        refine ⟨b, g1, by rw [e2]; exact g2, ?_, ?_⟩
        · rw [List.getElem?_set_ne (Ne.symm hqq)]; exact g3
        · rw [e4 b hab]; exact g4
    · intro x y b p1 p2 hx hy
      simp only at hx hy
      by_cases hxq : x = q
      · subst hxq
        rw [List.getElem?_set_self hql] at hx
        by_cases hyq : y = x
        · exact hyq.symm
        · rw [List.getElem?_set_ne (Ne.symm hyq)] at hy
          cases hx
          exact (I.apart y x _ _ _ hy h3).symm
      · rw [List.getElem?_set_ne (Ne.symm hxq)] at hx
        by_cases hyq : y = q
        · subst hyq
          rw [List.getElem?_set_self hql] at hy
          cases hy
          exact I.apart x y _ _ _ hx h3
        · rw [List.getElem?_set_ne (Ne.symm hyq)] at hy
          exact I.apart x y b p1 p2 hx hy

theorem Inv.runSched {h0 : Heap} {reg : Registered} {n : Nat} {init : List (List (Nat × Nat) × Prog)}
    (hreg : ∀ a, reg = .ptr a → a < h0.cells.length) : ∀ (sched : List Nat) (cnt : Nat → Nat) (s : Sys), Inv h0 reg n init cnt s →
    Inv h0 reg n init (fun q => cnt q + sched.count q) (Action.runSched reg n sched s) := by
  intro sched
  induction sched with
  | nil => intro cnt s I; simpa [Action.runSched] using I
  | cons q qs ih =>
    intro cnt s I
    unfold Action.runSched
    cases hr : s.reqs[q]? with
    | none =>
      simp only
      have J := ih cnt s I
      have hq : init.length ≤ q := by rw [← I.len]; exact List.getElem?_eq_none_iff.mp hr
      refine ⟨J.len, J.keep, ?_, ?_, J.apart⟩
      · intro x hx hc
        refine J.idle x hx ?_
        simp only [List.count_cons] at hc
        omega
      · intro x hx hc
        have e : (q :: qs).count x = qs.count x := by
          rw [List.count_cons, if_neg (by simp; omega)]; rfl
        rw [e] at hc ⊢
        exact J.run x hx hc
    | some r =>
      simp only
      have hq : q < init.length := by rw [← I.len]; exact (List.getElem?_eq_some_iff.mp hr).1
      have J := ih _ _ (I.step hreg q hq r hr)
      have e : (fun x => (if x = q then cnt x + 1 else cnt x) + qs.count x) = (fun x => cnt x + (q :: qs).count x) := by
        funext x
        rw [List.count_cons]
        by_cases hxq : x = q
        · subst hxq; simp; omega
        · rw [if_neg hxq, if_neg (by simp; exact fun e => hxq e.symm)]; rfl
      rw [e] at J
      exact J

/-- **C85**: any number of requests for one controller, in any interleaving of their steps. Each request's action acts on
a struct variable of its own, which starts as a copy of the registered controller with the injected fields assigned: after
any schedule it holds what the action, run alone for the same number of steps, would have made of it; the registered
controller, and all other memory there was, is never changed. (Values that fields refer to are shared.) -/
theorem C85_own_receiver (h0 : Heap) (reg : Registered) (n : Nat) (init : List (List (Nat × Nat) × Prog)) (sched : List Nat)
    (hreg : ∀ a, reg = .ptr a → a < h0.cells.length) :
    (∀ a, a < h0.cells.length →
      (Action.runSched reg n sched ⟨h0, init.map fun r => .waiting r.1 r.2⟩).heap.cells[a]? = h0.cells[a]?) ∧
    (∀ q (hq : q < init.length), 0 < sched.count q →
      ∃ a, h0.cells.length ≤ a ∧
        (Action.runSched reg n sched ⟨h0, init.map fun r => .waiting r.1 r.2⟩).reqs[q]? =
          some (.running a (Spec.solo (sched.count q - 1) (Spec.receiver h0 reg n init[q].1, init[q].2)).2) ∧
        (Action.runSched reg n sched ⟨h0, init.map fun r => .waiting r.1 r.2⟩).heap.cells[a]? =
          some (Spec.solo (sched.count q - 1) (Spec.receiver h0 reg n init[q].1, init[q].2)).1) ∧
    (∀ (q q' a : Nat) (p p' : Prog), (Action.runSched reg n sched ⟨h0, init.map fun r => .waiting r.1 r.2⟩).reqs[q]? = some (.running a p) →
      (Action.runSched reg n sched ⟨h0, init.map fun r => .waiting r.1 r.2⟩).reqs[q']? = some (.running a p') → q = q') := by
  have I0 : Inv h0 reg n init (fun _ => 0) ⟨h0, init.map fun r => .waiting r.1 r.2⟩ := by
    refine ⟨by simp, ⟨[], by simp⟩, ?_, fun q hq h => by simp at h, ?_⟩
    · intro q hq _
      simp [hq]
    · intro q q' a p p' h
      simp only [List.getElem?_map] at h
      cases hx : init[q]? with
      | none => rw [hx] at h; cases h
      | some r => rw [hx] at h; cases h
  have I := Inv.runSched hreg sched _ _ I0
  obtain ⟨t, ht⟩ := I.keep
  refine ⟨?_, ?_, I.apart⟩
  · intro a ha
    rw [ht, List.getElem?_append_left ha]
  · intro q hq hc
    obtain ⟨a, h1, h2, h3, h4⟩ := I.run q hq (by simpa using hc)
    simp only [Nat.zero_add] at h3 h4
    exact ⟨a, h1, h3, h4⟩

namespace Ex
/-- Increment field 0 of the receiver. -/
def incr : Prog := .get 0 fun v => .set 0 (v + 1) .done
end Ex

/-- Two requests incrementing the same field, interleaved: both see the registered value. -/
example : (Action.runSched (.ptr 0) 2 [0, 1, 0, 1, 0, 1, 1] ⟨⟨[[5, 6]]⟩, [.waiting [(1, 8)] Ex.incr, .waiting [(1, 9)] Ex.incr]⟩).heap.cells =
    [[5, 6], [6, 8], [6, 9]] := by decide +kernel

end Verif.Action
