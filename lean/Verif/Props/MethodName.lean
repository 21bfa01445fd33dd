import Verif.Props.RouterExact
import Verif.Proofs.Enc
import Verif.Model.Action
/-!
# C154: which methods of a controller a client can run by the method of its request
-/
namespace Verif.Router
open Verif.Go Spec

/-! ## Specification -/

/-- The bytes of a request's method (RFC 7230 `tchar`; net/http answers 400 to others). -/
def Spec.tchar (c : UInt8) : Bool :=
  (97 ≤ c && c ≤ 122) || (65 ≤ c && c ≤ 90) || (48 ≤ c && c ≤ 57) || b!"!#$%&'*+-.^_`|~".contains c
def Spec.Token (m : Str) : Prop := m ≠ [] ∧ ∀ c ∈ m, Spec.tchar c = true

def Spec.capital (c : UInt8) : Bool := 65 ≤ c && c ≤ 90
def Spec.small (c : UInt8) : Bool := 97 ≤ c && c ≤ 122

/-- The name of an exported Go method, in ASCII. -/
structure Spec.Exported (n : Str) : Prop where
  first : ∃ c cs, n = c :: cs ∧ Spec.capital c = true
  rest : ∀ c ∈ n, Spec.capital c = true ∨ Spec.small c = true ∨ (48 ≤ c ∧ c ≤ 57) ∨ c = 95

/-- `GET` becomes `Get`. -/
def Spec.camel : Str → Str
  | [] => []
  | c :: cs => c :: toLower cs

/-- The capitals a client can ask for inside a name. -/
def Spec.askable : Str := b!"ACDEFGJKMNPQRSTUVWXY"

/-- The name is a capital followed by small letters. -/
def Spec.OneWord (n : Str) : Prop := ∀ c ∈ n.drop 1, Spec.small c = true

/-! ## Names -/

theorem methodAction_nil : methodAction [] = [] := rfl
theorem methodAction_cons (c : UInt8) (cs : Str) :
    methodAction (c :: cs) = encodeRuneSmall c.toNat ++ cs.flatMap (fun d => encodeRuneSmall (d.toNat + 32)) := rfl

theorem enc_shift : ∀ d : UInt8, d < 128 →
    encodeRuneSmall (d.toNat + 32) = if d < 96 then [d + 32] else [194, d + 32] :=
  forall_u8 (by decide +kernel)

theorem enc_first : ∀ d : UInt8, d < 128 → encodeRuneSmall d.toNat = [d] := forall_u8 (by decide +kernel)

theorem shift_lt : ∀ d : UInt8, d < 96 → d + 32 < 128 := forall_u8 (by decide +kernel)

theorem shift_inj {a b : UInt8} (h : a + 32 = b + 32) : a = b := by
  have := congrArg (· - 32) h
  simpa using this

theorem shifted_inj : ∀ l l' : Str, (∀ c ∈ l, c < 128) → (∀ c ∈ l', c < 128) →
    l.flatMap (fun d => encodeRuneSmall (d.toNat + 32)) = l'.flatMap (fun d => encodeRuneSmall (d.toNat + 32)) → l = l'
  | [], [], _, _, _ => rfl
  | [], b :: l', _, h', e => by
    rw [List.flatMap_cons, enc_shift b (h' b (by simp))] at e
    split at e <;> cases e
  | a :: l, [], h, _, e => by
    rw [List.flatMap_cons, enc_shift a (h a (by simp))] at e
    split at e <;> cases e
  | a :: l, b :: l', h, h', e => by
    have ih := shifted_inj l l' (fun c hc => h c (List.mem_cons_of_mem _ hc)) (fun c hc => h' c (List.mem_cons_of_mem _ hc))
    rw [List.flatMap_cons, List.flatMap_cons, enc_shift a (h a (by simp)), enc_shift b (h' b (by simp))] at e
    split at e <;> split at e
    · simp only [List.cons_append, List.nil_append, List.cons.injEq] at e
      rw [shift_inj e.1, ih e.2]
    · rename_i h1 _
      simp only [List.cons_append, List.nil_append, List.cons.injEq] at e
      have := shift_lt a h1
      rw [e.1] at this
      exact absurd this (by decide)
    · rename_i _ h1
      simp only [List.cons_append, List.nil_append, List.cons.injEq] at e
      have := shift_lt b h1
      rw [← e.1] at this
      exact absurd this (by decide)
    · simp only [List.cons_append, List.nil_append, List.cons.injEq, true_and] at e
      rw [shift_inj e.1, ih e.2]

/-- **C154 (names differ).** Two different methods of ASCII characters never ask for the same action. -/
theorem C154_injective (M M' : Str) (h : ∀ c ∈ M, c < 128) (h' : ∀ c ∈ M', c < 128) (e : methodAction M = methodAction M') : M = M' := by
  cases M with
  | nil =>
    cases M' with
    | nil => rfl
    | cons b l' =>
      rw [methodAction_nil, methodAction_cons, enc_first b (h' b (by simp))] at e
      cases e
  | cons a l =>
    cases M' with
    | nil =>
      rw [methodAction_nil, methodAction_cons, enc_first a (h a (by simp))] at e
      cases e
    | cons b l' =>
      rw [methodAction_cons, methodAction_cons, enc_first a (h a (by simp)), enc_first b (h' b (by simp))] at e
      simp only [List.cons_append, List.nil_append, List.cons.injEq] at e
      rw [e.1, shifted_inj l l' (fun c hc => h c (List.mem_cons_of_mem _ hc)) (fun c hc => h' c (List.mem_cons_of_mem _ hc)) e.2]

theorem cap_shift : ∀ d : UInt8, Spec.capital d = true → encodeRuneSmall (d.toNat + 32) = [lowerByte d] ∧ encodeRuneSmall d.toNat = [d] :=
  forall_u8 (by decide +kernel)

/-- **C154 (the usual names).** A method of capital letters asks for the action with its name in camel case: `GET` for `Get`. -/
theorem C154_name (M : Str) (h : ∀ c ∈ M, Spec.capital c = true) : methodAction M = Spec.camel M := by
  cases M with
  | nil => rfl
  | cons c cs =>
    rw [methodAction_cons, (cap_shift c (h c (by simp))).2]
    refine congrArg (c :: ·) ?_
    have : ∀ l : Str, (∀ d ∈ l, Spec.capital d = true) → l.flatMap (fun d => encodeRuneSmall (d.toNat + 32)) = toLower l := by
      intro l
      induction l with
      | nil => intro _; rfl
      | cons d l ih =>
        intro hl
        rw [List.flatMap_cons, (cap_shift d (hl d (by simp))).1, ih fun e he => hl e (List.mem_cons_of_mem _ he)]
        rfl
    exact this cs fun d hd => h d (List.mem_cons_of_mem _ hd)

/-! ## The names a client can ask for -/

/-- A byte of a method as the router sees it, in upper case, and the byte it stands for. -/
theorem upper_tchar : ∀ c : UInt8, Spec.tchar c = true → upperByte c < 128 ∧
    (∀ b : UInt8, encodeRuneSmall ((upperByte c).toNat + 32) = [b] →
      (Spec.capital b = true ∨ Spec.small b = true ∨ (48 ≤ b ∧ b ≤ 57) ∨ b = 95) → Spec.small b = true ∨ b ∈ Spec.askable) := by
  have h1 : ∀ c : UInt8, Spec.tchar c = true → upperByte c < 128 ∧
      ∀ b ∈ (if upperByte c < 96 then [upperByte c + 32] else []),
      (Spec.capital b = true ∨ Spec.small b = true ∨ (48 ≤ b ∧ b ≤ 57) ∨ b = 95) → Spec.small b = true ∨ b ∈ Spec.askable :=
    forall_u8 (by decide +kernel)
  intro c hc
  obtain ⟨a, b⟩ := h1 c hc
  refine ⟨a, fun x hx => b x ?_⟩
  rw [enc_shift _ a] at hx
  split at hx
  · rename_i h
    rw [if_pos h, List.mem_singleton]
    simp only [List.cons.injEq, and_true] at hx
    exact hx.symm
  · cases hx

/-- The byte of a method for a byte of a name. -/
theorem ask_byte : ∀ b : UInt8, (Spec.small b = true ∨ b ∈ Spec.askable) →
    Spec.tchar (b - 32) = true ∧ upperByte (b - 32) = b - 32 ∧ encodeRuneSmall ((b - 32).toNat + 32) = [b] :=
  forall_u8 (by decide +kernel)

theorem ask_first : ∀ b : UInt8, Spec.capital b = true → Spec.tchar b = true ∧ upperByte b = b ∧ encodeRuneSmall b.toNat = [b] :=
  forall_u8 (by decide +kernel)

/-- The method that asks for a name. -/
def asking : Str → Str
  | [] => []
  | c :: cs => c :: cs.map (· - 32)

theorem asking_spec (n : Str) (he : Spec.Exported n) (ha : ∀ b ∈ n.drop 1, Spec.small b = true ∨ b ∈ Spec.askable) :
    Spec.Token (asking n) ∧ toUpper (asking n) = asking n ∧ methodAction (asking n) = n := by
  obtain ⟨c, cs, rfl, hc⟩ := he.first
  have ha' : ∀ b ∈ cs, Spec.small b = true ∨ b ∈ Spec.askable := ha
  refine ⟨⟨by simp [asking], ?_⟩, ?_, ?_⟩
  · intro x hx
    rcases List.mem_cons.1 hx with rfl | hx
    · exact (ask_first _ hc).1
    · obtain ⟨b, hb, rfl⟩ := List.mem_map.1 hx
      exact (ask_byte b (ha' b hb)).1
  · unfold asking toUpper
    rw [List.map_cons, (ask_first _ hc).2.1, List.map_map]
    refine congrArg (c :: ·) (List.map_congr_left fun b hb => ?_)
    exact (ask_byte b (ha' b hb)).2.1
  · rw [show asking (c :: cs) = c :: cs.map (· - 32) from rfl, methodAction_cons, (ask_first _ hc).2.2]
    rw [List.cons_append, List.nil_append]
    refine congrArg (c :: ·) ?_
    clear he ha
    induction cs with
    | nil => rfl
    | cons b cs ih =>
      rw [List.map_cons, List.flatMap_cons, (ask_byte b (ha' b (by simp))).2.2,
        ih fun x hx => ha' x (List.mem_cons_of_mem _ hx)]
      rfl

/-- **C154 (exactly which).** A client can ask for the exported name `n` exactly when each byte after the first is a small letter or one of
the capitals other than B, H, I, L, O and Z. -/
theorem C154_reach (n : Str) (he : Spec.Exported n) :
    (∃ m, Spec.Token m ∧ methodAction (toUpper m) = n) ↔ ∀ b ∈ n.drop 1, Spec.small b = true ∨ b ∈ Spec.askable := by
  constructor
  · rintro ⟨m, hm, e⟩
    cases m with
    | nil => exact absurd rfl hm.1
    | cons c cs =>
      have hu : ∀ d ∈ c :: cs, upperByte d < 128 := fun d hd => (upper_tchar d (hm.2 d hd)).1
      rw [show toUpper (c :: cs) = upperByte c :: cs.map upperByte from rfl, methodAction_cons, enc_first _ (hu c (by simp)),
        List.cons_append, List.nil_append] at e
      subst e
      intro b hb
      have hb' : b ∈ (cs.map upperByte).flatMap (fun d => encodeRuneSmall (d.toNat + 32)) := hb
      obtain ⟨x, hx, hbx⟩ := List.mem_flatMap.1 hb'
      obtain ⟨d, hd, rfl⟩ := List.mem_map.1 hx
      have hbr := he.rest b (List.mem_cons_of_mem _ hb')
      have h128 : ∀ b : UInt8, (Spec.capital b = true ∨ Spec.small b = true ∨ (48 ≤ b ∧ b ≤ 57) ∨ b = 95) → b < 128 :=
        forall_u8 (by decide +kernel)
      refine (upper_tchar d (hm.2 d (List.mem_cons_of_mem _ hd))).2 b ?_ hbr
      rw [enc_shift _ (hu d (List.mem_cons_of_mem _ hd))] at hbx ⊢
      split at hbx
      · rename_i h
        rw [if_pos h, List.mem_singleton.1 hbx]
      · -- a byte of a two byte rune is not ASCII
        exfalso
        have hr := he.rest 194 (List.mem_cons_of_mem _ (List.mem_flatMap.2 ⟨upperByte d, hx, by
          rw [enc_shift _ (hu d (List.mem_cons_of_mem _ hd)), if_neg (by assumption)]; simp⟩))
        exact absurd (h128 194 hr) (by decide)
  · intro h
    obtain ⟨a, b, c⟩ := asking_spec n he h
    exact ⟨asking n, a, by rw [b]; exact c⟩

/-! ## Requests -/

theorem asked_upper : ∀ b : UInt8, (b ∈ Spec.askable) → Spec.capital (b - 32) = false := forall_u8 (by decide +kernel)

/-- **C154, refuted: hidden actions.** An accepted application, a path whose route declares `All` with a controller of struct kind, and the
other declarations at the route are for methods of capital letters. Then *every* exported method of the controller whose name has an inner
capital (`GetUser`, `DeleteEverything`: nothing that an HTTP method is called), and none of B, H, I, L, O, Z, digits and `_` after the first letter, can
be run by a client: some method, which net/http lets through, is answered by it. -/
theorem C154_hidden_action_violated {hss : List (List Handler)} {root : Route} (h : registerAll hss newRoot = some root)
    (path : Str) (q : List Str) (here : List Reg) (ps : Params) (hr : route (allRegs hss) (pathSegs path) = some (q, here, ps))
    (a : RouteAction) (ha : allFor here = some a) (hk : a.ctl.kind = .struct)
    (hd : ∀ e ∈ here, ∀ d ∈ e.methods, d.method = b!"*" ∨ d.method = b!"**" ∨ ∀ c ∈ d.method, Spec.capital c = true)
    (n : Str) (hn : n ∈ a.ctl.methods) (he : Spec.Exported n) (hin : ∃ c ∈ n.drop 1, Spec.capital c = true)
    (hl : ∀ b ∈ n.drop 1, Spec.small b = true ∨ b ∈ Spec.askable) :
    ∃ m, Spec.Token m ∧ (∃ c ∈ m, Spec.capital c = false) ∧ (handle root m path).answer = some ⟨a, n, ps, renderPattern q⟩ := by
  obtain ⟨h1, h2, h3⟩ := asking_spec n he hl
  have hcap : ∃ c ∈ asking n, Spec.capital c = false := by
    obtain ⟨c, cs, rfl, hc⟩ := he.first
    obtain ⟨b, hb, hbc⟩ := hin
    refine ⟨b - 32, List.mem_cons_of_mem _ (List.mem_map.2 ⟨b, hb, rfl⟩), asked_upper b ?_⟩
    rcases hl b hb with hs | hs
    · have : ∀ b : UInt8, Spec.capital b = true → Spec.small b = false := forall_u8 (by decide +kernel)
      rw [this b hbc] at hs; cases hs
    · exact hs
  refine ⟨asking n, h1, hcap, ?_⟩
  rw [C89_exact_answer h]
  unfold answer
  rw [hr]
  simp only [h2]
  have hne : ∀ M : Str, (∀ c ∈ M, Spec.capital c = true) → asking n ≠ M := by
    intro M hM e
    obtain ⟨c, hc, hf⟩ := hcap
    rw [e] at hc
    rw [hM c hc] at hf; cases hf
  have hstar : asking n ≠ b!"*" ∧ asking n ≠ b!"**" := by
    obtain ⟨c, cs, rfl, hc⟩ := he.first
    constructor <;>
    · intro e
      have := (List.cons.inj e).1
      rw [this] at hc
      exact absurd hc (by decide)
  have hex : exactFor here (asking n) = none := by
    unfold exactFor
    rw [if_neg (fun e => e.elim hstar.1 hstar.2)]
    have hl0 : lastOf here (asking n) = none := by
      unfold lastOf
      have : (declsOf here).filter (fun d => d.2.method = asking n) = [] := by
        rw [List.filter_eq_nil_iff]
        intro d hdm
        obtain ⟨e, heh, hde⟩ := List.mem_flatMap.1 hdm
        obtain ⟨m, hm, rfl⟩ := List.mem_map.1 hde
        simp only [decide_eq_true_eq]
        intro hme
        rcases hd e heh m hm with hh | hh | hh
        · exact hstar.1 (hme ▸ hh)
        · exact hstar.2 (hme ▸ hh)
        · exact hne m.method hh hme.symm
      rw [this]; rfl
    rw [hl0]
    simp only
    rw [if_neg (hne HEAD (by decide))]
  have hrun : runs a.ctl n = true := by
    unfold runs
    rw [hk]
    simp [hn]
  unfold choose
  rw [hex, ha, h3]
  simp only [hrun, if_true]
  rfl

/-- **C154, refuted: the hidden action is called.** If the hidden method takes no parameters, and neither does `All` (or the controller has no
method `All`), the client's request calls it, whatever the path parameters are. -/
theorem C154_hidden_call_violated {hss : List (List Handler)} {root : Route} (h : registerAll hss newRoot = some root)
    (path : Str) (q : List Str) (here : List Reg) (ps : Params) (hr : route (allRegs hss) (pathSegs path) = some (q, here, ps))
    (a : RouteAction) (ha : allFor here = some a) (hk : a.ctl.kind = .struct)
    (hd : ∀ e ∈ here, ∀ d ∈ e.methods, d.method = b!"*" ∨ d.method = b!"**" ∨ ∀ c ∈ d.method, Spec.capital c = true)
    (n : Str) (hn : n ∈ a.ctl.methods) (he : Spec.Exported n) (hin : ∃ c ∈ n.drop 1, Spec.capital c = true)
    (hl : ∀ b ∈ n.drop 1, Spec.small b = true ∨ b ∈ Spec.askable)
    {F : Type} (w : Action.World F) (hsig : w.sig a.ctl.id n = []) (hall : a.action = [] ∨ w.sig a.ctl.id a.action = []) :
    ∃ m, Spec.Token m ∧ (∃ c ∈ m, Spec.capital c = false) ∧ ∃ x, (handle root m path).answer = some x ∧
      Action.callStructFunc w true x.action x.params x.func = .ok [] ∧ x.func = n := by
  obtain ⟨m, h1, h2, h3⟩ := C154_hidden_action_violated h path q here ps hr a ha hk hd n hn he hin hl
  refine ⟨m, h1, h2, _, h3, ?_, rfl⟩
  have hin : Action.actionIn w a = [] := by
    unfold Action.actionIn
    split
    · rfl
    · rename_i hne; exact hall.resolve_left hne
  have hex : a.ctl.actionFuncExists n = true := by
    unfold Controller.actionFuncExists
    rw [hk]
    simp [hn]
  unfold Action.callStructFunc
  rw [hin]
  show (if a.ctl.actionFuncExists n = false then _ else _) = _
  rw [hex, hsig]
  rfl

/-- **C154 (no hidden actions), as far as it holds.** If every exported method of the controller that answers is a capital followed by small
letters, the action that runs is the declared one, or the one named like the request's method. (Missing: names with inner capitals, see
`C154_hidden_action_violated`.) -/
theorem C154_named_partial {hss : List (List Handler)} {root : Route} (h : registerAll hss newRoot = some root) (m path : Str)
    (hm : Spec.Token m) (x : Answer) (hx : (handle root m path).answer = some x) (hk : x.action.ctl.kind = .struct)
    (hw : ∀ n ∈ x.action.ctl.methods, Spec.Exported n ∧ Spec.OneWord n) : x.func = x.action.action ∨ x.func = Spec.camel (toUpper m) := by
  rw [C89_exact_answer h] at hx
  unfold answer at hx
  cases hr : route (allRegs hss) (pathSegs path) with
  | none => rw [hr] at hx; cases hx
  | some r =>
    obtain ⟨q, here, ps⟩ := r
    rw [hr] at hx
    obtain ⟨c, hc, rfl⟩ := Option.map_eq_some_iff.1 hx
    have hany : ∀ c, (anyFor here).bind (fun a => if runs a.ctl a.action then some (a, a.action) else none) = some c → c.2 = c.1.action := by
      intro c hc
      obtain ⟨a, _, hc⟩ := Option.bind_eq_some_iff.1 hc
      split at hc
      · cases hc; rfl
      · cases hc
    unfold choose at hc
    cases he : exactFor here (toUpper m) with
    | some a =>
      rw [he] at hc
      simp only [Option.some.injEq] at hc
      subst hc
      exact .inl rfl
    | none =>
      rw [he] at hc
      cases hl : allFor here with
      | none => rw [hl] at hc; exact .inl (hany c hc)
      | some a =>
        rw [hl] at hc
        simp only at hc
        split at hc
        · rename_i hrun
          simp only [Option.some.injEq] at hc
          subst hc
          right
          have hk' : a.ctl.kind = .struct := hk
          have hmem : methodAction (toUpper m) ∈ a.ctl.methods := by
            unfold runs at hrun
            rw [hk'] at hrun
            simpa using hrun
          obtain ⟨e1, e2⟩ := hw _ hmem
          -- the method is made of capital letters
          refine C154_name _ ?_
          have hall : ∀ b ∈ (methodAction (toUpper m)).drop 1, Spec.small b = true ∨ b ∈ Spec.askable := fun b hb => .inl (e2 b hb)
          obtain ⟨_, _, h3⟩ := asking_spec _ e1 hall
          have hup : ∀ c ∈ toUpper m, c < 128 := by
            intro c hc
            obtain ⟨d, hd, rfl⟩ := List.mem_map.1 hc
            exact (upper_tchar d (hm.2 d hd)).1
          have hask : ∀ c ∈ asking (methodAction (toUpper m)), Spec.capital c = true := by
            obtain ⟨c, cs, hcs, hcap⟩ := e1.first
            rw [hcs] at e2 ⊢
            intro y hy
            rcases List.mem_cons.1 hy with rfl | hy
            · exact hcap
            · obtain ⟨b, hb, rfl⟩ := List.mem_map.1 hy
              have : ∀ b : UInt8, Spec.small b = true → Spec.capital (b - 32) = true := forall_u8 (by decide +kernel)
              exact this b (e2 b hb)
          have h128 : ∀ c : UInt8, Spec.capital c = true → c < 128 := forall_u8 (by decide +kernel)
          have := C154_injective _ _ (fun c hc => h128 c (hask c hc)) hup h3
          rw [this] at hask
          exact hask
        · split at hc
          · simp only [Option.some.injEq] at hc
            subst hc
            exact .inl rfl
          · exact .inl (hany c hc)

/-! ## Concrete cases -/

/-- A controller with an action `Get` and a helper `ResetUsers`, declared with `All`: the helper runs for the method `RESET5SERS`. -/
theorem C154_example :
    let ctl : Controller := ⟨7, .struct, [b!"Get", b!"ResetUsers"]⟩
    let hss : List (List Handler) := [[.router b!"/users" [.method ⟨ctl, b!"*", []⟩]]]
    ((registerAll hss newRoot).bind fun r => (handle r b!"RESET5SERS" b!"/users").answer.map (·.func)) = some b!"ResetUsers" ∧
    ((registerAll hss newRoot).bind fun r => (handle r b!"get" b!"/users").answer.map (·.func)) = some b!"Get" ∧
    ((registerAll hss newRoot).bind fun r => (handle r b!"RESETUSERS" b!"/users").answer.map (·.func)) = none := by
  decide +kernel

example : Spec.Exported b!"ResetUsers" ∧ (∀ b ∈ (b!"ResetUsers").drop 1, Spec.small b = true ∨ b ∈ Spec.askable) ∧
    Spec.Token b!"RESET5SERS" ∧ Spec.OneWord b!"Get" :=
  ⟨⟨⟨82, b!"esetUsers", rfl, rfl⟩, by decide⟩, by decide, ⟨by decide, by decide⟩, by unfold Spec.OneWord; decide⟩

/-- The nine methods of the package. -/
theorem C154_standard : [b!"GET", b!"POST", b!"PUT", b!"HEAD", b!"DELETE", b!"OPTIONS", b!"PATCH", b!"TRACE", b!"CONNECT"].map methodAction =
    [b!"Get", b!"Post", b!"Put", b!"Head", b!"Delete", b!"Options", b!"Patch", b!"Trace", b!"Connect"] := by decide +kernel

end Verif.Router
