import Verif.Model.Assert
import Verif.Props.DevPage
/-!
# C186: assertions in tests
-/
namespace Verif.Assert
open Verif.Go
open Verif.Page (Frame)

/-! ## Specification -/

/-- Values that are nil: a nil interface, and nil channels, functions, maps, pointers and slices. -/
def Spec.Nil : Val → Prop
  | .nilI => True
  | .of k z => z = true ∧ (k = .chan ∨ k = .func ∨ k = .map ∨ k = .ptr ∨ k = .slice)

/-- The values there are: no dynamic type is an interface, none is invalid. -/
def Spec.Real : Val → Prop
  | .nilI => True
  | .of k _ => k ≠ .interface ∧ k ≠ .invalid

/-- What an assertion says. -/
def Spec.Holds : Claim → Prop
  | .noError err => err = none
  | .isNil v => Spec.Nil v
  | .notNil v => ¬ Spec.Nil v
  | .isTrue b => b = true
  | .isFalse b => b = false

/-- The values in an assertion. -/
def Spec.RealClaim : Claim → Prop
  | .isNil v => Spec.Real v
  | .notNil v => Spec.Real v
  | _ => True

/-- The message says what was expected. -/
def Spec.expected : Claim → Str
  | .noError none => b!"expected no error but get `<nil>`"
  | .noError (some e) => b!"expected no error but get `" ++ e ++ b!"`"
  | .isNil _ => b!"expected nil"
  | .notNil _ => b!"expected not nil"
  | .isTrue _ => b!"expected true but get false"
  | .isFalse _ => b!"expected false but get true"

/-- The text names this line of this file, and shows it without the blanks around it if the file can be read. -/
def Spec.Names (read : Str → Option Str) (f : Frame) (t : Str) : Prop :=
  ∃ src, t = f.file ++ b!":" ++ natDec f.line ++ b!" " ++ src ∧
    (read f.file = none → src = []) ∧
    ∀ data, read f.file = some data → ∀ line, 0 < f.line → (splitOn1 10 data)[f.line - 1]? = some line → Page.Spec.Trimmed line src

/-- What a test does besides assertions. -/
def Spec.others : List Step → List Str
  | [] => []
  | .other s :: l => s :: Spec.others l
  | .claim _ _ :: l => Spec.others l

/-- All assertions in it hold. -/
def Spec.Passes : List Step → Prop
  | [] => True
  | .other _ :: l => Spec.Passes l
  | .claim c _ :: l => Spec.Holds c ∧ Spec.Passes l

/-! ## Theorems -/

/-- **C186, what fails.** An assertion fails exactly if what it says is not so. -/
theorem C186_fails (c : Claim) (h : Spec.RealClaim c) : c.fails = true ↔ ¬ Spec.Holds c := by
  cases c with
  | noError e => cases e <;> simp [Claim.fails, Spec.Holds]
  | isTrue b => cases b <;> simp [Claim.fails, Spec.Holds]
  | isFalse b => cases b <;> simp [Claim.fails, Spec.Holds]
  | isNil v =>
    cases v with
    | nilI => simp [Claim.fails, Spec.Holds, Spec.Nil]
    | of k z => cases k <;> cases z <;> simp_all [Claim.fails, Spec.Holds, Spec.Nil, Spec.RealClaim, Spec.Real, Val.kind, Val.isNil, Kind.num]
  | notNil v =>
    cases v with
    | nilI => simp [Claim.fails, Spec.Holds, Spec.Nil]
    | of k z => cases k <;> cases z <;> simp_all [Claim.fails, Spec.Holds, Spec.Nil, Spec.RealClaim, Spec.Real, Val.kind, Val.isNil, Kind.num]

/-- **C186, opposites.** Of `Nil` and `NotNil` with the same argument exactly one fails. -/
theorem C186_opposites (v : Val) : (Claim.isNil v).fails = !(Claim.notNil v).fails := by
  cases v with
  | nilI => rfl
  | of k z => cases k <;> cases z <;> rfl

/-- The position in a message. -/
theorem callerInfo_names (read : Str → Option Str) (info method f : Frame) (us : List Frame) :
    Spec.Names read f (callerInfo read (info :: method :: f :: us)) := by
  refine ⟨(Page.fileSource read f.file f.line).getD [], rfl, fun h => ?_, fun data hd line h0 hl => ?_⟩
  · rw [(Page.C92_source read f.file f.line).2 h]; rfl
  · obtain ⟨src, h1, h2, -⟩ := (Page.C92_source read f.file f.line).1 data hd
    rw [h1]
    exact h2 (f.line - 1) line (by omega) hl

theorem run_passes (read : Str → Option Str) (info method : Frame) (rest : List Step) : ∀ (l : List Step) (o : Out),
    (∀ c us, .claim c us ∈ l → Spec.RealClaim c) → Spec.Passes l →
    run read info method (l ++ rest) o = run read info method rest { o with did := o.did ++ Spec.others l }
  | [], o, _, _ => by simp [Spec.others]
  | .other s :: l, o, hr, h => by
    show run read info method (l ++ rest) _ = _
    rw [run_passes read info method rest l _ (fun c us hm => hr c us (List.mem_cons_of_mem _ hm)) h]
    simp [Spec.others]
  | .claim c us :: l, o, hr, h => by
    have hc : c.fails = false := by
      cases hf : c.fails with
      | false => rfl
      | true => exact absurd h.1 ((C186_fails c (hr c us (List.mem_cons_self ..))).1 hf)
    show (if c.fails then _ else run read info method (l ++ rest) o) = _
    rw [hc, if_neg Bool.false_ne_true, run_passes read info method rest l _ (fun c us hm => hr c us (List.mem_cons_of_mem _ hm)) h.2]
    simp [Spec.others]

/-- **C186, a test that passes.** If all assertions hold, the test does everything it has to do, with no message, and does not fail. -/
theorem C186_passes (read : Str → Option Str) (info method : Frame) (l : List Step) (hr : ∀ c us, .claim c us ∈ l → Spec.RealClaim c)
    (h : Spec.Passes l) : run read info method l {} = { did := Spec.others l } := by
  have := run_passes read info method [] l {} hr h
  rw [List.append_nil] at this
  rw [this]
  simp [run]

/-- **C186, a test that fails.** At the first assertion that does not hold the test ends: nothing of what comes after it is done, and there is one
message, which says what was expected and names the line that called the assertion. -/
theorem C186_first_failure (read : Str → Option Str) (info method : Frame) (l rest : List Step) (c : Claim) (f : Frame) (us : List Frame)
    (hr : ∀ c us, .claim c us ∈ l → Spec.RealClaim c) (hc : Spec.RealClaim c) (h : Spec.Passes l) (hn : ¬ Spec.Holds c) :
    ∃ where_, Spec.Names read f where_ ∧ run read info method (l ++ .claim c (f :: us) :: rest) {} =
      { messages := [Spec.expected c ++ b!"\n" ++ where_], failed := true, did := Spec.others l } := by
  refine ⟨_, callerInfo_names read info method f us, ?_⟩
  rw [run_passes read info method _ l {} hr h]
  unfold run
  rw [if_pos ((C186_fails c hc).2 hn)]
  have : c.text = Spec.expected c := by
    cases c with
    | noError e => cases e <;> rfl
    | _ => rfl
  rw [this]
  simp

/-- **C186, examples.** A nil pointer in an interface counts as nil, a nil `unsafe.Pointer` does not, nor does 0; a test that ends at its second
assertion. -/
theorem C186_example : (Claim.isNil (.of .ptr true)).fails = false ∧ (Claim.isNil (.of .unsafePointer true)).fails = true ∧
    (Claim.notNil (.of .int true)).fails = false ∧
    run (fun p => if p = b!"/a_test.go" then some b!"x\n\t a.True(ok) \n" else none) ⟨b!"/assert.go", 57, [], none⟩ ⟨b!"/assert.go", 40, [], none⟩
      [.other b!"one", .claim (.noError none) [], .claim (.isTrue false) [⟨b!"/a_test.go", 2, [], none⟩], .other b!"two"] {} =
      { messages := [b!"expected true but get false\n/a_test.go:2 a.True(ok)"], failed := true, did := [b!"one"] } := by
  decide +kernel

end Verif.Assert
