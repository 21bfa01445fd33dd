import Verif.Props.InjectTyped
/-! # C119: provider functions that panic -/
namespace Verif.InjT
open Verif.Inj

/-- The calls of a history without types; `Provide` calls that panic, offering something that is no pointer, have no effect. -/
def hist (cs : List TCmd) : List Cmd :=
  cs.filterMap (fun c => match c with
    | .provide _ pr => if pr.valid then some (eCmd c) else none
    | _ => some (eCmd c))

theorem hist_wf (cs : List TCmd) : Cmds (hist cs) := by
  intro c hc
  obtain ⟨c', _, h⟩ := List.mem_filterMap.1 hc
  cases c' with
  | provide i pr =>
    simp only at h
    by_cases hv : pr.valid = true
    · rw [if_pos hv] at h; injection h with h; subst h; exact eCmd_wf _
    · rw [if_neg hv] at h; cases h
  | find i t nm => injection h with h; subst h; exact eCmd_wf _
  | invoke i a b => injection h with h; subst h; exact eCmd_wf _
  | setParent i j => injection h with h; subst h; exact eCmd_wf _

theorem TI.wf {w : World} {P : TProv → Prop} {s : TSt} (h : TI w P s) : WF (erase s) := by
  refine ⟨?_, ?_, h.parent, ?_⟩
  · intro i k p hp
    obtain ⟨pr, h1, h2, _⟩ := h.vals i k p hp
    refine ⟨eProv pr, ?_, h2⟩
    show (s.provs.map eProv)[p]? = _
    rw [List.getElem?_map, h1]; rfl
  · intro p pr hp
    have hp' : (s.provs.map eProv)[p]? = some pr := hp
    rw [List.getElem?_map] at hp'
    cases hq : s.provs[p]? with
    | none => rw [hq] at hp'; cases hp'
    | some q =>
      rw [hq] at hp'
      injection hp' with hp'
      rw [← hp']; exact eProv_wf q
  · intro i
    show (s.caches i []).map TVal.v = none
    cases hc : s.caches i [] with
    | none => rfl
    | some x => exact absurd rfl (h.cached i [] x hc).1

/-- Also after panics the injectors store what the history provided. -/
theorem stored_reach (w : World) (f : Nat) : ∀ cs, (∀ i k, stored (erase (reach w f cs)) i k = provided (hist cs) i k) ∧
    ∀ i, (erase (reach w f cs)).parent i = parentIs (hist cs) i := by
  refine snoc_ind ⟨fun _ _ => rfl, fun _ => rfl⟩ ?_
  intro cs c ⟨ih1, ih2⟩
  have hti := (TI.reach w f cs).1
  have wf := hti.wf
  rw [reach_snoc]
  have hh : hist (cs ++ [c]) = hist cs ++ hist [c] := by simp [hist, List.filterMap_append]
  rw [hh]
  cases c with
  | find i t nm =>
    have hp := (lookup_post w (Offered cs) f (reach w f cs) i t nm hti).1
    rw [(run_find w f _ i t nm).1]
    have h1 : hist [TCmd.find i t nm] = [eCmd (.find i t nm)] := rfl
    rw [h1]
    refine ⟨fun i' k => ?_, fun i' => ?_⟩
    · rw [provided_snoc, stored_append (s := erase (reach w f cs)) wf hp.values (l := []) (by simp [erase, hp.provs])]
      exact ih1 i' k
    · rw [parentIs_snoc, ← ih2 i']
      exact congrFun hp.parent i'
  | invoke i ins out =>
    have hp := (invokeFn_post w (Offered cs) f (reach w f cs) i ins out hti).2.1
    rw [(run_invoke w f _ i ins out).1]
    have h1 : hist [TCmd.invoke i ins out] = [eCmd (.invoke i ins out)] := rfl
    rw [h1]
    refine ⟨fun i' k => ?_, fun i' => ?_⟩
    · rw [provided_snoc, stored_append (s := erase (reach w f cs)) wf hp.1 (l := [eProv (fnOf ins out)]) (by simp [erase, hp.2.2.1])]
      exact ih1 i' k
    · rw [parentIs_snoc, ← ih2 i']
      exact congrFun hp.2.1 i'
  | setParent i j =>
    have h1 : hist [TCmd.setParent i j] = [eCmd (.setParent i j)] := rfl
    rw [h1]
    have hst : erase (TCmd.run w f (reach w f cs) (.setParent i j)).2 = Inj.setParent (erase (reach w f cs)) i j :=
      (run_sim w f _ (.setParent i j) rfl).symm
    rw [hst]
    refine ⟨fun i' k => ?_, fun i' => ?_⟩
    · rw [provided_snoc]
      simp only [eCmd]
      rw [← ih1 i' k]
      unfold Inj.setParent
      split <;> rfl
    · rw [parentIs_snoc]
      simp only [eCmd]
      rw [← ih2 i']
      unfold Inj.setParent
      by_cases hij : j < i
      · rw [if_pos hij]
        by_cases hi : i' = i
        · subst hi
          rw [if_pos ⟨rfl, hij⟩]
          exact upd_same _ _ _
        · rw [if_neg (fun h => hi h.1.symm)]
          exact upd_ne _ _ _ _ hi
      · rw [if_neg hij, if_neg (fun h => hij h.2)]
  | provide i pr =>
    cases hv : pr.valid with
    | false =>
      have h1 : hist [TCmd.provide i pr] = [] := by simp [hist, hv]
      have h2 : (TCmd.run w f (reach w f cs) (.provide i pr)).2 = reach w f cs := by simp [TCmd.run, provideAs, hv]
      rw [h1, h2, List.append_nil]
      exact ⟨ih1, ih2⟩
    | true =>
      have h1 : hist [TCmd.provide i pr] = [eCmd (.provide i pr)] := by simp [hist, hv]
      have h2 : erase (TCmd.run w f (reach w f cs) (.provide i pr)).2 = Inj.provideAs (erase (reach w f cs)) i (eProv pr) :=
        (run_sim w f _ (.provide i pr) (by simp [TCmd.run, provideAs, hv])).symm
      rw [h1, h2]
      refine ⟨fun i' k => ?_, fun i' => ?_⟩
      · rw [provided_snoc]
        simp only [eCmd, Inj.provideAs, stored]
        by_cases hi : i' = i
        · subst hi
          rw [upd_same]
          by_cases hk : k = (eProv pr).name
          · subst hk
            simp [upd_same]
          · rw [upd_ne _ _ _ _ hk, if_neg (fun h => hk h.2.symm), ← ih1 i' k]
            exact stored_append (s' := { erase (reach w f cs) with provs := (erase (reach w f cs)).provs ++ [eProv pr] }) wf rfl rfl i' k
        · rw [upd_ne _ _ _ _ hi, if_neg (fun h => hi h.1.symm), ← ih1 i' k]
          exact stored_append (s' := { erase (reach w f cs) with provs := (erase (reach w f cs)).provs ++ [eProv pr] }) wf rfl rfl i' k
      · rw [parentIs_snoc]; exact ih2 i'

theorem nearest_iff (w : World) (f : Nat) (cs : List TCmd) (i : Nat) (k : Key) (pr : Prov) :
    (∃ p, Inj.get (erase (reach w f cs)) i k = some p ∧ (erase (reach w f cs)).provs[p]? = some pr) ↔ Nearest (hist cs) i k pr :=
  getN_nearest_of (stored_reach w f cs).1 (stored_reach w f cs).2 (TI.reach w f cs).1.wf k pr (i + 1) i (by omega)

theorem can_iff (w : World) (f : Nat) (cs : List TCmd) (i : Nat) (k : Key) :
    Resolvable (erase (reach w f cs)) i k ↔ Can (hist cs) (fun x => (reach w f cs).caches i x ≠ none) i k := by
  have hn := nearest_iff w f cs i
  have wf := (TI.reach w f cs).1.wf
  have hc : ∀ x, (erase (reach w f cs)).caches i x ≠ none ↔ (reach w f cs).caches i x ≠ none := by
    intro x
    show ((reach w f cs).caches i x).map TVal.v ≠ none ↔ _
    cases (reach w f cs).caches i x <;> simp
  constructor
  · intro hr
    induction hr with
    | cached k p h1 h2 =>
      obtain ⟨pr, hp, _⟩ := Inj.get_prov wf h1
      exact .made k pr ((hn k pr).1 ⟨p, h1, hp⟩) ((hc k).1 h2)
    | value k p pr v h1 h2 h3 => exact .value k pr v ((hn k pr).1 ⟨p, h1, h2⟩) h3
    | func k p pr deps out h1 h2 h3 _ ih => exact .func k pr deps out ((hn k pr).1 ⟨p, h1, h2⟩) h3 ih
  · intro hr
    induction hr with
    | made k pr h1 h2 =>
      obtain ⟨p, hp, hpr⟩ := (hn k pr).2 h1
      exact .cached k p hp ((hc k).2 h2)
    | value k pr v h1 h2 =>
      obtain ⟨p, hp, hpr⟩ := (hn k pr).2 h1
      exact .value k p pr v hp hpr h2
    | func k pr deps out h1 h2 _ ih =>
      obtain ⟨p, hp, hpr⟩ := (hn k pr).2 h1
      exact .func k p pr deps out hp hpr h2 ih

/-- **C119.** Nobody gets the value of a call that panicked: what a lookup finds was offered, or is the result of a call that did not panic. -/
theorem C119_no_value_of_panicked_call (w : World) (f f' : Nat) (cs : List TCmd) (i : Nat) (t : GoType) (nm : Str) (x : TVal)
    (h : (lookup w f' (reach w f cs) i t nm).1 = .ok x) : (∃ pr, Offered cs pr ∧ pr.kind = .value x) ∨ ∃ n, x.v = .res n ∧ w.boom n = false :=
  ((lookup_post w (Offered cs) f' _ i t nm (TI.reach w f cs).1).2.1 x h).2

/-- **C119.** After any history, with panics or not: a type that can be made (from the nearest providers and what this injector made
before) is found, unless a function called for it panics; one that cannot be made is not found. -/
theorem C119_found_iff_can (w : World) (f : Nat) (cs : List TCmd) (i : Nat) (t : GoType) (nm : Str) :
    (Can (hist cs) (fun x => (reach w f cs).caches i x ≠ none) i (slotOf t nm) →
      ∃ F, ∀ f', F ≤ f' → (∃ x, (lookup w f' (reach w f cs) i t nm).1 = .ok x) ∨ (lookup w f' (reach w f cs) i t nm).1 = .panic) ∧
    ∀ f' x, (lookup w f' (reach w f cs) i t nm).1 = .ok x → Can (hist cs) (fun x => (reach w f cs).caches i x ≠ none) i (slotOf t nm) := by
  have wf := (TI.reach w f cs).1.wf
  rw [← can_iff w f cs i]
  constructor
  · intro hr
    obtain ⟨F, hF⟩ := find_complete wf (slotOf_ne_nil t nm) hr
    refine ⟨F, fun f' hf => ?_⟩
    obtain ⟨v, hv⟩ := hF f' hf
    cases hl : (lookup w f' (reach w f cs) i t nm).1 with
    | panic => exact .inr rfl
    | ok x => exact .inl ⟨x, rfl⟩
    | err =>
      rw [lookup_sim w f' _ i t nm (by rw [hl]; simp), hl] at hv; cases hv
    | diverge =>
      rw [lookup_sim w f' _ i t nm (by rw [hl]; simp), hl] at hv; cases hv
  · intro f' x hl
    have hs := lookup_sim w f' (reach w f cs) i t nm (by rw [hl]; simp)
    rw [hl] at hs
    obtain ⟨p, hp, hi⟩ := find_unfold hs
    have := (invoke_lk i f' (clr (erase (reach w f cs))) (slotOf t nm) p (wf.status []) ((get_clr _ _ _).trans hp) (slotOf_ne_nil t nm)).2 x.v (by rw [hi])
    exact this.unclr

/-- **C119 (partial: no cycles).** If the functions in reach do not need each other in a circle, every lookup ends, whatever panicked before:
what cannot be made is reported as an error (or a function panics). -/
theorem C119_lookups_end_partial (w : World) (f : Nat) (cs : List TCmd) (i : Nat) (t : GoType) (nm : Str) (rank : Key → Nat)
    (hr : ∀ k pr deps out, Nearest (hist cs) i k pr → pr.kind = .func deps out → ∀ d ∈ deps, rank d < rank k) :
    ∃ f', (lookup w f' (reach w f cs) i t nm).1 ≠ .diverge := by
  have wf := (TI.reach w f cs).1.wf
  have hac : ∀ n k, rank k ≤ n → Acyclic (erase (reach w f cs)) i k := by
    have main : ∀ k, (∀ d, rank d < rank k → Acyclic (erase (reach w f cs)) i d) → Acyclic (erase (reach w f cs)) i k := by
      intro k ih
      cases hg : Inj.get (erase (reach w f cs)) i k with
      | none => exact .missing k hg
      | some p =>
        obtain ⟨pr, hpr, _⟩ := Inj.get_prov wf hg
        cases hk : pr.kind with
        | value v => exact .value k p pr v hg hpr hk
        | func deps out =>
          exact .func k p pr deps out hg hpr hk (fun d hd => ih d (hr k pr deps out ((nearest_iff w f cs i k pr).1 ⟨p, hg, hpr⟩) hk d hd))
    intro n
    induction n with
    | zero => intro k hk; exact main k (fun d hd => by omega)
    | succ n ih => intro k hk; exact main k (fun d hd => ih d (by omega))
  obtain ⟨f', hf⟩ := find_terminates wf (i := i) (fun k p _ _ => hac (rank k) k (Nat.le_refl _)) (slotOf t nm)
  refine ⟨f', fun hd => hf ?_⟩
  rw [lookup_sim w f' _ i t nm (by rw [hd]; simp), hd]
  rfl

/-! ## A cycle after a panic -/

/-- Three declared types. -/
def tA : GoType := .decl b!"m" b!"A" 0
/-- See `tA`. -/
def tB : GoType := .decl b!"m" b!"B" 0
/-- See `tA`. -/
def tC : GoType := .decl b!"m" b!"C" 0

/-- `func(*B) *A`. -/
def fA : TProv := ⟨.func [(.ptr tB, [])] (some (.ptr tA)), none, []⟩
/-- `func(*C, *A) *B`. -/
def fB : TProv := ⟨.func [(.ptr tC, []), (.ptr tA, [])] (some (.ptr tB)), none, []⟩
/-- `func() *C`. -/
def fC : TProv := ⟨.func [] (some (.ptr tC)), none, []⟩

/-- Everything can be assigned; the first call (of `fC`) panics. -/
def w1 : World := ⟨fun _ _ => true, fun n => n == 0, fun _ => false⟩

/-- Both functions of the cycle are marked as done, neither has a result. -/
structure Loop (s : TSt) : Prop where
  provs : s.provs = [fA, fB, fC]
  a : get s 0 (slotOf (.ptr tA) []) = some 0
  b : get s 0 (slotOf (.ptr tB) []) = some 1
  c : get s 0 (slotOf (.ptr tC) []) = some 2
  da : s.done 0 ≠ 0
  db : s.done 1 ≠ 0
  dc : s.done 2 ≠ 0
  ca : s.caches 0 (slotOf (.ptr tA) []) = none
  cb : s.caches 0 (slotOf (.ptr tB) []) = none
  n : s.calls.length ≠ 0

theorem get_same {s s' : TSt} (h1 : s'.values = s.values) (h2 : s'.parent = s.parent) (i : Nat) (k : Key) : get s' i k = get s i k := by
  unfold get
  generalize i + 1 = f
  induction f generalizing i with
  | zero => rfl
  | succ f ih =>
    simp only [getN, h1, h2]
    cases s.values i k with
    | some p => rfl
    | none =>
      cases s.parent i with
      | none => rfl
      | some j => exact ih j

theorem Loop.status {s : TSt} (h : Loop s) (x : List Key) : Loop { s with status := x } :=
  ⟨h.provs, (get_same rfl rfl _ _).trans h.a, (get_same rfl rfl _ _).trans h.b, (get_same rfl rfl _ _).trans h.c, h.da, h.db, h.dc, h.ca, h.cb, h.n⟩

theorem Loop.c_called {s : TSt} (h : Loop s) (f : Nat) : ∃ x s', invoke w1 (f + 1) 0 s 2 = (.ok x, s') ∧ Loop s' := by
  have hp : s.provs[2]? = some fC := by rw [h.provs]; rfl
  have hname : fC.name = slotOf (.ptr tC) [] := rfl
  cases hc : s.caches 0 (slotOf (.ptr tC) []) with
  | some x => exact ⟨x, s, by simp only [invoke, hp, hname, hc], h⟩
  | none =>
    have hb : w1.boom s.calls.length = false := by simpa [w1] using h.n
    have hk : fC.kind = .func [] (some (.ptr tC)) := rfl
    refine ⟨_, _, by simp only [invoke, hp, hname, hc, hk, invokeDeps, fits, hb, if_false, Bool.true_eq_false, Bool.false_eq_true]; exact rfl, ?_⟩
    have hA : slotOf (.ptr tA) [] ≠ slotOf (.ptr tC) [] := by decide
    have hB : slotOf (.ptr tB) [] ≠ slotOf (.ptr tC) [] := by decide
    refine ⟨h.provs, (get_same rfl rfl _ _).trans h.a, (get_same rfl rfl _ _).trans h.b, (get_same rfl rfl _ _).trans h.c, ?_, ?_, ?_, ?_, ?_, ?_⟩
    · simpa [mark, upd] using h.da
    · simpa [mark, upd] using h.db
    · simp [mark, upd]
    · simpa [mark, upd, hA] using h.ca
    · simpa [mark, upd, hB] using h.cb
    · simp [mark]

theorem Loop.diverges : ∀ f s, Loop s → (invoke w1 f 0 s 0).1 = .diverge ∧ (invoke w1 f 0 s 1).1 = .diverge := by
  intro f
  induction f with
  | zero => intro s _; exact ⟨rfl, rfl⟩
  | succ f ih =>
    intro s h
    have pA : s.provs[0]? = some fA := by rw [h.provs]; rfl
    have pB : s.provs[1]? = some fB := by rw [h.provs]; rfl
    have nA : fA.name = slotOf (.ptr tA) [] := rfl
    have nB : fB.name = slotOf (.ptr tB) [] := rfl
    have kA : fA.kind = .func [(.ptr tB, [])] (some (.ptr tA)) := rfl
    have kB : fB.kind = .func [(.ptr tC, []), (.ptr tA, [])] (some (.ptr tB)) := rfl
    constructor
    · have h1 := h.status (fA.name :: s.status)
      have e := (ih _ h1).2
      simp only [invoke, pA, nA, h.ca, kA, invokeDeps] at e ⊢
      rw [nA] at h1
      rw [h1.b]
      simp only
      rw [if_neg (fun hx => h.db hx.1)]
      generalize invoke w1 f 0 _ 1 = o at e ⊢
      obtain ⟨r, s'⟩ := o
      simp only at e
      subst e
      rfl
    · have h1 := h.status (fB.name :: s.status)
      simp only [invoke, pB, nB, h.cb, kB, invokeDeps]
      rw [nB] at h1
      rw [h1.c]
      simp only
      rw [if_neg (fun hx => h.dc hx.1)]
      cases f with
      | zero => rfl
      | succ f =>
        obtain ⟨x, s', e1, e2⟩ := h1.c_called f
        rw [e1]
        simp only
        rw [e2.a]
        simp only
        rw [if_neg (fun hx => e2.da hx.1)]
        have e := (ih s' e2).1
        generalize invoke w1 (f + 1) 0 s' 0 = o at e ⊢
        obtain ⟨r, s''⟩ := o
        simp only at e
        subst e
        rfl

/-- **C119 fails** for functions that need each other: reported as an error at first, but once a function called on the way has panicked, the next
lookup never ends (in Go the stack overflows and the process dies). -/
theorem C119_cycle_after_panic_violated :
    ∃ (w : World) (cs : List TCmd) (i : Nat) (t : GoType),
      ¬ Can (hist (cs ++ [.find i t []])) (fun x => (reach w 9 (cs ++ [.find i t []])).caches i x ≠ none) i (slotOf t []) ∧
      (∀ b, (lookup { w with boom := fun _ => b } 9 (reach { w with boom := fun _ => b } 9 cs) i t []).1 = if b then .panic else .err) ∧
      (TCmd.run w 9 (reach w 9 cs) (.find i t [])).1 = true ∧
      ∀ f', (lookup w f' (reach w 9 (cs ++ [.find i t []])) i t []).1 = .diverge := by
  have hl : Loop (reach w1 9 ([.provide 0 fA, .provide 0 fB, .provide 0 fC] ++ [.find 0 (.ptr tA) []])) := by
    constructor <;> decide +kernel
  have hd : ∀ f', (lookup w1 f' (reach w1 9 ([.provide 0 fA, .provide 0 fB, .provide 0 fC] ++ [.find 0 (.ptr tA) []])) 0 (.ptr tA) []).1 = .diverge := by
    intro f'
    unfold lookup
    rw [hl.a]
    exact (Loop.diverges f' _ (hl.status [])).1
  refine ⟨w1, [.provide 0 fA, .provide 0 fB, .provide 0 fC], 0, .ptr tA, ?_, ?_, ?_, hd⟩
  · intro hc
    obtain ⟨F, hF⟩ := (C119_found_iff_can w1 9 _ 0 (.ptr tA) []).1 hc
    rcases hF F (Nat.le_refl _) with ⟨x, hx⟩ | hx
    · rw [hd] at hx; cases hx
    · rw [hd] at hx; cases hx
  · decide +kernel
  · decide +kernel

/-- Not vacuous: after `fC` panicked once, a function asking for `*C` alone is answered by a new call. -/
example : (reach w1 9 [.provide 0 fC, .find 0 (.ptr tC) []]).caches 0 (slotOf (.ptr tC) []) = none ∧
    (lookup w1 9 (reach w1 9 [.provide 0 fC, .find 0 (.ptr tC) []]) 0 (.ptr tC) []).1 = .ok ⟨.res 1, .ptr tC⟩ := by decide +kernel

/-- The hypothesis of `C119_lookups_end_partial`: a function without parameters is its own graph. -/
example : ∀ k pr deps out, Nearest (hist [.provide 0 fC, .find 0 (.ptr tC) []]) 0 k pr → pr.kind = .func deps out → ∀ d ∈ deps, (fun _ => 0 : Key → Nat) d < 0 := by
  intro k pr deps out hn hk d hd
  have hp : ∀ k, provided (hist [.provide 0 fC, .find 0 (.ptr tC) []]) 0 k = if (eProv fC).name = k then some (eProv fC) else none := by
    intro k
    show (if 0 = 0 ∧ (eProv fC).name = k then some (eProv fC) else none) = _
    simp
  cases hn with
  | own _ _ _ h =>
    rw [hp] at h
    by_cases hx : (eProv fC).name = k
    · rw [if_pos hx] at h
      injection h with h
      subst h
      have : (eProv fC).kind = .func [] true := rfl
      rw [this] at hk
      injection hk with hk
      subst hk
      cases hd
    · rw [if_neg hx] at h; cases h
  | up _ j _ _ _ h _ =>
    have : parentIs (hist [.provide 0 fC, .find 0 (.ptr tC) []]) 0 = none := by decide +kernel
    rw [this] at h; cases h

/-- **C118.** `Exists` never calls anything: it fails exactly when no provider is in reach, assigns the nearest provider's value if it is a
value, and otherwise only reports that there is one. -/
theorem C118_exists (w : World) (f : Nat) (cs : List TCmd) (i : Nat) (t : GoType) (nm : Str) :
    (exists? w (reach w f cs) i t nm = none ↔ ∀ pr, ¬ Nearest (hist cs) i (slotOf t nm) pr) ∧
    (∀ a, exists? w (reach w f cs) i t nm = some (some a) →
      ∃ pr x, Offered cs pr ∧ pr.kind = .value x ∧ Nearest (hist cs) i (slotOf t nm) (eProv pr) ∧ a = assignValue w x t) ∧
    (exists? w (reach w f cs) i t nm = some none →
      ∃ pr ins out, Offered cs pr ∧ pr.kind = .func ins out ∧ Nearest (hist cs) i (slotOf t nm) (eProv pr)) := by
  have hn := nearest_iff w f cs i (slotOf t nm)
  have hTI := (TI.reach w f cs).1
  have hpr : ∀ p pr, get (reach w f cs) i (slotOf t nm) = some p → (reach w f cs).provs[p]? = some pr →
      Nearest (hist cs) i (slotOf t nm) (eProv pr) := by
    intro p pr hg hp
    refine (hn (eProv pr)).1 ⟨p, (get_erase _ _ _).trans hg, ?_⟩
    show ((reach w f cs).provs.map eProv)[p]? = _
    rw [List.getElem?_map, hp]; rfl
  unfold exists?
  cases hg : get (reach w f cs) i (slotOf t nm) with
  | none =>
    refine ⟨⟨fun _ pr h => ?_, fun _ => rfl⟩, fun a h => (by cases h), fun h => (by cases h)⟩
    obtain ⟨p, hp, _⟩ := (hn pr).2 h
    rw [get_erase, hg] at hp; cases hp
  | some p =>
    obtain ⟨pr, hp, _, hP⟩ := get_prov hTI hg
    simp only [hp]
    have hN := hpr p pr hg hp
    cases hk : pr.kind with
    | value x =>
      refine ⟨⟨fun h => (by cases h), fun h => absurd hN (h _)⟩, fun a h => ?_, fun h => (by cases h)⟩
      injection h with h; injection h with h
      exact ⟨pr, x, hP, hk, hN, h.symm⟩
    | func ins out =>
      exact ⟨⟨fun h => (by cases h), fun h => absurd hN (h _)⟩, fun a h => (by cases h), fun _ => ⟨pr, ins, out, hP, hk, hN⟩⟩

/-- The cases of `C118_exists` occur. -/
example : exists? w1 (reach w1 3 [.provide 0 fC]) 0 (.ptr tC) [] = some none ∧ exists? w1 (reach w1 3 [.provide 0 fC]) 0 (.ptr tB) [] = none ∧
    exists? w1 (reach w1 3 [.provide 0 ⟨.value ⟨.obj 1, .ptr tC⟩, none, []⟩]) 0 (.ptr tC) [] = some (some (.set (.obj 1))) := by decide +kernel

/-- **C118.** A provided value is found under the type it is provided as (its own type if none is given) and its name, from then on. -/
theorem C118_provide_then_find (w : World) (f f' : Nat) (cs : List TCmd) (i : Nat) (v : Val) (u : GoType) (as : Option GoType) (t : GoType) (nm : Str)
    (ht : as = some t ∨ as = none ∧ t = .ptr u) :
    (find w (f' + 1) (reach w f (cs ++ [.provide i ⟨.value ⟨v, .ptr u⟩, as, nm⟩])) i t nm).1 = .ok (assignValue w ⟨v, .ptr u⟩ t) := by
  have hname : TProv.name ⟨.value ⟨v, .ptr u⟩, as, nm⟩ = slotOf t nm := by
    rcases ht with rfl | ⟨rfl, rfl⟩ <;> rfl
  rw [reach_snoc]
  have hrun : (TCmd.run w f (reach w f cs) (.provide i ⟨.value ⟨v, .ptr u⟩, as, nm⟩)).2 =
      ⟨upd (reach w f cs).values i (upd ((reach w f cs).values i) (slotOf t nm) (some (reach w f cs).provs.length)),
        upd (reach w f cs).caches i (upd ((reach w f cs).caches i) (slotOf t nm) none), (reach w f cs).parent,
        (reach w f cs).provs ++ [⟨.value ⟨v, .ptr u⟩, as, nm⟩], (reach w f cs).done, (reach w f cs).status, (reach w f cs).calls⟩ := by
    rw [← hname]; rfl
  rw [hrun]
  generalize reach w f cs = s
  have hl : (lookup w (f' + 1) ⟨upd s.values i (upd (s.values i) (slotOf t nm) (some s.provs.length)),
        upd s.caches i (upd (s.caches i) (slotOf t nm) none), s.parent, s.provs ++ [⟨.value ⟨v, .ptr u⟩, as, nm⟩], s.done, s.status, s.calls⟩ i t nm).1 =
      .ok ⟨v, .ptr u⟩ := by
    simp [lookup, get, getN, upd, invoke, hname]
  unfold find
  generalize lookup w (f' + 1) _ i t nm = o at hl
  obtain ⟨r, s'⟩ := o
  cases hl
  rfl

/-- **C118.** `ProvideAs` panics exactly for a value that is not a pointer. -/
theorem C118_provide_panics_iff (w : World) (f : Nat) (s : TSt) (i : Nat) (pr : TProv) :
    (TCmd.run w f s (.provide i pr)).1 = true ↔ ∃ x, pr.kind = .value x ∧ ∀ u, x.ty ≠ .ptr u := by
  obtain ⟨kind, as, nm⟩ := pr
  cases kind with
  | value x =>
    obtain ⟨v, ty⟩ := x
    cases ty <;> simp [TCmd.run, provideAs, TProv.valid]
  | func ins out => simp [TCmd.run, provideAs, TProv.valid]

/-- **C118.** What a successful `Find` does to the variable, for what was found: it is set to it if it can be assigned; a pointer whose
target can be assigned is followed unless it is nil, when the variable keeps its value; otherwise `Find` reports a mismatch. -/
theorem C118_find_assigns (w : World) (f : Nat) (s : TSt) (i : Nat) (t : GoType) (nm : Str) (a : Assigned)
    (h : (find w f s i t nm).1 = .ok a) :
    ∃ x, (lookup w f s i t nm).1 = .ok x ∧
      (w.asg x.ty t = true ∧ a = .set x.v ∨
        w.asg x.ty t = false ∧ (∃ u, x.ty = .ptr u ∧ w.asg u t = true) ∧ w.isNil x.v = false ∧ a = .setElem x.v ∨
        w.asg x.ty t = false ∧ (∃ u, x.ty = .ptr u ∧ w.asg u t = true) ∧ w.isNil x.v = true ∧ a = .kept ∨
        w.asg x.ty t = false ∧ (∀ u, x.ty = .ptr u → w.asg u t = false) ∧ a = .mismatch) := by
  unfold find at h
  generalize lookup w f s i t nm = o at h ⊢
  obtain ⟨r, s'⟩ := o
  cases r with
  | ok x =>
    refine ⟨x, rfl, ?_⟩
    injection h with h
    subst h
    obtain ⟨v, ty⟩ := x
    cases h1 : w.asg ty t with
    | true => exact .inl ⟨rfl, by simp [assignValue, h1]⟩
    | false =>
      refine .inr ?_
      cases ty with
      | ptr u =>
        cases h2 : w.asg u t with
        | true =>
          cases h3 : w.isNil v with
          | true => exact .inr (.inl ⟨rfl, ⟨u, rfl, h2⟩, rfl, by simp [assignValue, h1, h2, h3]⟩)
          | false => exact .inl ⟨rfl, ⟨u, rfl, h2⟩, rfl, by simp [assignValue, h1, h2, h3]⟩
        | false =>
          refine .inr (.inr ⟨rfl, fun u' e => ?_, by simp [assignValue, h1, h2]⟩)
          injection e with e; subst e; exact h2
      | decl p n k => exact .inr (.inr ⟨rfl, fun u' e => (by cases e), by simp [assignValue, h1]⟩)
      | lit n => exact .inr (.inr ⟨rfl, fun u' e => (by cases e), by simp [assignValue, h1]⟩)
  | err => cases h
  | panic => cases h
  | diverge => cases h

/-- A nil pointer to `C` is found for a variable of type `C`: the variable keeps its value. -/
example : (find ⟨fun a b => a = b, fun _ => false, fun _ => true⟩ 3 (reach w1 3 [.provide 0 ⟨.value ⟨.obj 1, .ptr tC⟩, none, []⟩]) 0 tC []).1 = .ok .kept := by
  decide +kernel

end Verif.InjT
