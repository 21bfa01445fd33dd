import Verif.Model.AppFilters
import Verif.Props.RouterHeap
/-! # C116: the filters of applications and of requests in flight -/
namespace Verif.AppFilters
open Verif.Go Verif.Router Verif.Go.Heap

/-! ## Specification: filter lists as values -/

/-- The filters of every application, and of the requests in order of arrival. -/
structure Spec.State where
  apps : Nat → List Filter
  reqs : List (List Filter)

/-- A list with the filters it does not have yet added at its end. -/
def Spec.add (l : List Filter) : List Filter → List Filter
  | [] => l
  | f :: fs => if f ∈ l then Spec.add l fs else Spec.add (l ++ [f]) fs

def Spec.step (s : Spec.State) : Op → Spec.State
  | .filter a fs => { s with apps := fun b => if b = a then Spec.add (s.apps a) fs else s.apps b }
  | .replace old new => { s with apps := fun b => if b = old then s.apps new else s.apps b }
  | .request a => { s with reqs := s.reqs ++ [s.apps a] }

def Spec.run : Spec.State → List Op → Spec.State
  | s, [] => s
  | s, o :: os => Spec.run (Spec.step s o) os

/-- Filters are handed over: an application whose filters were given to another by `ReplaceFilters` gets no filters afterwards. `mine a`
says that `a` has not given its filters away. -/
def Spec.HandedOver : (Nat → Bool) → List Op → Prop
  | _, [] => True
  | mine, .filter a _ :: os => mine a = true ∧ Spec.HandedOver mine os
  | mine, .replace old new :: os =>
    Spec.HandedOver (fun b => if b = old then mine new else if b = new then false else mine b) os
  | mine, .request _ :: os => Spec.HandedOver mine os

/-! ## Proof -/

/-- Invariant: slices are valid; an application that may add filters has the longest slice of its array and is the only such one. -/
structure Inv (mine : Nat → Bool) (s : State) : Prop where
  apps : ∀ a, Valid s.heap (s.apps a)
  reqs : ∀ r ∈ s.reqs, Valid s.heap r
  longest : ∀ a, mine a = true → 0 < (s.apps a).cap → (∀ b, (s.apps b).arr = (s.apps a).arr → 0 < (s.apps b).cap → (s.apps b).len ≤ (s.apps a).len) ∧
    ∀ r ∈ s.reqs, r.arr = (s.apps a).arr → 0 < r.cap → r.len ≤ (s.apps a).len
  only : ∀ a b, mine a = true → mine b = true → 0 < (s.apps a).cap → 0 < (s.apps b).cap → (s.apps a).arr = (s.apps b).arr → a = b

theorem appendH_spec {g : Nat → Nat} (hg : ∀ n, n ≤ g n) : ∀ (fs : List Filter) (h : Heap Filter) (s : Slice), Valid h s →
    (appendH g h s fs).1.read (appendH g h s fs).2 = Spec.add (h.read s) fs ∧ Valid (appendH g h s fs).1 (appendH g h s fs).2 ∧
    Ext s.arr s.len h (appendH g h s fs).1 ∧
    ((appendH g h s fs).2 = s ∨ ((appendH g h s fs).2.arr = s.arr ∧ 0 < s.cap ∧ s.len ≤ (appendH g h s fs).2.len) ∨ h.next ≤ (appendH g h s fs).2.arr) ∧
    (¬ 0 < s.cap → Pres h (appendH g h s fs).1) := by
  intro fs
  induction fs with
  | nil => intro h s hv; exact ⟨rfl, hv, Ext.refl _ _ _, .inl rfl, fun _ => Pres.refl _⟩
  | cons f fs ih =>
    intro h s hv
    unfold appendH Spec.add
    by_cases hf : f ∈ h.read s
    · rw [if_pos hf, if_pos hf]; exact ih h s hv
    · rw [if_neg hf, if_neg hf]
      obtain ⟨a1, a2, a3, a4, a5, a6⟩ := append1_spec hg hv f
      simp only
      generalize append1 g h s f = r at a1 a2 a3 a4 a5 a6
      obtain ⟨h', s'⟩ := r
      simp only at a1 a2 a3 a4 a5 a6 ⊢
      obtain ⟨b1, b2, b3, b4, b5⟩ := ih h' s' a2
      refine ⟨by rw [b1, a1], b2, ?_, ?_, ?_⟩
      · rcases a6 with ⟨e, _⟩ | e
        · refine ⟨Nat.le_trans a3.1 b3.1, fun b hb i hi => ?_⟩
          rw [b3.2 b (Nat.lt_of_lt_of_le hb a3.1) i (fun e2 => by have := hi (e2.trans e); omega), a3.2 b hb i hi]
        · refine ⟨Nat.le_trans a3.1 b3.1, fun b hb i hi => ?_⟩
          rw [b3.2 b (Nat.lt_of_lt_of_le hb a3.1) i (fun e2 => by omega), a3.2 b hb i hi]
      · rcases a6 with ⟨e, e0⟩ | e
        · rcases b4 with b4 | ⟨b4, _, b6⟩ | b4
          · rw [b4]; exact .inr (.inl ⟨e, e0, by omega⟩)
          · exact .inr (.inl ⟨b4.trans e, e0, by omega⟩)
          · exact .inr (.inr (Nat.le_trans a3.1 b4))
        · rcases b4 with b4 | ⟨b4, _, _⟩ | b4
          · rw [b4]; exact .inr (.inr e)
          · exact .inr (.inr (by omega))
          · exact .inr (.inr (Nat.le_trans a3.1 b4))
      · intro h0
        have e : h.next ≤ s'.arr := by
          rcases a6 with ⟨_, e0⟩ | e
          · exact absurd e0 h0
          · exact e
        refine ⟨Nat.le_trans a3.1 b3.1, fun b hb i => ?_⟩
        rw [b3.2 b (Nat.lt_of_lt_of_le hb a3.1) i (fun e2 => by omega)]
        rcases a4 with a4 | ⟨_, a4⟩
        · exact a3.2 b hb i (fun e2 => by omega)
        · exact a4.2 b hb i

theorem valid_cap0 {h : Heap Filter} {s : Slice} (hv : Valid h s) (h0 : ¬ 0 < s.cap) : s.len = 0 := by have := hv.1; omega

/-- Slices other than the one appended to are not changed. -/
theorem keep {h h' : Heap Filter} {s t : Slice} (he : Ext s.arr s.len h h') (hp : ¬ 0 < s.cap → Pres h h') (ht : Valid h t)
    (hl : 0 < s.cap → 0 < t.cap → t.arr = s.arr → t.len ≤ s.len) : h'.read t = h.read t ∧ Valid h' t := by
  by_cases ht0 : 0 < t.cap
  · by_cases hs0 : 0 < s.cap
    · exact he.read ht (fun e => hl hs0 ht0 e)
    · exact (hp hs0).read ht
  · have h0 := valid_cap0 ht ht0
    exact ⟨by rw [read_nil _ h0, read_nil _ h0], ht.1, .inl (by omega), fun i hi => by omega⟩

/-- The state a memory state stands for. -/
def view (s : State) : Spec.State := ⟨fun a => s.heap.read (s.apps a), s.reqs.map s.heap.read⟩

/-- The applications that may still add filters. -/
def nextMine (mine : Nat → Bool) : Op → Nat → Bool
  | .replace old new => fun b => if b = old then mine new else if b = new then false else mine b
  | _ => mine

theorem step_spec {g : Nat → Nat} (hg : ∀ n, n ≤ g n) (mine : Nat → Bool) (s : State) (o : Op) (hi : Inv mine s)
    (ho : ∀ a fs, o = .filter a fs → mine a = true) :
    view (step g s o) = Spec.step (view s) o ∧ Inv (nextMine mine o) (step g s o) := by
  cases o with
  | filter a fs =>
    have hm := ho a fs rfl
    obtain ⟨c1, c2, c3, c4, c5⟩ := appendH_spec hg fs s.heap (s.apps a) (hi.apps a)
    have hbig := hi.longest a hm
    have kApp : ∀ b, (appendH g s.heap (s.apps a) fs).1.read (s.apps b) = s.heap.read (s.apps b) ∧ Valid (appendH g s.heap (s.apps a) fs).1 (s.apps b) :=
      fun b => keep c3 c5 (hi.apps b) (fun h1 h2 h3 => (hbig h1).1 b h3 h2)
    have kReq : ∀ r ∈ s.reqs, (appendH g s.heap (s.apps a) fs).1.read r = s.heap.read r ∧ Valid (appendH g s.heap (s.apps a) fs).1 r :=
      fun r hr => keep c3 c5 (hi.reqs r hr) (fun h1 h2 h3 => (hbig h1).2 r hr h3 h2)
    have below : ∀ t, Valid s.heap t → 0 < t.cap → t.arr < s.heap.next := by
      intro t ht h0
      rcases ht.2.1 with h | h
      · omega
      · exact h
    unfold step
    simp only [nextMine]
    generalize appendH g s.heap (s.apps a) fs = r at c1 c2 c3 c4 c5 kApp kReq
    obtain ⟨h', s'⟩ := r
    simp only at c1 c2 c3 c4 c5 kApp kReq ⊢
    refine ⟨?_, ⟨?_, ?_, ?_, ?_⟩⟩
    · unfold view Spec.step
      simp only [Spec.State.mk.injEq]
      refine ⟨funext fun b => ?_, ?_⟩
      · by_cases hb : b = a
        · simp only [hb, if_true]; exact c1
        · simp only [if_neg hb]; exact (kApp b).1
      · exact List.map_congr_left (fun r hr => (kReq r hr).1)
    · intro b
      by_cases hb : b = a
      · simp only [hb, if_true]; exact c2
      · simp only [if_neg hb]; exact (kApp b).2
    · intro r hr; exact (kReq r hr).2
    · intro b hb
      by_cases hba : b = a
      · subst hba
        simp only [if_true]
        intro h0
        -- every old slice of this array is no longer
        have old : ∀ t, Valid s.heap t → 0 < t.cap → t.arr = s'.arr → (0 < (s.apps b).cap → t.arr = (s.apps b).arr → t.len ≤ (s.apps b).len) → t.len ≤ s'.len := by
          intro t ht h1 h2 h3
          rcases c4 with c4 | ⟨c4, c6, c7⟩ | c4
          · rw [c4] at h0 h2 ⊢; exact h3 h0 h2
          · exact Nat.le_trans (h3 c6 (h2.trans c4)) c7
          · have := below t ht h1; omega
        refine ⟨fun x hx1 hx2 => ?_, fun r hr hr1 hr2 => ?_⟩
        · by_cases hx : x = b
          · simp only [hx, if_true]; omega
          · simp only [if_neg hx] at hx1 hx2 ⊢
            exact old _ (hi.apps x) hx2 hx1 (fun h1 h2 => (hbig h1).1 x h2 hx2)
        · exact old r (hi.reqs r hr) hr2 hr1 (fun h1 h2 => (hbig h1).2 r hr h2 hr2)
      · simp only [if_neg hba]
        intro h0
        have hl := hi.longest b hb h0
        refine ⟨fun x hx1 hx2 => ?_, hl.2⟩
        by_cases hx : x = a
        · simp only [hx, if_true] at hx1 hx2 ⊢
          rcases c4 with c4 | ⟨c4, c6, _⟩ | c4
          · rw [c4] at hx1 hx2 ⊢; exact hl.1 a hx1 hx2
          · exact absurd (hi.only a b hm hb c6 h0 (c4.symm.trans hx1)).symm hba
          · have := below _ (hi.apps b) h0; omega
        · simp only [if_neg hx] at hx1 hx2 ⊢; exact hl.1 x hx1 hx2
    · have one : ∀ b, mine b = true → b ≠ a → 0 < s'.cap → 0 < (s.apps b).cap → s'.arr = (s.apps b).arr → False := by
        intro b hb hne h1 h2 h3
        rcases c4 with c4 | ⟨c4, c6, _⟩ | c4
        · rw [c4] at h1 h3; exact hne (hi.only a b hm hb h1 h2 h3).symm
        · exact hne (hi.only a b hm hb c6 h2 (c4.symm.trans h3)).symm
        · have := below _ (hi.apps b) h2; omega
      intro b c hb hc
      by_cases hba : b = a
      · by_cases hca : c = a
        · intros; rw [hba, hca]
        · simp only [hba, if_true, if_neg hca]
          intro h1 h2 h3
          exact (one c hc hca h1 h2 h3).elim
      · by_cases hca : c = a
        · simp only [hca, if_true, if_neg hba]
          intro h1 h2 h3
          exact (one b hb hba h2 h1 h3.symm).elim
        · simp only [if_neg hba, if_neg hca]
          exact hi.only b c hb hc
  | replace old new =>
    refine ⟨?_, ⟨?_, hi.reqs, ?_, ?_⟩⟩
    · unfold view Spec.step step
      simp only [Spec.State.mk.injEq, and_true]
      funext b
      by_cases hb : b = old <;> simp [hb]
    · intro b
      unfold step
      by_cases hb : b = old
      · simp only [hb, if_true]; exact hi.apps new
      · simp only [if_neg hb]; exact hi.apps b
    · intro b hb h0
      -- the slice of an application is one of the old ones
      have src : ∀ x, ∃ y, (step g s (.replace old new)).apps x = s.apps y := by
        intro x
        unfold step
        by_cases hx : x = old
        · exact ⟨new, by simp [hx]⟩
        · exact ⟨x, by simp [hx]⟩
      have hsrc : ∃ y, mine y = true ∧ (step g s (.replace old new)).apps b = s.apps y := by
        simp only [nextMine] at hb
        by_cases hbo : b = old
        · rw [if_pos hbo] at hb; exact ⟨new, hb, by simp [step, hbo]⟩
        · rw [if_neg hbo] at hb
          by_cases hbn : b = new
          · rw [if_pos hbn] at hb; cases hb
          · rw [if_neg hbn] at hb; exact ⟨b, hb, by simp [step, hbo]⟩
      obtain ⟨y, hy, hyy⟩ := hsrc
      rw [hyy] at h0 ⊢
      have hl := hi.longest y hy h0
      refine ⟨fun x hx1 hx2 => ?_, hl.2⟩
      obtain ⟨z, hz⟩ := src x
      rw [hz] at hx1 hx2 ⊢
      exact hl.1 z hx1 hx2
    · intro b c hb hc
      simp only [nextMine] at hb hc
      unfold step
      by_cases hbo : b = old
      · rw [if_pos hbo] at hb
        by_cases hco : c = old
        · intros; rw [hbo, hco]
        · rw [if_neg hco] at hc
          by_cases hcn : c = new
          · rw [if_pos hcn] at hc; cases hc
          · rw [if_neg hcn] at hc
            simp only [hbo, if_true, if_neg hco]
            intro h1 h2 h3
            exact absurd (hi.only new c hb hc h1 h2 h3).symm hcn
      · rw [if_neg hbo] at hb
        by_cases hbn : b = new
        · rw [if_pos hbn] at hb; cases hb
        rw [if_neg hbn] at hb
        by_cases hco : c = old
        · rw [if_pos hco] at hc
          simp only [hco, if_true, if_neg hbo]
          intro h1 h2 h3
          exact absurd (hi.only b new hb hc h1 h2 h3) hbn
        · rw [if_neg hco] at hc
          by_cases hcn : c = new
          · rw [if_pos hcn] at hc; cases hc
          · rw [if_neg hcn] at hc
            simp only [if_neg hbo, if_neg hco]
            exact hi.only b c hb hc
  | request a =>
    refine ⟨?_, ⟨hi.apps, ?_, ?_, hi.only⟩⟩
    · unfold view Spec.step step
      simp
    · intro r hr
      rcases List.mem_append.1 hr with hr | hr
      · exact hi.reqs r hr
      · simp at hr; subst hr; exact hi.apps a
    · intro b hb h0
      have hl := hi.longest b hb h0
      refine ⟨hl.1, fun r hr hr1 hr2 => ?_⟩
      rcases List.mem_append.1 hr with hr | hr
      · exact hl.2 r hr hr1 hr2
      · simp at hr; subst hr; exact hl.1 a hr1 hr2

theorem inv_init : Inv (fun _ => true) init := by
  refine ⟨fun a => ⟨Nat.le_refl _, .inl rfl, fun i hi => by simp [init, nilSlice] at hi⟩, by simp [init], ?_, ?_⟩
  · intro a _ h; simp [init, nilSlice] at h
  · intro a b _ _ h; simp [init, nilSlice] at h

theorem run_spec {g : Nat → Nat} (hg : ∀ n, n ≤ g n) : ∀ (os : List Op) (mine : Nat → Bool) (s : State), Inv mine s → Spec.HandedOver mine os →
    view (run g s os) = Spec.run (view s) os := by
  intro os
  induction os with
  | nil => intro mine s _ _; rfl
  | cons o os ih =>
    intro mine s hi ho
    have h1 : ∀ a fs, o = .filter a fs → mine a = true := by
      rintro a fs rfl
      exact ho.1
    have h2 : Spec.HandedOver (nextMine mine o) os := by
      cases o with
      | filter a fs => exact ho.2
      | replace a b => exact ho
      | request a => exact ho
    obtain ⟨h3, h4⟩ := step_spec hg mine s o hi h1
    show view (run g (step g s o) os) = Spec.run (Spec.step (view s) o) os
    rw [ih _ _ h4 h2, h3]

/-- **C116** (partial: filters are handed over, not shared): whatever capacities `append` picks, after any history every application has the
filters declared for it, and every request the filters its application had when it arrived. -/
theorem C116_filters_partial {g : Nat → Nat} (hg : ∀ n, n ≤ g n) (os : List Op) (h : Spec.HandedOver (fun _ => true) os) :
    view (run g init os) = Spec.run ⟨fun _ => [], []⟩ os := by
  have := run_spec hg os _ _ inv_init h
  rw [this]
  rfl

/-- **C116** without `ReplaceFilters`: no condition is needed. -/
theorem C116_no_replace {g : Nat → Nat} (hg : ∀ n, n ≤ g n) (os : List Op) (h : ∀ a b, Op.replace a b ∉ os) :
    view (run g init os) = Spec.run ⟨fun _ => [], []⟩ os := by
  refine C116_filters_partial hg os ?_
  induction os with
  | nil => trivial
  | cons o os ih =>
    have ih := ih (fun a b hm => h a b (by simp [hm]))
    cases o with
    | filter a fs => exact ⟨rfl, ih⟩
    | replace a b => exact absurd (by simp) (h a b)
    | request a => exact ih

/-- The growth policy of the Go runtime for small slices: twice the capacity (lengths 1, 2, 3 get 1, 2, 4). -/
def goGrow2 (n : Nat) : Nat := if n ≤ 2 then n else if n ≤ 4 then 4 else 2 * n

/-- **C116 fails** after `ReplaceFilters` when both applications get filters: the filter given to the second one also replaces the filter given
to the first, even for a request of the first one that is under way. -/
theorem C116_replace_violated :
    ((view (run goGrow2 init [.filter 1 [10, 11, 12], .replace 0 1, .filter 0 [20], .request 0, .filter 1 [30]])).apps 0,
      (view (run goGrow2 init [.filter 1 [10, 11, 12], .replace 0 1, .filter 0 [20], .request 0, .filter 1 [30]])).reqs) =
      ([10, 11, 12, 30], [[10, 11, 12, 30]]) ∧
    ((Spec.run ⟨fun _ => [], []⟩ [.filter 1 [10, 11, 12], .replace 0 1, .filter 0 [20], .request 0, .filter 1 [30]]).apps 0) = [10, 11, 12, 20] := by
  decide +kernel

example : Spec.HandedOver (fun _ => true) [.filter 1 [10, 11, 12], .request 1, .replace 0 1, .filter 0 [20, 10], .request 0, .filter 2 [5], .replace 1 0, .filter 1 [6]] := by
  simp [Spec.HandedOver]
example : (view (run goGrow2 init [.filter 1 [10, 11, 12], .request 1, .replace 0 1, .filter 0 [20, 10], .request 0])).reqs =
    [[10, 11, 12], [10, 11, 12, 20]] := by decide +kernel

end Verif.AppFilters
