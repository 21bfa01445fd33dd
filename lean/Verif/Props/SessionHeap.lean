import Verif.Model.SessionHeap
import Verif.Props.Session
/-!
# C142: sessions and the program's maps do not affect one another
-/
namespace Verif.SessHeap
open Verif.Sess (Handle)

variable {V : Type}

/-! ## Specification: every store and every variable has values of its own; a variable given to `Create` is not used again -/

/-- A store with its own values (the model of a store in C33-C36 and C105). -/
structure Spec.World (V : Type) where
  vars : Nat → Option (Str → Option V)
  stores : List (Handle V)

def Spec.World.init : Spec.World V := ⟨fun _ => none, []⟩

/-- The effect of a call; `none` if it uses a variable that holds no map, or whose map was given to `Create`, or a store that was never
created. -/
def Spec.step (w : Spec.World V) : Op V → Option (Spec.World V × Seen V)
  | .make x => some ({ w with vars := Cache.upd w.vars x (some fun _ => none) }, .nothing)
  | .put x k v => (w.vars x).map fun m => ({ w with vars := Cache.upd w.vars x (some (Cache.upd m k (some v))) }, .nothing)
  | .drop x k => (w.vars x).map fun m => ({ w with vars := Cache.upd w.vars x (some (Cache.upd m k none)) }, .nothing)
  | .look x k => (w.vars x).map fun m => (w, .got (m k))
  | .create sid .none => some ({ w with stores := w.stores ++ [Sess.create sid []] }, .nothing)
  | .create sid .nil => some ({ w with stores := w.stores ++ [Sess.create sid [fun _ => none]] }, .nothing)
  | .create sid (.var x) => (w.vars x).map fun m =>
      ({ vars := Cache.upd w.vars x none, stores := w.stores ++ [Sess.create sid [m]] }, .nothing)
  | .set i k v => (w.stores[i]?).map fun h => ({ w with stores := w.stores.set i (h.set k v) }, .nothing)
  | .get i k => (w.stores[i]?).map fun h => (w, .got (h.get k))
  | .delete i k => (w.stores[i]?).map fun h => ({ w with stores := w.stores.set i (h.delete k) }, .nothing)
  | .clean i => (w.stores[i]?).map fun h => ({ w with stores := w.stores.set i h.clean }, .nothing)
  | .destroy i => (w.stores[i]?).map fun h => ({ w with stores := w.stores.set i { h with closed := true, values := fun _ => none } }, .nothing)
  | .values i x => (w.stores[i]?).map fun h => ({ w with vars := Cache.upd w.vars x (some h.values) }, .nothing)
  | .flush i => (w.stores[i]?).map fun h =>
      if h.closed = true ∨ h.changed = false then (w, .nothing)
      else ({ w with stores := w.stores.set i { h with changed := false } }, .saved h.sid h.values)

/-- What is seen, call by call. -/
def Spec.run (w : Spec.World V) : List (Op V) → Option (List (Seen V))
  | [] => some []
  | o :: l => (Spec.step w o).bind fun p => (Spec.run p.1 l).map (p.2 :: ·)

/-! ## The relation -/

/-- Who holds which reference: variables and stores. -/
inductive Owner where
  | var (x : Nat)
  | store (i : Nat)
deriving DecidableEq

/-- The map an owner refers to. A variable counts as long as the specification lets it be used. -/
def refOf (s : St V) (w : Spec.World V) : Owner → Option Nat
  | .var x => if (w.vars x).isSome then s.env x else none
  | .store i => (s.stores[i]?).map Store.ref

/-- The values an owner has by the specification. -/
def valuesOf (w : Spec.World V) : Owner → Option (Str → Option V)
  | .var x => w.vars x
  | .store i => (w.stores[i]?).map Handle.values

/-- Every owner has a map of its own, with the values it should have. -/
structure Inv (heap : List (Str → Option V)) (R : Owner → Option Nat) (M : Owner → Option (Str → Option V)) : Prop where
  holds : ∀ o m, M o = some m → ∃ r, R o = some r ∧ heap[r]? = some m
  apart : ∀ o o' r, R o = some r → R o' = some r → o = o'
  dom : ∀ o r, R o = some r → ∃ m, M o = some m

theorem Inv.lt {heap : List (Str → Option V)} {R : Owner → Option Nat} {M : Owner → Option (Str → Option V)} (I : Inv heap R M) (o : Owner)
    (r : Nat) (h : R o = some r) : r < heap.length := by
  obtain ⟨m, hm⟩ := I.dom o r h
  obtain ⟨r', hr', hh⟩ := I.holds o m hm
  rw [h] at hr'; cases hr'
  exact (List.getElem?_eq_some_iff.mp hh).1

theorem Inv.at {heap : List (Str → Option V)} {R : Owner → Option Nat} {M : Owner → Option (Str → Option V)} (I : Inv heap R M) (o : Owner)
    (r : Nat) (m : Str → Option V) (h : R o = some r) (hm : M o = some m) : heap[r]? = some m := by
  obtain ⟨r', hr', hh⟩ := I.holds o m hm
  rw [h] at hr'; cases hr'
  exact hh

theorem Inv.fresh {heap : List (Str → Option V)} {R : Owner → Option Nat} {M : Owner → Option (Str → Option V)} (I : Inv heap R M) (o : Owner)
    (m : Str → Option V) : Inv (heap ++ [m]) (Cache.upd R o (some heap.length)) (Cache.upd M o (some m)) := by
  refine ⟨?_, ?_, ?_⟩
  · intro o1 m1 h1
    by_cases e : o1 = o
    · subst e
      simp only [Cache.upd, if_true] at h1 ⊢
      exact ⟨_, rfl, by rw [List.getElem?_append_right (Nat.le_refl _)]; simpa using h1⟩
    · simp only [Cache.upd, e, if_false] at h1 ⊢
      obtain ⟨r, hr, hh⟩ := I.holds o1 m1 h1
      exact ⟨r, hr, by rw [List.getElem?_append_left (I.lt o1 r hr)]; exact hh⟩
  · intro o1 o2 r h1 h2
    by_cases e1 : o1 = o <;> by_cases e2 : o2 = o
    · rw [e1, e2]
    · simp only [Cache.upd, e1, e2, if_true, if_false] at h1 h2
      have := I.lt o2 r h2
      cases h1; omega
    · simp only [Cache.upd, e1, e2, if_true, if_false] at h1 h2
      have := I.lt o1 r h1
      cases h2; omega
    · simp only [Cache.upd, e1, e2, if_false] at h1 h2
      exact I.apart o1 o2 r h1 h2
  · intro o1 r h1
    by_cases e : o1 = o
    · exact ⟨m, by simp [Cache.upd, e]⟩
    · simp only [Cache.upd, e, if_false] at h1 ⊢
      exact I.dom o1 r h1

theorem Inv.write {heap : List (Str → Option V)} {R : Owner → Option Nat} {M : Owner → Option (Str → Option V)} (I : Inv heap R M) (o : Owner)
    (r : Nat) (m : Str → Option V) (h : R o = some r) : Inv (heap.set r m) R (Cache.upd M o (some m)) := by
  refine ⟨?_, I.apart, ?_⟩
  · intro o1 m1 h1
    by_cases e : o1 = o
    · subst e
      simp only [Cache.upd, if_true] at h1
      exact ⟨r, h, by rw [List.getElem?_set_self (I.lt o1 r h)]; exact h1⟩
    · simp only [Cache.upd, e, if_false] at h1
      obtain ⟨r1, hr, hh⟩ := I.holds o1 m1 h1
      refine ⟨r1, hr, ?_⟩
      have hne : r ≠ r1 := fun q => e (I.apart o1 o r1 hr (q ▸ h))
      rw [List.getElem?_set_ne hne]; exact hh
  · intro o1 r1 h1
    by_cases e : o1 = o
    · exact ⟨m, by simp [Cache.upd, e]⟩
    · simp only [Cache.upd, e, if_false]
      exact I.dom o1 r1 h1

theorem Inv.move {heap : List (Str → Option V)} {R : Owner → Option Nat} {M : Owner → Option (Str → Option V)} (I : Inv heap R M) (o o' : Owner)
    (r : Nat) (m : Str → Option V) (h : R o = some r) (hm : M o = some m) :
    Inv heap (Cache.upd (Cache.upd R o none) o' (some r)) (Cache.upd (Cache.upd M o none) o' (some m)) := by
  refine ⟨?_, ?_, ?_⟩
  · intro o1 m1 h1
    by_cases e' : o1 = o'
    · subst e'
      simp only [Cache.upd, if_true] at h1 ⊢
      cases h1
      exact ⟨r, rfl, I.at o r m h hm⟩
    · by_cases e : o1 = o
      · simp [Cache.upd, e', e] at h1
        subst e; exact absurd h1 (by simp [e'])
      · simp only [Cache.upd, e, e', if_false] at h1 ⊢
        exact I.holds o1 m1 h1
  · intro o1 o2 r1 h1 h2
    by_cases e1 : o1 = o' <;> by_cases e2 : o2 = o'
    · rw [e1, e2]
    · by_cases f2 : o2 = o
      · rw [f2] at e2 h2; simp [Cache.upd, e2] at h2
      · simp only [Cache.upd, e1, e2, f2, if_true, if_false] at h1 h2
        cases h1
        exact absurd (I.apart o2 o r h2 h) f2
    · by_cases f1 : o1 = o
      · rw [f1] at e1 h1; simp [Cache.upd, e1] at h1
      · simp only [Cache.upd, e1, e2, f1, if_true, if_false] at h1 h2
        cases h2
        exact absurd (I.apart o1 o r h1 h) f1
    · by_cases f1 : o1 = o
      · rw [f1] at e1 h1; simp [Cache.upd, e1] at h1
      · by_cases f2 : o2 = o
        · rw [f2] at e2 h2; simp [Cache.upd, e2] at h2
        · simp only [Cache.upd, e1, e2, f1, f2, if_false] at h1 h2
          exact I.apart o1 o2 r1 h1 h2
  · intro o1 r1 h1
    by_cases e1 : o1 = o'
    · exact ⟨m, by simp [Cache.upd, e1]⟩
    · by_cases f1 : o1 = o
      · rw [f1] at e1 h1; simp [Cache.upd, e1] at h1
      · simp only [Cache.upd, e1, f1, if_false] at h1 ⊢
        exact I.dom o1 r1 h1

structure Rel (s : St V) (w : Spec.World V) : Prop where
  flags : s.stores.map (fun t => (t.sid, t.changed, t.closed)) = w.stores.map (fun h => (h.sid, h.changed, h.closed))
  inv : Inv s.heap (refOf s w) (valuesOf w)

theorem Rel.init : Rel (St.init : St V) Spec.World.init := by
  refine ⟨rfl, ⟨?_, ?_, ?_⟩⟩
  · intro o m h; cases o <;> simp [valuesOf, Spec.World.init] at h
  · intro o o' r h; cases o <;> simp [refOf, St.init, Spec.World.init] at h
  · intro o r h; cases o <;> simp [refOf, St.init, Spec.World.init] at h

theorem Rel.len {s : St V} {w : Spec.World V} (R : Rel s w) : s.stores.length = w.stores.length := by
  have := congrArg List.length R.flags
  simpa using this

theorem Rel.store {s : St V} {w : Spec.World V} (R : Rel s w) (i : Nat) (h : Handle V) (hw : w.stores[i]? = some h) :
    ∃ t, s.stores[i]? = some t ∧ t.sid = h.sid ∧ t.changed = h.changed ∧ t.closed = h.closed ∧ s.heap[t.ref]? = some h.values := by
  have e := congrArg (fun l => l[i]?) R.flags
  simp only [List.getElem?_map, hw, Option.map_some] at e
  cases ht : s.stores[i]? with
  | none => rw [ht] at e; cases e
  | some t =>
    rw [ht] at e
    simp only [Option.map_some, Option.some.injEq, Prod.mk.injEq] at e
    refine ⟨t, rfl, e.1, e.2.1, e.2.2, ?_⟩
    exact R.inv.at (.store i) t.ref h.values (by simp [refOf, ht]) (by simp [valuesOf, hw])

theorem Rel.var {s : St V} {w : Spec.World V} (R : Rel s w) (x : Nat) (m : Str → Option V) (hw : w.vars x = some m) :
    ∃ r, s.env x = some r ∧ s.heap[r]? = some m ∧ refOf s w (.var x) = some r := by
  obtain ⟨r, hr, hh⟩ := R.inv.holds (.var x) m hw
  refine ⟨r, ?_, hh, hr⟩
  simpa [refOf, hw] using hr

theorem Rel.of {s' : St V} {w' : Spec.World V} {R : Owner → Option Nat} {M : Owner → Option (Str → Option V)}
    (I : Inv s'.heap R M) (hr : ∀ o, refOf s' w' o = R o) (hm : ∀ o, valuesOf w' o = M o)
    (hf : s'.stores.map (fun t => (t.sid, t.changed, t.closed)) = w'.stores.map (fun h => (h.sid, h.changed, h.closed))) : Rel s' w' := by
  have e1 : refOf s' w' = R := funext hr
  have e2 : valuesOf w' = M := funext hm
  exact ⟨hf, by rw [e1, e2]; exact I⟩

/-- A new map in a variable. -/
theorem Rel.newVar {s : St V} {w : Spec.World V} (R : Rel s w) (x : Nat) (m : Str → Option V) :
    Rel { s with heap := s.heap ++ [m], env := Cache.upd s.env x (some s.heap.length) } { w with vars := Cache.upd w.vars x (some m) } := by
  refine Rel.of (R.inv.fresh (.var x) m) ?_ ?_ R.flags
  · intro o
    cases o with
    | var y => by_cases e : y = x <;> simp [refOf, Cache.upd, e]
    | store i => simp [refOf, Cache.upd]
  · intro o
    cases o with
    | var y => by_cases e : y = x <;> simp [valuesOf, Cache.upd, e]
    | store i => simp [valuesOf, Cache.upd]

/-- A write to a variable's map. -/
theorem Rel.writeVar {s : St V} {w : Spec.World V} (R : Rel s w) (x : Nat) (m m' : Str → Option V) (r : Nat) (hw : w.vars x = some m)
    (hr : refOf s w (.var x) = some r) : Rel { s with heap := s.heap.set r m' } { w with vars := Cache.upd w.vars x (some m') } := by
  refine Rel.of (R.inv.write (.var x) r m' hr) ?_ ?_ R.flags
  · intro o
    cases o with
    | var y =>
      by_cases e : y = x
      · subst e; simp [refOf, Cache.upd, hw]
      · simp [refOf, Cache.upd, e]
    | store i => rfl
  · intro o
    cases o with
    | var y => by_cases e : y = x <;> simp [valuesOf, Cache.upd, e]
    | store i => simp [valuesOf, Cache.upd]

/-- A write to a store's map. -/
theorem Rel.writeStore {s : St V} {w : Spec.World V} (R : Rel s w) (i : Nat) (t : Store) (h : Handle V) (m' : Str → Option V)
    (ht : s.stores[i]? = some t) (hw : w.stores[i]? = some h) (es : t.sid = h.sid) (ec : t.closed = h.closed) (c : Bool) :
    Rel { s with heap := s.heap.set t.ref m', stores := s.stores.set i { t with changed := c } }
      { w with stores := w.stores.set i { h with changed := c, values := m' } } := by
  have li : i < s.stores.length := (List.getElem?_eq_some_iff.mp ht).1
  have lw : i < w.stores.length := (List.getElem?_eq_some_iff.mp hw).1
  refine Rel.of (R.inv.write (.store i) t.ref m' (by simp [refOf, ht])) ?_ ?_ ?_
  · intro o
    cases o with
    | var y => rfl
    | store j =>
      by_cases e : i = j
      · subst e; simp only [refOf, List.getElem?_set_self li, ht]; rfl
      · simp [refOf, List.getElem?_set_ne e]
  · intro o
    cases o with
    | var y => simp [valuesOf, Cache.upd]
    | store j =>
      by_cases e : i = j
      · subst e; simp [valuesOf, Cache.upd, lw]
      · have e' : j ≠ i := fun q => e q.symm
        simp [valuesOf, Cache.upd, List.getElem?_set_ne e, e']
  · simp only [List.map_set, R.flags, es, ec]

/-- A new map for a store. -/
theorem Rel.replaceStore {s : St V} {w : Spec.World V} (R : Rel s w) (i : Nat) (t : Store) (h : Handle V) (m' : Str → Option V)
    (ht : s.stores[i]? = some t) (hw : w.stores[i]? = some h) (es : t.sid = h.sid) (c d : Bool) :
    Rel { s with heap := s.heap ++ [m'], stores := s.stores.set i ⟨t.sid, s.heap.length, c, d⟩ }
      { w with stores := w.stores.set i ⟨h.sid, m', c, d⟩ } := by
  have li : i < s.stores.length := (List.getElem?_eq_some_iff.mp ht).1
  have lw : i < w.stores.length := (List.getElem?_eq_some_iff.mp hw).1
  refine Rel.of (R.inv.fresh (.store i) m') ?_ ?_ ?_
  · intro o
    cases o with
    | var y => simp [refOf, Cache.upd]
    | store j =>
      by_cases e : i = j
      · subst e; simp [refOf, Cache.upd, li]
      · have e' : j ≠ i := fun q => e q.symm
        simp [refOf, Cache.upd, List.getElem?_set_ne e, e']
  · intro o
    cases o with
    | var y => simp [valuesOf, Cache.upd]
    | store j =>
      by_cases e : i = j
      · subst e; simp [valuesOf, Cache.upd, lw]
      · have e' : j ≠ i := fun q => e q.symm
        simp [valuesOf, Cache.upd, List.getElem?_set_ne e, e']
  · simp only [List.map_set, R.flags, es]

/-- A store with a map of its own. -/
theorem Rel.newStore {s : St V} {w : Spec.World V} (R : Rel s w) (sid : Str) (m : Str → Option V) (c : Bool) :
    Rel { s with heap := s.heap ++ [m], stores := s.stores ++ [⟨sid, s.heap.length, c, false⟩] }
      { w with stores := w.stores ++ [⟨sid, m, c, false⟩] } := by
  refine Rel.of (R.inv.fresh (.store s.stores.length) m) ?_ ?_ ?_
  · intro o
    cases o with
    | var y => simp [refOf, Cache.upd]
    | store j =>
      by_cases e : j = s.stores.length
      · subst e; simp [refOf, Cache.upd]
      · rcases Nat.lt_or_gt_of_ne e with l | l
        · simp [refOf, Cache.upd, e, List.getElem?_append_left l]
        · have : s.stores.length ≤ j := by omega
          have h1 : ¬ j - s.stores.length < 1 := by omega
          simp [refOf, Cache.upd, e, List.getElem?_append_right this]
          rw [List.getElem?_eq_none (by simp; omega), List.getElem?_eq_none this]
  · intro o
    cases o with
    | var y => simp [valuesOf, Cache.upd]
    | store j =>
      by_cases e : j = s.stores.length
      · subst e; simp [valuesOf, Cache.upd, R.len]
      · rw [R.len] at e
        rcases Nat.lt_or_gt_of_ne e with l | l
        · simp [valuesOf, Cache.upd, R.len, e, List.getElem?_append_left l]
        · have : w.stores.length ≤ j := by omega
          simp [valuesOf, Cache.upd, R.len, e, List.getElem?_append_right this]
          rw [List.getElem?_eq_none (by simp; omega), List.getElem?_eq_none this]
  · simp [R.flags]

/-- A store that takes over a variable's map. -/
theorem Rel.moveStore {s : St V} {w : Spec.World V} (R : Rel s w) (sid : Str) (x r : Nat) (m : Str → Option V) (hw : w.vars x = some m)
    (hr : refOf s w (.var x) = some r) :
    Rel { s with stores := s.stores ++ [⟨sid, r, true, false⟩] }
      { vars := Cache.upd w.vars x none, stores := w.stores ++ [⟨sid, m, true, false⟩] } := by
  refine Rel.of (R.inv.move (.var x) (.store s.stores.length) r m hr hw) ?_ ?_ ?_
  · intro o
    cases o with
    | var y => by_cases e : y = x <;> simp [refOf, Cache.upd, e]
    | store j =>
      by_cases e : j = s.stores.length
      · subst e; simp [refOf, Cache.upd]
      · rcases Nat.lt_or_gt_of_ne e with l | l
        · simp [refOf, Cache.upd, e, List.getElem?_append_left l]
        · have : s.stores.length ≤ j := by omega
          simp [refOf, Cache.upd, e, List.getElem?_append_right this]
          rw [List.getElem?_eq_none (by simp; omega), List.getElem?_eq_none this]
  · intro o
    cases o with
    | var y => by_cases e : y = x <;> simp [valuesOf, Cache.upd, e]
    | store j =>
      by_cases e : j = s.stores.length
      · subst e; simp [valuesOf, Cache.upd, R.len]
      · rw [R.len] at e
        rcases Nat.lt_or_gt_of_ne e with l | l
        · simp [valuesOf, Cache.upd, R.len, e, List.getElem?_append_left l]
        · have : w.stores.length ≤ j := by omega
          simp [valuesOf, Cache.upd, R.len, e, List.getElem?_append_right this]
          rw [List.getElem?_eq_none (by simp; omega), List.getElem?_eq_none this]
  · simp [R.flags]

/-- Only a flag of a store changes. -/
theorem Rel.flagStore {s : St V} {w : Spec.World V} (R : Rel s w) (i : Nat) (t : Store) (h : Handle V)
    (ht : s.stores[i]? = some t) (hw : w.stores[i]? = some h) (es : t.sid = h.sid) (ec : t.closed = h.closed) (c : Bool) :
    Rel { s with stores := s.stores.set i { t with changed := c } } { w with stores := w.stores.set i { h with changed := c } } := by
  have li : i < s.stores.length := (List.getElem?_eq_some_iff.mp ht).1
  have lw : i < w.stores.length := (List.getElem?_eq_some_iff.mp hw).1
  refine Rel.of R.inv ?_ ?_ ?_
  · intro o
    cases o with
    | var y => rfl
    | store j =>
      by_cases e : i = j
      · subst e; simp only [refOf, List.getElem?_set_self li, ht]; rfl
      · simp [refOf, List.getElem?_set_ne e]
  · intro o
    cases o with
    | var y => rfl
    | store j =>
      by_cases e : i = j
      · subst e; simp only [valuesOf, List.getElem?_set_self lw, hw]; rfl
      · simp [valuesOf, List.getElem?_set_ne e]
  · simp only [List.map_set, R.flags, es, ec]

theorem step_rel {s : St V} {w w' : Spec.World V} {out : Seen V} (R : Rel s w) (o : Op V) (h : Spec.step w o = some (w', out)) :
    Rel (step s o).1 w' ∧ (step s o).2 = out := by
  cases o with
  | make x => simp only [Spec.step, Option.some.injEq, Prod.mk.injEq] at h; obtain ⟨rfl, rfl⟩ := h; exact ⟨R.newVar x _, rfl⟩
  | put x k v =>
    simp only [Spec.step, Option.map_eq_some_iff, Prod.mk.injEq] at h
    obtain ⟨m, hm, rfl, rfl⟩ := h
    obtain ⟨r, he, hh, hr⟩ := R.var x m hm
    simp only [step, he, St.write, hh, Option.getD_some]
    exact ⟨R.writeVar x m _ r hm hr, trivial⟩
  | drop x k =>
    simp only [Spec.step, Option.map_eq_some_iff, Prod.mk.injEq] at h
    obtain ⟨m, hm, rfl, rfl⟩ := h
    obtain ⟨r, he, hh, hr⟩ := R.var x m hm
    simp only [step, he, St.write, hh, Option.getD_some]
    exact ⟨R.writeVar x m _ r hm hr, trivial⟩
  | look x k =>
    simp only [Spec.step, Option.map_eq_some_iff, Prod.mk.injEq] at h
    obtain ⟨m, hm, rfl, rfl⟩ := h
    obtain ⟨r, he, hh, hr⟩ := R.var x m hm
    simp only [step, he, hh, Option.bind_some]
    exact ⟨R, trivial⟩
  | create sid a =>
    cases a with
    | none => simp only [Spec.step, Option.some.injEq, Prod.mk.injEq] at h; obtain ⟨rfl, rfl⟩ := h; exact ⟨R.newStore sid _ false, rfl⟩
    | nil => simp only [Spec.step, Option.some.injEq, Prod.mk.injEq] at h; obtain ⟨rfl, rfl⟩ := h; exact ⟨R.newStore sid _ true, rfl⟩
    | var x =>
      simp only [Spec.step, Option.map_eq_some_iff, Prod.mk.injEq] at h
      obtain ⟨m, hm, rfl, rfl⟩ := h
      obtain ⟨r, he, hh, hr⟩ := R.var x m hm
      simp only [step, St.open_, he]
      exact ⟨R.moveStore sid x r m hm hr, trivial⟩
  | set i k v =>
    simp only [Spec.step, Option.map_eq_some_iff, Prod.mk.injEq] at h
    obtain ⟨hd, hm, rfl, rfl⟩ := h
    obtain ⟨t, ht, e1, e2, e3, hh⟩ := R.store i hd hm
    simp only [step, St.onStore, ht, St.write, hh, Option.getD_some]
    exact ⟨R.writeStore i t hd _ ht hm e1 e3 true, trivial⟩
  | get i k =>
    simp only [Spec.step, Option.map_eq_some_iff, Prod.mk.injEq] at h
    obtain ⟨hd, hm, rfl, rfl⟩ := h
    obtain ⟨t, ht, e1, e2, e3, hh⟩ := R.store i hd hm
    simp only [step, St.onStore, ht, hh, Option.bind_some]
    exact ⟨R, rfl⟩
  | delete i k =>
    simp only [Spec.step, Option.map_eq_some_iff, Prod.mk.injEq] at h
    obtain ⟨hd, hm, rfl, rfl⟩ := h
    obtain ⟨t, ht, e1, e2, e3, hh⟩ := R.store i hd hm
    simp only [step, St.onStore, ht, St.write, hh, Option.getD_some]
    exact ⟨R.writeStore i t hd _ ht hm e1 e3 true, trivial⟩
  | clean i =>
    simp only [Spec.step, Option.map_eq_some_iff, Prod.mk.injEq] at h
    obtain ⟨hd, hm, rfl, rfl⟩ := h
    obtain ⟨t, ht, e1, e2, e3, hh⟩ := R.store i hd hm
    simp only [step, St.onStore, ht, Handle.clean, e3]
    exact ⟨R.replaceStore i t hd _ ht hm e1 true hd.closed, trivial⟩
  | destroy i =>
    simp only [Spec.step, Option.map_eq_some_iff, Prod.mk.injEq] at h
    obtain ⟨hd, hm, rfl, rfl⟩ := h
    obtain ⟨t, ht, e1, e2, e3, hh⟩ := R.store i hd hm
    simp only [step, St.onStore, ht, e2]
    exact ⟨R.replaceStore i t hd _ ht hm e1 hd.changed true, trivial⟩
  | values i x =>
    simp only [Spec.step, Option.map_eq_some_iff, Prod.mk.injEq] at h
    obtain ⟨hd, hm, rfl, rfl⟩ := h
    obtain ⟨t, ht, e1, e2, e3, hh⟩ := R.store i hd hm
    simp only [step, St.onStore, ht, hh, Option.getD_some]
    exact ⟨R.newVar x _, trivial⟩
  | flush i =>
    simp only [Spec.step, Option.map_eq_some_iff] at h
    obtain ⟨hd, hm, h⟩ := h
    obtain ⟨t, ht, e1, e2, e3, hh⟩ := R.store i hd hm
    simp only [step, St.onStore, ht, hh, Option.getD_some, e1, e2, e3]
    by_cases c : hd.closed = true ∨ hd.changed = false
    · rw [if_pos c] at h ⊢
      cases h
      exact ⟨R, rfl⟩
    · rw [if_neg c] at h ⊢
      cases h
      have := R.flagStore i t hd ht hm e1 e3 false
      simp only [e1, e3] at this
      exact ⟨this, rfl⟩

theorem run_rel (ops : List (Op V)) : ∀ (s : St V) (w : Spec.World V) (outs : List (Seen V)), Rel s w → Spec.run w ops = some outs →
    run s ops = outs := by
  induction ops with
  | nil => intro s w outs _ h; simp only [Spec.run, Option.some.injEq] at h; rw [← h]; rfl
  | cons o l ih =>
    intro s w outs R h
    simp only [Spec.run, Option.bind_eq_some_iff, Option.map_eq_some_iff] at h
    obtain ⟨⟨w', out⟩, h1, outs', h2, rfl⟩ := h
    have ⟨R', e⟩ := step_rel R o h1
    simp only [run, e, ih _ _ _ R' h2]

/-! ## The theorems -/

/-- However a program mixes its own maps with sessions: if no map it gave to `Create` is used by it again (not written, not read, not given
to `Create` a second time), every call shows what it would show if every session and every variable of the program had values of its own. So
no session changes by a call on another, and none by a write to a map that `Values` returned. -/
theorem C142_isolated (ops : List (Op V)) (outs : List (Seen V)) (h : Spec.run Spec.World.init ops = some outs) : run St.init ops = outs :=
  run_rel ops _ _ outs Rel.init h

/-- A call on one session, or on a variable of the program, leaves what every other session has as it was. -/
theorem C142_others_unchanged (w w' : Spec.World V) (o : Op V) (out : Seen V) (h : Spec.step w o = some (w', out)) (j : Nat) (hd : Handle V)
    (hj : w.stores[j]? = some hd)
    (ne : match o with
      | .set i _ _ => i ≠ j | .delete i _ => i ≠ j | .clean i => i ≠ j | .destroy i => i ≠ j | .flush i => i ≠ j | _ => True) :
    w'.stores[j]? = some hd := by
  have lj : j < w.stores.length := (List.getElem?_eq_some_iff.mp hj).1
  cases o with
  | make x => simp only [Spec.step, Option.some.injEq, Prod.mk.injEq] at h; obtain ⟨rfl, rfl⟩ := h; exact hj
  | create sid a =>
    cases a with
    | none =>
      simp only [Spec.step, Option.some.injEq, Prod.mk.injEq] at h; obtain ⟨rfl, rfl⟩ := h
      rw [List.getElem?_append_left lj]; exact hj
    | nil =>
      simp only [Spec.step, Option.some.injEq, Prod.mk.injEq] at h; obtain ⟨rfl, rfl⟩ := h
      rw [List.getElem?_append_left lj]; exact hj
    | var x =>
      simp only [Spec.step, Option.map_eq_some_iff, Prod.mk.injEq] at h
      obtain ⟨m, hm, rfl, rfl⟩ := h
      rw [List.getElem?_append_left lj]; exact hj
  | set i k v | delete i k | clean i | destroy i =>
    simp only [Spec.step, Option.map_eq_some_iff, Prod.mk.injEq] at h
    obtain ⟨hd', hm, rfl, rfl⟩ := h
    simp only at ne
    rw [List.getElem?_set_ne ne]; exact hj
  | flush i =>
    simp only [Spec.step, Option.map_eq_some_iff] at h
    obtain ⟨hd', hm, h⟩ := h
    simp only at ne
    split at h <;> cases h
    · exact hj
    · rw [List.getElem?_set_ne ne]; exact hj
  | put x k v | drop x k | look x k =>
    simp only [Spec.step, Option.map_eq_some_iff, Prod.mk.injEq] at h
    obtain ⟨m, hm, rfl, rfl⟩ := h
    exact hj
  | get i k | values i x =>
    simp only [Spec.step, Option.map_eq_some_iff, Prod.mk.injEq] at h
    obtain ⟨m, hm, rfl, rfl⟩ := h
    exact hj

/-- A variable that holds no map: given to `Create`, the program goes on as if nil had been given. -/
theorem C142_nil_variable (s : St V) (sid : Str) (x : Nat) (hx : s.env x = none) (ops : List (Op V)) :
    run s (.create sid (.var x) :: ops) = run s (.create sid .nil :: ops) := by
  have : step s (.create sid (.var x)) = step s (.create sid .nil) := by
    show (s.open_ sid (.var x), Seen.nothing) = _
    unfold St.open_
    simp only [hx]
    rfl
  unfold run
  rw [this]

/-- Such a session is saved by its first flush, empty. -/
example : (run (St.init : St Nat) [.create b!"a" (.var 3), .flush 0, .flush 0]).map (fun o => match o with | .saved sid m => some (sid, m b!"k") | _ => none) =
    [none, some (b!"a", none), none] := rfl

/-- One map given to `Create` twice: what is set in one session is read in the other, and saved with it. -/
theorem C142_shared_violated :
    run (St.init : St Nat) [.make 0, .create b!"alice" (.var 0), .create b!"bob" (.var 0), .set 0 b!"uid" 7, .get 1 b!"uid"]
      = [.nothing, .nothing, .nothing, .nothing, .got (some 7)] := rfl

/-- A write to a map after it was given to `Create` reaches the session, but a session that was flushed is not saved again for it. -/
theorem C142_later_write_violated :
    (run (St.init : St Nat) [.make 0, .create b!"a" (.var 0), .flush 0, .put 0 b!"k" 5, .get 0 b!"k", .flush 0]).drop 4
      = [.got (some 5), .nothing] := rfl

/-- A program that meets the hypothesis: two sessions, one from a map and one without, a copy by `Values` that is changed and given on. -/
example : Spec.run (Spec.World.init : Spec.World Nat)
    [.make 0, .put 0 b!"k" 1, .create b!"a" (.var 0), .create b!"b" .none, .values 0 1, .put 1 b!"k" 2, .get 0 b!"k", .create b!"c" (.var 1),
      .set 2 b!"k" 3, .get 0 b!"k", .get 1 b!"k", .get 2 b!"k", .clean 0, .get 2 b!"k"]
    = some [.nothing, .nothing, .nothing, .nothing, .nothing, .nothing, .got (some 1), .nothing, .nothing, .got (some 1), .got none,
      .got (some 3), .nothing, .got (some 3)] := rfl

end Verif.SessHeap
