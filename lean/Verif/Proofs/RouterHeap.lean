import Verif.Model.RouterHeap
import Verif.Proofs.RouterReg
namespace Verif.Router
open Verif.Go Spec Heap

theorem Ext.step_new {α : Type} {a f a0 f0 : Nat} {h h1 h2 : Heap α} (p : Ext a0 f0 h h1)
    (q : Ext a f h1 h2) (ha : h.next ≤ a) : Ext a0 f0 h h2 :=
  ⟨Nat.le_trans p.1 q.1, fun b hb i hi => by
    rw [q.2 b (Nat.lt_of_lt_of_le hb p.1) i (fun e => by omega), p.2 b hb i hi]⟩

theorem Pres.step_new {α : Type} {a f : Nat} {h h1 h2 : Heap α} (p : Pres h h1)
    (q : Ext a f h1 h2) (ha : h.next ≤ a) : Pres h h2 :=
  ⟨Nat.le_trans p.1 q.1, fun b hb i => by
    rw [q.2 b (Nat.lt_of_lt_of_le hb p.1) i (fun e => by omega), p.2 b hb i]⟩

variable {g : Nat → Nat}

theorem appendH_spec (hg : ∀ n, n ≤ g n) (fs : List Filter) : ∀ (h : Heap Filter) (s : Slice),
    Valid h s →
    (appendH g h s fs).1.read (appendH g h s fs).2 = fappend (h.read s) fs ∧
    Valid (appendH g h s fs).1 (appendH g h s fs).2 ∧
    Ext s.arr s.len h (appendH g h s fs).1 ∧
    ((appendH g h s fs).2.arr = s.arr ∧ (appendH g h s fs).2.cap = s.cap ∧
        s.len ≤ (appendH g h s fs).2.len ∨ h.next ≤ (appendH g h s fs).2.arr) ∧
    (s.cap = 0 → Pres h (appendH g h s fs).1) := by
  induction fs with
  | nil =>
    intro h s hv
    exact ⟨rfl, hv, Ext.refl _ _ _, Or.inl ⟨rfl, rfl, Nat.le_refl _⟩, fun _ => Pres.refl _⟩
  | cons f fs ih =>
    intro h s hv
    unfold appendH fappend
    split
    · exact ih h s hv
    · have hs := append1_spec hg hv f
      simp only [] at hs ⊢
      obtain ⟨h1, h2, h3, h4, h5, h6⟩ := hs
      obtain ⟨i1, i2, i3, i4, i5⟩ := ih _ _ h2
      rw [h1] at i1
      refine ⟨i1, i2, ?_, ?_, ?_⟩
      · rcases h6 with ⟨he, hc⟩ | hn
        · rw [he] at i3
          exact h3.trans ⟨i3.1, fun b hb i hi => i3.2 b hb i (fun e => by have := hi e; omega)⟩
        · exact Ext.step_new h3 i3 hn
      · rcases i4 with ⟨k1, k2, k3⟩ | hn
        · rcases h6 with ⟨he, hc⟩ | hn
          · left
            refine ⟨by rw [k1, he], ?_, by omega⟩
            rw [k2]
            unfold append1
            split
            · rfl
            · rename_i hlt
              exfalso
              have hvv := hv.2.1
              have : (h.append1 g s f).2.arr = h.next := by unfold append1; rw [if_neg hlt]
              omega
          · right; omega
        · right; have := h3.1; omega
      · intro hc
        have hnew : h.next ≤ (h.append1 g s f).2.arr := by
          rcases h6 with ⟨_, hc'⟩ | hn
          · omega
          · exact hn
        have hp : Pres h (h.append1 g s f).1 := by
          rcases h4 with he | ⟨_, hp⟩
          · rcases h6 with ⟨_, hc'⟩ | hn
            · omega
            · unfold append1 at *
              rw [if_neg (by omega)] at *
              refine ⟨by simp, ?_⟩
              intro b hb i
              have : b ≠ h.next := by omega
              simp [this]
          · exact hp
        exact Pres.step_new hp i3 hnew

theorem removeLoop_spec (hg : ∀ n, n ≤ g n) (values : List Filter) (vs : List Filter) :
    ∀ (h0 h : Heap Filter) (s : Slice), Valid h s → Pres h0 h → h0.next ≤ s.arr → s.arr < h.next →
    (removeLoop g values vs h s).1.read (removeLoop g values vs h s).2 =
      h.read s ++ vs.filter (fun v => !values.contains v) ∧
    Valid (removeLoop g values vs h s).1 (removeLoop g values vs h s).2 ∧
    Pres h0 (removeLoop g values vs h s).1 ∧ h0.next ≤ (removeLoop g values vs h s).2.arr ∧
    (removeLoop g values vs h s).2.arr < (removeLoop g values vs h s).1.next := by
  induction vs with
  | nil => intro h0 h s hv hp hn hlt; exact ⟨by simp [removeLoop], hv, hp, hn, hlt⟩
  | cons v vs ih =>
    intro h0 h s hv hp hn hlt
    unfold removeLoop
    split
    · rename_i hc
      obtain ⟨i1, i2⟩ := ih h0 h s hv hp hn hlt
      exact ⟨by rw [i1, List.filter_cons_of_neg (by simp only [hc]; decide)], i2⟩
    · rename_i hc
      have hs := append1_spec hg hv v
      simp only [] at hs
      obtain ⟨h1, h2, h3, h4, h5, h6⟩ := hs
      have hnew : h0.next ≤ (h.append1 g s v).2.arr := by
        rcases h6 with ⟨he, _⟩ | h'
        · omega
        · have := hp.1; omega
      have hlt' : (h.append1 g s v).2.arr < (h.append1 g s v).1.next := by
        unfold append1; split
        · exact hlt
        · simp
      obtain ⟨i1, i2⟩ := ih h0 _ _ h2 (Pres.step_new hp h3 hn) hnew hlt'
      refine ⟨?_, i2⟩
      rw [i1, h1, List.filter_cons_of_pos (by simpa using hc)]
      simp

theorem removeH_spec (hg : ∀ n, n ≤ g n) {h : Heap Filter} {s : Slice} (hv : Valid h s)
    (values : List Filter) :
    (removeH g h s values).1.read (removeH g h s values).2 = fremove (h.read s) values ∧
    Valid (removeH g h s values).1 (removeH g h s values).2 ∧
    Pres h (removeH g h s values).1 ∧ h.next ≤ (removeH g h s values).2.arr ∧
    (removeH g h s values).2.arr < (removeH g h s values).1.next := by
  have hp : Pres h (h.make s.len).1 := ⟨by simp [make], fun _ _ _ => rfl⟩
  have hv' : Valid (h.make s.len).1 (h.make s.len).2 :=
    ⟨by simp [make], Or.inr (by simp [make]), by intro i hi; simp [make] at hi⟩
  obtain ⟨i1, i2⟩ := removeLoop_spec hg values (h.read s) h (h.make s.len).1 (h.make s.len).2 hv' hp
    (by simp [make]) (by simp [make])
  refine ⟨?_, i2⟩
  unfold removeH fremove
  rw [i1, read_nil _ (by simp [make])]
  simp

theorem calcH_spec (hg : ∀ n, n ≤ g n) (h : Heap Filter) (args : List (List Filter)) :
    (calcH g h args).1.read (calcH g h args).2 = args.foldl fappend [] ∧
    Valid (calcH g h args).1 (calcH g h args).2 ∧ Pres h (calcH g h args).1 := by
  have key : ∀ (args : List (List Filter)) (r : Heap Filter × Slice), Valid r.1 r.2 → Pres h r.1 →
      (r.2.cap = 0 ∨ h.next ≤ r.2.arr) →
      let o := args.foldl (fun (r : Heap Filter × Slice) fs => appendH g r.1 r.2 fs) r
      o.1.read o.2 = args.foldl fappend (r.1.read r.2) ∧ Valid o.1 o.2 ∧ Pres h o.1 := by
    intro args
    induction args with
    | nil => intro r hv hp _; exact ⟨rfl, hv, hp⟩
    | cons a args ih =>
      intro r hv hp hc
      obtain ⟨i1, i2, i3, i4, i5⟩ := appendH_spec hg a r.1 r.2 hv
      have hp' : Pres h (appendH g r.1 r.2 a).1 := by
        rcases hc with hc | hc
        · exact hp.trans (i5 hc)
        · exact Pres.step_new hp i3 hc
      have hc' : (appendH g r.1 r.2 a).2.cap = 0 ∨ h.next ≤ (appendH g r.1 r.2 a).2.arr := by
        rcases i4 with ⟨k1, k2, _⟩ | hn
        · rw [k1, k2]; exact hc
        · right; have := hp.1; exact Nat.le_trans this hn
      have := ih _ i2 hp' hc'
      rw [i1] at this
      exact this
  have hv0 : Valid h nilSlice := ⟨by simp [nilSlice], Or.inl rfl, by simp [nilSlice]⟩
  have := key args (h, nilSlice) hv0 (Pres.refl h) (Or.inl rfl)
  simp only [read_nil h (s := nilSlice) rfl] at this
  exact this

theorem foldl_filterMap_filter {α : Type} (l : List α) (p : α → Option (List Filter))
    (acc : List Filter) :
    l.foldl (fun acc i => match p i with | some fs => fappend acc fs | none => acc) acc =
      (l.filterMap p).foldl fappend acc := by
  induction l generalizing acc with
  | nil => rfl
  | cons a l ih =>
    rw [List.foldl_cons, List.filterMap_cons]
    cases h : p a with
    | none => simp only []; exact ih acc
    | some fs => simp only [List.foldl_cons]; exact ih _

theorem decl_filters (m : MethodDecl) : m.filters = m.filterArgs.foldl fappend [] := by
  unfold MethodDecl.filters MethodDecl.filterArgs
  rw [← foldl_filterMap_filter]
  congr 1
  funext acc i
  cases i <;> rfl

theorem decl_exempts (m : MethodDecl) : m.exempts = m.exemptArgs.foldl fappend [] := by
  unfold MethodDecl.exempts MethodDecl.exemptArgs
  rw [← foldl_filterMap_filter]
  congr 1
  funext acc i
  cases i <;> rfl

theorem arg_filters (hs : List Handler) : argFilters hs = (filterArgs hs).foldl fappend [] := by
  unfold argFilters filterArgs
  rw [← foldl_filterMap_filter]
  congr 1
  funext acc i
  cases i <;> rfl

theorem arg_exempts (hs : List Handler) : argExempts hs = (exemptArgs hs).foldl fappend [] := by
  unfold argExempts exemptArgs
  rw [← foldl_filterMap_filter]
  congr 1
  funext acc i
  cases i <;> rfl

/-- `append` of a method's filters to the router's filters followed by `remove`: values and frame. -/
theorem appRem_spec (hg : ∀ n, n ≤ g n) {h : Heap Filter} {f : Slice} (hv : Valid h f)
    (fa ea : List (List Filter)) :
    let mf := calcH g h fa
    let me := calcH g mf.1 ea
    let a := appendH g me.1 f (me.1.read mf.2)
    let r := removeH g a.1 a.2 (a.1.read me.2)
    f.arr < h.next →
    r.1.read r.2 = fremove (fappend (h.read f) (fa.foldl fappend [])) (ea.foldl fappend []) ∧
    Valid r.1 r.2 ∧ Ext f.arr f.len h r.1 ∧ h.next ≤ r.2.arr ∧ r.2.arr < r.1.next := by
  intro mf me a r hf
  obtain ⟨a1, a2, a3⟩ := calcH_spec hg h fa
  obtain ⟨b1, b2, b3⟩ := calcH_spec hg mf.1 ea
  have hmf := b3.read a2
  have hpm : Pres h me.1 := a3.trans b3
  have hfv := hpm.read hv
  obtain ⟨c1, c2, c3, c4, -⟩ := appendH_spec hg (me.1.read mf.2) me.1 f hfv.2
  -- the exempts survive the append: they are not in f's array beyond f's length
  have hme : a.1.read me.2 = me.1.read me.2 := by
    have hme_arr : me.2.cap = 0 ∨ h.next ≤ me.2.arr := by
      have key : ∀ (args : List (List Filter)) (q : Heap Filter × Slice), Valid q.1 q.2 →
          (q.2.cap = 0 ∨ h.next ≤ q.2.arr) → h.next ≤ q.1.next →
          let o := args.foldl (fun (r : Heap Filter × Slice) fs => appendH g r.1 r.2 fs) q
          o.2.cap = 0 ∨ h.next ≤ o.2.arr := by
        intro args
        induction args with
        | nil => intro q _ hq _; exact hq
        | cons x args ih =>
          intro q hqv hq hn
          obtain ⟨_, i2, i3, i4, _⟩ := appendH_spec hg x q.1 q.2 hqv
          refine ih _ i2 ?_ (Nat.le_trans hn i3.1)
          rcases i4 with ⟨k1, k2, _⟩ | h'
          · show (appendH g q.1 q.2 x).2.cap = 0 ∨ h.next ≤ (appendH g q.1 q.2 x).2.arr
            rw [k1, k2]; exact hq
          · exact Or.inr (Nat.le_trans hn h')
      exact key ea (mf.1, nilSlice) ⟨by simp [nilSlice], Or.inl rfl, by simp [nilSlice]⟩ (Or.inl rfl)
        a3.1
    refine (c3.read b2 ?_).1
    intro he
    rcases hme_arr with h0 | h0
    · have h1 : me.2.len ≤ me.2.cap := b2.1
      show me.2.len ≤ f.len
      omega
    · exfalso
      have : me.2.arr = f.arr := he
      omega
  have hd := removeH_spec hg c2 (a.1.read me.2)
  obtain ⟨d1, d2, d3, d4, d5⟩ := hd
  refine ⟨?_, d2, ?_, ?_, d5⟩
  · show (removeH g a.1 a.2 (a.1.read me.2)).1.read _ = _
    rw [d1, hme, b1]
    show fremove (a.1.read a.2) _ = _
    rw [c1, hfv.1, hmf.1, a1]
  · exact (hpm.ext _ _).trans (c3.trans (d3.ext _ _))
  · exact Nat.le_trans hpm.1 (Nat.le_trans c3.1 d4)

theorem methodsH_spec (hg : ∀ n, n ≤ g n) (f : Slice) (ms : List MethodDecl) :
    ∀ (h : Heap Filter), Valid h f → f.arr < h.next →
    let o := methodsH g f ms h
    o.2.map o.1.read = ms.map (fun m => fremove (fappend (h.read f) m.filters) m.exempts) ∧
    (∀ s ∈ o.2, Valid o.1 s ∧ h.next ≤ s.arr) ∧ Ext f.arr f.len h o.1 := by
  induction ms with
  | nil => intro h hv hf; exact ⟨rfl, by simp [methodsH], Ext.refl _ _ _⟩
  | cons m ms ih =>
    intro h hv hf
    obtain ⟨a1, a2, a3, a4, a5⟩ := appRem_spec hg hv m.filterArgs m.exemptArgs hf
    have hfv := a3.read hv (fun _ => Nat.le_refl _)
    obtain ⟨b1, b2, b3⟩ := ih _ hfv.2 (Nat.lt_of_lt_of_le hf a3.1)
    rw [hfv.1] at b1
    have hr := b3.read a2 (fun e => by omega)
    refine ⟨?_, ?_, a3.trans b3⟩
    · show _ :: _ = _ :: _
      congr 1
      show Heap.read (methodsH g f ms _).1 _ = _
      rw [hr.1, a1]
      show _ = fremove (fappend (h.read f) m.filters) m.exempts
      rw [decl_filters, decl_exempts]
    · intro s hs
      rcases List.mem_cons.1 hs with rfl | hs
      · exact ⟨hr.2, a4⟩
      · have := b2 s hs
        exact ⟨this.1, Nat.le_trans a3.1 this.2⟩

/-- The filter lists of the method declarations of a flat registration, as values. -/
def Spec.regFilters (e : Reg) : List (List Filter) :=
  (e.methods.filter (fun m => decide ¬ (isAll m.method = true ∨ isAny m.method = true)) ++
    ((e.methods.reverse.find? (fun m => isAll m.method)).toList ++
      (e.methods.reverse.find? (fun m => isAny m.method)).toList)).map
    (fun m => fremove (fappend e.filters m.filters) m.exempts)

theorem methodOrder_eq (ms : List MethodDecl) : methodOrder ms =
    ms.filter (fun m => decide ¬ (isAll m.method = true ∨ isAny m.method = true)) ++
    ((ms.reverse.find? (fun m => isAll m.method)).toList ++ (ms.reverse.find? (fun m => isAny m.method)).toList) := by
  unfold methodOrder
  rw [List.append_assoc]
  congr 1
  · congr 1
    funext m
    cases isAll m.method <;> cases isAny m.method <;> rfl
  · rw [List.getLast?_eq_head?_reverse, List.getLast?_eq_head?_reverse, ← List.filter_reverse, ← List.filter_reverse,
      List.head?_filter, List.head?_filter]

theorem confNestedH_spec (hg : ∀ n, n ≤ g n) (hs : List Handler) :
    ∀ (f : Slice) (h : Heap Filter) (pre : List Str), Valid h f → f.arr < h.next →
    let o := confNestedH g f hs h
    o.2.map o.1.read = (regs pre (h.read f) hs).flatMap regFilters ∧
    (∀ s ∈ o.2, Valid o.1 s ∧ h.next ≤ s.arr) ∧ Ext f.arr f.len h o.1 := by
  induction hs using handlers_ind with
  | nil => intro f h pre hv hf; exact ⟨by simp [confNestedH, regs], by simp [confNestedH], Ext.refl _ _ _⟩
  | other x rest hn ih =>
    intro f h pre hv hf
    have : confNestedH g f (x :: rest) h = confNestedH g f rest h := by
      cases x with
      | router p hs => exact absurd rfl (hn p hs)
      | _ => simp [confNestedH, confOneH]
    rw [this, regs_other hn]
    exact ih f h pre hv hf
  | router path hs rest ih1 ih2 =>
    intro f h pre hv hf
    rw [regs_router]
    by_cases hp : pathSegs path = []
    · have : confNestedH g f (.router path hs :: rest) h = confNestedH g f rest h := by
        simp [confNestedH, confOneH, hp]
      rw [this]
      simp only [hp, if_true, List.nil_append]
      exact ih2 f h pre hv hf
    · obtain ⟨a1, a2, a3, a4, a5⟩ := appRem_spec hg hv (filterArgs hs) (exemptArgs hs) hf
      generalize hr : removeH g (appendH g (calcH g (calcH g h (filterArgs hs)).1 (exemptArgs hs)).1 f
        ((calcH g (calcH g h (filterArgs hs)).1 (exemptArgs hs)).1.read
          (calcH g h (filterArgs hs)).2)).1 (appendH g (calcH g (calcH g h (filterArgs hs)).1
        (exemptArgs hs)).1 f ((calcH g (calcH g h (filterArgs hs)).1 (exemptArgs hs)).1.read
          (calcH g h (filterArgs hs)).2)).2 ((appendH g (calcH g (calcH g h (filterArgs hs)).1
        (exemptArgs hs)).1 f ((calcH g (calcH g h (filterArgs hs)).1 (exemptArgs hs)).1.read
          (calcH g h (filterArgs hs)).2)).1.read (calcH g (calcH g h (filterArgs hs)).1 (exemptArgs hs)).2)
        = r at a1 a2 a3 a4 a5
      obtain ⟨b1, b2, b3⟩ := methodsH_spec hg r.2 (methodOrder (argMethods hs)) r.1 a2 a5
      generalize hm : methodsH g r.2 (methodOrder (argMethods hs)) r.1 = m at b1 b2 b3
      have hrv := b3.read a2 (fun _ => Nat.le_refl _)
      obtain ⟨c1, c2, c3⟩ := ih1 r.2 m.1 (pre ++ pathSegs path) hrv.2 (Nat.lt_of_lt_of_le a5 b3.1)
      generalize hn : confNestedH g r.2 hs m.1 = n at c1 c2 c3
      have e1 : Ext f.arr f.len h n.1 := Ext.step_new (Ext.step_new a3 b3 a4) c3 a4
      have hfv := e1.read hv (fun _ => Nat.le_refl _)
      obtain ⟨d1, d2, d3⟩ := ih2 f n.1 pre hfv.2 (Nat.lt_of_lt_of_le hf e1.1)
      have hstep : confNestedH g f (.router path hs :: rest) h =
          ((confNestedH g f rest n.1).1, (m.2 ++ n.2) ++ (confNestedH g f rest n.1).2) := by
        simp only [confNestedH, confOneH, hp, if_false]
        rw [hr, hm, hn]
      rw [hstep]
      rw [hfv.1] at d1
      -- frame for the slices stored by methods
      have hmv : ∀ s ∈ m.2, Valid n.1 s ∧ n.1.read s = m.1.read s := by
        intro s hs
        have hb := b2 s hs
        have := c3.read hb.1 (fun e => by omega)
        exact ⟨this.2, this.1⟩
      have hpost : ∀ s ∈ m.2 ++ n.2, Valid n.1 s ∧ h.next ≤ s.arr := by
        intro s hs
        rcases List.mem_append.1 hs with hs | hs
        · have := b2 s hs
          have h1 := a3.1
          exact ⟨(hmv s hs).1, by omega⟩
        · have := c2 s hs
          have h1 := a3.1
          have h2 := b3.1
          exact ⟨this.1, by omega⟩
      refine ⟨?_, ?_, e1.trans d3⟩
      · simp only [List.map_append]
        rw [d1, if_neg hp, List.flatMap_append, List.flatMap_cons]
        congr 1
        have hA : List.map (confNestedH g f rest n.1).1.read (m.2 ++ n.2) =
            List.map n.1.read (m.2 ++ n.2) := by
          apply List.map_congr_left
          intro s hs
          have := hpost s hs
          exact (d3.read this.1 (fun e => by omega)).1
        rw [← List.map_append, hA, List.map_append]
        congr 1
        · have : List.map n.1.read m.2 = List.map m.1.read m.2 :=
            List.map_congr_left (fun s hs => (hmv s hs).2)
          rw [this, b1, a1]
          unfold regFilters
          rw [← arg_filters, ← arg_exempts, methodOrder_eq]
          rfl
        · rw [c1, hrv.1, a1, ← arg_filters, ← arg_exempts]
          rfl
      · intro s hs
        rcases List.mem_append.1 hs with hs | hs
        · have := hpost s hs
          exact ⟨(d3.read this.1 (fun e => by omega)).2, this.2⟩
        · have := d2 s hs
          exact ⟨this.1, Nat.le_trans e1.1 this.2⟩

theorem fappend_eq_append : ∀ (l h : List Filter), (h ++ l).Nodup → fappend h l = h ++ l := by
  intro l
  induction l with
  | nil => intro h _; simp [fappend]
  | cons f l ih =>
    intro h hn
    unfold fappend
    have hf : f ∉ h := by
      intro hf
      rw [List.nodup_append] at hn
      exact hn.2.2 f hf f (by simp) rfl
    rw [if_neg hf, ih _ (by simpa using hn)]
    simp

theorem fappend_nodup' : ∀ (l h : List Filter), h.Nodup → (fappend h l).Nodup := by
  intro l
  induction l with
  | nil => intro h hn; exact hn
  | cons f l ih =>
    intro h hn
    unfold fappend
    split
    · exact ih h hn
    · rename_i hf
      refine ih _ ?_
      rw [List.nodup_append]
      exact ⟨hn, by simp, by simp; exact fun a ha e => hf (e ▸ ha)⟩

theorem fappend_arg (hs : List Handler) : fappend [] (argFilters hs) = argFilters hs := by
  rw [fappend_eq_append]
  · rfl
  · rw [arg_filters, List.nil_append]
    have : ∀ (l : List (List Filter)) (a : List Filter), a.Nodup → (l.foldl fappend a).Nodup := by
      intro l
      induction l with
      | nil => intro a ha; exact ha
      | cons x l ih => intro a ha; exact ih _ (fappend_nodup' x a ha)
    exact this _ [] (by simp)

theorem routersH_spec (hg : ∀ n, n ≤ g n) (hs : List Handler) (h : Heap Filter) :
    let o := routersH g hs h
    o.2.map o.1.read = (callRegs hs).flatMap regFilters ∧ (∀ s ∈ o.2, Valid o.1 s) ∧ Pres h o.1 := by
  obtain ⟨a1, a2, a3⟩ := calcH_spec hg h (filterArgs hs)
  obtain ⟨b1, b2, b3⟩ := calcH_spec hg (calcH g h (filterArgs hs)).1 (exemptArgs hs)
  have hrf := b3.read a2
  obtain ⟨c1, c2, c3, c4, c5⟩ := removeH_spec hg hrf.2
    ((calcH g (calcH g h (filterArgs hs)).1 (exemptArgs hs)).1.read
      (calcH g (calcH g h (filterArgs hs)).1 (exemptArgs hs)).2)
  unfold routersH
  simp only []
  generalize removeH g (calcH g (calcH g h (filterArgs hs)).1 (exemptArgs hs)).1
    (calcH g h (filterArgs hs)).2 _ = r at c1 c2 c3 c4 c5 ⊢
  rw [hrf.1, a1, b1] at c1
  have p1 : Pres h r.1 := a3.trans (b3.trans c3)
  have hn : h.next ≤ r.2.arr := by have := a3.1; have := b3.1; omega
  obtain ⟨d1, d2, d3⟩ := methodsH_spec hg r.2 (methodOrder (argMethods hs)) r.1 c2 c5
  generalize methodsH g r.2 (methodOrder (argMethods hs)) r.1 = m at d1 d2 d3 ⊢
  have hrv := d3.read c2 (fun _ => Nat.le_refl _)
  obtain ⟨e1, e2, e3⟩ := confNestedH_spec hg hs r.2 m.1 [] hrv.2 (Nat.lt_of_lt_of_le c5 d3.1)
  generalize confNestedH g r.2 hs m.1 = n at e1 e2 e3 ⊢
  have hmv : ∀ s ∈ m.2, n.1.read s = m.1.read s ∧ Valid n.1 s := by
    intro s hs
    have hb := d2 s hs
    exact e3.read hb.1 (fun e => by omega)
  refine ⟨?_, ?_, Pres.step_new (Pres.step_new p1 d3 hn) e3 hn⟩
  · rw [List.map_append]
    unfold callRegs
    simp only [List.flatMap_cons]
    congr 1
    · rw [List.map_congr_left (fun s hs => (hmv s hs).1), d1, c1]
      unfold regFilters
      simp only []
      rw [← arg_filters, ← arg_exempts, fappend_arg, methodOrder_eq]
    · rw [e1, hrv.1, c1, ← arg_filters, ← arg_exempts, fappend_arg]
  · intro s hs
    rcases List.mem_append.1 hs with hs | hs
    · exact (hmv s hs).2
    · exact (e2 s hs).1

end Verif.Router
