import Verif.Proofs.RouterHeap
/-!
# C11 (filter storage is not shared) and C12 (method builders)
-/
namespace Verif.Router
open Verif.Go Spec Heap

/-! ## C11 -/

/-- **C11.** Whatever capacities the runtime picks, after any sequence of `Routers` calls every filter
slice stored in a route still reads as the list determined by its own declaration (`regFilters`, from
the value-level specification): no other declaration, earlier or later, has changed it. -/
theorem C11_filter_storage {g : Nat → Nat} (hg : ∀ n, n ≤ g n) (hss : List (List Handler)) :
    let o := registerAllH g hss Heap.empty
    o.2.map o.1.read = (allRegs hss).flatMap regFilters := by
  have key : ∀ (hss : List (List Handler)) (h : Heap Filter),
      let o := registerAllH g hss h
      o.2.map o.1.read = (allRegs hss).flatMap regFilters ∧ Pres h o.1 := by
    intro hss
    induction hss with
    | nil => intro h; exact ⟨rfl, Pres.refl _⟩
    | cons hs hss ih =>
      intro h
      obtain ⟨a1, a2, a3⟩ := routersH_spec hg hs h
      obtain ⟨b1, b2⟩ := ih (routersH g hs h).1
      refine ⟨?_, a3.trans b2⟩
      show List.map _ (_ ++ _) = _
      rw [List.map_append]
      unfold allRegs
      rw [List.flatMap_cons, List.flatMap_append]
      congr 1
      rw [← a1]
      exact List.map_congr_left (fun s hs => (b2.read (a2 s hs)).1)
  exact (key hss Heap.empty).1

/-- **C11 (history).** A later `Routers` call changes no filter slice stored by earlier ones. -/
theorem C11_later_calls_preserve {g : Nat → Nat} (hg : ∀ n, n ≤ g n) (hss : List (List Handler))
    (hs : List Handler) (h : Heap Filter)
    (hv : ∀ s ∈ (registerAllH g hss h).2, Valid (registerAllH g hss h).1 s) :
    ∀ s ∈ (registerAllH g hss h).2,
      (routersH g hs (registerAllH g hss h).1).1.read s = (registerAllH g hss h).1.read s :=
  fun s hs' => ((routersH_spec hg hs (registerAllH g hss h).1).2.2.read (hv s hs')).1

-- a router with spare capacity after an exemption, and two methods that both append to it
example : let hss : List (List Handler) := [[.filter [1, 2, 3], .exempt [2],
      .method ⟨⟨0, .func, []⟩, GET, [.filter [7]]⟩, .method ⟨⟨1, .func, []⟩, b!"POST", [.filter [8]]⟩]]
    let o := registerAllH (fun n => 2 * n) hss Heap.empty
    o.2.map o.1.read = [[1, 3, 7], [1, 3, 8]] := by decide +kernel

/-! ## C12 -/

/-- Value-level meaning of builder steps: each step yields a new value, none changes. -/
def Spec.buildV : List BStep → List (List MElem) → List (List MElem)
  | [], env => env
  | .new c m :: ss, env => buildV ss (env ++ [[.ctl c, .method m]])
  | .chain b i :: ss, env =>
    match env[b]? with
    | none => buildV ss env
    | some v => buildV ss (env ++ [v ++ [.item i]])

/-- The full statement of C12 for a capacity policy. -/
def BuildersIndependent (g : Nat → Nat) : Prop :=
  ∀ ss : List BStep, let o := buildH g ss Heap.empty []
    o.2.map o.1.read = buildV ss []

/-- Capacity policy of the Go runtime for small slices of pointers-sized pairs: doubling. -/
def goGrow (n : Nat) : Nat := max n (2 * (n - 1))

/-- **C12 is false of the code**: with `base := Get(c).Filter(f1)`, declaring `a := base.Filter(f2)`
and then `b := base.Filter(f3)` turns `a` into a declaration with `f3`. -/
theorem C12_builders_independent_violated : ¬ BuildersIndependent goGrow := by
  intro h
  have := h [.new ⟨0, .func, []⟩ GET, .chain 0 (.filter [1]), .chain 1 (.filter [2]),
    .chain 1 (.filter [3])]
  revert this
  decide +kernel

theorem goGrow_ok (n : Nat) : n ≤ goGrow n := Nat.le_max_left _ _

/-- **C12 (partial, a).** If `append` never leaves spare capacity, declarations are independent. -/
theorem C12_builders_independent_exact_partial : BuildersIndependent (fun n => n) := by
  have key : ∀ (ss : List BStep) (h : Heap MElem) (env : List Slice),
      (∀ s ∈ env, Valid h s ∧ s.cap = s.len) →
      let o := buildH (fun n => n) ss h env
      o.2.map o.1.read = buildV ss (env.map h.read) := by
    intro ss
    induction ss with
    | nil => intro h env _; rfl
    | cons st ss ih =>
      intro h env hv
      cases st with
      | new c m =>
        unfold buildH buildV
        simp only []
        generalize hh : (⟨h.next + 1, fun a' i => if a' = h.next then
          (if i = 0 then some (MElem.ctl c) else if i = 1 then some (MElem.method m) else none)
          else h.cell a' i⟩ : Heap MElem) = h'
        have hp : Pres h h' := by
          subst hh
          exact ⟨by simp, fun b hb i => by have : b ≠ h.next := by omega
                                           simp [this]⟩
        have := ih h' (env ++ [⟨h.next, 2, 2⟩]) (by
          intro s hs
          rcases List.mem_append.1 hs with hs | hs
          · exact ⟨(hp.read (hv s hs).1).2, (hv s hs).2⟩
          · simp at hs; subst hs
            refine ⟨⟨Nat.le_refl _, Or.inr (by subst hh; simp), ?_⟩, rfl⟩
            intro i hi
            subst hh
            have : i = 0 ∨ i = 1 := by simp at hi; omega
            rcases this with rfl | rfl <;> simp)
        simp only [] at this
        rw [this]
        congr 1
        rw [List.map_append]
        congr 1
        · exact List.map_congr_left (fun s hs => (hp.read (hv s hs).1).1)
        · subst hh; simp [Heap.read, List.range_succ]
      | chain b i =>
        unfold buildH buildV
        rw [List.getElem?_map]
        cases hb : env[b]? with
        | none => exact ih h env hv
        | some s =>
          simp only [Option.map_some]
          have hs : s ∈ env := List.mem_of_getElem? hb
          have hcap := (hv s hs).2
          have sp := append1_spec (grow := fun n => n) (fun n => Nat.le_refl n) (hv s hs).1
            (MElem.item i)
          simp only [] at sp
          obtain ⟨s1, s2, s3, s4, s5, s6⟩ := sp
          have hp : Pres h (h.append1 (fun n => n) s (MElem.item i)).1 := by
            unfold append1
            rw [if_neg (by omega)]
            refine ⟨by simp, ?_⟩
            intro b hb i
            have : b ≠ h.next := by omega
            simp [this]
          have hcap' : (h.append1 (fun n => n) s (MElem.item i)).2.cap =
              (h.append1 (fun n => n) s (MElem.item i)).2.len := by
            unfold append1
            rw [if_neg (by omega)]
          have := ih _ (env ++ [(h.append1 (fun n => n) s (MElem.item i)).2]) (by
            intro t ht
            rcases List.mem_append.1 ht with ht | ht
            · exact ⟨(hp.read (hv t ht).1).2, (hv t ht).2⟩
            · simp at ht; subst ht; exact ⟨s2, hcap'⟩)
          simp only [] at this
          rw [this]
          congr 1
          rw [List.map_append]
          congr 1
          · exact List.map_congr_left (fun t ht => (hp.read (hv t ht).1).1)
          · simp [s1]
  intro ss
  exact key ss Heap.empty [] (by simp)

/-- No value is chained on twice: every base index occurs at most once. -/
def Spec.Linear (ss : List BStep) : Prop :=
  (ss.filterMap (fun s => match s with | .chain b _ => some b | .new _ _ => none)).Nodup

/-- **C12 (partial, b).** For every capacity policy, declarations are independent as long as no
declaration is used as the base of two others (the usual chained style). Missing: shared bases, where
`C12_builders_independent_violated` shows the property false. -/
theorem C12_builders_independent_linear_partial {g : Nat → Nat} (hg : ∀ n, n ≤ g n)
    (ss : List BStep) (hl : Linear ss) :
    let o := buildH g ss Heap.empty []
    o.2.map o.1.read = buildV ss [] := by
  let bases (ss : List BStep) : List Nat :=
    ss.filterMap (fun s => match s with | .chain b _ => some b | .new _ _ => none)
  -- an index still used as a base is the longest slice of its array and the only such one
  have key : ∀ (ss : List BStep) (h : Heap MElem) (env : List Slice),
      (bases ss).Nodup → (∀ s ∈ env, Valid h s ∧ s.arr < h.next) →
      (∀ (i j : Nat) (s t : Slice), i ∈ bases ss → env[i]? = some s → env[j]? = some t →
        t.arr = s.arr → t.len ≤ s.len) →
      (∀ (i j : Nat) (s t : Slice), i ∈ bases ss → env[i]? = some s → env[j]? = some t →
        t.arr = s.arr → j ∈ bases ss → i = j) →
      -- any base beyond the current environment refers to values yet to be created
      (∀ (i j : Nat) (s t : Slice), env[i]? = some s → env[j]? = some t → t.arr = s.arr → s.len = t.len →
        i = j) →
      let o := buildH g ss h env
      o.2.map o.1.read = buildV ss (env.map h.read) := by
    intro ss
    induction ss with
    | nil => intro h env _ _ _ _ _; rfl
    | cons st ss ih =>
      intro h env hnd hv htip huniq hlen
      cases st with
      | new c m =>
        unfold buildH buildV
        simp only []
        generalize hh : (⟨h.next + 1, fun a' i => if a' = h.next then
          (if i = 0 then some (MElem.ctl c) else if i = 1 then some (MElem.method m) else none)
          else h.cell a' i⟩ : Heap MElem) = h'
        have hnext : h'.next = h.next + 1 := by subst hh; rfl
        have hp : Pres h h' := by
          subst hh
          exact ⟨by simp, fun b hb i => by have : b ≠ h.next := by omega
                                           simp [this]⟩
        have hget : ∀ (i : Nat) (s : Slice), (env ++ [(⟨h.next, 2, 2⟩ : Slice)])[i]? = some s →
            (env[i]? = some s ∧ s.arr < h.next) ∨ (i = env.length ∧ s = ⟨h.next, 2, 2⟩) := by
          intro i s hi
          rw [List.getElem?_append] at hi
          split at hi
          · exact Or.inl ⟨hi, (hv s (List.mem_of_getElem? hi)).2⟩
          · rename_i hge
            right
            have : i - env.length = 0 := by
              rcases Nat.eq_zero_or_pos (i - env.length) with h0 | h0
              · exact h0
              · rw [List.getElem?_eq_none (by simp; omega)] at hi; cases hi
            rw [this] at hi
            simp at hi
            exact ⟨by omega, hi.symm⟩
        have := ih h' (env ++ [⟨h.next, 2, 2⟩]) hnd (by
            intro s hs
            rcases List.mem_append.1 hs with hs | hs
            · exact ⟨(hp.read (hv s hs).1).2, Nat.lt_of_lt_of_le (hv s hs).2 hp.1⟩
            · simp at hs; subst hs
              refine ⟨⟨Nat.le_refl _, Or.inr (by simp [hnext]), ?_⟩, by simp [hnext]⟩
              intro i hi
              subst hh
              have : i = 0 ∨ i = 1 := by simp at hi; omega
              rcases this with rfl | rfl <;> simp)
          (by
            intro i j s t hi hs ht he
            rcases hget i s hs with ⟨hs, hsa⟩ | ⟨rfl, rfl⟩ <;>
              rcases hget j t ht with ⟨ht, hta⟩ | ⟨rfl, rfl⟩
            · exact htip i j s t hi hs ht he
            · simp at he; omega
            · simp at he; omega
            · exact Nat.le_refl _)
          (by
            intro i j s t hi hs ht he hj
            rcases hget i s hs with ⟨hs, hsa⟩ | ⟨rfl, rfl⟩ <;>
              rcases hget j t ht with ⟨ht, hta⟩ | ⟨rfl, rfl⟩
            · exact huniq i j s t hi hs ht he hj
            · simp at he; omega
            · simp at he; omega
            · rfl)
          (by
            intro i j s t hs ht he hl
            rcases hget i s hs with ⟨hs, hsa⟩ | ⟨rfl, rfl⟩ <;>
              rcases hget j t ht with ⟨ht, hta⟩ | ⟨rfl, rfl⟩
            · exact hlen i j s t hs ht he hl
            · simp at he; omega
            · simp at he; omega
            · rfl)
        simp only [] at this
        rw [this]
        congr 1
        rw [List.map_append]
        congr 1
        · exact List.map_congr_left (fun s hs => (hp.read (hv s hs).1).1)
        · subst hh; simp [Heap.read, List.range_succ]
      | chain b i =>
        have hnd' : b ∉ bases ss ∧ (bases ss).Nodup := by
          have : (b :: bases ss).Nodup := by simpa [bases] using hnd
          exact List.nodup_cons.1 this
        have hbmem : b ∈ bases (.chain b i :: ss) := by simp [bases]
        have hsub : ∀ k, k ∈ bases ss → k ∈ bases (.chain b i :: ss) := by
          intro k hk; simp [bases] at hk ⊢; exact Or.inr hk
        unfold buildH buildV
        rw [List.getElem?_map]
        cases hb : env[b]? with
        | none =>
          exact ih h env hnd'.2 hv (fun a c s t ha => htip a c s t (hsub a ha))
            (fun a c s t ha hs ht he hc => huniq a c s t (hsub a ha) hs ht he (hsub c hc)) hlen
        | some s =>
          simp only [Option.map_some]
          have hs : s ∈ env := List.mem_of_getElem? hb
          have sp := append1_spec (grow := g) hg (hv s hs).1 (MElem.item i)
          simp only [] at sp
          obtain ⟨s1, s2, s3, s4, s5, s6⟩ := sp
          have s7 : (h.append1 g s (MElem.item i)).2.arr < (h.append1 g s (MElem.item i)).1.next := by
            unfold append1; split
            · exact (hv s hs).2
            · simp
          generalize h.append1 g s (MElem.item i) = r at s1 s2 s3 s4 s5 s6 s7 ⊢
          -- every existing value keeps its contents
          have hkeep : ∀ t ∈ env, r.1.read t = h.read t ∧ Valid r.1 t := by
            intro t ht
            obtain ⟨j, hj, hjt⟩ := List.mem_iff_getElem.1 ht
            have hj' : env[j]? = some t := by rw [List.getElem?_eq_getElem hj, hjt]
            exact s3.read (hv t ht).1 (fun e => htip b j s t hbmem hb hj' e)
          have hget : ∀ (k : Nat) (t : Slice), (env ++ [r.2])[k]? = some t →
              (env[k]? = some t) ∨ (k = env.length ∧ t = r.2) := by
            intro k t hk
            rw [List.getElem?_append] at hk
            split at hk
            · exact Or.inl hk
            · rename_i hge
              right
              have : k - env.length = 0 := by
                rcases Nat.eq_zero_or_pos (k - env.length) with h0 | h0
                · exact h0
                · rw [List.getElem?_eq_none (by simp; omega)] at hk; cases hk
              rw [this] at hk
              simp at hk
              exact ⟨by omega, hk.symm⟩
          -- an old value in the array of the new one is shorter
          have hold : ∀ (k : Nat) (t : Slice), env[k]? = some t → t.arr = r.2.arr →
              t.len < r.2.len ∧ t.arr = s.arr := by
            intro k t hk he
            have hta := (hv t (List.mem_of_getElem? hk)).2
            rcases s6 with ⟨h1, _⟩ | h1
            · rw [h1] at he
              have := htip b k s t hbmem hb hk he
              exact ⟨by omega, he⟩
            · omega
          have := ih r.1 (env ++ [r.2]) hnd'.2 (by
              intro t ht
              rcases List.mem_append.1 ht with ht | ht
              · exact ⟨(hkeep t ht).2, Nat.lt_of_lt_of_le (hv t ht).2 s3.1⟩
              · simp at ht; subst ht; exact ⟨s2, s7⟩)
            (by
              intro k j u t hk hu ht he
              rcases hget k u hu with hu | ⟨rfl, rfl⟩ <;> rcases hget j t ht with ht | ⟨rfl, rfl⟩
              · exact htip k j u t (hsub k hk) hu ht he
              · -- u is a remaining base sharing the array of the new value: it would be s
                exfalso
                have ⟨_, h2⟩ := hold k u hu he.symm
                have := huniq b k s u hbmem hb hu h2 (hsub k hk)
                exact hnd'.1 (this ▸ hk)
              · exact Nat.le_of_lt (hold j t ht he).1
              · exact Nat.le_refl _)
            (by
              intro k j u t hk hu ht he hj
              rcases hget k u hu with hu | ⟨rfl, rfl⟩ <;> rcases hget j t ht with ht | ⟨rfl, rfl⟩
              · exact huniq k j u t (hsub k hk) hu ht he (hsub j hj)
              · exfalso
                have ⟨_, h2⟩ := hold k u hu he.symm
                have := huniq b k s u hbmem hb hu h2 (hsub k hk)
                exact hnd'.1 (this ▸ hk)
              · exfalso
                have ⟨_, h2⟩ := hold j t ht he
                have := huniq b j s t hbmem hb ht h2 (hsub j hj)
                exact hnd'.1 (this ▸ hj)
              · rfl)
            (by
              intro k j u t hu ht he hl
              rcases hget k u hu with hu | ⟨rfl, rfl⟩ <;> rcases hget j t ht with ht | ⟨rfl, rfl⟩
              · exact hlen k j u t hu ht he hl
              · have := (hold k u hu he.symm).1; omega
              · have := (hold j t ht he).1; omega
              · rfl)
          simp only [] at this
          rw [this]
          congr 1
          rw [List.map_append]
          congr 1
          · exact List.map_congr_left (fun t ht => (hkeep t ht).1)
          · simp [s1]
  have := key ss Heap.empty [] hl (by simp) (by simp) (by simp) (by simp)
  simpa using this

-- a linear program with two independent chains and real capacity sharing
example : let ss : List BStep := [.new ⟨0, .func, []⟩ GET, .chain 0 (.filter [1]), .chain 1 (.filter [2]),
      .new ⟨1, .func, []⟩ b!"POST", .chain 3 (.exempt [1]), .chain 2 (.action b!"X")]
    Linear ss ∧ (buildH goGrow ss Heap.empty []).2.length = 6 := by
  unfold Linear
  decide +kernel

end Verif.Router
