import Verif.Model.Setup
import Verif.Proofs.Bytes
/-!
# C95–C98: application configuration, command line lists, session collection, the dummy store
-/
namespace Verif.Setup
open Verif.Go Verif.Conf

/-! ## Specification -/

/-- The first of these texts that is not empty, or the default. -/
def Spec.firstSet : List Str → Str → Str
  | [], d => d
  | x :: xs, d => if x = [] then Spec.firstSet xs d else x

/-- What the imported systems say about a name, the last one imported first. -/
def Spec.said (fs : List (Option (Str → Str))) (name : Str) : List Str :=
  (fs.filterMap id).reverse.map fun f => f name

theorem bindStr_eq (f : Option (Str → Str)) (v name : Str) :
    bindStr f v name = some (match f with | none => v | some g => if g name = [] then v else g name) := by
  cases f with
  | none => rfl
  | some g =>
    simp only [bindStr, Conf.bind, appFind]
    by_cases h : g name = []
    · simp only [h, if_true]
    · simp only [h, if_false]
      rfl

theorem firstSet_append (a b : List Str) (d : Str) : Spec.firstSet (a ++ b) d = Spec.firstSet a (Spec.firstSet b d) := by
  induction a with
  | nil => rfl
  | cons x a ih => simp only [List.cons_append, Spec.firstSet, ih]

theorem imports_eq (fs : List (Option (Str → Str))) : ∀ c : AppConf, imports fs c =
    some ⟨Spec.firstSet (Spec.said fs b!"run_path") c.runPath, Spec.firstSet (Spec.said fs b!"run_mode") c.runMode,
      Spec.firstSet (Spec.said fs b!"http_addr") c.httpAddr, Spec.firstSet (Spec.said fs b!"http_port") c.httpPort⟩ := by
  induction fs with
  | nil => intro c; rfl
  | cons f fs ih =>
    intro c
    have hs : ∀ name d, Spec.firstSet (Spec.said (f :: fs) name) d =
        Spec.firstSet (Spec.said fs name) (match f with | none => d | some g => if g name = [] then d else g name) := by
      intro name d
      cases f with
      | none => rfl
      | some g =>
        unfold Spec.said
        simp only [List.filterMap_cons, id, List.reverse_cons, List.map_append, List.map_cons, List.map_nil]
        rw [firstSet_append]
        rfl
    unfold imports importConfig
    simp only [bindStr_eq, ih, hs]

/-- **C95.** For every environment and every sequence of `ImportConfig` calls (nil systems included) none panics, and each of
run path, run mode, address and port is what the system imported last of those that say something says, otherwise the
environment variable, otherwise the default. `Run` listens on address and port. -/
theorem C95_app_config (env : Str → Str) (root : Str) (fs : List (Option (Str → Str))) :
    ∃ c, imports fs (newConfig env root) = some c ∧
      c.runPath = Spec.firstSet (Spec.said fs b!"run_path" ++ [env b!"RUN_PATH"]) root ∧
      c.runMode = Spec.firstSet (Spec.said fs b!"run_mode" ++ [env b!"RUN_MODE"]) b!"prod" ∧
      c.httpAddr = Spec.firstSet (Spec.said fs b!"http_addr" ++ [env b!"HTTP_ADDR"]) b!"127.0.0.1" ∧
      c.httpPort = Spec.firstSet (Spec.said fs b!"http_port" ++ [env b!"HTTP_PORT"]) b!"3000" ∧
      runAddr c = c.httpAddr ++ b!":" ++ c.httpPort := by
  refine ⟨_, imports_eq fs _, ?_, ?_, ?_, ?_, rfl⟩ <;>
  · rw [firstSet_append]; rfl

/-- Two imports, one silent about the port. -/
example : imports [some (fun n => if n = b!"http_port" then b!"80" else []), none, some (fun n => if n = b!"run_mode" then b!"dev" else [])]
    (newConfig (fun n => if n = b!"HTTP_ADDR" then b!"0.0.0.0" else []) b!"/srv") = some ⟨b!"/srv", b!"dev", b!"0.0.0.0", b!"80"⟩ := by
  decide +kernel

/-! ## SliceValue -/

/-- The values without repetitions, at the place of their first occurrence. -/
def Spec.Dedup (s u : List Str) : Prop :=
  u.Nodup ∧ (∀ x, x ∈ u ↔ x ∈ s) ∧ ∀ (i j : Nat) (x y : Str), i < j → u[i]? = some x → u[j]? = some y →
    s.idxOf x < s.idxOf y

theorem uniqueLoop_spec (s : List Str) : ∀ (m v : List Str), uniqueLoop s m v = v ++ uniqueLoop s m [] := by
  induction s with
  | nil => intro m v; simp [uniqueLoop]
  | cons p s ih =>
    intro m v
    unfold uniqueLoop
    split
    · exact ih m v
    · rw [ih (p :: m) (v ++ [p]), ih (p :: m) ([] ++ [p])]; simp

theorem uniqueLoop_mem (s : List Str) : ∀ (m : List Str), (uniqueLoop s m []).Nodup ∧
    (∀ x, x ∈ uniqueLoop s m [] ↔ x ∈ s ∧ x ∉ m) ∧
    (uniqueLoop s m []).Pairwise (fun x y => s.idxOf x < s.idxOf y) := by
  induction s with
  | nil => intro m; simp [uniqueLoop]
  | cons p s ih =>
    intro m
    unfold uniqueLoop
    by_cases h : p ∈ m
    · rw [if_pos h]
      obtain ⟨a, b, c⟩ := ih m
      refine ⟨a, ?_, ?_⟩
      · intro x
        rw [b]
        simp only [List.mem_cons]
        constructor
        · rintro ⟨h1, h2⟩; exact ⟨.inr h1, h2⟩
        · rintro ⟨rfl | h1, h2⟩
          · exact absurd h h2
          · exact ⟨h1, h2⟩
      · refine List.Pairwise.imp_of_mem ?_ c
        intro x y hx hy hxy
        have hxp : p ≠ x := fun e => ((b x).1 hx).2 (e ▸ h)
        have hyp : p ≠ y := fun e => ((b y).1 hy).2 (e ▸ h)
        rw [List.idxOf_cons, List.idxOf_cons, beq_false_of_ne hxp, beq_false_of_ne hyp]
        simpa using hxy
    · rw [if_neg h, uniqueLoop_spec]
      obtain ⟨a, b, c⟩ := ih (p :: m)
      have hp : p ∉ uniqueLoop s (p :: m) [] := fun hm => ((b p).1 hm).2 (by simp)
      refine ⟨?_, ?_, ?_⟩
      · simp [hp, a]
      · intro x
        simp only [List.nil_append, List.mem_append, List.mem_cons, b, not_or, List.not_mem_nil, or_false]
        constructor
        · rintro (rfl | ⟨h1, h2, h3⟩)
          · exact ⟨.inl rfl, h⟩
          · exact ⟨.inr h1, h3⟩
        · rintro ⟨rfl | h1, h2⟩
          · exact .inl rfl
          · by_cases e : x = p
            · exact .inl e
            · exact .inr ⟨h1, e, h2⟩
      · simp only [List.nil_append, List.singleton_append, List.pairwise_cons]
        refine ⟨?_, ?_⟩
        · intro y hy
          have hyp : p ≠ y := fun e => hp (e ▸ hy)
          rw [List.idxOf_cons, List.idxOf_cons, beq_false_of_ne hyp]
          simp
        · refine List.Pairwise.imp_of_mem ?_ c
          intro x y hx hy hxy
          have hxp : p ≠ x := fun e => hp (e ▸ hx)
          have hyp : p ≠ y := fun e => hp (e ▸ hy)
          rw [List.idxOf_cons, List.idxOf_cons, beq_false_of_ne hxp, beq_false_of_ne hyp]
          simpa using hxy

/-- **C96 (Unique).** `Unique` keeps each value once, in the order of the first occurrences. -/
theorem C96_unique (s : List Str) : Spec.Dedup s (sliceUnique s) := by
  obtain ⟨a, b, c⟩ := uniqueLoop_mem s []
  refine ⟨a, fun x => by rw [sliceUnique, b]; simp, ?_⟩
  intro i j x y hij hx hy
  obtain ⟨hi, rfl⟩ := List.getElem?_eq_some_iff.1 hx
  obtain ⟨hj, rfl⟩ := List.getElem?_eq_some_iff.1 hy
  exact List.pairwise_iff_getElem.1 c i j hi hj hij

/-- The parts of a text between commas that are not blank. -/
def Spec.parts (v : Str) : List Str := (splitOn1 44 v).filter fun p => trimSpace p ≠ []

theorem set_fold (v : Str) (ps : List Str) : ∀ s : List Str,
    ps.foldl (fun s p => if trimSpace p ≠ [] then s ++ [v] else s) s = s ++ List.replicate (ps.filter fun p => trimSpace p ≠ []).length v := by
  induction ps with
  | nil => intro s; simp
  | cons p ps ih =>
    intro s
    simp only [List.foldl_cons]
    by_cases h : trimSpace p ≠ []
    · rw [if_pos h, ih, List.filter_cons_of_pos (by simpa using h)]
      simp [List.replicate_succ]
    · rw [if_neg h, ih, List.filter_cons_of_neg (by simpa using h)]

/-- **C96 (Set, exact).** `Set` appends the whole text as many times as it has parts that are not blank. -/
theorem C96_set_exact (s : List Str) (v : Str) : sliceSet s v = s ++ List.replicate (Spec.parts v).length v := set_fold v _ s

/-- **C96 (Set, partial).** A text without commas is appended once, unless it is blank. -/
theorem C96_set_single_partial (s : List Str) (v : Str) (h : 44 ∉ v) : sliceSet s v = if trimSpace v = [] then s else s ++ [v] := by
  rw [C96_set_exact]
  have : splitOn1 44 v = [v] := splitOn1_of_not_mem _ _ h
  unfold Spec.parts
  rw [this]
  by_cases h0 : trimSpace v = []
  · simp [h0]
  · simp [h0, List.replicate]

/-- **C96 is false of the code**: setting `a,b` does not add `a` and `b`, and the printed value, set again, does not give the
same list. -/
theorem C96_set_violated : sliceSet [] b!"a,b" = [b!"a,b", b!"a,b"] ∧
    (∃ s, sliceSet [] (sliceString s) ≠ s ∧ ∀ x ∈ s, x ≠ [] ∧ 44 ∉ x) :=
  ⟨by decide +kernel, [b!"a", b!"b"], by decide +kernel, by decide +kernel⟩

/-- **C96 (String).** The printed list, cut at the commas, is the list, if no value has a comma. -/
theorem C96_string (s : List Str) (h0 : s ≠ []) (h : ∀ x ∈ s, 44 ∉ x) : splitOn1 44 (sliceString s) = s := by
  unfold sliceString
  induction s with
  | nil => exact absurd rfl h0
  | cons x s ih =>
    cases s with
    | nil => exact splitOn1_of_not_mem 44 x (h x List.mem_cons_self)
    | cons y s =>
      have e : join1 44 (x :: y :: s) = x ++ 44 :: join1 44 (y :: s) := rfl
      rw [e, splitOn1_append_sep 44 x _ (h x List.mem_cons_self), ih (by simp) (fun z hz => h z (List.mem_cons_of_mem _ hz))]

/-! ## Session collection -/

/-- **C97.** After `GC(d)` with `d` at least a minute, sessions are collected again and again, consecutive collections at
least `d` apart and exactly `d` plus the time the earlier one took and the timer's delay. With a smaller `d` the same with
an hour. -/
theorem C97_gc_interval (late : Nat → Int) (d : Int) (t : Int) (n : Nat) :
    gcTime late [d] 0 t (n + 1) = gcTime late [d] 0 t n + late n + (if d < 60000000000 then 3600000000000 else d) := by
  have hfix : ∀ e, gcInterval [gcInterval [e]] = gcInterval [e] := by
    intro e
    by_cases h : e < minute
    · have : gcInterval [e] = hour := if_pos h
      rw [this]; rfl
    · have : gcInterval [e] = e := if_neg h
      rw [this]; exact this
  have key : ∀ n k t e, gcInterval [e] = e → gcTime late [e] k t (n + 1) = gcTime late [e] k t n + late (k + n) + e := by
    intro n
    induction n with
    | zero => intro k t e he; simp only [gcTime, he]; rfl
    | succ n ih =>
      intro k t e he
      have : gcTime late [e] k t (n + 1 + 1) = gcTime late [gcInterval [e]] (k + 1) (t + late k + gcInterval [e]) (n + 1) := rfl
      rw [this, he, ih _ _ _ he]
      have : gcTime late [e] k t (n + 1) = gcTime late [gcInterval [e]] (k + 1) (t + late k + gcInterval [e]) n := rfl
      rw [this, he]
      have : k + 1 + n = k + (n + 1) := by omega
      rw [this]
  cases n with
  | zero => rfl
  | succ n =>
    have e1 : gcTime late [d] 0 t (n + 1 + 1) = gcTime late [gcInterval [d]] 1 (t + late 0 + gcInterval [d]) (n + 1) := rfl
    have e2 : gcTime late [d] 0 t (n + 1) = gcTime late [gcInterval [d]] 1 (t + late 0 + gcInterval [d]) n := rfl
    rw [e1, e2, key n 1 _ _ (hfix d)]
    have : 1 + n = n + 1 := by omega
    rw [this]
    rfl

theorem gcTime_shift (late : Nat → Int) : ∀ (m k : Nat) (u : Int) (is : List Int), gcTime late is k u m = gcTime (fun j => late (k + j)) is 0 u m := by
  have gen : ∀ (m k k' : Nat) (l l' : Nat → Int) (u : Int) (is : List Int), (∀ j, l (k + j) = l' (k' + j)) → gcTime l is k u m = gcTime l' is k' u m := by
    intro m
    induction m with
    | zero => intros; rfl
    | succ m ih =>
      intro k k' l l' u is h
      have h0 : l k = l' k' := h 0
      show gcTime l [gcInterval is] (k + 1) (u + l k + gcInterval is) m = gcTime l' [gcInterval is] (k' + 1) (u + l' k' + gcInterval is) m
      rw [h0]
      refine ih _ _ _ _ _ _ ?_
      intro j
      have := h (1 + j)
      rwa [← Nat.add_assoc, ← Nat.add_assoc] at this
  intro m k u is
  exact gen m k 0 _ _ u is (fun j => by rw [Nat.zero_add])

/-- **C97 (without argument).** `GC()` collects a second time at once, then every hour. -/
theorem C97_gc_default (late : Nat → Int) (t : Int) :
    gcTime late [] 0 t 1 = t + late 0 ∧ ∀ n, gcTime late [] 0 t (n + 2) = gcTime late [] 0 t (n + 1) + late (n + 1) + 3600000000000 := by
  refine ⟨by simp [gcTime, gcInterval], ?_⟩
  intro n
  have e : ∀ m, gcTime late [] 0 t (m + 1) = gcTime late [0] 1 (t + late 0 + 0) m := fun m => rfl
  rw [e, e, gcTime_shift _ (n + 1) 1, gcTime_shift _ n 1, C97_gc_interval, if_pos (by decide)]
  have : 1 + n = n + 1 := by omega
  rw [this]

/-- **C97 (secret).** A session manager is made exactly if there is a secret key. -/
theorem C97_secret (k : Str) : newManagerPanics k = true ↔ k = [] := by simp [newManagerPanics]

/-! ## The dummy store -/

variable {V : Type}

/-- What the program sees of a store made with a map of its own: the two contents, and whether they are still one map. -/
structure Spec.Two (V : Type) where
  shared : Bool
  store : Str → Option V
  mine : Str → Option V

/-- A key gets a value (or loses it). -/
def Spec.put (m : Str → Option V) (k : Str) (v : Option V) : Str → Option V := fun x => if x = k then v else m x

/-- What each call does to the two contents. -/
def Spec.Two.step (s : Spec.Two V) : DOp V → Spec.Two V
  | .set k v => ⟨s.shared, Spec.put s.store k (some v), if s.shared then Spec.put s.mine k (some v) else s.mine⟩
  | .delete k => ⟨s.shared, Spec.put s.store k none, if s.shared then Spec.put s.mine k none else s.mine⟩
  | .own k v => ⟨s.shared, if s.shared then Spec.put s.store k v else s.store, Spec.put s.mine k v⟩
  | .clean => ⟨false, fun _ => none, s.mine⟩
  | .destroy => ⟨false, fun _ => none, s.mine⟩
  | .flush => s
  | .touch => s

/-- A program: the world it leaves behind. -/
def drun (mine : Nat) (ops : List (DOp V)) (w : World V) : World V := ops.foldl (dstep mine) w

/-- The relation kept by every call. -/
def Rel (mine : Nat) (heap0 : List (MapV V)) (w : World V) (s : Spec.Two V) : Prop :=
  mine < w.heap.length ∧ w.store.values < w.heap.length ∧ heap0.length ≤ w.heap.length ∧
  (s.shared = true → w.store.values = mine) ∧ (s.shared = false → w.store.values ≠ mine ∧ heap0.length ≤ w.store.values) ∧
  w.heap[w.store.values]? = some s.store ∧ w.heap[mine]? = some s.mine ∧
  ∀ b, b < heap0.length → b ≠ mine → w.heap[b]? = heap0[b]?

theorem modify_get (l : List (MapV V)) (a b : Nat) (f : MapV V → MapV V) :
    (l.modify a f)[b]? = if a = b then l[b]?.map f else l[b]? := by
  rw [List.getElem?_modify]
  by_cases h : a = b
  · simp [h]
  · simp [h]

theorem append_get_lt (l : List (MapV V)) (m : MapV V) (b : Nat) (h : b < l.length) : (l ++ [m])[b]? = l[b]? :=
  List.getElem?_append_left h

theorem dstep_rel (mine : Nat) (heap0 : List (MapV V)) (hm : mine < heap0.length) (w : World V) (s : Spec.Two V) (h : Rel mine heap0 w s)
    (o : DOp V) : Rel mine heap0 (dstep mine w o) (s.step o) := by
  obtain ⟨h1, h2, h3, h4, h5, h6, h7, h8⟩ := h
  have fresh : ∀ (m : MapV V) (c d : Bool), Rel mine heap0 ⟨w.heap ++ [m], ⟨w.store.sid, w.heap.length, c, d⟩⟩ ⟨false, m, s.mine⟩ := by
    intro m c d
    refine ⟨by simp; omega, by simp, by simp; omega, by simp, fun _ => ⟨by show w.heap.length ≠ mine; omega, h3⟩, by simp, ?_, ?_⟩
    · show (w.heap ++ [m])[mine]? = _
      rw [append_get_lt _ _ _ h1]; exact h7
    · intro b hb hbm
      show (w.heap ++ [m])[b]? = _
      rw [append_get_lt _ _ _ (by omega)]; exact h8 b hb hbm
  have write : ∀ (k : Str) (v : Option V) (c : Bool), Rel mine heap0 ⟨w.heap.modify w.store.values (upd · k v), ⟨w.store.sid, w.store.values, c, w.store.closed⟩⟩
      ⟨s.shared, Spec.put s.store k v, if s.shared then Spec.put s.mine k v else s.mine⟩ := by
    intro k v c
    refine ⟨by simpa using h1, by simpa using h2, by simpa using h3, h4, h5, ?_, ?_, ?_⟩
    · show (w.heap.modify w.store.values (upd · k v))[w.store.values]? = _
      rw [modify_get, if_pos rfl, h6]; rfl
    · show (w.heap.modify w.store.values (upd · k v))[mine]? = _
      rw [modify_get]
      cases hs : s.shared with
      | true => rw [if_pos (h4 hs), h7]; rfl
      | false => rw [if_neg (h5 hs).1, h7]; rfl
    · intro b hb hbm
      show (w.heap.modify w.store.values (upd · k v))[b]? = _
      rw [modify_get, if_neg]
      · exact h8 b hb hbm
      · intro e
        cases hs : s.shared with
        | true => exact hbm (by rw [← e, h4 hs])
        | false => have := (h5 hs).2; omega
  cases o with
  | set k v => exact write k (some v) true
  | delete k => exact write k none true
  | clean => exact fresh emptyMap _ _
  | destroy => exact fresh emptyMap _ _
  | touch => exact ⟨h1, h2, h3, h4, h5, h6, h7, h8⟩
  | flush =>
    show Rel mine heap0 (if w.store.closed then w else if !w.store.changed then w else ⟨w.heap, { w.store with changed := false }⟩) s
    split
    · exact ⟨h1, h2, h3, h4, h5, h6, h7, h8⟩
    · split
      · exact ⟨h1, h2, h3, h4, h5, h6, h7, h8⟩
      · exact ⟨h1, h2, h3, h4, h5, h6, h7, h8⟩
  | own k v =>
    refine ⟨by simpa [dstep] using h1, by simpa [dstep] using h2, by simpa [dstep] using h3, h4, h5, ?_, ?_, ?_⟩
    · show (w.heap.modify mine (upd · k v))[w.store.values]? = some (if s.shared then Spec.put s.store k v else s.store)
      rw [modify_get]
      cases hs : s.shared with
      | true => rw [if_pos (h4 hs).symm, h6]; rfl
      | false => rw [if_neg (fun e => (h5 hs).1 e.symm), h6]; rfl
    · show (w.heap.modify mine (upd · k v))[mine]? = _
      rw [modify_get, if_pos rfl, h7]; rfl
    · intro b hb hbm
      show (w.heap.modify mine (upd · k v))[b]? = _
      rw [modify_get, if_neg (fun e => hbm e.symm)]
      exact h8 b hb hbm

theorem drun_rel (mine : Nat) (heap0 : List (MapV V)) (hm : mine < heap0.length) (ops : List (DOp V)) : ∀ (w : World V) (s : Spec.Two V),
    Rel mine heap0 w s → Rel mine heap0 (drun mine ops w) (ops.foldl Spec.Two.step s) := by
  induction ops with
  | nil => intro w s h; exact h
  | cons o ops ih => intro w s h; exact ih _ _ (dstep_rel mine heap0 hm w s h o)

/-- What can be read: from the store, from the program's own map, from the maps that have nothing to do with it. -/
def Spec.Sees (mine : Nat) (heap0 : List (MapV V)) (w : World V) (s : Spec.Two V) : Prop :=
  (∀ k, w.get k = s.store k) ∧ (∀ k, w.has k = true ↔ s.store k ≠ none) ∧
  w.heap[mine]? = some s.mine ∧ (∀ b, b < heap0.length → b ≠ mine → w.heap[b]? = heap0[b]?) ∧
  -- `Values` answers a map with the store's content, which no map of the program is
  w.values.1.heap[w.values.2]? = some s.store ∧ w.values.2 ≠ w.store.values ∧ w.heap.length ≤ w.values.2 ∧ w.values.1.store = w.store ∧
  ∀ b, b < w.heap.length → w.values.1.heap[b]? = w.heap[b]?

theorem rel_sees (mine : Nat) (heap0 : List (MapV V)) (w : World V) (s : Spec.Two V) (h : Rel mine heap0 w s) : Spec.Sees mine heap0 w s := by
  obtain ⟨h1, h2, h3, h4, h5, h6, h7, h8⟩ := h
  have hd : w.heap.getD w.store.values emptyMap = s.store := by
    rw [List.getD_eq_getElem?_getD, h6]; rfl
  refine ⟨fun k => by rw [World.get, hd], fun k => ?_, h7, h8, ?_, ?_, Nat.le_refl _, rfl, ?_⟩
  · rw [World.has, hd]
    cases s.store k <;> simp
  · show (w.heap ++ [w.heap.getD w.store.values emptyMap])[w.heap.length]? = _
    rw [hd]; simp
  · show w.heap.length ≠ w.store.values
    omega
  · intro b hb
    exact append_get_lt _ _ _ hb

/-- **C98.** For every program using a dummy store made with the program's map and that map: until the first `Clean` or
`Destroy` the two are one map, afterwards they are independent; `Get` and `Has` read what was set last and not deleted or
cleaned (also after `Destroy`), `Values` is a copy, `Flush` and `Touch` change nothing, other maps are not changed. -/
theorem C98_dummy_store (heap : List (MapV V)) (sid : Str) (mine : Nat) (m0 : MapV V) (hm : heap[mine]? = some m0) (ops : List (DOp V)) :
    Spec.Sees mine heap (drun mine ops (newDummy heap sid (some mine))) (ops.foldl Spec.Two.step ⟨true, m0, m0⟩) := by
  have hlt : mine < heap.length := (List.getElem?_eq_some_iff.1 hm).1
  refine rel_sees _ _ _ _ (drun_rel mine heap hlt ops _ _ ?_)
  exact ⟨hlt, hlt, Nat.le_refl _, fun _ => rfl, by simp, hm, hm, fun b _ _ => rfl⟩

/-- **C98 (nil map).** A store made with nil starts empty and shares nothing. -/
theorem C98_dummy_nil (heap : List (MapV V)) (sid : Str) (mine : Nat) (m0 : MapV V) (hm : heap[mine]? = some m0) (ops : List (DOp V)) :
    Spec.Sees mine heap (drun mine ops (newDummy heap sid none)) (ops.foldl Spec.Two.step ⟨false, fun _ => none, m0⟩) := by
  have hlt : mine < heap.length := (List.getElem?_eq_some_iff.1 hm).1
  refine rel_sees _ _ _ _ (drun_rel mine heap hlt ops _ _ ?_)
  refine ⟨by simp [newDummy]; omega, by simp [newDummy], by simp [newDummy], by simp, fun _ => ⟨by simp [newDummy]; omega, by simp [newDummy]⟩, ?_, ?_, ?_⟩
  · simp [newDummy]; rfl
  · show (heap ++ [emptyMap])[mine]? = _
    rw [append_get_lt _ _ _ hlt]; exact hm
  · intro b hb _
    exact append_get_lt _ _ _ hb

/-- The two maps are one, then two. -/
example : ∃ heap : List (MapV Nat), heap[0]? = some (upd emptyMap b!"u" (some 1)) ∧
    (drun 0 [.own b!"u" (some 2), .destroy, .set b!"v" 3, .own b!"u" (some 4)] (newDummy heap b!"s" (some 0))).get b!"u" = none ∧
    (drun 0 [.own b!"u" (some 2), .destroy, .set b!"v" 3, .own b!"u" (some 4)] (newDummy heap b!"s" (some 0))).get b!"v" = some 3 :=
  ⟨[upd emptyMap b!"u" (some 1)], rfl, by decide +kernel, by decide +kernel⟩

end Verif.Setup
