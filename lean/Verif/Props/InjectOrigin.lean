import Verif.Props.InjectOnce
import Verif.Props.InjectTerm
/-!
# The injector: C106 (where a found value comes from, for every history)

Without any condition on the history.  `Made f cs i k n` says that the `n`-th provider call of the history was made in injector `i`
for type `k`, and that its result has not been discarded since; nothing in it refers to the injector's cache.
-/
namespace Verif.Inj

/-- Call `c`, made after the history `cs`, discards what injector `i` made for `k`: a new provider for `k` given to `i`, or an
`Invoke` on `i` of a function with result type `k` that returns without error. -/
def ResetsAt (f : Nat) (cs : List Cmd) (i : Nat) (k : Key) (c : Cmd) : Prop :=
  ∃ pr, pr.name = k ∧ (c = .provide i pr ∨ (c = .invoke i pr ∧ ∃ v, (invokeFn f (reach f cs) i pr).1 = .ok v))

/-- The `n`-th provider call was made in injector `i` for type `k` by some lookup of the history in `i`; the function called was
the nearest provider at that time; and neither that lookup nor anything later discarded its result. -/
inductive Made (f : Nat) : List Cmd → Nat → Key → Nat → Prop where
  | now (cs : List Cmd) (c : Cmd) (i : Nat) (k : Key) (n : Nat) (call : Call) (pr : Prov) :
      Looks i c → ¬ ResetsAt f cs i k c → (reach f cs).calls.length ≤ n → (reach f (cs ++ [c])).calls[n]? = some call →
      call.inj = i → call.name = k → (reach f (cs ++ [c])).provs[call.prov]? = some pr → Nearest cs i k pr →
      Made f (cs ++ [c]) i k n
  | later (cs : List Cmd) (c : Cmd) (i : Nat) (k : Key) (n : Nat) : Made f cs i k n → ¬ ResetsAt f cs i k c → Made f (cs ++ [c]) i k n

/-- What a lookup leaves in the cache was there or was made by it. -/
theorem LkA.origin {f : Nat} {cs : List Cmd} {c : Cmd} (hcm : Cmds cs) {j : Nat} {t s' : St} {l : List Call} (h : LkA j t s' l)
    (e1 : t.values = (reach f cs).values) (e2 : t.parent = (reach f cs).parent) (e3 : ∃ m, t.provs = (reach f cs).provs ++ m)
    (e4 : t.caches = (reach f cs).caches) (e5 : t.calls = (reach f cs).calls)
    (g1 : ∃ m, (reach f (cs ++ [c])).calls = s'.calls ++ m) (g2 : (reach f (cs ++ [c])).provs = s'.provs)
    (hl : Looks j c) {i : Nat} {k : Key} {v : Val} (hr : ¬ ResetsAt f cs i k c) (hv : s'.caches i k = some v) :
    (reach f cs).caches i k = some v ∨ ∃ n, v = .res n ∧ Made f (cs ++ [c]) i k n := by
  by_cases hj : i = j
  · subst hj
    rcases h.cv k v hv with h1 | ⟨n, call, h1, h2, h3, h4, h5, h6⟩
    · exact .inl (e4 ▸ h1)
    · right
      have hg : get (reach f cs) i k = some call.prov := (get_congr e1 e2 i k).symm.trans h6
      obtain ⟨pr, hp1, _⟩ := get_prov (WF.reach f cs hcm) hg
      obtain ⟨m, hm⟩ := g1
      obtain ⟨m', hm'⟩ := e3
      refine ⟨n, h1, .now cs c i k n call pr hl hr (by rw [← e5]; exact h2) ?_ h4 h5 ?_
        ((get_nearest (f := f) hcm i k pr).1 ⟨_, hg, hp1⟩)⟩
      · rw [hm]; exact getElem?_append_some h3 _
      · rw [g2, h.lk.ext.provs, hm']; exact getElem?_append_some hp1 _
  · rw [h.lk.ext.others i hj, e4] at hv; exact .inl hv

/-- Whatever is cached was made by the history. -/
theorem cached_made (f : Nat) (i : Nat) (k : Key) : ∀ cs, Cmds cs → ∀ v, (reach f cs).caches i k = some v →
    ∃ n, v = .res n ∧ Made f cs i k n := by
  refine snoc_ind ?_ ?_
  · intro _ v hv; cases hv
  · intro cs c ih hcm v hv
    have w := WF.reach f cs hcm.snoc.1
    have ih' := ih hcm.snoc.1
    have step : ¬ ResetsAt f cs i k c → ((reach f cs).caches i k = some v ∨ ∃ n, v = .res n ∧ Made f (cs ++ [c]) i k n) →
        ∃ n, v = .res n ∧ Made f (cs ++ [c]) i k n := by
      rintro hr (h | h)
      · obtain ⟨n, h1, h2⟩ := ih' v h
        exact ⟨n, h1, .later _ _ _ _ _ h2 hr⟩
      · exact h
    cases c with
    | setParent a b =>
      have hr : ¬ ResetsAt f cs i k (.setParent a b) := by rintro ⟨pr, _, h | ⟨h, _⟩⟩ <;> cases h
      refine step hr (.inl ?_)
      rw [reach_snoc] at hv
      simp only [Cmd.run, Inj.setParent] at hv
      split at hv <;> exact hv
    | provide j pr =>
      rw [reach_snoc] at hv
      simp only [Cmd.run, Inj.provideAs] at hv
      by_cases hj : i = j
      · subst hj
        rw [upd_same] at hv
        by_cases hk : k = pr.name
        · rw [hk, upd_same] at hv; cases hv
        · rw [upd_ne _ _ _ _ hk] at hv
          refine step ?_ (.inl hv)
          rintro ⟨pr', h1, h | ⟨h, _⟩⟩ <;> cases h
          exact hk h1.symm
      · rw [upd_ne _ _ _ _ hj] at hv
        refine step ?_ (.inl hv)
        rintro ⟨pr', h1, h | ⟨h, _⟩⟩ <;> cases h
        exact hj rfl
    | find j x =>
      have hr : ¬ ResetsAt f cs i k (.find j x) := by rintro ⟨pr, _, h | ⟨h, _⟩⟩ <;> cases h
      obtain ⟨l, hlk, _⟩ := find_lka f (reach f cs) j x w hcm.snoc.2
      have e : reach f (cs ++ [.find j x]) = (find f (reach f cs) j x).2 := reach_snoc f cs _
      refine step hr (hlk.origin (c := .find j x) (f := f) hcm.snoc.1 rfl rfl ⟨[], by simp⟩ rfl rfl ⟨[], by simp [e]⟩ (by rw [e])
        (.inl ⟨x, rfl⟩) hr (by rw [← e]; exact hv))
    | invoke j pr =>
      obtain ⟨hw, deps, out, hkd⟩ := hcm.snoc.2
      have e : reach f (cs ++ [.invoke j pr]) = (invokeFn f (reach f cs) j pr).2 := reach_snoc f cs _
      have hL : Looks j (.invoke j pr) := .inr ⟨pr, rfl⟩
      rcases invokeFn_lka f (reach f cs) j pr w hw hkd with ⟨v', _, h2⟩ | ⟨l, s2, hlk, _, ⟨h2, hno⟩ | ⟨args, h2⟩⟩
      · rw [h2] at e
        rw [e] at hv
        obtain ⟨a, b⟩ := drop_caches hv
        refine step ?_ (.inl a)
        rintro ⟨pr', h1, h | ⟨h, _⟩⟩ <;> cases h
        exact b ⟨rfl, h1.symm⟩
      · rw [h2] at e
        have hr : ¬ ResetsAt f cs i k (.invoke j pr) := by
          rintro ⟨pr', h1, h | ⟨h, v', hv'⟩⟩ <;> cases h
          exact hno _ hv'
        exact step hr (hlk.origin (c := .invoke j pr) (f := f) hcm.snoc.1 rfl rfl ⟨[pr], rfl⟩ rfl rfl ⟨[], by simp [e]⟩ (by rw [e]) hL hr
            (by rw [← e]; exact hv))
      · rw [h2] at e
        rw [e] at hv
        have hv' : (drop (called j (reach f cs).provs.length pr.name out args s2) j pr.name).caches i k = some v := hv
        rw [drop_called_caches] at hv'
        obtain ⟨a, b⟩ := drop_caches hv'
        have hr : ¬ ResetsAt f cs i k (.invoke j pr) := by
          rintro ⟨pr', h1, h | ⟨h, _⟩⟩ <;> cases h
          exact b ⟨rfl, h1.symm⟩
        exact step hr (hlk.origin (c := .invoke j pr) (f := f) hcm.snoc.1 rfl rfl ⟨[pr], rfl⟩ rfl rfl
          ⟨_, by rw [e]; rfl⟩ (by rw [e]; rfl) hL hr a)

/-! ## What was made is still there -/

/-- Effect of one call on the cache of `(i, k)`: a cached value stays; the result of a new call for `(i, k)` is cached. -/
def KeepEff (i : Nat) (k : Key) (s s' : St) : Prop :=
  (∀ v, s.caches i k = some v → s'.caches i k = some v) ∧
  ∀ n call, s.calls.length ≤ n → s'.calls[n]? = some call → call.inj = i → call.name = k → s'.caches i k = some (.res n)

theorem nodup_index {l : List Call} (h : (l.map Call.name).Nodup) {a b : Nat} {x y : Call} (ha : l[a]? = some x) (hb : l[b]? = some y)
    (hn : x.name = y.name) : a = b := by
  have h1 : (l.map Call.name)[a]? = some y.name := by rw [List.getElem?_map, ha]; simp [hn]
  have h2 : (l.map Call.name)[b]? = some y.name := by rw [List.getElem?_map, hb]; rfl
  obtain ⟨la, h1⟩ := List.getElem?_eq_some_iff.1 h1
  obtain ⟨lb, h2⟩ := List.getElem?_eq_some_iff.1 h2
  have hp := List.pairwise_iff_getElem.1 h
  rcases Nat.lt_trichotomy a b with hab | hab | hab
  · exact absurd (h1.trans h2.symm) (hp a b la lb hab)
  · exact hab
  · exact absurd (h2.trans h1.symm) (hp b a lb la hab)

theorem LkA.keep {j : Nat} {t s' : St} {l : List Call} (h : LkA j t s' l) (hn : (l.map Call.name).Nodup) (i : Nat) (k : Key) :
    KeepEff i k t s' := by
  have hj : ∀ n call, t.calls.length ≤ n → s'.calls[n]? = some call → call ∈ l ∧ l[n - t.calls.length]? = some call := by
    intro n call hle hc
    rw [h.lk.calls, List.getElem?_append_right hle] at hc
    exact ⟨List.mem_of_getElem? hc, hc⟩
  refine ⟨fun v hv => ((h.once hn i k).2.2.1 v hv).2, ?_⟩
  intro n call hle hc hi hk
  obtain ⟨hm, hidx⟩ := hj n call hle hc
  have hcall := h.lk.call call hm
  have hij : i = j := hi.symm.trans hcall.1
  subst hij
  have hne : s'.caches i k ≠ none := (h.lk.caches k).2 (.inr ⟨call, hm, hk⟩)
  cases hx : s'.caches i k with
  | none => exact absurd hx hne
  | some v =>
    rcases h.cv k v hx with h1 | ⟨n', call', h1, h2, h3, h4, h5, h6⟩
    · have := hcall.2.2.1
      rw [hk, h1] at this; cases this
    · obtain ⟨hm', hidx'⟩ := hj n' call' h2 h3
      have := nodup_index hn hidx hidx' (hk.trans h5.symm)
      rw [h1, show n' = n from by omega]

theorem run_keep {f : Nat} {cs : List Cmd} {c : Cmd} (hcm : Cmds (cs ++ [c])) {i : Nat} {k : Key} (hr : ¬ ResetsAt f cs i k c) :
    KeepEff i k (reach f cs) (reach f (cs ++ [c])) := by
  have w := WF.reach f cs hcm.snoc.1
  have none_new : ∀ s' : St, s'.calls = (reach f cs).calls → ∀ n call, (reach f cs).calls.length ≤ n → s'.calls[n]? = some call → False := by
    intro s' e n call hle hc
    rw [e, List.getElem?_eq_none hle] at hc; cases hc
  rw [reach_snoc]
  cases c with
  | setParent a b =>
    refine ⟨?_, fun n call hle hc => (none_new _ ?_ n call hle hc).elim⟩
    · intro v hv; simp only [Cmd.run, Inj.setParent]; split <;> exact hv
    · simp only [Cmd.run, Inj.setParent]; split <;> rfl
  | provide j pr =>
    refine ⟨?_, fun n call hle hc => (none_new _ rfl n call hle hc).elim⟩
    intro v hv
    simp only [Cmd.run, Inj.provideAs]
    by_cases hj : i = j
    · subst hj
      rw [upd_same, upd_ne _ _ _ _ (fun g => hr ⟨pr, g.symm, .inl rfl⟩)]; exact hv
    · rw [upd_ne _ _ _ _ hj]; exact hv
  | find j x =>
    obtain ⟨l, hl, hn⟩ := find_lka f (reach f cs) j x w hcm.snoc.2
    exact hl.keep hn i k
  | invoke j pr =>
    obtain ⟨hw, deps, out, hkd⟩ := hcm.snoc.2
    have hne : (∃ v, (invokeFn f (reach f cs) j pr).1 = .ok v) → ¬ (i = j ∧ k = pr.name) := fun ⟨v, hv⟩ ⟨g1, g2⟩ =>
      hr ⟨pr, g2.symm, .inr ⟨by rw [g1], v, by rw [g1]; exact hv⟩⟩
    simp only [Cmd.run]
    rcases invokeFn_lka f (reach f cs) j pr w hw hkd with ⟨v, _, h2⟩ | ⟨l, s2, hlk, hn, ⟨h2, _⟩ | ⟨args, h2⟩⟩
    · have hne' := hne ⟨v, by rw [h2]⟩
      rw [h2]
      exact ⟨fun v' hv' => (drop_ne hne').trans hv', fun n call hle hc => (none_new _ rfl n call hle hc).elim⟩
    · rw [h2]; exact hlk.keep hn i k
    · have hne' := hne ⟨_, by rw [h2]⟩
      rw [h2]
      have hca : (drop (called j (reach f cs).provs.length pr.name out args s2) j pr.name).caches i k = s2.caches i k := by
        rw [drop_called_caches]; exact drop_ne hne'
      obtain ⟨k1, k2⟩ := hlk.keep hn i k
      refine ⟨fun v hv => hca.trans (k1 v hv), ?_⟩
      intro n call hle hc hi hk
      refine hca.trans ?_
      have hc' : (s2.calls ++ [⟨j, (reach f cs).provs.length, pr.name, args⟩])[n]? = some call := hc
      by_cases hlt : n < s2.calls.length
      · rw [List.getElem?_append_left hlt] at hc'
        exact k2 n call hle hc' hi hk
      · rw [List.getElem?_append_right (by omega), List.getElem?_singleton] at hc'
        split at hc'
        · injection hc' with hc'; subst hc'
          exact absurd ⟨hi.symm, hk.symm⟩ hne'
        · cases hc'

theorem snoc_inj {α : Type} {a b : List α} {x y : α} (h : a ++ [x] = b ++ [y]) : a = b ∧ x = y := by
  have := List.append_inj' h rfl
  exact ⟨this.1, by have := this.2; injection this⟩

/-- What was made and not discarded is what the injector holds. -/
theorem made_cached {f : Nat} {cs : List Cmd} {i : Nat} {k : Key} {n : Nat} (hm : Made f cs i k n) (hcm : Cmds cs) :
    (reach f cs).caches i k = some (.res n) := by
  induction hm with
  | now cs c i k n call pr hl hr hle hc hi hk hp hN => exact (run_keep hcm hr).2 n call hle hc hi hk
  | later cs c i k n _ hr ih => exact (run_keep hcm hr).1 _ (ih hcm.snoc.1)

/-! ## The property -/

/-- **C106.** If the history made a value for `k` in injector `i` and has not discarded it, it is unique. -/
theorem C106_made_unique {f : Nat} {cs : List Cmd} (h : Cmds cs) {i : Nat} {k : Key} {n m : Nat} (h1 : Made f cs i k n) (h2 : Made f cs i k m) :
    n = m := by
  have := (made_cached h1 h).symm.trans (made_cached h2 h)
  injection this with this; injection this

/-- **C106.** If the history made a value for `k` in `i` and has not discarded it, a successful `Find` gives exactly this value and
calls nothing. -/
theorem C106_made_is_found {f f' : Nat} {cs : List Cmd} (h : Cmds cs) {i : Nat} {k : Key} (hk : k ≠ []) {n : Nat} (hm : Made f cs i k n) {v : Val} {s' : St}
    (hf : find f' (reach f cs) i k = (.ok v, s')) : v = .res n ∧ s'.calls = (reach f cs).calls := by
  obtain ⟨pr, _, hrest⟩ := C22_find_is_nearest h hk hf
  rw [made_cached hm h] at hrest
  exact hrest

/-- **C106.** Otherwise it gives the value of the nearest provider, or the result of calling the nearest provider's function now,
as the last call made. -/
theorem C106_not_made_is_nearest {f f' : Nat} {cs : List Cmd} (h : Cmds cs) {i : Nat} {k : Key} (hk : k ≠ []) (hm : ∀ n, ¬ Made f cs i k n)
    {v : Val} {s' : St} (hf : find f' (reach f cs) i k = (.ok v, s')) :
    ∃ pr, Nearest cs i k pr ∧ ((pr.kind = .value v ∧ s'.calls = (reach f cs).calls) ∨
      ∃ deps out p args new, pr.kind = .func deps out ∧ (reach f cs).provs[p]? = some pr ∧
        s'.calls = (reach f cs).calls ++ new ++ [⟨i, p, k, args⟩] ∧ v = .res (s'.calls.length - 1)) := by
  obtain ⟨pr, hN, hrest⟩ := C22_find_is_nearest h hk hf
  refine ⟨pr, hN, ?_⟩
  cases hc : (reach f cs).caches i k with
  | none => rw [hc] at hrest; exact hrest
  | some w =>
    obtain ⟨n, _, h2⟩ := cached_made f i k cs h w hc
    exact absurd h2 (hm n)

/-- **C106.** A made value can be found as long as some provider for its type is in reach: `Find` does not fail. -/
theorem C106_made_can_be_found {f f' : Nat} {cs : List Cmd} (h : Cmds cs) {i : Nat} {k : Key} {n : Nat} (hm : Made f cs i k n)
    {pr : Prov} (hN : Nearest cs i k pr) : (find (f' + 1) (reach f cs) i k).1 = .ok (.res n) := by
  obtain ⟨p, hp, hpr⟩ := (get_nearest (f := f) h i k pr).2 hN
  obtain ⟨pr', h1, h2⟩ := get_prov (WF.reach f cs h) hp
  have : pr.name = k := by rw [hpr] at h1; injection h1 with h1; rw [h1]; exact h2
  subst this
  simp only [find, hp]
  rw [invoke_cached (s := clr (reach f cs)) hpr (made_cached hm h)]

/-- The value `a` of type `d` which injector `i` used after the history `cs`, when the calls made are `calls`: one made by the
history and not discarded, or else the value of the nearest provider, or the result of a new call of its function. -/
def Uses (f : Nat) (cs : List Cmd) (calls : List Call) (i : Nat) (d : Key) (a : Val) : Prop :=
  (∃ n, a = .res n ∧ Made f cs i d n) ∨ (∃ pr, Nearest cs i d pr ∧ pr.kind = .value a) ∨
  ∃ n c pr deps out, a = .res n ∧ (reach f cs).calls.length ≤ n ∧ calls[n]? = some c ∧ c.inj = i ∧ c.name = d ∧
    (reach f cs).provs[c.prov]? = some pr ∧ pr.kind = .func deps out ∧ Nearest cs i d pr

theorem Uses.append {f : Nat} {cs : List Cmd} {l : List Call} {i : Nat} {d : Key} {a : Val} (h : Uses f cs l i d a) (m : List Call) :
    Uses f cs (l ++ m) i d a := by
  rcases h with h | h | ⟨n, c, pr, deps, out, h1, h2, h3, h4⟩
  · exact .inl h
  · exact .inr (.inl h)
  · exact .inr (.inr ⟨n, c, pr, deps, out, h1, h2, getElem?_append_some h3 _, h4⟩)

theorem LkA.uses {f : Nat} {cs : List Cmd} (hcm : Cmds cs) {i : Nat} {t s' : St} {l : List Call} (h : LkA i t s' l)
    (e1 : t.values = (reach f cs).values) (e2 : t.parent = (reach f cs).parent) (e3 : ∃ m, t.provs = (reach f cs).provs ++ m)
    (e4 : t.caches = (reach f cs).caches) (e5 : t.calls = (reach f cs).calls) {d : Key} {a : Val} (hd : Holds s' i d a) :
    Uses f cs s'.calls i d a := by
  have hget : get s' i d = get (reach f cs) i d := (h.lk.ext.get i d).trans (get_congr e1 e2 i d)
  obtain ⟨m, hm⟩ := e3
  have hw := WF.reach f cs hcm
  have hprov : ∀ p, get (reach f cs) i d = some p → ∃ pr, (reach f cs).provs[p]? = some pr ∧ s'.provs[p]? = some pr ∧ Nearest cs i d pr := by
    intro p hp
    obtain ⟨pr, h1, _⟩ := get_prov hw hp
    refine ⟨pr, h1, ?_, (get_nearest (f := f) hcm i d pr).1 ⟨p, hp, h1⟩⟩
    rw [h.lk.ext.provs, hm]; exact getElem?_append_some h1 _
  rcases hd with hd | ⟨_, p, pr, h1, h2, h3⟩
  · rcases h.cv d a hd with h1 | ⟨n, c, h1, h2, h3, h4, h5, h6⟩
    · rw [e4] at h1
      obtain ⟨n, g1, g2⟩ := cached_made f i d cs hcm a h1
      exact .inl ⟨n, g1, g2⟩
    · have hg : get (reach f cs) i d = some c.prov := (get_congr e1 e2 i d).symm.trans h6
      obtain ⟨pr, g1, g2, g3⟩ := hprov _ hg
      have hmem : c ∈ l := by
        rw [h.lk.calls, List.getElem?_append_right h2] at h3
        exact List.mem_of_getElem? h3
      obtain ⟨pr', deps, out, k1, k2, _⟩ := h.args c hmem
      rw [g2] at k1; injection k1 with k1; subst k1
      exact .inr (.inr ⟨n, c, pr, deps, out, h1, by rw [← e5]; exact h2, h3, h4, h5, g1, k2, g3⟩)
  · rw [hget] at h1
    obtain ⟨pr', g1, g2, g3⟩ := hprov p h1
    rw [g2] at h2; injection h2 with h2; subst h2
    exact .inr (.inl ⟨pr', g3, h3⟩)

/-- **C106.** The arguments of every provider function called by a `Find`: what the injector made before, or else what the nearest
provider gives. -/
theorem C106_arguments {f f' : Nat} {cs : List Cmd} (h : Cmds cs) {i : Nat} {k : Key} (hk : k ≠ []) :
    ∃ new, (find f' (reach f cs) i k).2.calls = (reach f cs).calls ++ new ∧ ∀ c ∈ new, c.inj = i ∧ (∀ n, ¬ Made f cs i c.name n) ∧
      ∃ pr deps out, (reach f cs).provs[c.prov]? = some pr ∧ Nearest cs i c.name pr ∧ pr.kind = .func deps out ∧ c.args.length = deps.length ∧
        ∀ d a, (d, a) ∈ deps.zip c.args → Uses f cs ((reach f cs).calls ++ new) i d a := by
  obtain ⟨l, hl, _⟩ := find_lka f' (reach f cs) i k (WF.reach f cs h) hk
  refine ⟨l, hl.lk.calls, ?_⟩
  intro c hc
  obtain ⟨h1, h2, h3, _, _⟩ := hl.lk.call c hc
  obtain ⟨pr, deps, out, g1, g2, g3, g4⟩ := hl.args c hc
  have hp := hl.lk.ext.provs
  have g1' : (reach f cs).provs[c.prov]? = some pr := by rw [hp] at g1; exact g1
  refine ⟨h1, ?_, pr, deps, out, g1', ?_, g2, g3, ?_⟩
  · intro n hn
    have := made_cached hn h
    have h3' : (reach f cs).caches i c.name = none := h3
    rw [h3'] at this; cases this
  · exact (get_nearest (f := f) h i c.name pr).1 ⟨c.prov, (get_clr _ _ _).symm.trans h2, g1'⟩
  · intro d a hda
    have := hl.uses (f := f) h rfl rfl ⟨[], by simp⟩ rfl rfl (g4 d a hda)
    rw [hl.lk.calls] at this
    exact this

theorem cached_iff_made {f : Nat} {cs : List Cmd} (h : Cmds cs) (i : Nat) :
    (fun x => (reach f cs).caches i x ≠ none) = fun x => ∃ n, Made f cs i x n := by
  funext x
  apply propext
  constructor
  · intro hx
    cases hc : (reach f cs).caches i x with
    | none => exact absurd hc hx
    | some v => obtain ⟨n, _, h2⟩ := cached_made f i x cs h v hc; exact ⟨n, h2⟩
  · rintro ⟨n, hn⟩ hx
    rw [made_cached hn h] at hx; cases hx

/-- **C106.** `Find` succeeds, for some nesting depth, exactly when the type can be made from the providers in reach and what the
history made in this injector. -/
theorem C106_find_succeeds_iff {f : Nat} {cs : List Cmd} (h : Cmds cs) {i : Nat} {k : Key} (hk : k ≠ []) :
    (∃ f' v, (find f' (reach f cs) i k).1 = .ok v) ↔ Can cs (fun x => ∃ n, Made f cs i x n) i k := by
  rw [← cached_iff_made h]; exact C25_find_iff h hk

/-! ## C107: `Invoke` exactly -/

/-- **C107.** `Invoke` of a function whose result type the history made in this injector (and did not discard): the function is not
called, nothing is; the old value is returned, and discarded. -/
theorem C107_invoke_made {f f' : Nat} {cs : List Cmd} (h : Cmds cs) {i : Nat} {pr : Prov} {n : Nat} (hm : Made f cs i pr.name n) :
    (invokeFn (f' + 1) (reach f cs) i pr).1 = .ok (.res n) ∧ (invokeFn (f' + 1) (reach f cs) i pr).2.calls = (reach f cs).calls ∧
    (invokeFn (f' + 1) (reach f cs) i pr).2.caches i pr.name = none := by
  rw [invokeFn_cached (made_cached hm h)]
  refine ⟨rfl, rfl, ?_⟩
  simp only
  rw [upd_same, upd_same]

/-- **C107.** Otherwise: when `Invoke` succeeds its function was called exactly once, after everything else, with the values its
argument types have; that call's result is returned, and nothing is kept for its type; when it fails the function was not called. -/
theorem C107_invoke_not_made {f f' : Nat} {cs : List Cmd} (h : Cmds cs) {i : Nat} {pr : Prov} {deps : List Key} {out : Bool} (hw : pr.Wf)
    (hk : pr.kind = .func deps out) (hm : ∀ n, ¬ Made f cs i pr.name n) {r : Res Val} {s' : St}
    (hf : invokeFn f' (reach f cs) i pr = (r, s')) :
    ∃ new, (∀ c ∈ new, c.inj = i ∧ c.prov < (reach f cs).provs.length) ∧
      match r with
      | .ok v => ∃ args, s'.calls = (reach f cs).calls ++ new ++ [⟨i, (reach f cs).provs.length, pr.name, args⟩] ∧
          v = .res (s'.calls.length - 1) ∧ s'.caches i pr.name = none ∧ args.length = deps.length ∧
          ∀ d a, (d, a) ∈ deps.zip args → Uses f cs ((reach f cs).calls ++ new) i d a
      | _ => s'.calls = (reach f cs).calls ++ new := by
  have w := WF.reach f cs h
  have hc : (reach f cs).caches i pr.name = none := by
    cases hx : (reach f cs).caches i pr.name with
    | none => rfl
    | some v =>
      obtain ⟨n, _, h2⟩ := cached_made f i pr.name cs h v hx
      exact absurd h2 (hm n)
  cases f' with
  | zero =>
    have : invokeFn 0 (reach f cs) i pr = (.diverge, withFn (reach f cs) pr) := rfl
    rw [this] at hf
    injection hf with h1 h2; subst h1; subst h2
    exact ⟨[], by simp, by simp⟩
  | succ f' =>
    rw [invokeFn_func hc hk] at hf
    have hpush : Lk i (withFn (reach f cs) pr) { withFn (reach f cs) pr with status := [pr.name] } [] := Lk.push (withFn (reach f cs) pr) pr.name
    obtain ⟨l, hl, hv⟩ := idep_val (i := i) (f := f') (fun s k q w hq hk => invoke_val i f' s k q w hq hk) deps []
      { withFn (reach f cs) pr with status := [pr.name] } (hpush.wf (w.withFn pr hw)) (Wf_deps hw hk)
    generalize idep f' i deps [] { withFn (reach f cs) pr with status := [pr.name] } = q at hf hl hv
    obtain ⟨q, s2⟩ := q
    have hcalls : s2.calls = (reach f cs).calls ++ l := hl.lk.calls
    have hnew : ∀ c ∈ l, c.inj = i ∧ c.prov < (reach f cs).provs.length := by
      intro c hcl
      obtain ⟨h1, h2, _⟩ := hl.lk.call c hcl
      have h2' : get (reach f cs) i c.name = some c.prov :=
        (get_congr (s := reach f cs) (s' := { withFn (reach f cs) pr with status := [pr.name] }) rfl rfl i c.name).symm.trans h2
      obtain ⟨prc, h3, _⟩ := get_prov w h2'
      exact ⟨h1, (List.getElem?_eq_some_iff.1 h3).1⟩
    refine ⟨l, hnew, ?_⟩
    cases q with
    | err => injection hf with h1 h2; subst h1; subst h2; exact hcalls
    | diverge => injection hf with h1 h2; subst h1; subst h2; exact hcalls
    | ok args =>
      injection hf with h1 h2; subst h1; subst h2
      obtain ⟨ws, e1, e2, e3⟩ := hv args rfl
      rw [List.nil_append] at e1; subst e1
      refine ⟨args, ?_, ?_, ?_, e2, ?_⟩
      · simp only [called]; rw [hcalls]
      · simp [called]
      · simp only; rw [upd_same, upd_same]
      · intro d a hda
        have := hl.uses (f := f) h rfl rfl ⟨[pr], rfl⟩ rfl rfl (e3 d a hda)
        rw [hcalls] at this
        exact this

/-- The hypotheses are met, on the history that refutes `C22`: the parent's provider is replaced after the child made its value.
The child keeps the value made by the old provider, another child gets the new one. -/
example : let T : Key := b!":T:"
    let cs : List Cmd := [.setParent 1 0, .setParent 2 0, .provide 0 ⟨T, .func [] true⟩, .find 1 T, .provide 0 ⟨T, .value (.obj 7)⟩]
    Cmds cs ∧ Made 9 cs 1 T 0 ∧ (find 9 (reach 9 cs) 1 T).1 = .ok (.res 0) ∧ (∀ n, ¬ Made 9 cs 2 T n) ∧
      (find 9 (reach 9 cs) 2 T).1 = .ok (.obj 7) := by
  intro T cs
  have hcm : Cmds cs := by
    intro c hc
    simp only [cs, List.mem_cons, List.not_mem_nil, or_false] at hc
    rcases hc with rfl | rfl | rfl | rfl | rfl
    · exact True.intro
    · exact True.intro
    · exact ⟨by decide, by decide⟩
    · exact (by decide : T ≠ [])
    · exact (by decide : T ≠ [])
  refine ⟨hcm, ?_, by decide +kernel, ?_, by decide +kernel⟩
  · obtain ⟨n, h1, h2⟩ := cached_made 9 1 T cs hcm (.res 0) (by decide +kernel)
    injection h1 with h1; subst h1; exact h2
  · intro n hn
    have := made_cached hn hcm
    have h0 : (reach 9 cs).caches 2 T = none := by decide +kernel
    rw [h0] at this; cases this

/-- Both cases of `C107` occur: the first `Invoke` finds the value made by the earlier lookup and does not call its function, the
second one calls it, with the value of `B`. -/
example : let T : Key := b!":T:"; let B : Key := b!":B:"
    let cs : List Cmd := [.provide 0 ⟨T, .func [] true⟩, .provide 0 ⟨B, .value (.obj 5)⟩, .find 0 T]
    let fn : Prov := ⟨T, .func [B] true⟩
    Cmds (cs ++ [.invoke 0 fn]) ∧ Made 9 cs 0 T 0 ∧ (∀ n, ¬ Made 9 (cs ++ [.invoke 0 fn]) 0 T n) ∧
      (invokeFn 9 (reach 9 (cs ++ [.invoke 0 fn])) 0 fn).2.calls = [⟨0, 0, T, []⟩, ⟨0, 3, T, [.obj 5]⟩] := by
  intro T B cs fn
  have hcm : Cmds (cs ++ [.invoke 0 fn]) := by
    intro c hc
    simp only [cs, List.cons_append, List.nil_append, List.mem_cons, List.not_mem_nil, or_false] at hc
    rcases hc with rfl | rfl | rfl | rfl
    · exact ⟨by decide, by decide⟩
    · exact (by decide : B ≠ [])
    · exact (by decide : T ≠ [])
    · exact ⟨⟨by decide, by decide⟩, [B], true, rfl⟩
  refine ⟨hcm, ?_, ?_, by decide +kernel⟩
  · obtain ⟨n, h1, h2⟩ := cached_made 9 0 T cs hcm.snoc.1 (.res 0) (by decide +kernel)
    injection h1 with h1; subst h1; exact h2
  · intro n hn
    have := made_cached hn hcm
    have h0 : (reach 9 (cs ++ [.invoke 0 fn])).caches 0 T = none := by decide +kernel
    rw [h0] at this; cases this

end Verif.Inj
