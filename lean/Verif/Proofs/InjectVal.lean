import Verif.Proofs.InjectReach
/-! # Proofs about the injector: which values are found, histories and nearest providers -/
namespace Verif.Inj

/-! ## `get` finds the nearest provider -/

theorem provided_snoc (cs : List Cmd) (c : Cmd) (i : Nat) (k : Key) :
    provided (cs ++ [c]) i k = match c with
      | .provide j pr => if j = i ∧ pr.name = k then some pr else provided cs i k
      | _ => provided cs i k := by
  simp only [provided, List.foldl_append, List.foldl_cons, List.foldl_nil]
  cases c <;> rfl

theorem parentIs_snoc (cs : List Cmd) (c : Cmd) (i : Nat) :
    parentIs (cs ++ [c]) i = match c with
      | .setParent x j => if x = i ∧ j < x then some j else parentIs cs i
      | _ => parentIs cs i := by
  simp only [parentIs, List.foldl_append, List.foldl_cons, List.foldl_nil]
  cases c <;> rfl

/-- The provider stored by injector `i` for `k`. -/
def stored (s : St) (i : Nat) (k : Key) : Option Prov := (s.values i k).bind (fun p => s.provs[p]?)

theorem run_static {s : St} (w : WF s) (f : Nat) (c : Cmd) (h : c.Wf) (hc : (∃ i k, c = .find i k) ∨ ∃ i pr, c = .invoke i pr) :
    (c.run f s).values = s.values ∧ (c.run f s).parent = s.parent ∧ ∃ l, (c.run f s).provs = s.provs ++ l := by
  rcases hc with ⟨i, k, rfl⟩ | ⟨i, pr, rfl⟩
  · obtain ⟨l, hl, _⟩ := find_lk f s i k w h
    exact ⟨hl.ext.values, hl.ext.parent, [], by rw [List.append_nil]; exact hl.ext.provs⟩
  · obtain ⟨hw, deps, out, hk⟩ := h
    simp only [Cmd.run]
    rcases invokeFn_lk f s i pr w hw hk with ⟨v, _, h2⟩ | ⟨l, s2, hl, _, ⟨h2, _⟩ | ⟨args, h2⟩⟩
    · rw [h2]; exact ⟨rfl, rfl, [pr], rfl⟩
    · rw [h2]; exact ⟨hl.ext.values, hl.ext.parent, [pr], hl.ext.provs⟩
    · rw [h2]; exact ⟨hl.ext.values, hl.ext.parent, [pr], hl.ext.provs⟩

theorem stored_append {s s' : St} (w : WF s) (hv : s'.values = s.values) {l : List Prov} (hp : s'.provs = s.provs ++ l) (i : Nat) (k : Key) :
    stored s' i k = stored s i k := by
  unfold stored
  rw [hv]
  cases hs : s.values i k with
  | none => rfl
  | some p =>
    obtain ⟨pr, h1, _⟩ := w.vals i k p hs
    simp only [Option.bind_some, hp]
    rw [getElem?_append_some h1, h1]

theorem stored_reach (f : Nat) : ∀ cs, Cmds cs → (∀ i k, stored (reach f cs) i k = provided cs i k) ∧
    ∀ i, (reach f cs).parent i = parentIs cs i := by
  intro cs
  refine snoc_ind (P := fun cs => Cmds cs → (∀ i k, stored (reach f cs) i k = provided cs i k) ∧
    ∀ i, (reach f cs).parent i = parentIs cs i) (fun _ => ⟨fun _ _ => rfl, fun _ => rfl⟩) ?_ cs
  intro cs c ih h
  obtain ⟨h1, h2⟩ := h.snoc
  obtain ⟨ih1, ih2⟩ := ih h1
  have w := WF.reach f cs h1
  rw [reach_snoc]
  cases c with
  | find i k =>
    obtain ⟨a, b, l, hl⟩ := run_static w f _ h2 (.inl ⟨i, k, rfl⟩)
    refine ⟨fun i k => ?_, fun i => ?_⟩
    · rw [stored_append w a hl, provided_snoc]; exact ih1 i k
    · rw [b, parentIs_snoc]; exact ih2 i
  | invoke i pr =>
    obtain ⟨a, b, l, hl⟩ := run_static w f _ h2 (.inr ⟨i, pr, rfl⟩)
    refine ⟨fun i k => ?_, fun i => ?_⟩
    · rw [stored_append w a hl, provided_snoc]; exact ih1 i k
    · rw [b, parentIs_snoc]; exact ih2 i
  | setParent i j =>
    refine ⟨fun i' k => ?_, fun i' => ?_⟩
    · rw [provided_snoc, ← ih1 i' k]
      simp only [Cmd.run, Inj.setParent]
      split <;> rfl
    · rw [parentIs_snoc, ← ih2 i']
      simp only [Cmd.run, Inj.setParent]
      by_cases hij : j < i
      · simp only [if_pos hij]
        by_cases hi : i' = i
        · subst hi; simp [upd_same, hij]
        · rw [upd_ne _ _ _ _ hi, if_neg (fun h => hi h.1.symm)]
      · simp [hij]
  | provide i pr =>
    refine ⟨fun i' k => ?_, fun i' => ?_⟩
    · rw [provided_snoc]
      simp only [Cmd.run, Inj.provideAs, stored]
      by_cases hi : i' = i
      · subst hi
        rw [upd_same]
        by_cases hk : k = pr.name
        · subst hk
          simp [upd_same]
        · rw [upd_ne _ _ _ _ hk, if_neg (fun h => hk h.2.symm), ← ih1 i' k]
          exact stored_append (s' := { reach f cs with provs := (reach f cs).provs ++ [pr] }) w rfl rfl i' k
      · rw [upd_ne _ _ _ _ hi, if_neg (fun h => hi h.1.symm), ← ih1 i' k]
        exact stored_append (s' := { reach f cs with provs := (reach f cs).provs ++ [pr] }) w rfl rfl i' k
    · rw [parentIs_snoc]; exact ih2 i'

/-- For any state that stores the providers and parents of a history. -/
theorem getN_nearest_of {s : St} {cs : List Cmd} (hs : ∀ i k, stored s i k = provided cs i k) (hp : ∀ i, s.parent i = parentIs cs i) (w : WF s)
    (k : Key) (pr : Prov) : ∀ n i, i < n →
    ((∃ p, getN s n i k = some p ∧ s.provs[p]? = some pr) ↔ Nearest cs i k pr) := by
  intro n
  induction n with
  | zero => intro i hi; omega
  | succ n ih =>
    intro i hi
    simp only [getN]
    have hsi := hs i k
    unfold stored at hsi
    cases hv : s.values i k with
    | some p =>
      rw [hv] at hsi
      simp only [Option.bind_some] at hsi
      constructor
      · rintro ⟨q, hq, hr⟩
        injection hq with hq; subst hq
        exact .own i k pr (by rw [← hsi]; exact hr)
      · intro hN
        cases hN with
        | own _ _ _ h => exact ⟨p, rfl, by rw [hsi]; exact h⟩
        | up _ j _ _ h _ _ =>
          obtain ⟨q, hq, _⟩ := w.vals i k p hv
          rw [← hsi, hq] at h; cases h
    | none =>
      rw [hv] at hsi
      simp only [Option.bind_none] at hsi
      simp only
      have hpi := hp i
      cases hpa : s.parent i with
      | none =>
        simp only
        constructor
        · rintro ⟨q, hq, _⟩; cases hq
        · intro hN
          cases hN with
          | own _ _ _ h => rw [← hsi] at h; cases h
          | up _ j _ _ _ h _ => rw [← hpi, hpa] at h; cases h
      | some j =>
        simp only
        have hj := w.parent i j hpa
        rw [ih j (by omega)]
        constructor
        · intro hN; exact .up i j k pr hsi.symm (by rw [← hpi, hpa]) hN
        · intro hN
          cases hN with
          | own _ _ _ h => rw [← hsi] at h; cases h
          | up _ j' _ _ _ h hN => rw [← hpi, hpa] at h; injection h with h; subst h; exact hN

theorem getN_nearest {f : Nat} {cs : List Cmd} (h : Cmds cs) (k : Key) (pr : Prov) : ∀ n i, i < n →
    ((∃ p, getN (reach f cs) n i k = some p ∧ (reach f cs).provs[p]? = some pr) ↔ Nearest cs i k pr) :=
  getN_nearest_of (stored_reach f cs h).1 (stored_reach f cs h).2 (WF.reach f cs h) k pr

/-- `get` is the nearest provider. -/
theorem get_nearest {f : Nat} {cs : List Cmd} (h : Cmds cs) (i : Nat) (k : Key) (pr : Prov) :
    (∃ p, get (reach f cs) i k = some p ∧ (reach f cs).provs[p]? = some pr) ↔ Nearest cs i k pr :=
  getN_nearest h k pr (i + 1) i (by omega)

/-! ## Values and arguments -/

/-- The value which type `k` has in injector `i`. -/
def Holds (s : St) (i : Nat) (k : Key) (v : Val) : Prop :=
  s.caches i k = some v ∨ (s.caches i k = none ∧ ∃ p pr, get s i k = some p ∧ s.provs[p]? = some pr ∧ pr.kind = .value v)

/-- The call was made with the values its function's argument types have. -/
def ArgsOk (s : St) (i : Nat) (c : Call) : Prop :=
  ∃ pr deps out, s.provs[c.prov]? = some pr ∧ pr.kind = .func deps out ∧ c.args.length = deps.length ∧
    ∀ d a, (d, a) ∈ deps.zip c.args → Holds s i d a

theorem Holds.lk {i : Nat} {s s' : St} {l : List Call} (h : Lk i s s' l) (ha : ∀ c ∈ l, ArgsOk s' i c) {k : Key} {v : Val}
    (hv : Holds s i k v) : Holds s' i k v := by
  rcases hv with hv | ⟨hv, p, pr, h1, h2, h3⟩
  · exact .inl (h.ext.mono k v hv)
  · right
    refine ⟨?_, p, pr, (h.ext.get i k).trans h1, h.ext.provs ▸ h2, h3⟩
    cases hc : s'.caches i k with
    | none => rfl
    | some v' =>
      rcases (h.caches k).1 (by rw [hc]; exact fun h => nomatch h) with hx | ⟨c, hcl, rfl⟩
      · exact absurd hv hx
      · obtain ⟨pr', deps, out, g1, g2, _⟩ := ha c hcl
        have := (h.call c hcl).2.1
        rw [h1] at this; injection this with this
        rw [h.ext.provs, ← this, h2] at g1; injection g1 with g1
        subst g1
        rw [h3] at g2; cases g2

theorem ArgsOk.lk {i : Nat} {s s' : St} {l : List Call} (h : Lk i s s' l) (ha : ∀ c ∈ l, ArgsOk s' i c) {c : Call}
    (hc : ArgsOk s i c) : ArgsOk s' i c := by
  obtain ⟨pr, deps, out, h1, h2, h3, h4⟩ := hc
  exact ⟨pr, deps, out, h.ext.provs ▸ h1, h2, h3, fun d a hda => (h4 d a hda).lk h ha⟩

/-- The effect of a step, with good arguments. -/
structure LkA (i : Nat) (s s' : St) (l : List Call) : Prop where
  lk : Lk i s s' l
  args : ∀ c ∈ l, ArgsOk s' i c
  cv : ∀ k v, s'.caches i k = some v → s.caches i k = some v ∨
    ∃ n c, v = .res n ∧ s.calls.length ≤ n ∧ s'.calls[n]? = some c ∧ c.inj = i ∧ c.name = k ∧ get s i k = some c.prov

theorem LkA.refl (i : Nat) (s : St) : LkA i s s [] := ⟨Lk.refl i s, by simp, fun _ _ h => .inl h⟩

theorem LkA.trans {i : Nat} {s s1 s2 : St} {l m : List Call} (h : LkA i s s1 l) (g : LkA i s1 s2 m) : LkA i s s2 (l ++ m) := by
  refine ⟨h.lk.trans g.lk, ?_, ?_⟩
  · intro c hc
    rcases List.mem_append.1 hc with hc | hc
    · exact (h.args c hc).lk g.lk g.args
    · exact g.args c hc
  · intro k v hv
    rcases g.cv k v hv with h1 | ⟨n, c, h1, h2, h3, h4, h5, h6⟩
    · rcases h.cv k v h1 with h1 | ⟨n, c, h1, h2, h3, h4⟩
      · exact .inl h1
      · exact .inr ⟨n, c, h1, h2, by rw [g.lk.calls]; exact getElem?_append_some h3 _, h4⟩
    · refine .inr ⟨n, c, h1, ?_, h3, h4, h5, (h.lk.ext.get i k).symm.trans h6⟩
      have := h.lk.calls
      rw [this] at h2
      simp only [List.length_append] at h2
      omega

theorem idep_val {i f : Nat}
    (hinv : ∀ s k q, WF s → get s i k = some q → k ≠ [] →
      ∃ l, LkA i s (invoke f i s q).2 l ∧ ∀ v, (invoke f i s q).1 = .ok v → Holds (invoke f i s q).2 i k v) :
    ∀ ds acc s, WF s → [] ∉ ds →
      ∃ l, LkA i s (idep f i ds acc s).2 l ∧ ∀ vs, (idep f i ds acc s).1 = .ok vs →
        ∃ ws, vs = acc ++ ws ∧ ws.length = ds.length ∧ ∀ d a, (d, a) ∈ ds.zip ws → Holds (idep f i ds acc s).2 i d a := by
  intro ds
  induction ds with
  | nil =>
    intro acc s w _
    refine ⟨[], LkA.refl i s, ?_⟩
    intro vs hvs
    simp only [idep, invokeDeps] at hvs
    injection hvs with hvs
    exact ⟨[], by simp [hvs], rfl, by simp⟩
  | cons d ds ih =>
    intro acc s w hne
    have hd : d ≠ [] := fun h => hne (by simp [h])
    have hds : [] ∉ ds := fun h => hne (by simp [h])
    simp only [idep, invokeDeps]
    split
    · exact ⟨[], LkA.refl i s, by simp⟩
    · rename_i q hq
      split
      · exact ⟨[], LkA.refl i s, by simp⟩
      · obtain ⟨l, hl, hv⟩ := hinv s d q w hq hd
        cases hr : invoke f i s q with
        | mk r s' =>
          rw [hr] at hl hv
          cases r with
          | ok v =>
            obtain ⟨m, hm, hm'⟩ := ih (acc ++ [v]) s' (hl.lk.wf w) hds
            refine ⟨l ++ m, hl.trans hm, ?_⟩
            intro vs hvs
            obtain ⟨ws, h1, h2, h3⟩ := hm' vs hvs
            refine ⟨v :: ws, by rw [h1]; simp, by simp [h2], ?_⟩
            intro d' a hda
            simp only [List.zip_cons_cons, List.mem_cons, Prod.mk.injEq] at hda
            rcases hda with ⟨rfl, rfl⟩ | hda
            · exact (hv a rfl).lk hm.lk hm.args
            · exact h3 d' a hda
          | err => exact ⟨l, hl, by simp⟩
          | diverge => exact ⟨l, hl, by simp⟩

theorem get_called (i p : Nat) (k : Key) (out : Bool) (args : List Val) (s : St) (j : Nat) (x : Key) :
    get (called i p k out args s) j x = get s j x := get_congr (s := s) (s' := called i p k out args s) rfl rfl j x

theorem invoke_val (i : Nat) : ∀ f s k p, WF s → get s i k = some p → k ≠ [] →
    ∃ l, LkA i s (invoke f i s p).2 l ∧ ∀ v, (invoke f i s p).1 = .ok v → Holds (invoke f i s p).2 i k v := by
  intro f
  induction f with
  | zero => intro s k p w hp hk; exact ⟨[], LkA.refl i s, by simp [invoke]⟩
  | succ f ih =>
    intro s k p w hp hk
    obtain ⟨pr, hpr, hn⟩ := get_prov w hp
    subst hn
    obtain ⟨l0, hl0, hnd⟩ := invoke_nodup i (f + 1) s pr.name p w hp hk
    cases hcc : s.caches i pr.name with
    | some v =>
      rw [invoke_cached hpr hcc]
      exact ⟨[], LkA.refl i s, fun v' hv' => by simp only [Res.ok.injEq] at hv'; subst hv'; exact .inl hcc⟩
    | none =>
      cases hkd : pr.kind with
      | value v =>
        rw [invoke_value hpr hcc hkd] at hl0 ⊢
        have : l0 = [] := List.self_eq_append_right.mp hl0.calls
        subst this
        refine ⟨[], ⟨hl0, by simp, fun _ _ h => .inl h⟩, ?_⟩
        intro v' hv'
        simp only [Res.ok.injEq] at hv'; subst hv'
        exact .inr ⟨hcc, p, pr, (hl0.ext.get i pr.name).trans hp, hpr, hkd⟩
      | func deps out =>
        have hdn := Wf_deps (w.provs p pr hpr) hkd
        have hout := Wf_out (w.provs p pr hpr) hkd hk
        subst hout
        have hpush : Lk i s { s with status := pr.name :: s.status } [] := Lk.push s pr.name
        obtain ⟨m, hm, hm'⟩ := idep_val (i := i) (f := f) ih deps [] { s with status := pr.name :: s.status } (hpush.wf w) hdn
        rw [invoke_func hpr hcc hkd] at hl0 ⊢
        simp only [idep] at hm hm'
        generalize invokeDeps (fun s q => invoke f i s q) i deps [] { s with status := pr.name :: s.status } = r at hm hm' hl0 ⊢
        obtain ⟨r, s1⟩ := r
        have hm1 : LkA i s s1 m := by
          have := LkA.trans ⟨hpush, by simp, fun _ _ h => .inl h⟩ hm
          simpa using this
        cases r with
        | err => exact ⟨m, hm1, by simp⟩
        | diverge => exact ⟨m, hm1, by simp⟩
        | ok args =>
          obtain ⟨ws, h1, h2, h3⟩ := hm' args rfl
          simp only [List.nil_append] at h1
          subst h1
          have h12 : l0 = m ++ [⟨i, p, pr.name, args⟩] := append_split (a := s.calls) (by
            have h1 := hm1.lk.calls
            have h2 := hl0.calls
            simp only [called] at h1 h2
            rw [← h2, h1])
          subst h12
          have hknew : s1.caches i pr.name = none := by
            cases hx : s1.caches i pr.name with
            | none => rfl
            | some v' =>
              rcases (hm1.lk.caches pr.name).1 (by rw [hx]; exact fun h => nomatch h) with hy | ⟨c, hc, hcn⟩
              · exact absurd hcc hy
              · exfalso
                rw [List.map_append, List.nodup_append] at hnd
                exact hnd.2.2 pr.name (List.mem_map.2 ⟨c, hc, hcn⟩) pr.name (by simp) rfl
          -- nothing known about other types changes by the call
          have hkeep : ∀ d a, Holds s1 i d a → Holds (called i p pr.name true args s1) i d a := by
            intro d a hda
            have hdk : d ≠ pr.name := by
              rintro rfl
              rcases hda with hda | ⟨_, p', pr', g1, g2, g3⟩
              · rw [hknew] at hda; cases hda
              · rw [hm1.lk.ext.get, hp] at g1; injection g1 with g1; subst g1
                rw [hm1.lk.ext.provs, hpr] at g2; injection g2 with g2; subst g2
                rw [hkd] at g3; cases g3
            have hce : (called i p pr.name true args s1).caches i d = s1.caches i d := by
              simp only [called, if_true, upd_same]
              rw [upd_ne _ _ _ _ hdk]
            rcases hda with hda | ⟨h0, p', pr', g1, g2, g3⟩
            · exact .inl (hce.trans hda)
            · exact .inr ⟨hce.trans h0, p', pr', (get_called _ _ _ _ _ _ _ _).trans g1, g2, g3⟩
          refine ⟨_, ⟨hl0, ?_, ?_⟩, ?_⟩
          · intro c hc
            rcases List.mem_append.1 hc with hc | hc
            · obtain ⟨pr', deps', out', g1, g2, g3, g4⟩ := hm1.args c hc
              exact ⟨pr', deps', out', g1, g2, g3, fun d a hda => hkeep d a (g4 d a hda)⟩
            · simp only [List.mem_singleton] at hc
              subst hc
              refine ⟨pr, deps, true, ?_, hkd, h2, ?_⟩
              · show s1.provs[p]? = some pr
                rw [hm1.lk.ext.provs]; exact hpr
              · intro d a hda
                exact hkeep d a (h3 d a hda)
          · intro x v hv
            by_cases hx : x = pr.name
            · subst hx
              simp only [called, if_true, upd_same, Option.some.injEq] at hv
              refine .inr ⟨s1.calls.length, ⟨i, p, pr.name, args⟩, hv.symm, ?_, by simp [called], rfl, rfl, hp⟩
              rw [hm1.lk.calls]; simp
            · simp only [called, if_true, upd_same] at hv
              rw [upd_ne _ _ _ _ hx] at hv
              rcases hm1.cv x v hv with h | ⟨n, c, g1, g2, g3, g4⟩
              · exact .inl h
              · exact .inr ⟨n, c, g1, g2, by simp only [called]; exact getElem?_append_some g3 _, g4⟩
          · intro v hv
            simp only [Res.ok.injEq] at hv
            subst hv
            left
            simp [called, upd_same]

end Verif.Inj
