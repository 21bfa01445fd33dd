import Verif.Model.InjectConc
import Verif.Props.InjectSpec
import Verif.Proofs.InjectReach
/-!
# C87: concurrent requests do not disturb each other's injection
-/
namespace Verif.Inj

/-! ## Specification -/

/-- The dependencies of provider functions are not cyclic: types can be ranked such that a function only needs types of
smaller rank than the one it provides. -/
def Spec.Acyclic (prs : List Prov) : Prop :=
  ∃ rank : Key → Nat, ∀ pr ∈ prs, ∀ deps out, pr.kind = .func deps out → pr.name ≠ [] → ∀ d ∈ deps, rank d < rank pr.name

/-- The providers a request provides or invokes. -/
def Spec.provsOf (cs : List RCmd) : List Prov :=
  cs.filterMap fun c => match c with | .provide pr => some pr | .invoke pr => some pr | .find _ => none

/-- The calls are possible. -/
def Spec.RWf (cs : List RCmd) : Prop := ∀ c ∈ cs, match c with
  | .provide pr => pr.Wf
  | .find k => k ≠ []
  | .invoke pr => pr.Wf ∧ ∃ deps out, pr.kind = .func deps out

/-- A request running alone, in the sequential model of `Model/Inject.lean`: the results of its calls, and its state. -/
def Spec.alone (f i : Nat) : List RCmd → List (Option (Res Val)) → St → List (Option (Res Val)) × St
  | [], acc, s => (acc, s)
  | .provide pr :: cs, acc, s => Spec.alone f i cs (acc ++ [none]) (provideAs s i pr)
  | .find k :: cs, acc, s => Spec.alone f i cs (acc ++ [some (find f s i k).1]) (find f s i k).2
  | .invoke pr :: cs, acc, s => Spec.alone f i cs (acc ++ [some (invokeFn f s i pr).1]) (invokeFn f s i pr).2

/-! ## Programs that do not depend on what others add -/

/-- Whatever others add, the program returns `x`, and the counters it has added to are `lo'` at least. -/
def Det {α : Type} : Prog α → (Nat → Nat) → α → (Nat → Nat) → Prop
  | .ret a, lo, x, lo' => a = x ∧ lo = lo'
  | .load q k, lo, x, lo' => ∀ n, lo q ≤ n → Det (k n) lo x lo'
  | .inc q k, lo, x, lo' => Det k (upd lo q (lo q + 1)) x lo'

theorem Det.bind {α β : Type} {g : α → Prog β} {x : β} {lo2 : Nat → Nat} : ∀ (p : Prog α) (lo : Nat → Nat) (a : α) (lo1 : Nat → Nat),
    Det p lo a lo1 → Det (g a) lo1 x lo2 → Det (p.bind g) lo x lo2
  | .ret a', lo, a, lo1, h, h2 => by obtain ⟨rfl, rfl⟩ := h; exact h2
  | .load q k, lo, a, lo1, h, h2 => fun n hn => Det.bind (k n) lo a lo1 (h n hn) h2
  | .inc q k, lo, a, lo1, h, h2 => Det.bind k _ a lo1 h h2

/-- Names in progress of small rank have been completed. -/
def Fin (i : Nat) (rank : Key → Nat) (n : Nat) (s : St) : Prop :=
  ∀ k q, k ∈ s.status → k ≠ [] → rank k < n → get s i k = some q → 1 ≤ s.done q

/-- The functions provided are ranked. -/
def Ranked (rank : Key → Nat) (prs : List Prov) : Prop :=
  ∀ pr ∈ prs, ∀ deps out, pr.kind = .func deps out → pr.name ≠ [] → ∀ d ∈ deps, rank d < rank pr.name

/-- The names a successful lookup leaves are completed. -/
def Comp (i : Nat) (s s' : St) : Prop :=
  ∀ x ∈ s'.status, x ∈ s.status ∨ ∀ q, get s i x = some q → 1 ≤ s'.done q

theorem Comp.trans {i : Nat} {s s1 s2 : St} (h : Comp i s s1) (g : Comp i s1 s2) (e : Ext i s s1) (e2 : Ext i s1 s2) : Comp i s s2 := by
  intro x hx
  rcases g x hx with h1 | h1
  · rcases h x h1 with h2 | h2
    · exact .inl h2
    · exact .inr fun q hq => Nat.le_trans (h2 q hq) (e2.done q)
  · exact .inr fun q hq => h1 q (by rw [e.get]; exact hq)

theorem Fin.next {i : Nat} {rank : Key → Nat} {n : Nat} {s s' : St} (h : Fin i rank n s) (c : Comp i s s') (e : Ext i s s') : Fin i rank n s' := by
  intro k q hk hne hr hq
  rw [e.get] at hq
  rcases c k hk with h1 | h1
  · exact Nat.le_trans (h k q h1 hne hr hq) (e.done q)
  · exact h1 q hq

theorem deps_det {i : Nat} {rank : Key → Nat} {inv : St → Nat → Res Val × St} {invP : St → Nat → Prog (Res Val × St)} (n : Nat) (prs : List Prov)
    (hinv : ∀ s k q, WF s → s.provs = prs → k ≠ [] → get s i k = some q → rank k < n → Fin i rank (rank k) s →
      Det (invP s q) s.done (inv s q) (inv s q).2.done ∧ Ext i s (inv s q).2 ∧ WF (inv s q).2 ∧
      ∀ v, (inv s q).1 = .ok v → Comp i s (inv s q).2) :
    ∀ (ds : List Key) (acc : List Val) (s : St), WF s → s.provs = prs → [] ∉ ds → (∀ d ∈ ds, rank d < n) → Fin i rank n s →
      Det (invokeDepsP invP i ds acc s) s.done (invokeDeps inv i ds acc s) (invokeDeps inv i ds acc s).2.done ∧
      Ext i s (invokeDeps inv i ds acc s).2 ∧
      ∀ v, (invokeDeps inv i ds acc s).1 = .ok v → Comp i s (invokeDeps inv i ds acc s).2 := by
  intro ds
  induction ds with
  | nil => intro acc s w _ _ _ _; exact ⟨⟨rfl, rfl⟩, Ext.refl i s, fun _ _ x hx => .inl hx⟩
  | cons d ds ih =>
    intro acc s w hp hne hr hf
    have hd0 : d ≠ [] := fun h => hne (by simp [h])
    have hdr := hr d (by simp)
    simp only [invokeDepsP, invokeDeps]
    cases hq : get s i d with
    | none => exact ⟨⟨rfl, rfl⟩, Ext.refl i s, fun _ h => nomatch h⟩
    | some q =>
      have hname : nameOf s q = d := get_nameOf w hq
      have hno : ∀ m, s.done q ≤ m → ¬ (m = 0 ∧ nameOf s q ∈ s.status) := by
        rintro m hm ⟨rfl, h2⟩
        rw [hname] at h2
        have := hf d q h2 hd0 hdr hq
        omega
      simp only
      rw [if_neg (hno _ (Nat.le_refl _))]
      obtain ⟨h1, h2, h3, h4⟩ := hinv s d q w hp hd0 hq hdr (fun k q' a b c => hf k q' a b (by omega))
      generalize hx : inv s q = x at h1 h2 h3 h4 ⊢
      obtain ⟨r, s'⟩ := x
      cases r with
      | ok v =>
        have hc := h4 v rfl
        obtain ⟨g1, g2, g3⟩ := ih (acc ++ [v]) s' h3 (h2.provs.trans hp) (fun h => hne (by simp [h])) (fun d hd => hr d (by simp [hd]))
          (hf.next hc h2)
        refine ⟨?_, h2.trans g2, fun v hv => hc.trans (g3 v hv) h2 g2⟩
        intro m hm
        show Det (if m = 0 ∧ nameOf s q ∈ s.status then _ else _) _ _ _
        rw [if_neg (hno m hm)]
        exact Det.bind _ _ _ _ h1 g1
      | err =>
        refine ⟨?_, h2, fun _ h => nomatch h⟩
        intro m hm
        show Det (if m = 0 ∧ nameOf s q ∈ s.status then _ else _) _ _ _
        rw [if_neg (hno m hm)]
        exact Det.bind _ _ _ _ h1 ⟨rfl, rfl⟩
      | diverge =>
        refine ⟨?_, h2, fun _ h => nomatch h⟩
        intro m hm
        show Det (if m = 0 ∧ nameOf s q ∈ s.status then _ else _) _ _ _
        rw [if_neg (hno m hm)]
        exact Det.bind _ _ _ _ h1 ⟨rfl, rfl⟩

/-- One provider: `n` bounds the ranks of its dependencies. -/
theorem one_det {i : Nat} {rank : Key → Nat} {f : Nat} (n : Nat) (prs : List Prov)
    (hinv : ∀ s k q, WF s → s.provs = prs → k ≠ [] → get s i k = some q → rank k < n → Fin i rank (rank k) s →
      Det (invokeP f i s q) s.done (invoke f i s q) (invoke f i s q).2.done ∧ Ext i s (invoke f i s q).2 ∧ WF (invoke f i s q).2 ∧
      ∀ v, (invoke f i s q).1 = .ok v → Comp i s (invoke f i s q).2)
    (s : St) (p : Nat) (pr : Prov) (w : WF s) (hp : s.provs = prs) (hpr : s.provs[p]? = some pr)
    (hr : ∀ deps out, pr.kind = .func deps out → ∀ d ∈ deps, rank d < n) (hf : Fin i rank n s) (hn : pr.name ≠ [] → n ≤ rank pr.name) :
    Det (invokeP (f + 1) i s p) s.done (invoke (f + 1) i s p) (invoke (f + 1) i s p).2.done ∧
    ∀ v, (invoke (f + 1) i s p).1 = .ok v → ∀ x ∈ (invoke (f + 1) i s p).2.status,
      x ∈ s.status ∨ (x = pr.name ∧ 1 ≤ (invoke (f + 1) i s p).2.done p) ∨ ∀ q, get s i x = some q → 1 ≤ (invoke (f + 1) i s p).2.done q := by
  simp only [invokeP, invoke, hpr]
  cases hc : s.caches i pr.name with
  | some v => exact ⟨⟨rfl, rfl⟩, fun _ _ x hx => .inl hx⟩
  | none =>
    simp only
    cases hk : pr.kind with
    | value v =>
      refine ⟨⟨rfl, rfl⟩, fun _ _ x hx => ?_⟩
      rcases List.mem_cons.1 hx with rfl | hx
      · exact .inr (.inl ⟨rfl, by simp [upd_same]⟩)
      · exact .inl hx
    | func deps out =>
      simp only
      have hne : [] ∉ deps := Wf_deps (w.provs p pr hpr) hk
      have w' : WF { s with status := pr.name :: s.status } := w.status _
      obtain ⟨h1, h2, h3⟩ := deps_det n prs hinv deps [] { s with status := pr.name :: s.status } w' hp hne (hr deps out hk) (by
        intro k q hkm hk0 hlt hq
        rcases List.mem_cons.1 hkm with rfl | hkm
        · have := hn hk0; omega
        · exact hf k q hkm hk0 hlt ((get_congr (s := s) (s' := { s with status := pr.name :: s.status }) rfl rfl i k) ▸ hq))
      generalize invokeDeps (fun s q => invoke f i s q) i deps [] { s with status := pr.name :: s.status } = x at h1 h2 h3 ⊢
      obtain ⟨r, s'⟩ := x
      cases r with
      | ok args =>
        refine ⟨Det.bind _ _ _ _ h1 ⟨rfl, rfl⟩, fun _ _ x hx => ?_⟩
        rcases h3 _ rfl x hx with h4 | h4
        · rcases List.mem_cons.1 h4 with rfl | h4
          · exact .inr (.inl ⟨rfl, by simp [upd_same]⟩)
          · exact .inl h4
        · refine .inr (.inr fun q hq => ?_)
          have := h4 q ((get_congr (s := s) (s' := { s with status := pr.name :: s.status }) rfl rfl i x).trans hq)
          simp only at this ⊢
          by_cases hqp : q = p
          · subst hqp; rw [upd_same]; omega
          · rw [upd_ne _ _ _ _ hqp]; exact this
      | err => exact ⟨Det.bind _ _ _ _ h1 ⟨rfl, rfl⟩, fun _ h => nomatch h⟩
      | diverge => exact ⟨Det.bind _ _ _ _ h1 ⟨rfl, rfl⟩, fun _ h => nomatch h⟩

theorem invoke_det {i : Nat} {rank : Key → Nat} {prs : List Prov} (hr : Ranked rank prs) : ∀ (f : Nat) (s : St) (k : Key) (p : Nat),
    WF s → s.provs = prs → k ≠ [] → get s i k = some p → Fin i rank (rank k) s →
    Det (invokeP f i s p) s.done (invoke f i s p) (invoke f i s p).2.done ∧ Ext i s (invoke f i s p).2 ∧ WF (invoke f i s p).2 ∧
    ∀ v, (invoke f i s p).1 = .ok v → Comp i s (invoke f i s p).2 := by
  intro f
  induction f with
  | zero => intro s k p w _ _ _ _; exact ⟨⟨rfl, rfl⟩, Ext.refl i s, w, fun _ h => nomatch h⟩
  | succ f ih =>
    intro s k p w hp hk hq hf
    obtain ⟨pr, hpr, hname⟩ := get_prov w hq
    obtain ⟨⟨l, hl⟩, _⟩ := invoke_lk i (f + 1) s k p w hq hk
    obtain ⟨h1, h2⟩ := one_det (f := f) (rank k) prs (fun s k' q w hp' hk' hq' _ hf' => ih s k' q w hp' hk' hq' hf') s p pr w hp hpr
      (fun deps out hkk d hd => hname ▸ hr pr (hp ▸ List.mem_of_getElem? hpr) deps out hkk (hname ▸ hk) d hd) hf (fun _ => by rw [hname]; exact Nat.le_refl _)
    refine ⟨h1, hl.ext, hl.wf w, fun v hv x hx => ?_⟩
    rcases h2 v hv x hx with h3 | ⟨rfl, h3⟩ | h3
    · exact .inl h3
    · refine .inr fun q hq' => ?_
      rw [hname, hq] at hq'
      cases hq'
      exact h3
    · exact .inr h3

/-! ## Requests -/

theorem Ranked.mono {rank : Key → Nat} {a b : List Prov} (h : Ranked rank b) (hab : ∀ x ∈ a, x ∈ b) : Ranked rank a :=
  fun pr hp => h pr (hab pr hp)

theorem exists_above (rank : Key → Nat) (l : List Key) : ∃ n, ∀ d ∈ l, rank d < n := by
  induction l with
  | nil => exact ⟨0, by simp⟩
  | cons a l ih =>
    obtain ⟨n, hn⟩ := ih
    refine ⟨max n (rank a + 1), ?_⟩
    intro d hd
    rcases List.mem_cons.1 hd with rfl | hd
    · omega
    · have := hn d hd; omega

theorem req_det {f i : Nat} {rank : Key → Nat} : ∀ (cs : List RCmd) (acc : List (Option (Res Val))) (s : St), WF s → Spec.RWf cs →
    Ranked rank (s.provs ++ Spec.provsOf cs) →
    Det (reqProg f i cs acc s) s.done (Spec.alone f i cs acc s) (Spec.alone f i cs acc s).2.done := by
  intro cs
  induction cs with
  | nil => intro acc s _ _ _; exact ⟨rfl, rfl⟩
  | cons c cs ih =>
    intro acc s w hwf hr
    have hwf' : Spec.RWf cs := fun c hc => hwf c (by simp [hc])
    have hc := hwf c (by simp)
    cases c with
    | provide pr =>
      simp only at hc
      exact ih (acc ++ [none]) (provideAs s i pr) (w.provideAs i pr hc) hwf' (hr.mono (by
        intro x hx
        simp only [provideAs, List.mem_append, List.mem_singleton] at hx
        simp only [Spec.provsOf, List.filterMap_cons, List.mem_append, List.mem_cons]
        rcases hx with (h | h) | h
        · exact .inl h
        · exact .inr (.inl h)
        · exact .inr (.inr h)))
    | find k =>
      simp only at hc
      obtain ⟨l, hl, _⟩ := find_lk f s i k w hc
      have hprov : (find f s i k).2.provs = s.provs := hl.ext.provs
      have htail := ih (acc ++ [some (find f s i k).1]) (find f s i k).2 (hl.wf (w.status [])) hwf' (by
        rw [hprov]
        exact hr)
      refine Det.bind _ _ (some (find f s i k).1, (find f s i k).2) _ ?_ htail
      simp only [RCmd.prog, find]
      cases hq : get s i k with
      | none => exact ⟨rfl, rfl⟩
      | some p =>
        obtain ⟨h1, _⟩ := invoke_det (hr.mono (fun x hx => List.mem_append.2 (.inl hx))) f { s with status := [] } k p (w.status []) rfl hc
          ((get_clr s i k).trans hq) (by intro k q h; cases h)
        exact Det.bind _ _ _ _ h1 ⟨rfl, rfl⟩
    | invoke pr =>
      obtain ⟨hpr, deps, out, hkind⟩ := hc
      have hprov : (invokeFn f s i pr).2.provs = s.provs ++ [pr] := by
        have e := (invoke_ext i f { s with provs := s.provs ++ [pr], status := [] } ((s.provs ++ [pr]).length - 1)).provs
        unfold invokeFn
        simp only
        split
        · rename_i heq; rw [heq] at e; exact e
        · exact e
      have htail := ih (acc ++ [some (invokeFn f s i pr).1]) (invokeFn f s i pr).2 (w.run f (.invoke i pr) ⟨hpr, deps, out, hkind⟩) hwf' (by
        rw [hprov]
        refine hr.mono fun x hx => ?_
        simp only [List.mem_append, List.mem_singleton] at hx
        simp only [Spec.provsOf, List.filterMap_cons, List.mem_append, List.mem_cons]
        rcases hx with (h | h) | h
        · exact .inl h
        · exact .inr (.inl h)
        · exact .inr (.inr h))
      refine Det.bind _ _ (some (invokeFn f s i pr).1, (invokeFn f s i pr).2) _ ?_ htail
      have hr2 : Ranked rank (s.provs ++ [pr]) := hr.mono (by
        intro x hx
        simp only [List.mem_append, List.mem_singleton] at hx
        simp only [Spec.provsOf, List.filterMap_cons, List.mem_append, List.mem_cons]
        rcases hx with h | h
        · exact .inl h
        · exact .inr (.inl h))
      have hmain : Det (invokeP f i { s with provs := s.provs ++ [pr], status := [] } s.provs.length) s.done
          (invoke f i { s with provs := s.provs ++ [pr], status := [] } s.provs.length)
          (invoke f i { s with provs := s.provs ++ [pr], status := [] } s.provs.length).2.done := by
        cases f with
        | zero => exact ⟨rfl, rfl⟩
        | succ f =>
          have w2 : WF { s with provs := s.provs ++ [pr], status := [] } := (w.prov pr hpr).status []
          obtain ⟨n0, hn0⟩ := exists_above rank deps
          obtain ⟨n, hn1, hn2⟩ : ∃ n, (∀ d ∈ deps, rank d < n) ∧ (pr.name ≠ [] → n ≤ rank pr.name) := by
            by_cases h0 : pr.name = []
            · exact ⟨n0, hn0, fun h => absurd h0 h⟩
            · exact ⟨rank pr.name, hr2 pr (by simp) deps out hkind h0, fun _ => Nat.le_refl _⟩
          exact (one_det (f := f) n (s.provs ++ [pr]) (fun s k q w hp hk hq _ hf => invoke_det hr2 f s k q w hp hk hq hf)
            { s with provs := s.provs ++ [pr], status := [] } s.provs.length pr w2 rfl (by simp)
            (by intro deps' out' hk'; rw [hkind] at hk'; cases hk'; exact hn1) (by intro k q h; cases h) hn2).1
      have hlen : (s.provs ++ [pr]).length - 1 = s.provs.length := by simp
      simp only [RCmd.prog, invokeFn, hlen]
      refine Det.bind _ _ _ _ hmain ?_
      generalize invoke f i { s with provs := s.provs ++ [pr], status := [] } s.provs.length = x
      obtain ⟨r, s'⟩ := x
      cases r <;> exact ⟨rfl, rfl⟩

/-! ## Schedules -/

theorem addr_inj {base t q q' : Nat} (h : addr base t q = addr base t q') : q = q' := by
  unfold addr at h
  split at h <;> split at h <;> cases h <;> rfl

/-- What holds of request `t`: it will return `x` whatever the others do. -/
def Ok {α : Type} (base : Nat) (mem : Addr → Nat) (t : Nat) (p : Prog α) (x : α) : Prop :=
  ∃ lo lo', (∀ q, lo q ≤ mem (addr base t q)) ∧ Det p lo x lo'

theorem Ok.mem {α : Type} {base t : Nat} {mem mem' : Addr → Nat} {p : Prog α} {x : α} (h : Ok base mem t p x) (hm : ∀ a, mem a ≤ mem' a) :
    Ok base mem' t p x := by
  obtain ⟨lo, lo', h1, h2⟩ := h
  exact ⟨lo, lo', fun q => Nat.le_trans (h1 q) (hm _), h2⟩

theorem step_mem {α : Type} (base : Nat) (m : Mach α) (t : Nat) (a : Addr) : m.mem a ≤ (m.step base t).mem a := by
  unfold Mach.step
  split <;> try exact Nat.le_refl _
  simp only [upd]
  split
  · rename_i h; subst h; omega
  · exact Nat.le_refl _

theorem step_ok {α : Type} (base : Nat) (m : Mach α) (t u : Nat) (p : Prog α) (x : α) (hp : m.threads[u]? = some p) (h : Ok base m.mem u p x) :
    ∃ p', (m.step base t).threads[u]? = some p' ∧ Ok base (m.step base t).mem u p' x := by
  by_cases htu : t = u
  · subst htu
    cases p with
    | ret a =>
      have : m.step base t = m := by simp only [Mach.step, hp]
      rw [this]
      exact ⟨_, hp, h⟩
    | load q k =>
      have e : m.step base t = { m with threads := m.threads.set t (k (m.mem (addr base t q))) } := by simp only [Mach.step, hp]
      rw [e]
      have hlt := (List.getElem?_eq_some_iff.1 hp).1
      refine ⟨_, List.getElem?_set_self hlt, ?_⟩
      obtain ⟨lo, lo', h1, h2⟩ := h
      exact ⟨lo, lo', h1, h2 _ (h1 q)⟩
    | inc q k =>
      have e : m.step base t = ⟨upd m.mem (addr base t q) (m.mem (addr base t q) + 1), m.threads.set t k⟩ := by simp only [Mach.step, hp]
      rw [e]
      have hlt := (List.getElem?_eq_some_iff.1 hp).1
      refine ⟨_, List.getElem?_set_self hlt, ?_⟩
      obtain ⟨lo, lo', h1, h2⟩ := h
      refine ⟨_, lo', ?_, h2⟩
      intro q'
      simp only [upd]
      by_cases hq : q' = q
      · subst hq; simp only [if_true]; have := h1 q'; omega
      · rw [if_neg hq, if_neg (fun e => hq (addr_inj e))]; exact h1 q'
  · have hthr : (m.step base t).threads[u]? = m.threads[u]? := by
      unfold Mach.step
      split <;> first | rfl | simp only [List.getElem?_set_ne htu]
    exact ⟨p, hthr.trans hp, h.mem (step_mem base m t)⟩

theorem run_ok {α : Type} (base : Nat) (sched : List Nat) : ∀ (m : Mach α) (u : Nat) (p : Prog α) (x : α), m.threads[u]? = some p →
    Ok base m.mem u p x → ∃ p', (m.run base sched).threads[u]? = some p' ∧ Ok base (m.run base sched).mem u p' x := by
  induction sched with
  | nil => intro m u p x hp h; exact ⟨p, hp, h⟩
  | cons t ts ih =>
    intro m u p x hp h
    obtain ⟨p', h1, h2⟩ := step_ok base m t u p x hp h
    exact ih _ u p' x h1 h2

/-- **C87.** Let an application, set up by any calls, serve any number of requests, each making any sequence of `Provide`,
`Find` and `Invoke` calls on its own injector, and let the provider functions not be cyclic. However the requests are
interleaved, a request that has finished got from each of its calls exactly the result it would have got alone, called
the same provider functions with the same arguments and has the same values in its injector. -/
theorem C87_requests_independent (f : Nat) (app : List Cmd) (happ : Cmds app) (i j : Nat) (reqs : List (List RCmd))
    (hwf : ∀ cs ∈ reqs, Spec.RWf cs) (hac : ∀ cs ∈ reqs, Spec.Acyclic ((reach f app).provs ++ Spec.provsOf cs)) (sched : List Nat)
    (t : Nat) (cs : List RCmd) (ht : reqs[t]? = some cs) (r : List (Option (Res Val)) × St)
    (hr : ((start f (reach f app) i j reqs).run (reach f app).provs.length sched).threads[t]? = some (.ret r)) :
    r = Spec.alone f i cs [] (setParent (reach f app) i j) := by
  have hmem : cs ∈ reqs := List.mem_of_getElem? ht
  obtain ⟨rank, hrank⟩ := hac cs hmem
  have w : WF (setParent (reach f app) i j) := (WF.reach f app happ).setParent i j
  have hprov : (setParent (reach f app) i j).provs = (reach f app).provs := by unfold setParent; split <;> rfl
  have hdone : (setParent (reach f app) i j).done = (reach f app).done := by unfold setParent; split <;> rfl
  have hd := req_det (f := f) (i := i) (rank := rank) cs [] _ w (hwf cs hmem) (by rw [hprov]; exact hrank)
  obtain ⟨p', h1, lo, lo', h2, h3⟩ := run_ok (reach f app).provs.length sched (start f (reach f app) i j reqs) t
    (reqProg f i cs [] (setParent (reach f app) i j)) _ (by simp [start, ht]) ⟨_, _, by
      intro q
      rw [hdone]
      unfold addr start
      simp only
      split
      · rename_i h; split at h <;> cases h <;> exact Nat.le_refl _
      · rename_i h; split at h <;> cases h <;> exact Nat.le_refl _, hd⟩
  rw [hr] at h1
  cases h1
  exact h3.1

/-- **C87.** What one request adds stays its own: no step of another request changes the counter of a provider (numbered
from `base`, the number of the application's providers) that a request has added. -/
theorem C87_own_providers_private {α : Type} (base : Nat) (m : Mach α) (t u q : Nat) (htu : t ≠ u) (hq : base ≤ q) :
    (m.step base t).mem (addr base u q) = m.mem (addr base u q) := by
  have hu : addr base u q = .own u q := by unfold addr; rw [if_neg (by omega)]
  unfold Mach.step
  split
  · rfl
  · rfl
  · rfl
  · rename_i q' k _
    simp only [upd]
    rw [if_neg]
    rw [hu]
    unfold addr
    split
    · intro h; cases h
    · intro h; injection h with h1 h2; exact htu h1.symm

/-! ## Every request finishes -/

/-- The state after the first `n` steps of an infinite schedule. -/
def Spec.after {α : Type} (base : Nat) (σ : Nat → Nat) (m : Mach α) : Nat → Mach α
  | 0 => m
  | n + 1 => (Spec.after base σ m n).step base (σ n)

theorem step_other {α : Type} (base : Nat) (m : Mach α) (t u : Nat) (h : t ≠ u) : (m.step base t).threads[u]? = m.threads[u]? := by
  unfold Mach.step
  split <;> first | rfl | simp only [List.getElem?_set_ne h]

theorem reaches_turn {α : Type} (base : Nat) (σ : Nat → Nat) (m : Mach α) (t : Nat) (hfair : ∀ n, ∃ k, n ≤ k ∧ σ k = t) (n : Nat) :
    ∃ k, n ≤ k ∧ σ k = t ∧ (Spec.after base σ m k).threads[t]? = (Spec.after base σ m n).threads[t]? := by
  obtain ⟨k, hk, ht⟩ := hfair n
  obtain ⟨d, rfl⟩ := Nat.exists_eq_add_of_le hk
  clear hk
  induction d generalizing n with
  | zero => exact ⟨n, Nat.le_refl _, ht, rfl⟩
  | succ d ih =>
    by_cases hn : σ n = t
    · exact ⟨n, Nat.le_refl _, hn, rfl⟩
    · obtain ⟨k, h1, h2, h3⟩ := ih (n + 1) (by rw [← ht]; congr 1; omega)
      exact ⟨k, by omega, h2, h3.trans (step_other base _ _ _ hn)⟩

theorem finishes {α : Type} (base : Nat) (σ : Nat → Nat) (m : Mach α) (t : Nat) (hfair : ∀ n, ∃ k, n ≤ k ∧ σ k = t) (p : Prog α) :
    ∀ n, (Spec.after base σ m n).threads[t]? = some p → ∃ k r, (Spec.after base σ m k).threads[t]? = some (.ret r) := by
  induction p with
  | ret a => intro n h; exact ⟨n, a, h⟩
  | load q k ih =>
    intro n h
    obtain ⟨j, _, h2, h3⟩ := reaches_turn base σ m t hfair n
    rw [h] at h3
    refine ih ((Spec.after base σ m j).mem (addr base t q)) (j + 1) ?_
    show ((Spec.after base σ m j).step base (σ j)).threads[t]? = _
    rw [h2]
    simp only [Mach.step, h3]
    exact List.getElem?_set_self (List.getElem?_eq_some_iff.1 h3).1
  | inc q k ih =>
    intro n h
    obtain ⟨j, _, h2, h3⟩ := reaches_turn base σ m t hfair n
    rw [h] at h3
    refine ih (j + 1) ?_
    show ((Spec.after base σ m j).step base (σ j)).threads[t]? = _
    rw [h2]
    simp only [Mach.step, h3]
    exact List.getElem?_set_self (List.getElem?_eq_some_iff.1 h3).1

/-- **C87.** A request that is scheduled again and again finishes, whatever the others do, with the results it would have
got alone. -/
theorem C87_finishes (f : Nat) (app : List Cmd) (happ : Cmds app) (i j : Nat) (reqs : List (List RCmd))
    (hwf : ∀ cs ∈ reqs, Spec.RWf cs) (hac : ∀ cs ∈ reqs, Spec.Acyclic ((reach f app).provs ++ Spec.provsOf cs)) (σ : Nat → Nat)
    (t : Nat) (cs : List RCmd) (ht : reqs[t]? = some cs) (hfair : ∀ n, ∃ k, n ≤ k ∧ σ k = t) :
    ∃ n, (Spec.after (reach f app).provs.length σ (start f (reach f app) i j reqs) n).threads[t]? =
      some (.ret (Spec.alone f i cs [] (setParent (reach f app) i j))) := by
  have hrun : ∀ n, ∃ sched, Spec.after (reach f app).provs.length σ (start f (reach f app) i j reqs) n =
      (start f (reach f app) i j reqs).run (reach f app).provs.length sched := by
    have happend : ∀ (a b : List Nat) (m : Mach (List (Option (Res Val)) × St)), m.run (reach f app).provs.length (a ++ b) =
        (m.run (reach f app).provs.length a).run (reach f app).provs.length b := by
      intro a
      induction a with
      | nil => intro b m; rfl
      | cons x a ih => intro b m; exact ih b _
    intro n
    induction n with
    | zero => exact ⟨[], rfl⟩
    | succ n ih =>
      obtain ⟨sched, h⟩ := ih
      refine ⟨sched ++ [σ n], ?_⟩
      rw [happend, ← h]
      rfl
  obtain ⟨n, r, h⟩ := finishes (reach f app).provs.length σ (start f (reach f app) i j reqs) t hfair
    (reqProg f i cs [] (setParent (reach f app) i j)) 0 (by simp [Spec.after, start, ht])
  obtain ⟨sched, hs⟩ := hrun n
  refine ⟨n, ?_⟩
  rw [hs] at h ⊢
  rw [h, C87_requests_independent f app happ i j reqs hwf hac sched t cs ht r h]

/-! ## Examples -/

namespace Conc
def A : Key := b!":A:"
def B : Key := b!":B:"
def U : Key := b!":User:"
/-- The application provides `A` by a function and `B` by a function of `A`. -/
def app : List Cmd := [.provide 0 ⟨A, .func [] true⟩, .provide 0 ⟨B, .func [A] true⟩]
/-- One request finds `B`, then a handler takes `A` and `B`; the other provides a user and has a handler that takes `B`
and the user. -/
def reqs : List (List RCmd) := [[.find B, .invoke ⟨[], .func [A, B] false⟩], [.provide ⟨U, .value (.obj 7)⟩, .invoke ⟨[], .func [B, U] false⟩]]
def results (p : Option (Prog (List (Option (Res Val)) × St))) : Option (List (Option (Res Val)) × List Call) :=
  match p with
  | some (.ret r) => some (r.1, r.2.calls)
  | _ => none
def go (f : Nat) (app : List Cmd) (reqs : List (List RCmd)) (sched : List Nat) (t : Nat) : Option (List (Option (Res Val)) × List Call) :=
  results ((start f (reach f app) 9 0 reqs).run (reach f app).provs.length sched).threads[t]?
end Conc

open Conc in
example : Cmds app ∧ (∀ cs ∈ reqs, Spec.RWf cs) ∧ ∀ cs ∈ reqs, Spec.Acyclic ((reach 5 app).provs ++ Spec.provsOf cs) := by
  refine ⟨?_, ?_, ?_⟩
  · intro c hc
    simp only [app, List.mem_cons, List.not_mem_nil, or_false] at hc
    rcases hc with rfl | rfl <;> exact ⟨by decide, by decide⟩
  · intro cs hcs c hc
    simp only [reqs, List.mem_cons, List.not_mem_nil, or_false] at hcs
    rcases hcs with rfl | rfl
    · simp only [List.mem_cons, List.not_mem_nil, or_false] at hc
      rcases hc with rfl | rfl
      · exact (by decide : B ≠ [])
      · exact ⟨⟨by decide, by decide⟩, _, _, rfl⟩
    · simp only [List.mem_cons, List.not_mem_nil, or_false] at hc
      rcases hc with rfl | rfl
      · exact (by decide : U ≠ [])
      · exact ⟨⟨by decide, by decide⟩, _, _, rfl⟩
  · intro cs hcs
    refine ⟨fun k => if k = B then 1 else 0, ?_⟩
    have : ∀ cs ∈ reqs, ∀ pr ∈ (reach 5 app).provs ++ Spec.provsOf cs, (match pr.kind with
        | .func deps _ => decide (pr.name ≠ []) == false || deps.all (fun d => decide ((if d = B then 1 else 0) < (if pr.name = B then 1 else 0)))
        | .value _ => true) = true := by decide +kernel
    intro pr hpr deps out hk hn d hd
    have h := this cs hcs pr hpr
    rw [hk] at h
    simp only [Bool.or_eq_true, List.all_eq_true] at h
    rcases h with h | h
    · simp [hn] at h
    · exact of_decide_eq_true (h d hd)

/-- Interleaved step by step, both get the results they get alone. -/
example : (Conc.go 5 Conc.app Conc.reqs [0, 1, 0, 1, 1, 0, 1, 0, 0, 1, 1, 0, 0, 1, 0, 1, 0, 1] 0) =
    some ([some (.ok (.res 1)), some (.ok (.res 2))],
      [⟨9, 0, Conc.A, []⟩, ⟨9, 1, Conc.B, [.res 0]⟩, ⟨9, 2, [], [.res 0, .res 1]⟩]) := by decide +kernel

/-- **C87 fails for functions that need a value of their own result type**: such an `Invoke` fails if the request runs first,
and succeeds if another request has used the type before. -/
theorem C87_own_result_races_violated :
    ∃ (app : List Cmd) (reqs : List (List RCmd)) (sched sched' : List Nat), Cmds app ∧ (∀ cs ∈ reqs, Spec.RWf cs) ∧
      (Conc.go 5 app reqs sched 0).map (·.1) = some [some .err] ∧
      (Conc.go 5 app reqs sched' 0).map (·.1) = some [some (.ok (.res 1))] := by
  refine ⟨[.provide 0 ⟨Conc.U, .func [] true⟩], [[.invoke ⟨Conc.U, .func [Conc.U] true⟩], [.find Conc.U]], [0, 0, 0, 1, 1], [1, 1, 0, 0, 0, 0], ?_, ?_, ?_, ?_⟩
  · intro c hc
    simp only [List.mem_cons, List.not_mem_nil, or_false] at hc
    subst hc
    exact ⟨by decide, by decide⟩
  · intro cs hcs c hc
    simp only [List.mem_cons, List.not_mem_nil, or_false] at hcs
    rcases hcs with rfl | rfl
    · simp only [List.mem_cons, List.not_mem_nil, or_false] at hc
      subst hc
      exact ⟨⟨by decide, by decide⟩, _, _, rfl⟩
    · simp only [List.mem_cons, List.not_mem_nil, or_false] at hc
      subst hc
      exact (by decide : Conc.U ≠ [])
  · decide +kernel
  · decide +kernel

end Verif.Inj
