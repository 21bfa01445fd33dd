import Verif.Props.App
import Verif.Props.FilterOrigin
/-!
# C156: what a guard refuses, nothing behind it sees
-/
namespace Verif.App
open Verif.Resp Verif.Ctx Verif.Router

/-! ## Specification -/

/-- A handler that does not call `Next`. -/
inductive Spec.NoNext : Act → Prop where
  | done : NoNext .done
  | panic (v) : NoNext (.panic v)
  | op {o k} : NoNext k → NoNext (.op o k)
  | written {k : Bool → Act} : (∀ b, NoNext (k b)) → NoNext (.written k)
  | stat {k : Nat → Nat → Act} : (∀ a b, NoNext (k a b)) → NoNext (.stat k)
  | eff {n k} : NoNext k → NoNext (.eff n k)
  | nest {n hs k} : NoNext k → NoNext (.nest n hs k)

/-- The end of a handler that closes the request: the response is written, or it panics (not with nil). -/
def Spec.Closed (o : RW × Option PVal) : Prop := o.1.written = true ∨ ∃ v, o.2 = some (some v)

/-- A guard that refuses the request: it does not call `Next`, and whatever came before it leaves the response written or
panics. -/
def Spec.Refuses (g : Act) : Prop := Spec.NoNext g ∧ ∀ w, Spec.Closed (Spec.alone g w)

/-- A filter in front of a guard that keeps to the rules: it calls `Next` at most once, and if it recovers a panic from
there, it answers the request or panics itself. -/
inductive Spec.Careful : Act → Prop where
  | done : Careful .done
  | panic (v) : Careful (.panic v)
  | next {k} : Spec.NoNext k → Careful (.next k)
  | tryNext {k : Option PVal → Act} : (∀ r, Spec.NoNext (k r)) → (∀ v w, Spec.Closed (Spec.alone (k (some (some v))) w)) →
      Careful (.tryNext k)
  | op {o k} : Careful k → Careful (.op o k)
  | written {k : Bool → Act} : (∀ b, Careful (k b)) → Careful (.written k)
  | stat {k : Nat → Nat → Act} : (∀ a b, Careful (k a b)) → Careful (.stat k)
  | eff {n k} : Careful k → Careful (.eff n k)
  | nest {n hs k} : Careful k → Careful (.nest n hs k)

/-! ## One handler -/

theorem noNext_nxt {a : Act} (h : Spec.NoNext a) : ∀ (i : Nat) (nxt nxt' : S → Out) (s : S), interp a i nxt s = interp a i nxt' s := by
  induction h with
  | done => intros; rfl
  | panic v => intros; rfl
  | op _ ih =>
    intro i nxt nxt' s
    simp only [interp]
    split
    · rfl
    · exact ih _ _ _ _
  | written _ ih => intro i nxt nxt' s; simp only [interp]; exact ih _ _ _ _ _
  | stat _ ih => intro i nxt nxt' s; simp only [interp]; exact ih _ _ _ _ _ _
  | eff _ ih => intro i nxt nxt' s; simp only [interp]; exact ih _ _ _ _
  | nest _ ih =>
    intro i nxt nxt' s
    simp only [interp]
    split
    · exact ih _ _ _ _
    · rfl

theorem noNext_state {a : Act} (h : Spec.NoNext a) : ∀ (i j : Nat) (nxt nxt' : S → Out) (s t : S), s.rw = t.rw →
    (interp a i nxt s).1.rw = (interp a j nxt' t).1.rw ∧ (interp a i nxt s).2 = (interp a j nxt' t).2 ∧
    (interp a i nxt s).1.idx = s.idx := by
  induction h with
  | done => intro i j nxt nxt' s t h; exact ⟨h, rfl, rfl⟩
  | panic v => intro i j nxt nxt' s t h; exact ⟨h, rfl, rfl⟩
  | @op o k _ ih =>
    intro i j nxt nxt' s t h
    simp only [interp]
    rw [h]
    cases t.rw.op o with
    | mk w b =>
      cases b with
      | true => exact ⟨rfl, rfl, rfl⟩
      | false => exact ih i j nxt nxt' _ _ rfl
  | written _ ih => intro i j nxt nxt' s t h; simp only [interp]; rw [h]; exact ih _ i j nxt nxt' s t h
  | stat _ ih => intro i j nxt nxt' s t h; simp only [interp]; rw [h]; exact ih _ _ i j nxt nxt' s t h
  | eff _ ih => intro i j nxt nxt' s t h; simp only [interp]; exact ih i j nxt nxt' _ _ h
  | @nest n hs k _ ih =>
    intro i j nxt nxt' s t h
    simp only [interp]
    rw [h]
    split
    · exact ih i j nxt nxt' _ _ rfl
    · exact ⟨rfl, rfl, rfl⟩

theorem alone_noNext {a : Act} (h : Spec.NoNext a) (i : Nat) (nxt : S → Out) (s : S) :
    Spec.alone a s.rw = ((interp a i nxt s).1.rw, (interp a i nxt s).2) := by
  obtain ⟨h1, h2, -⟩ := noNext_state h 0 i (fun s' => loop 1 (handlerOf [a]) 0 s'.bump) nxt ⟨0, s.rw, [.start 0]⟩ s rfl
  have e : run [a] s.rw = match interp a 0 (fun s' => loop 1 (handlerOf [a]) 0 s'.bump) ⟨0, s.rw, [.start 0]⟩ with
      | (s', some v) => (s', some v)
      | (s', none) =>
        if s'.rw.written then (s'.bump.push (.fin 0 s'.rw.written), none)
        else loop 1 (handlerOf [a]) 0 (s'.bump.push (.fin 0 s'.rw.written)) := rfl
  unfold Spec.alone
  rw [e, ← h1, ← h2]
  cases interp a 0 (fun s' => loop 1 (handlerOf [a]) 0 s'.bump) ⟨0, s.rw, [.start 0]⟩ with
  | mk s' r =>
    cases r with
    | some v => rfl
    | none =>
      simp only []
      split <;> rfl

theorem noNext_mono {a : Act} (h : Spec.NoNext a) (i : Nat) (nxt : S → Out) (s : S) (hw : s.rw.written = true) :
    (interp a i nxt s).1.rw.written = true := by
  rw [noNext_nxt h i nxt (fun s => (s.bump, none)) s]
  obtain ⟨t, h1, h2⟩ := interp_ok a 0 i (fun s => (s.bump, none)) 0 (fun s _ => ⟨[], by simp [S.bump], Tr.stop (Nat.zero_le _)⟩) s
    (Nat.zero_le _)
  exact h2.written_mono hw

/-! ## The chain up to the guard -/

/-- how a run up to the guard can end: closed, or in front of the guard -/
def Short (g : Nat) (lo : Nat) (o : Out) : Prop := lo ≤ o.1.idx ∧ (Spec.Closed (o.1.rw, o.2) ∨ o.1.idx < g)

theorem careful_same {p : Act} (h : Spec.Careful p) : ∀ (i : Nat) (nxt nxt' : S → Out) (s : S),
    (∀ t, t.idx = s.idx → nxt t = nxt' t) → interp p i nxt s = interp p i nxt' s := by
  induction h with
  | done => intros; rfl
  | panic v => intros; rfl
  | next hk =>
    intro i nxt nxt' s hn
    simp only [interp]
    rw [hn (s.push (.nextBeg i s.rw.written)) rfl]
    split
    · exact noNext_nxt hk _ _ _ _
    · rfl
  | tryNext hk _ =>
    intro i nxt nxt' s hn
    simp only [interp]
    rw [hn (s.push (.nextBeg i s.rw.written)) rfl]
    split
    · exact noNext_nxt (hk _) _ _ _ _
    · exact noNext_nxt (hk _) _ _ _ _
  | op _ ih =>
    intro i nxt nxt' s hn
    simp only [interp]
    split
    · rfl
    · exact ih _ _ _ _ hn
  | written _ ih => intro i nxt nxt' s hn; simp only [interp]; exact ih _ _ _ _ _ hn
  | stat _ ih => intro i nxt nxt' s hn; simp only [interp]; exact ih _ _ _ _ _ _ hn
  | eff _ ih => intro i nxt nxt' s hn; simp only [interp]; exact ih _ _ _ _ hn
  | nest _ ih =>
    intro i nxt nxt' s hn
    simp only [interp]
    split
    · exact ih _ _ _ _ hn
    · rfl

/-- what follows a `Next` that ended short ends short -/
theorem noNext_short {k : Act} (hk : Spec.NoNext k) (g lo i : Nat) (nxt : S → Out) (t : S) (hlo : lo ≤ t.idx)
    (h : t.rw.written = true ∨ t.idx < g ∨ ∀ w, Spec.Closed (Spec.alone k w)) : Short g lo (interp k i nxt t) := by
  have hidx := (noNext_state hk i i nxt nxt t t rfl).2.2
  refine ⟨by rw [hidx]; exact hlo, ?_⟩
  rcases h with h | h | h
  · exact Or.inl (Or.inl (noNext_mono hk i nxt t h))
  · exact Or.inr (by rw [hidx]; exact h)
  · have := h t.rw
    rw [alone_noNext hk i nxt t] at this
    exact Or.inl this

theorem careful_short {p : Act} (h : Spec.Careful p) (g lo : Nat) : ∀ (i : Nat) (nxt : S → Out) (s : S), lo ≤ s.idx → s.idx < g →
    (∀ t, t.idx = s.idx → Short g lo (nxt t)) → Short g lo (interp p i nxt s) := by
  induction h with
  | done => intro i nxt s hlo hg _; exact ⟨hlo, Or.inr hg⟩
  | panic v => intro i nxt s hlo hg _; exact ⟨hlo, Or.inr hg⟩
  | next hk =>
    intro i nxt s hlo hg hn
    have h1 := hn (s.push (.nextBeg i s.rw.written)) rfl
    simp only [interp]
    cases hx : nxt (s.push (.nextBeg i s.rw.written)) with
    | mk t r =>
      rw [hx] at h1
      cases r with
      | some v => exact h1
      | none =>
        refine noNext_short hk g lo i nxt _ h1.1 ?_
        rcases h1.2 with (h1 | ⟨v, h1⟩) | h1
        · exact Or.inl h1
        · cases h1
        · exact Or.inr (Or.inl h1)
  | tryNext hk hc =>
    intro i nxt s hlo hg hn
    have h1 := hn (s.push (.nextBeg i s.rw.written)) rfl
    simp only [interp]
    cases hx : nxt (s.push (.nextBeg i s.rw.written)) with
    | mk t r =>
      rw [hx] at h1
      cases r with
      | some v =>
        refine noNext_short (hk _) g lo i nxt _ h1.1 ?_
        rcases h1.2 with (h1 | ⟨v, h1⟩) | h1
        · exact Or.inl h1
        · cases h1; exact Or.inr (Or.inr (hc v))
        · exact Or.inr (Or.inl h1)
      | none =>
        refine noNext_short (hk _) g lo i nxt _ h1.1 ?_
        rcases h1.2 with (h1 | ⟨v, h1⟩) | h1
        · exact Or.inl h1
        · cases h1
        · exact Or.inr (Or.inl h1)
  | op _ ih =>
    intro i nxt s hlo hg hn
    simp only [interp]
    split
    · exact ⟨hlo, Or.inr hg⟩
    · exact ih i nxt _ hlo hg hn
  | written _ ih => intro i nxt s hlo hg hn; simp only [interp]; exact ih _ i nxt s hlo hg hn
  | stat _ ih => intro i nxt s hlo hg hn; simp only [interp]; exact ih _ _ i nxt s hlo hg hn
  | eff _ ih => intro i nxt s hlo hg hn; simp only [interp]; exact ih i nxt _ hlo hg hn
  | nest _ ih =>
    intro i nxt s hlo hg hn
    simp only [interp]
    split
    · exact ih i nxt _ hlo hg hn
    · exact ⟨hlo, Or.inr hg⟩

theorem guard_loop (pre : List Act) (g : Act) (hp : ∀ p ∈ pre, Spec.Careful p) (hg : Spec.Refuses g) (post post' : List Act) :
    ∀ (f f' : Nat) (s : S), s.idx ≤ pre.length → pre.length + 1 - s.idx ≤ f → pre.length + 1 - s.idx ≤ f' →
    loop (pre ++ g :: post).length (handlerOf (pre ++ g :: post)) f s =
      loop (pre ++ g :: post').length (handlerOf (pre ++ g :: post')) f' s ∧
    Short pre.length s.idx (loop (pre ++ g :: post).length (handlerOf (pre ++ g :: post)) f s) := by
  intro f
  induction f with
  | zero => intro f' s h1 h2; omega
  | succ f ih =>
    intro f' s h1 h2 h3
    cases f' with
    | zero => omega
    | succ f' =>
      have hl : ∀ post : List Act, s.idx < (pre ++ g :: post).length := by intro post; simp; omega
      have hun : ∀ (post : List Act) (f : Nat), loop (pre ++ g :: post).length (handlerOf (pre ++ g :: post)) (f + 1) s =
          match handlerOf (pre ++ g :: post) s.idx (fun s' => loop (pre ++ g :: post).length (handlerOf (pre ++ g :: post)) f s'.bump)
            (s.push (.start s.idx)) with
          | (s', some v) => (s', some v)
          | (s', none) =>
            if s'.rw.written then (s'.bump.push (.fin s.idx s'.rw.written), none)
            else loop (pre ++ g :: post).length (handlerOf (pre ++ g :: post)) f (s'.bump.push (.fin s.idx s'.rw.written)) := by
        intro post f
        show (if s.idx < (pre ++ g :: post).length then _ else _) = _
        rw [if_pos (hl post)]
        rfl
      rw [hun, hun]
      by_cases hi : s.idx < pre.length
      · have hh : ∀ post : List Act, (pre ++ g :: post)[s.idx]? = some (pre[s.idx]) := by
          intro post
          rw [List.getElem?_append_left hi, List.getElem?_eq_getElem hi]
        have hbody : ∀ (post : List Act) (nxt : S → Out) (t : S), handlerOf (pre ++ g :: post) s.idx nxt t = interp pre[s.idx] s.idx nxt t := by
          intro post nxt t
          unfold handlerOf
          rw [hh]
        rw [hbody, hbody]
        have hc := hp _ (List.getElem_mem hi)
        have hnext : ∀ t : S, t.idx = s.idx →
            loop (pre ++ g :: post).length (handlerOf (pre ++ g :: post)) f t.bump =
              loop (pre ++ g :: post').length (handlerOf (pre ++ g :: post')) f' t.bump ∧
            Short pre.length s.idx (loop (pre ++ g :: post).length (handlerOf (pre ++ g :: post)) f t.bump) := by
          intro t ht
          have hb : t.bump.idx = s.idx + 1 := by show t.idx + 1 = _; rw [ht]
          have := ih f' t.bump (by omega) (by omega) (by omega)
          exact ⟨this.1, by have := this.2.1; omega, this.2.2⟩
        have hsame := careful_same hc s.idx
          (fun s' => loop (pre ++ g :: post).length (handlerOf (pre ++ g :: post)) f s'.bump)
          (fun s' => loop (pre ++ g :: post').length (handlerOf (pre ++ g :: post')) f' s'.bump) (s.push (.start s.idx))
          (fun t ht => (hnext t ht).1)
        have hshort := careful_short hc pre.length s.idx s.idx
          (fun s' => loop (pre ++ g :: post).length (handlerOf (pre ++ g :: post)) f s'.bump) (s.push (.start s.idx)) (Nat.le_refl _) hi
          (fun t ht => (hnext t ht).2)
        rw [← hsame]
        generalize interp pre[s.idx] s.idx
          (fun s' => loop (pre ++ g :: post).length (handlerOf (pre ++ g :: post)) f s'.bump) (s.push (.start s.idx)) = o at hshort
        obtain ⟨t, r⟩ := o
        cases r with
        | some v => exact ⟨rfl, hshort⟩
        | none =>
          simp only []
          by_cases hw : t.rw.written = true
          · rw [if_pos hw, if_pos hw]
            exact ⟨rfl, Nat.le_succ_of_le hshort.1, Or.inl (Or.inl hw)⟩
          · rw [if_neg hw, if_neg hw]
            have hlt : t.idx < pre.length := by
              rcases hshort.2 with (h | ⟨v, h⟩) | h
              · exact absurd h hw
              · cases h
              · exact h
            have h0 := hshort.1
            simp only [] at h0
            have hb : (t.bump.push (.fin s.idx t.rw.written)).idx = t.idx + 1 := rfl
            have := ih f' (t.bump.push (.fin s.idx t.rw.written)) (by omega) (by omega) (by omega)
            exact ⟨this.1, by have := this.2.1; omega, this.2.2⟩
      · have hie : s.idx = pre.length := by omega
        have hbody : ∀ (post : List Act) (nxt : S → Out) (t : S), handlerOf (pre ++ g :: post) s.idx nxt t = interp g s.idx nxt t := by
          intro post nxt t
          unfold handlerOf
          rw [hie]
          simp
        rw [hbody, hbody]
        have hsame := noNext_nxt hg.1 s.idx
          (fun s' => loop (pre ++ g :: post).length (handlerOf (pre ++ g :: post)) f s'.bump)
          (fun s' => loop (pre ++ g :: post').length (handlerOf (pre ++ g :: post')) f' s'.bump) (s.push (.start s.idx))
        have hshort := noNext_short hg.1 pre.length s.idx s.idx
          (fun s' => loop (pre ++ g :: post).length (handlerOf (pre ++ g :: post)) f s'.bump) (s.push (.start s.idx)) (Nat.le_refl _)
          (Or.inr (Or.inr hg.2))
        have hcl := hg.2 s.rw
        rw [show s.rw = (s.push (.start s.idx)).rw from rfl, alone_noNext hg.1 s.idx
          (fun s' => loop (pre ++ g :: post).length (handlerOf (pre ++ g :: post)) f s'.bump) (s.push (.start s.idx))] at hcl
        rw [← hsame]
        generalize interp g s.idx
          (fun s' => loop (pre ++ g :: post).length (handlerOf (pre ++ g :: post)) f s'.bump) (s.push (.start s.idx)) = o at hshort hcl
        obtain ⟨t, r⟩ := o
        cases r with
        | some v => exact ⟨rfl, hshort⟩
        | none =>
          have hw : t.rw.written = true := by
            rcases hcl with h | ⟨v, h⟩
            · exact h
            · cases h
          simp only []
          rw [if_pos hw, if_pos hw]
          exact ⟨rfl, Nat.le_succ_of_le hshort.1, Or.inl (Or.inl hw)⟩

/-- C156: behind careful filters, a chain with a guard that refuses does exactly what it would do if it ended there:
the same calls on the response, the same panic, the same events.  Nothing behind the guard is started. -/
theorem C156_chain (pre : List Act) (g : Act) (post : List Act) (hp : ∀ p ∈ pre, Spec.Careful p) (hg : Spec.Refuses g) (w : RW) :
    run (pre ++ g :: post) w = run (pre ++ [g]) w ∧ ∀ i ∈ Ctx.Spec.starts (run (pre ++ g :: post) w).1.tr, i ≤ pre.length := by
  have h := (guard_loop pre g hp hg post [] (pre ++ g :: post).length (pre ++ [g]).length ⟨0, w, []⟩ (Nat.zero_le _)
    (by simp) (by simp)).1
  have he : run (pre ++ g :: post) w = run (pre ++ [g]) w := h
  refine ⟨he, fun i hi => ?_⟩
  rw [he] at hi
  have := (C13_started_in_order_at_most_once (pre ++ [g]) w).2 i hi
  simp at this
  omega

/-! ## Applications -/

/-- The chain of a nested context, as `run`. -/
theorem interp_nested (hs : List Act) (i : Nat) (nxt : S → Out) (s : S) :
    interp (nested hs) i nxt s = ({ s with rw := (run hs s.rw).1.rw }, (run hs s.rw).2) := by
  have hbody : (fun (j : Nat) (nx : S → Out) (s : S) => if h : j < hs.length then interp (hs[(⟨j, h⟩ : Fin hs.length).val]) j nx s else (s, none)) =
      handlerOf hs := by
    funext j nx s
    unfold handlerOf
    by_cases h : j < hs.length
    · rw [dif_pos h, List.getElem?_eq_getElem h]
    · rw [dif_neg h, List.getElem?_eq_none (by omega)]
  have e : interp (nested hs) i nxt s = match run hs s.rw with
      | (s', none) => ({ s with rw := s'.rw }, none)
      | (s', some v) => ({ s with rw := s'.rw }, some v) := by
    unfold nested
    simp only [interp]
    rw [hbody]
    rfl
  rw [e]
  cases run hs s.rw with
  | mk t r => cases r <;> rfl

theorem handlerOf_snoc (fs : List Act) (a b : Act) (h : ∀ i nxt s, interp a i nxt s = interp b i nxt s) :
    handlerOf (fs ++ [a]) = handlerOf (fs ++ [b]) := by
  funext i nxt s
  unfold handlerOf
  rcases Nat.lt_trichotomy i fs.length with hi | rfl | hi
  · rw [List.getElem?_append_left hi, List.getElem?_append_left hi]
  · simp [h]
  · rw [List.getElem?_eq_none (by simp; omega), List.getElem?_eq_none (by simp; omega)]

theorem serveHTTP_snoc (fs : List Act) (a b : Act) (h : ∀ i nxt s, interp a i nxt s = interp b i nxt s) :
    serveHTTP (fs ++ [a]) = serveHTTP (fs ++ [b]) := by
  have : run (fs ++ [a]) newRW = run (fs ++ [b]) newRW := by
    unfold run
    rw [handlerOf_snoc fs a b h]
    simp
  unfold serveHTTP
  rw [this]

/-- C156: a request that a guard of the whole application refuses is answered as if there were nothing behind the guard:
no routes, no actions, no not-found handlers. -/
theorem C156_global (prog : Filter → Act) (act : RouteAction → Str → Params → Str → Act) (s : Strip) (method path : Str)
    (F1 F2 : List Filter) (g : Filter) (hf : s.filters = F1 ++ g :: F2) (hp : ∀ f ∈ F1, Spec.Careful (prog f))
    (hg : Spec.Refuses (prog g)) : serve prog act s method path = serveHTTP (F1.map prog ++ [prog g]) := by
  unfold serve
  rw [hf, List.map_append, List.map_cons, List.append_assoc, List.cons_append]
  have := (C156_chain (F1.map prog) (prog g) (F2.map prog ++ [routeHandle prog act s method path])
    (fun p hp' => by obtain ⟨f, hf', rfl⟩ := List.mem_map.1 hp'; exact hp f hf') hg newRW).1
  unfold serveHTTP
  rw [this]

/-- C156: a request that a guard of its route refuses is answered as if the route ended at the guard, whatever the
filters of the application are; and in whatever state the filters of the application leave the response, the action is
not started. -/
theorem C156_route (prog : Filter → Act) (act : RouteAction → Str → Params → Str → Act) (s : Strip) (method path : Str)
    {rt : Route} {ra : RouteAction} {f : Str} {ps : Params} {info : Str} (hh : handle s.root method path = .dispatch rt ra f ps info)
    (F1 F2 : List Filter) (g : Filter) (hf : ra.filters = F1 ++ g :: F2) (hp : ∀ f ∈ F1, Spec.Careful (prog f))
    (hg : Spec.Refuses (prog g)) :
    serve prog act s method path = serveHTTP (s.filters.map prog ++ [nested (F1.map prog ++ [prog g])]) ∧
    ∀ w, ra.filters.length ∉ Ctx.Spec.starts (run (ra.filters.map prog ++ [act ra f ps info]) w).1.tr := by
  have hc := C156_chain (F1.map prog) (prog g) (F2.map prog ++ [act ra f ps info])
    (fun p hp' => by obtain ⟨f, hf', rfl⟩ := List.mem_map.1 hp'; exact hp f hf') hg
  constructor
  · unfold serve
    refine serveHTTP_snoc _ _ _ ?_
    intro i nxt t
    unfold routeHandle
    rw [hh]
    simp only []
    rw [interp_nested, interp_nested, hf, List.map_append, List.map_cons, List.append_assoc, List.cons_append, (hc t.rw).1]
  · intro w hi
    rw [hf, List.map_append, List.map_cons, List.append_assoc, List.cons_append] at hi
    have := (hc w).2 _ hi
    simp at this
    omega

/-- the first place of a member -/
theorem split_first {α} [DecidableEq α] {x : α} : ∀ {l : List α}, x ∈ l → ∃ a b, l = a ++ x :: b ∧ x ∉ a := by
  intro l
  induction l with
  | nil => intro h; cases h
  | cons y l ih =>
    intro h
    by_cases hy : x = y
    · subst hy; exact ⟨[], l, rfl, by simp⟩
    · obtain ⟨a, b, h1, h2⟩ := ih (by simpa [hy] using h)
      exact ⟨y :: a, b, by rw [h1]; rfl, by simp [hy, h2]⟩

/-- C156, in terms of the declarations: if the guard is in force wherever one of the protected controllers is declared,
and the other filters declared with routes are careful, then a request the guard refuses gets the same answer whatever
the protected controllers do, and none of them is started. -/
theorem C156_declared (prog : Filter → Act) (act act' : RouteAction → Str → Params → Str → Act) (s : Strip)
    {hss : List (List Handler)} (h : registerAll hss newRoot = some s.root) (Protected : Controller → Prop) (g : Filter)
    (hforce : ∀ q ls d, (q, ls, d) ∈ Router.Spec.allDeclsL hss → Protected d.ctl → Router.Spec.InForce (ls ++ [Router.Spec.MethodDecl.level d]) g)
    (hcare : ∀ q ls d, (q, ls, d) ∈ Router.Spec.allDeclsL hss → ∀ f ∈ (ls ++ [Router.Spec.MethodDecl.level d]).flatMap (·.own), f ≠ g → Spec.Careful (prog f))
    (hg : Spec.Refuses (prog g))
    (hact : ∀ ra f ps info, ¬ Protected ra.ctl → act ra f ps info = act' ra f ps info) (method path : Str) :
    serve prog act s method path = serve prog act' s method path ∧
    ∀ rt ra f ps info, handle s.root method path = .dispatch rt ra f ps info → Protected ra.ctl →
      ∀ w, ra.filters.length ∉ Ctx.Spec.starts (run (ra.filters.map prog ++ [act ra f ps info]) w).1.tr := by
  have key : ∀ {rt ra f ps info}, handle s.root method path = .dispatch rt ra f ps info → Protected ra.ctl →
      ∃ F1 F2, ra.filters = F1 ++ g :: F2 ∧ ∀ f ∈ F1, Spec.Careful (prog f) := by
    intro rt ra f ps info hh hP
    obtain ⟨q, ls, d, h1, -, h2, h3, -, h4⟩ := C10_filter_inheritance_always h hh
    have hin := (h3 g).2 (hforce q ls d h1 (h2 ▸ hP))
    obtain ⟨F1, F2, h5, h6⟩ := split_first hin
    refine ⟨F1, F2, h5, fun x hx => hcare q ls d h1 x (h4.subset (by rw [h5]; simp [hx])) (fun e => h6 (e ▸ hx))⟩
  constructor
  · cases hh : handle s.root method path with
    | notFound =>
      unfold serve routeHandle
      rw [hh]
    | dispatch rt ra f ps info =>
      by_cases hP : Protected ra.ctl
      · obtain ⟨F1, F2, h5, h6⟩ := key hh hP
        rw [(C156_route prog act s method path hh F1 F2 g h5 h6 hg).1, (C156_route prog act' s method path hh F1 F2 g h5 h6 hg).1]
      · unfold serve routeHandle
        rw [hh]
        simp only []
        rw [hact ra f ps info hP]
  · intro rt ra f ps info hh hP
    obtain ⟨F1, F2, h5, h6⟩ := key hh hP
    exact (C156_route prog act s method path hh F1 F2 g h5 h6 hg).2

/-! ## Careful filters, and guards -/

/-- A guard that answers with a status other than 0 refuses, whatever it does afterwards (except `Next`). -/
theorem C156_status_refuses (st : Nat) (hst : st ≠ 0) (k : Act) (hk : Spec.NoNext k) : Spec.Refuses (.op (.writeHeader st) k) := by
  refine ⟨.op hk, fun w => Or.inl ?_⟩
  rw [alone_noNext (s := ⟨0, w, []⟩) (.op hk) 0 (fun s => (s, none))]
  simp only [interp]
  have : w.op (.writeHeader st) = ({ w with status := st }, false) := by
    show (if st = 0 then _ else _) = _
    rw [if_neg hst]
  rw [this]
  exact noNext_mono hk 0 (fun s => (s, none)) ⟨0, { w with status := st }, []⟩ (by simp [RW.written, hst])

/-- A guard that panics refuses (if not with nil). -/
theorem C156_panic_refuses (v : Nat) : Spec.Refuses (.panic (some v)) := ⟨.panic _, fun _ => Or.inr ⟨v, rfl⟩⟩

theorem alone_closed_of {k : Act} (hk : Spec.NoNext k) (w : RW) :
    Spec.Closed (Spec.alone (.written fun wr => if wr then .done else .op (.writeHeader 500) k) w) := by
  have hn : Spec.NoNext (.written fun wr => if wr then .done else .op (.writeHeader 500) k) := by
    refine .written fun b => ?_
    cases b with
    | true => exact .done
    | false => exact .op hk
  refine Or.inl ?_
  rw [alone_noNext (s := ⟨0, w, []⟩) hn 0 (fun s => (s, none))]
  simp only [interp]
  by_cases hw : w.written = true
  · rw [if_pos hw]; exact hw
  · rw [if_neg hw]
    simp only [interp]
    exact noNext_mono hk 0 (fun s => (s, none)) ⟨0, { w with status := 500 }, []⟩ rfl

/-- The recovery filter of an application with a logger is careful. -/
theorem C156_recovery_careful (dev : Option Str) : Spec.Careful (recovery true dev) := by
  have hk : ∀ dev : Option Str, Spec.NoNext (match dev with
      | none => Act.done
      | some page => .op (.write page page.length) .done) := by
    intro dev
    cases dev with
    | none => exact .done
    | some page => exact .op .done
  refine .tryNext ?_ ?_
  · intro r
    cases r with
    | none => exact .done
    | some r =>
      cases r with
      | none => exact .done
      | some v =>
        refine .written fun b => ?_
        cases b with
        | true => exact .done
        | false => exact .op (hk dev)
  · intro v w
    exact alone_closed_of (hk dev) w

/-! ## What is not refused -/

/-- What a client sees of a request whose action ran: the events of its answer. -/
def Spec.seen (hs : List Act) : List Ev := (serveHTTP hs).1.events

/-- An action that writes the bytes. -/
def Spec.writes (bs : Str) : Act := .op (.write bs bs.length) .done

/-- Refuted: a guard that panics with nil. The recovery filter takes it for "no panic", and the chain goes on behind the
guard. -/
theorem C156_panic_nil_violated (dev : Option Str) (bs : Str) : Spec.NoNext (.panic none) ∧
    Spec.seen [recovery true dev, .panic none, Spec.writes bs] = [.header 200, .body bs, .body []] := by
  refine ⟨.panic _, ?_⟩
  unfold Spec.seen serveHTTP Spec.writes
  simp [run, loop, handlerOf, interp, recovery, S.push, S.bump, RW.written, newRW, RW.op, RW.write, commit, callBefore, writeBody]

/-- Refuted: without a logger, the recovery filter swallows the panic of a guard, and the chain goes on behind it. -/
theorem C156_no_logger_violated (dev : Option Str) (v : Nat) (bs : Str) : Spec.Refuses (.panic (some v)) ∧
    Spec.seen [recovery false dev, .panic (some v), Spec.writes bs] = [.header 200, .body bs, .body []] := by
  refine ⟨C156_panic_refuses v, ?_⟩
  unfold Spec.seen serveHTTP Spec.writes
  simp [run, loop, handlerOf, interp, recovery, S.push, S.bump, RW.written, newRW, RW.op, RW.write, commit, callBefore, writeBody]

/-- Refuted: a guard that takes the connection over and answers there. What is behind it runs. -/
theorem C156_hijack_violated (bs : Str) : Spec.NoNext (.op .hijack .done) ∧
    (run [.op .hijack .done, .eff 7 (Spec.writes bs)] newRW).1.tr = [.start 0, .fin 0 false, .start 1, .eff 1 7, .fin 1 true] := by
  refine ⟨.op .done, ?_⟩
  unfold Spec.writes
  simp [run, loop, handlerOf, interp, S.push, S.bump, RW.written, newRW, RW.op, RW.write, commit, callBefore, writeBody]

/-- Refuted: behind a filter that calls `Next` twice. The second call leaves out the handler behind the guard and starts
the next one, although the guard has answered. -/
theorem C156_next_twice_violated (st : Nat) (hst : st ≠ 0) (x : Act) (bs : Str) : Spec.Refuses (.op (.writeHeader st) .done) ∧
    (run [.next (.next .done), .op (.writeHeader st) .done, x, .eff 7 (Spec.writes bs)] newRW).1.tr =
      [.start 0, .nextBeg 0 false, .start 1, .fin 1 true, .nextEnd 0, .nextBeg 0 true, .start 3, .eff 3 7, .fin 3 true,
        .nextEnd 0, .fin 0 true] := by
  refine ⟨C156_status_refuses st hst .done .done, ?_⟩
  unfold Spec.writes
  simp [run, loop, handlerOf, interp, S.push, S.bump, RW.written, newRW, RW.op, RW.write, RW.writeHeader, commit, callBefore, writeBody, hst]

/-- Refuted: a guard that refuses by returning a value (an error, say): the value is dropped (context.go:97), and what is
behind the guard runs. To the chain such a guard is a handler that does nothing. -/
theorem C156_returned_error_violated (k : Act) : Spec.NoNext .done ∧ Spec.seen [.done, k] = Spec.seen [k] := by
  refine ⟨.done, ?_⟩
  have h := C82_pass_through [.done] k newRW (by intro q hq; rw [List.mem_singleton] at hq; rw [hq]; exact .done) rfl
  have : serveHTTP [.done, k] = serveHTTP [k] := serveHTTP_congr _ _ h
  unfold Spec.seen
  rw [this]

/-! ## The hypotheses can be met -/

namespace GuardEx
/-- The recovery filter for everything; filter 5 (the guard) on the router `/admin`, behind filter 1; and an open page. -/
def hss : List (List Handler) :=
  [[.router b!"/admin" [.filter [1, 5], .method ⟨Router.Ex.fn 8, GET, []⟩,
      .router b!"/users/:id" [.method ⟨Router.Ex.fn 9, GET, [.filter [2]]⟩]],
    .router b!"/open" [.method ⟨Router.Ex.fn 3, GET, [.filter [2]]⟩]]]

def prog : Filter → Act
  | 1 => .next (.written fun b => if b then .eff 1 .done else .done)
  | 5 => .op (.writeHeader 403) (.op (.write b!"no" 2) .done)
  | _ => recovery true none

def act (ra : RouteAction) (_ : Str) (_ : Params) (info : Str) : Act :=
  .op (.write info info.length) (if ra.ctl.id = 8 then .panic (some 1) else .done)

def strip : Strip := ⟨[0], (registerAll hss newRoot).getD newRoot, [defaultNotFound]⟩

def Protected (c : Controller) : Prop := c.id ≥ 8

theorem registered : registerAll hss newRoot = some strip.root := by
  have : (registerAll hss newRoot).isSome = true := by decide +kernel
  cases h : registerAll hss newRoot with
  | none => rw [h] at this; cases this
  | some r => show some r = some ((registerAll hss newRoot).getD newRoot); rw [h]; rfl

/-- the filters in force at each declaration -/
theorem decls : ∀ x ∈ Router.Spec.allDeclsL hss, (x.2.2.ctl.id ≥ 8 → 5 ∈ x.2.1.flatMap (·.own)) ∧
    (x.2.1 ++ [Router.Spec.MethodDecl.level x.2.2]).all (fun l => l.exempts.isEmpty) = true ∧
    (∀ f ∈ (x.2.1 ++ [Router.Spec.MethodDecl.level x.2.2]).flatMap (·.own), f ∈ [1, 2, 5]) := by decide +kernel

theorem inForce_of : ∀ (ls : List Router.Spec.Level) (f : Filter), (∀ l ∈ ls, l.exempts = []) → f ∈ ls.flatMap (·.own) →
    Router.Spec.InForce ls f := by
  intro ls f
  induction ls with
  | nil => intro _ h; cases h
  | cons l ls ih =>
    intro he hf
    rw [List.flatMap_cons, List.mem_append] at hf
    rcases hf with hf | hf
    · refine Or.inl ⟨hf, ?_, ?_⟩
      · rw [he l List.mem_cons_self]; simp
      · intro l' hl'; rw [he l' (List.mem_cons_of_mem _ hl')]; simp
    · exact Or.inr (ih (fun l hl => he l (List.mem_cons_of_mem _ hl)) hf)

theorem refuses : Spec.Refuses (prog 5) := C156_status_refuses 403 (by decide) _ (.op .done)
theorem careful1 : Spec.Careful (prog 1) :=
  .next (.written fun b => by cases b <;> first | exact .done | exact .eff .done)
theorem careful2 : Spec.Careful (prog 2) := C156_recovery_careful none

-- whatever the protected controllers do, the answer is the same
example (act' : RouteAction → Str → Params → Str → Act) (h : ∀ ra f ps info, ¬ Protected ra.ctl → act ra f ps info = act' ra f ps info)
    (m p : Str) : serve prog act strip m p = serve prog act' strip m p := by
  refine (C156_declared prog act act' strip registered Protected 5 ?_ ?_ refuses h m p).1
  · intro q ls d hd hP
    obtain ⟨h1, h2, -⟩ := decls _ hd
    refine inForce_of _ _ ?_ ?_
    · intro l hl
      simpa using List.all_eq_true.1 h2 l hl
    · rw [List.flatMap_append, List.mem_append]
      exact Or.inl (h1 hP)
  · intro q ls d hd f hf hne
    have := (decls _ hd).2.2 f hf
    simp only [List.mem_cons, List.not_mem_nil, or_false] at this
    rcases this with rfl | rfl | rfl
    · exact careful1
    · exact careful2
    · exact absurd rfl hne

example : (serve prog act strip b!"GET" b!"/admin/users/7").1.events = [.header 403, .body b!"no", .body []] ∧
    (serve prog act strip b!"GET" b!"/open").1.events = [.header 200, .body b!"/open", .body []] := by decide +kernel
end GuardEx

end Verif.App
