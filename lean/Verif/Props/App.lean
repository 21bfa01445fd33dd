import Verif.Model.App
import Verif.Props.Context
import Verif.Props.Router
import Verif.Proofs.RouterFilters
/-!
# C81–C83: whole requests
-/
namespace Verif.App
open Verif.Resp Verif.Ctx Verif.Router

/-! ## Specification -/

/-- A handler that leaves the response alone and does not panic: it may call `Next` any number of times, look at
`Written`, `Status` and `Size`, and have other effects. -/
inductive Spec.PassThrough : Act → Prop where
  | done : PassThrough .done
  | next {k} : PassThrough k → PassThrough (.next k)
  | written {k : Bool → Act} : (∀ b, PassThrough (k b)) → PassThrough (.written k)
  | stat {k : Nat → Nat → Act} : (∀ a b, PassThrough (k a b)) → PassThrough (.stat k)
  | eff {n k} : PassThrough k → PassThrough (.eff n k)

/-- The effect on the response of a handler run on its own, and its panic. -/
def Spec.alone (a : Act) (w : RW) : RW × Option PVal := ((run [a] w).1.rw, (run [a] w).2)

/-- The status, then the body, of a complete answer without before-callbacks. -/
def Spec.answered (w : RW) (status : Nat) (body : Str) : Prop :=
  Resp.Spec.wireStatus w.events = some status ∧ Resp.Spec.bodyBytes w.events = body

/-! ## A handler at the end of a chain behaves as on its own -/

/-- `nxt` does nothing but move on, from states at or past `lo`. -/
def Idle (lo : Nat) (nxt : S → Out) : Prop :=
  ∀ s, lo ≤ s.idx → (nxt s).1.rw = s.rw ∧ (nxt s).2 = none ∧ lo ≤ (nxt s).1.idx

theorem interp_idle (a : Act) : ∀ (i i' lo lo' : Nat) (nxt nxt' : S → Out) (s s' : S), Idle lo nxt → Idle lo' nxt' →
    lo ≤ s.idx → lo' ≤ s'.idx → s.rw = s'.rw →
    (interp a i nxt s).1.rw = (interp a i' nxt' s').1.rw ∧ (interp a i nxt s).2 = (interp a i' nxt' s').2 ∧
    lo ≤ (interp a i nxt s).1.idx := by
  induction a with
  | done => intro i i' lo lo' nxt nxt' s s' h h' hs hs' e; exact ⟨e, rfl, hs⟩
  | panic v => intro i i' lo lo' nxt nxt' s s' h h' hs hs' e; exact ⟨e, rfl, hs⟩
  | next k ih =>
    intro i i' lo lo' nxt nxt' s s' h h' hs hs' e
    obtain ⟨a1, a2, a3⟩ := h (s.push (.nextBeg i s.rw.written)) hs
    obtain ⟨b1, b2, b3⟩ := h' (s'.push (.nextBeg i' s'.rw.written)) hs'
    simp only [interp]
    cases hx : nxt (s.push (.nextBeg i s.rw.written)) with
    | mk t r =>
      cases hy : nxt' (s'.push (.nextBeg i' s'.rw.written)) with
      | mk t' r' =>
        rw [hx] at a1 a2 a3
        rw [hy] at b1 b2 b3
        cases a2
        cases b2
        refine ih i i' lo lo' nxt nxt' _ _ h h' a3 b3 ?_
        show t.rw = t'.rw
        rw [a1, b1]; exact e
  | tryNext k ih =>
    intro i i' lo lo' nxt nxt' s s' h h' hs hs' e
    obtain ⟨a1, a2, a3⟩ := h (s.push (.nextBeg i s.rw.written)) hs
    obtain ⟨b1, b2, b3⟩ := h' (s'.push (.nextBeg i' s'.rw.written)) hs'
    simp only [interp]
    cases hx : nxt (s.push (.nextBeg i s.rw.written)) with
    | mk t r =>
      cases hy : nxt' (s'.push (.nextBeg i' s'.rw.written)) with
      | mk t' r' =>
        rw [hx] at a1 a2 a3
        rw [hy] at b1 b2 b3
        cases a2
        cases b2
        refine ih none i i' lo lo' nxt nxt' _ _ h h' a3 b3 ?_
        show t.rw = t'.rw
        rw [a1, b1]; exact e
  | op o k ih =>
    intro i i' lo lo' nxt nxt' s s' h h' hs hs' e
    simp only [interp]
    rw [e]
    cases hx : s'.rw.op o with
    | mk w p =>
      cases p with
      | true => exact ⟨rfl, rfl, hs⟩
      | false => exact ih i i' lo lo' nxt nxt' _ _ h h' hs hs' rfl
  | written k ih =>
    intro i i' lo lo' nxt nxt' s s' h h' hs hs' e
    simp only [interp]
    rw [e]
    exact ih _ i i' lo lo' nxt nxt' _ _ h h' hs hs' e
  | stat k ih =>
    intro i i' lo lo' nxt nxt' s s' h h' hs hs' e
    simp only [interp]
    rw [e]
    exact ih _ _ i i' lo lo' nxt nxt' _ _ h h' hs hs' e
  | eff n k ih =>
    intro i i' lo lo' nxt nxt' s s' h h' hs hs' e
    simp only [interp]
    exact ih i i' lo lo' nxt nxt' _ _ h h' hs hs' e
  | nest n hs' k ihs ih =>
    intro i i' lo lo' nxt nxt' s s' h h' hs hs2 e
    simp only [interp]
    rw [e]
    split
    · exact ih i i' lo lo' nxt nxt' _ _ h h' hs hs2 rfl
    · exact ⟨rfl, rfl, hs⟩

theorem loop_ge (n : Nat) (body : Nat → (S → Out) → S → Out) (f : Nat) (s : S) (h : n ≤ s.idx) : loop n body f s = (s, none) := by
  cases f with
  | zero => rfl
  | succ f => unfold loop; rw [if_neg (by omega)]

/-- The end of an iteration of the loop. -/
theorem loop_lt (n : Nat) (body : Nat → (S → Out) → S → Out) (f : Nat) (s : S) (h : s.idx < n) :
    loop n body (f + 1) s =
      match body s.idx (fun s' => loop n body f s'.bump) (s.push (.start s.idx)) with
      | (s', some v) => (s', some v)
      | (s', none) =>
        if s'.rw.written then (s'.bump.push (.fin s.idx s'.rw.written), none)
        else loop n body f (s'.bump.push (.fin s.idx s'.rw.written)) := by
  conv => lhs; unfold loop
  rw [if_pos h]
  rfl

theorem idle_past (n : Nat) (body : Nat → (S → Out) → S → Out) (f lo : Nat) (h : n ≤ lo + 1) :
    Idle lo (fun s' => loop n body f s'.bump) := by
  intro s hs
  have : loop n body f s.bump = (s.bump, none) := loop_ge n body f s.bump (by simp [S.bump]; omega)
  simp only [this]
  exact ⟨rfl, trivial, by simp [S.bump]; omega⟩

/-- The last handler, entered with the loop at its index. -/
theorem last_alone (hs : List Act) (a : Act) (f : Nat) (s : S) (hi : s.idx = hs.length) :
    (loop (hs ++ [a]).length (handlerOf (hs ++ [a])) (f + 1) s).1.rw = (Spec.alone a s.rw).1 ∧
    (loop (hs ++ [a]).length (handlerOf (hs ++ [a])) (f + 1) s).2 = (Spec.alone a s.rw).2 ∧
    ((Spec.alone a s.rw).2 = none → hs.length + 1 ≤ (loop (hs ++ [a]).length (handlerOf (hs ++ [a])) (f + 1) s).1.idx) := by
  have key : ∀ (hs : List Act) (f : Nat) (s : S), s.idx = hs.length → ∃ (nx : S → Out), Idle hs.length nx ∧
      loop (hs ++ [a]).length (handlerOf (hs ++ [a])) (f + 1) s =
        match interp a s.idx nx (s.push (.start s.idx)) with
        | (s', some v) => (s', some v)
        | (s', none) => (s'.bump.push (.fin s.idx s'.rw.written), none) := by
    intro hs f s hi
    refine ⟨fun s' => loop (hs ++ [a]).length (handlerOf (hs ++ [a])) f s'.bump, idle_past _ _ _ _ (by simp), ?_⟩
    rw [loop_lt _ _ _ _ (by rw [hi]; simp)]
    have hb : handlerOf (hs ++ [a]) s.idx = interp a s.idx := by
      funext nx t
      unfold handlerOf
      rw [hi]
      simp
    rw [hb]
    have hidx := (interp_idle a s.idx s.idx hs.length hs.length _ _ (s.push (.start s.idx)) (s.push (.start s.idx))
      (idle_past (hs ++ [a]).length (handlerOf (hs ++ [a])) f hs.length (by simp))
      (idle_past (hs ++ [a]).length (handlerOf (hs ++ [a])) f hs.length (by simp)) (by simp [S.push, hi]) (by simp [S.push, hi]) rfl).2.2
    cases hx : interp a s.idx (fun s' => loop (hs ++ [a]).length (handlerOf (hs ++ [a])) f s'.bump) (s.push (.start s.idx)) with
    | mk t r =>
      rw [hx] at hidx
      cases r with
      | some v => rfl
      | none =>
        simp only
        by_cases hw : t.rw.written = true
        · rw [if_pos hw]
        · rw [if_neg hw, loop_ge]
          simp [S.bump, S.push]
          exact hidx
  obtain ⟨nx, h1, h2⟩ := key hs f s hi
  obtain ⟨ny, g1, g2⟩ := key [] 0 ⟨0, s.rw, []⟩ rfl
  have e : run [a] s.rw = loop ([] ++ [a]).length (handlerOf ([] ++ [a])) (0 + 1) ⟨0, s.rw, []⟩ := rfl
  unfold Spec.alone
  rw [e, g2, h2]
  obtain ⟨c1, c2, c3⟩ := interp_idle a s.idx 0 hs.length 0 nx ny (s.push (.start s.idx)) (S.push ⟨0, s.rw, []⟩ (.start 0)) h1 g1
    (by simp [S.push, hi]) (Nat.zero_le _) rfl
  show _ ∧ _ ∧ _
  cases hx : interp a s.idx nx (s.push (.start s.idx)) with
  | mk t r =>
    cases hy : interp a 0 ny (S.push ⟨0, s.rw, []⟩ (.start 0)) with
    | mk t' r' =>
      rw [hx] at c1 c2 c3
      rw [hy] at c1 c2
      simp only at c1 c2
      subst c2
      cases r with
      | some v => simp [c1]
      | none =>
        refine ⟨c1, rfl, fun _ => ?_⟩
        simp only [S.bump, S.push]
        have : hs.length ≤ t.idx := c3
        omega

/-! ## Pass-through filters -/

/-- Where a chain whose last handler does `(w1, r1)` can be: not there yet, or past it. -/
def Stage (n j : Nat) (w w1 : RW) (r1 : Option PVal) (o : Out) : Prop :=
  (o.2 = none ∧ o.1.idx = j ∧ o.1.rw = w) ∨ (o.2 = none ∧ r1 = none ∧ n ≤ o.1.idx ∧ o.1.rw = w1) ∨
  (∃ v, r1 = some v ∧ o.2 = some v ∧ o.1.rw = w1)

theorem interp_pass {a : Act} (ha : Spec.PassThrough a) : ∀ (i n j : Nat) (w w1 : RW) (r1 : Option PVal) (nxt : S → Out) (s : S),
    (∀ s, s.idx = j → s.rw = w → (nxt s).1.rw = w1 ∧ (nxt s).2 = r1 ∧ (r1 = none → n ≤ (nxt s).1.idx)) →
    (∀ s, n ≤ s.idx → (nxt s).1.rw = s.rw ∧ (nxt s).2 = none ∧ n ≤ (nxt s).1.idx) →
    Stage n j w w1 r1 (s, none) → Stage n j w w1 r1 (interp a i nxt s) := by
  induction ha with
  | done => intro i n j w w1 r1 nxt s _ _ h; exact h
  | @next k hk ih =>
    intro i n j w w1 r1 nxt s h1 h2 h
    simp only [interp]
    rcases h with ⟨-, h, h'⟩ | ⟨-, hr, h, h'⟩ | ⟨v, _, h, _⟩
    · obtain ⟨a1, a2, a3⟩ := h1 (s.push (.nextBeg i s.rw.written)) h h'
      cases hx : nxt (s.push (.nextBeg i s.rw.written)) with
      | mk t r =>
        rw [hx] at a1 a2 a3
        simp only at a1 a2 a3
        cases r with
        | some v => exact Or.inr (Or.inr ⟨v, a2.symm, rfl, a1⟩)
        | none =>
          refine ih i n j w w1 r1 nxt _ h1 h2 ?_
          exact Or.inr (Or.inl ⟨rfl, a2.symm, a3 a2.symm, a1⟩)
    · obtain ⟨a1, a2, a3⟩ := h2 (s.push (.nextBeg i s.rw.written)) h
      cases hx : nxt (s.push (.nextBeg i s.rw.written)) with
      | mk t r =>
        rw [hx] at a1 a2 a3
        simp only at a1 a2 a3
        subst a2
        refine ih i n j w w1 r1 nxt _ h1 h2 ?_
        exact Or.inr (Or.inl ⟨rfl, hr, a3, a1.trans h'⟩)
    · cases h
  | @written k hk ih =>
    intro i n j w w1 r1 nxt s h1 h2 h
    simp only [interp]
    exact ih _ i n j w w1 r1 nxt s h1 h2 h
  | @stat k hk ih =>
    intro i n j w w1 r1 nxt s h1 h2 h
    simp only [interp]
    exact ih _ _ i n j w w1 r1 nxt s h1 h2 h
  | @eff e k hk ih =>
    intro i n j w w1 r1 nxt s h1 h2 h
    simp only [interp]
    exact ih i n j w w1 r1 nxt _ h1 h2 h

theorem pass_loop (qs : List Act) (a : Act) (lo : Nat) (hq : ∀ i (h : i < qs.length), lo ≤ i → Spec.PassThrough qs[i]) :
    ∀ (f : Nat) (s : S), lo ≤ s.idx →
    qs.length + 1 - s.idx ≤ f → s.idx ≤ qs.length → s.rw.written = false →
    (loop (qs ++ [a]).length (handlerOf (qs ++ [a])) f s).1.rw = (Spec.alone a s.rw).1 ∧
    (loop (qs ++ [a]).length (handlerOf (qs ++ [a])) f s).2 = (Spec.alone a s.rw).2 ∧
    ((Spec.alone a s.rw).2 = none → qs.length + 1 ≤ (loop (qs ++ [a]).length (handlerOf (qs ++ [a])) f s).1.idx) := by
  intro f
  induction f with
  | zero => intro s h0 h1 h2; omega
  | succ f ih =>
    intro s h0 h1 h2 hw
    by_cases hlast : s.idx = qs.length
    · exact last_alone qs a f s hlast
    · have hlt : s.idx < qs.length := by omega
      rw [loop_lt _ _ _ _ (by simp; omega)]
      have hb : handlerOf (qs ++ [a]) s.idx = interp (qs[s.idx]'hlt) s.idx := by
        funext nx t
        unfold handlerOf
        rw [List.getElem?_append_left hlt, List.getElem?_eq_getElem hlt]
      rw [hb]
      have hstage := interp_pass (hq s.idx hlt h0) s.idx (qs.length + 1) s.idx s.rw (Spec.alone a s.rw).1
        (Spec.alone a s.rw).2 (fun s' => loop (qs ++ [a]).length (handlerOf (qs ++ [a])) f s'.bump) (s.push (.start s.idx))
        (by
          intro t ht ht'
          have := ih t.bump (by simp only [S.bump]; omega) (by simp only [S.bump]; omega) (by simp only [S.bump]; omega) (by simp only [S.bump]; rw [ht']; exact hw)
          simp only [S.bump, ht'] at this ⊢
          exact this)
        (by
          intro t ht
          have : loop (qs ++ [a]).length (handlerOf (qs ++ [a])) f t.bump = (t.bump, none) :=
            loop_ge _ _ _ _ (by simp [S.bump]; omega)
          simp only [this]
          exact ⟨rfl, trivial, by simp only [S.bump]; omega⟩)
        (Or.inl ⟨rfl, rfl, rfl⟩)
      cases hx : interp (qs[s.idx]'hlt) s.idx (fun s' => loop (qs ++ [a]).length (handlerOf (qs ++ [a])) f s'.bump) (s.push (.start s.idx)) with
      | mk t r =>
        rw [hx] at hstage
        rcases hstage with ⟨e1, e2, e3⟩ | ⟨e1, e2, e3, e4⟩ | ⟨v, e1, e2, e3⟩
        · simp only at e1 e2 e3
          subst e1
          simp only
          rw [if_neg (by rw [e3, hw]; simp)]
          have := ih (t.bump.push (.fin s.idx t.rw.written)) (by simp only [S.bump, S.push]; omega) (by simp only [S.bump, S.push]; omega)
            (by simp only [S.bump, S.push]; omega) (by simp only [S.bump, S.push]; rw [e3]; exact hw)
          simp only [S.bump, S.push, e3] at this ⊢
          exact this
        · simp only at e1 e3 e4
          subst e1
          simp only
          have : (if t.rw.written = true then (t.bump.push (.fin s.idx t.rw.written), none)
              else loop (qs ++ [a]).length (handlerOf (qs ++ [a])) f (t.bump.push (.fin s.idx t.rw.written))) =
              (t.bump.push (.fin s.idx t.rw.written), (none : Option PVal)) := by
            split
            · rfl
            · exact loop_ge _ _ _ _ (by simp [S.bump, S.push]; omega)
          rw [this]
          exact ⟨e4, e2.symm, fun _ => by simp only [S.bump, S.push]; omega⟩
        · simp only at e2 e3
          subst e2
          exact ⟨e3, e1.symm, fun h => by rw [e1] at h; cases h⟩

/-- **C82**: filters that leave the response alone and do not panic — whether or how often they call `Next` — do not
change what the client gets: the chain's effect on a fresh response, and its panic, are those of the last handler run on
its own. -/
theorem C82_pass_through (qs : List Act) (a : Act) (w : RW) (hq : ∀ q ∈ qs, Spec.PassThrough q) (hw : w.written = false) :
    ((run (qs ++ [a]) w).1.rw, (run (qs ++ [a]) w).2) = Spec.alone a w := by
  have := pass_loop qs a 0 (fun i h _ => hq _ (List.getElem_mem h)) (qs ++ [a]).length ⟨0, w, []⟩ (Nat.zero_le _) (by simp) (Nat.zero_le _) hw
  unfold run
  rw [this.1, this.2.1]

/-! ## Nested contexts -/

/-- Running a chain in a nested context is running it. -/
theorem alone_nested (hs : List Act) (w : RW) : Spec.alone (nested hs) w = ((run hs w).1.rw, (run hs w).2) := by
  have hbody : (fun (j : Nat) (nx : S → Out) (s : S) => if h : j < hs.length then interp (hs[(⟨j, h⟩ : Fin hs.length).val]) j nx s else (s, none)) =
      handlerOf hs := by
    funext j nx s
    unfold handlerOf
    by_cases h : j < hs.length
    · rw [dif_pos h, List.getElem?_eq_getElem h]
    · rw [dif_neg h, List.getElem?_eq_none (by omega)]
  have e : run [nested hs] w = match interp (nested hs) 0 (fun s' => loop 1 (handlerOf [nested hs]) 0 s'.bump) ⟨0, w, [.start 0]⟩ with
      | (s', some v) => (s', some v)
      | (s', none) =>
        if s'.rw.written then (s'.bump.push (.fin 0 s'.rw.written), none)
        else loop 1 (handlerOf [nested hs]) 0 (s'.bump.push (.fin 0 s'.rw.written)) := rfl
  have hn : interp (nested hs) 0 (fun s' => loop 1 (handlerOf [nested hs]) 0 s'.bump) ⟨0, w, [.start 0]⟩ =
      match run hs w with
      | (s', none) => (⟨0, s'.rw, [.start 0]⟩, none)
      | (s', some v) => (⟨0, s'.rw, [.start 0]⟩, some v) := by
    unfold nested
    simp only [interp]
    rw [hbody]
    rfl
  unfold Spec.alone
  rw [e, hn]
  cases run hs w with
  | mk t r =>
    cases r with
    | some v => rfl
    | none =>
      simp only
      by_cases hw : t.rw.written = true
      · rw [if_pos hw]; rfl
      · rw [if_neg hw]; rfl

/-- `serveHTTP` depends only on the effect of the chain on the response. -/
theorem serveHTTP_congr (hs : List Act) (a : Act) (h : ((run hs newRW).1.rw, (run hs newRW).2) = Spec.alone a newRW) :
    serveHTTP hs = serveHTTP [a] := by
  unfold Spec.alone at h
  unfold serveHTTP
  cases hx : run hs newRW with
  | mk t r =>
    cases hy : run [a] newRW with
    | mk t' r' =>
      rw [hx, hy] at h
      simp only [Prod.mk.injEq] at h
      obtain ⟨h1, rfl⟩ := h
      cases r with
      | none => simp only [h1]
      | some v => simp only [h1]

theorem serveHTTP_nested (hs : List Act) : serveHTTP [nested hs] = serveHTTP hs :=
  (serveHTTP_congr hs (nested hs) (alone_nested hs newRW).symm).symm

/-- **C82**: with pass-through global filters, a request gets what the chain its route selects would have answered on
its own: the not-found handlers, or the filters and the action of the route. -/
theorem C82_request (prog : Filter → Act) (act : RouteAction → Str → Params → Str → Act) (s : Strip) (method path : Str)
    (hg : ∀ f ∈ s.filters, Spec.PassThrough (prog f)) :
    serve prog act s method path =
      match handle s.root method path with
      | .notFound => serveHTTP s.notFound
      | .dispatch _ ra f ps info => serveHTTP (ra.filters.map prog ++ [act ra f ps info]) := by
  have h1 : serve prog act s method path = serveHTTP [routeHandle prog act s method path] :=
    serveHTTP_congr _ _ (C82_pass_through _ _ newRW (by
      intro q hq
      obtain ⟨f, hf, rfl⟩ := List.mem_map.mp hq
      exact hg f hf) rfl)
  rw [h1]
  unfold routeHandle
  cases handle s.root method path with
  | notFound => exact serveHTTP_nested _
  | dispatch r ra f ps info => exact serveHTTP_nested _

/-- **C82**: with pass-through route filters as well, a request that is dispatched gets what its action alone answers. -/
theorem C82_action (prog : Filter → Act) (act : RouteAction → Str → Params → Str → Act) (s : Strip) (method path : Str)
    {r : Route} {ra : RouteAction} {f : Str} {ps : Params} {info : Str}
    (hh : handle s.root method path = .dispatch r ra f ps info)
    (hg : ∀ f ∈ s.filters, Spec.PassThrough (prog f)) (hr : ∀ f ∈ ra.filters, Spec.PassThrough (prog f)) :
    serve prog act s method path = serveHTTP [act ra f ps info] := by
  rw [C82_request prog act s method path hg, hh]
  exact serveHTTP_congr _ _ (C82_pass_through _ _ newRW (by
    intro q hq
    obtain ⟨f, hf, rfl⟩ := List.mem_map.mp hq
    exact hr f hf) rfl)

/-! ## C81 -/

/-- **C81**: a request no route answers gets, from an application with the default not-found handler and filters that
leave the response alone, exactly one header, 404, and the body `404 Not Found`; nothing panics. -/
theorem C81_default_not_found (prog : Filter → Act) (act : RouteAction → Str → Params → Str → Act) (s : Strip)
    (method path : Str) (hh : handle s.root method path = .notFound) (hn : s.notFound = [defaultNotFound])
    (hg : ∀ f ∈ s.filters, Spec.PassThrough (prog f)) :
    (serve prog act s method path).1.events = [.header 404, .body b!"404 Not Found", .body []] ∧
    (serve prog act s method path).2 = none := by
  rw [C82_request prog act s method path hg, hh, hn]
  have : (serveHTTP [defaultNotFound]).1.events = [.header 404, .body b!"404 Not Found", .body []] ∧ (serveHTTP [defaultNotFound]).2 = none := by
    decide +kernel
  exact this

/-- **C81**: with handlers of one's own, a request no route answers is answered, behind filters that leave the response
alone, as by those handlers alone. -/
theorem C81_custom_not_found (prog : Filter → Act) (act : RouteAction → Str → Params → Str → Act) (s : Strip)
    (method path : Str) (hh : handle s.root method path = .notFound) (hg : ∀ f ∈ s.filters, Spec.PassThrough (prog f)) :
    serve prog act s method path = serveHTTP s.notFound := by
  rw [C82_request prog act s method path hg, hh]

/-- Set-up calls on an application. -/
inductive Spec.Call where
  | filter (fs : List Filter)
  | routers (hs : List Handler)
  | notFound (hs : List Act)

/-- The application after a sequence of set-up calls on a new one; `none`: a registration panicked. -/
def Spec.build : List Spec.Call → Strip → Option Strip
  | [], s => some s
  | .filter fs :: cs, s => Spec.build cs (s.filter fs)
  | .routers hs :: cs, s => (s.routers hs).bind (Spec.build cs)
  | .notFound hs :: cs, s => Spec.build cs (s.setNotFound hs)

/-- The filters passed in the calls, in order, the handlers passed to `Routers`, and those of the last `NotFound`. -/
def Spec.filtersOf (cs : List Spec.Call) : List Filter := cs.flatMap (fun c => match c with | .filter fs => fs | _ => [])
def Spec.routersOf (cs : List Spec.Call) : List (List Handler) := cs.filterMap (fun c => match c with | .routers hs => some hs | _ => none)
def Spec.notFoundOf (cs : List Spec.Call) : Option (List Act) :=
  (cs.filterMap (fun c => match c with | .notFound hs => some hs | _ => none)).getLast?

/-- The elements of a list that do not occur earlier in it, in order. -/
def Spec.firsts (l : List Filter) : List Filter := (l.zipIdx.filter (fun p => p.1 ∉ l.take p.2)).map (·.1)

theorem firsts_snoc (l : List Filter) (x : Filter) : Spec.firsts (l ++ [x]) = Spec.firsts l ++ (if x ∈ l then [] else [x]) := by
  unfold Spec.firsts
  rw [List.zipIdx_append, List.filter_append, List.map_append]
  congr 1
  · congr 1
    apply List.filter_congr
    intro p hp
    have : p.2 ≤ l.length := by
      have := (List.mem_zipIdx hp).2.1
      omega
    rw [List.take_append_of_le_length this]
  · by_cases h : x ∈ l <;> simp [List.zipIdx, h]

theorem fappend_append (h a b : List Filter) : fappend h (a ++ b) = fappend (fappend h a) b := by
  induction a generalizing h with
  | nil => rfl
  | cons x a ih =>
    show (if x ∈ h then fappend h (a ++ b) else fappend (h ++ [x]) (a ++ b)) = fappend (if x ∈ h then fappend h a else fappend (h ++ [x]) a) b
    by_cases hx : x ∈ h
    · rw [if_pos hx, if_pos hx, ih]
    · rw [if_neg hx, if_neg hx, ih]

theorem fappend_firsts (l : List Filter) : fappend [] l = Spec.firsts l := by
  have : ∀ r : List Filter, fappend [] r.reverse = Spec.firsts r.reverse := by
    intro r
    induction r with
    | nil => rfl
    | cons x r ih =>
      rw [List.reverse_cons, fappend_append, ih, firsts_snoc]
      have hm : x ∈ Spec.firsts r.reverse ↔ x ∈ r.reverse := by
        rw [← ih, mem_fappend]; simp
      show (if x ∈ Spec.firsts r.reverse then _ else _) = _
      by_cases hx : x ∈ r.reverse
      · rw [if_pos (hm.mpr hx), if_pos hx]; simp [fappend]
      · rw [if_neg (fun h => hx (hm.mp h)), if_neg hx]; rfl
  have := this l.reverse
  rwa [List.reverse_reverse] at this

theorem build_eq (cs : List Spec.Call) : ∀ s t : Strip, Spec.build cs s = some t →
    t.notFound = (Spec.notFoundOf cs).getD s.notFound ∧ t.filters = fappend s.filters (Spec.filtersOf cs) ∧ registerAll (Spec.routersOf cs) s.root = some t.root := by
  induction cs with
  | nil => intro s t h; cases h; exact ⟨rfl, rfl, rfl⟩
  | cons c cs ih =>
    intro s t h
    cases c with
    | filter fs =>
      obtain ⟨h1, h2, h3⟩ := ih _ _ h
      refine ⟨h1, ?_, h3⟩
      rw [h2]
      show fappend (fappend s.filters fs) _ = fappend s.filters (fs ++ Spec.filtersOf cs)
      rw [fappend_append]
    | routers hs =>
      have h' : (s.routers hs).bind (Spec.build cs) = some t := h
      unfold Strip.routers at h'
      cases hr : Router.routers hs s.root with
      | none => rw [hr] at h'; cases h'
      | some r =>
        rw [hr] at h'
        obtain ⟨h1, h2, h3⟩ := ih _ _ h'
        refine ⟨h1, h2, ?_⟩
        show registerAll (hs :: Spec.routersOf cs) s.root = _
        unfold registerAll
        rw [hr]
        exact h3
    | notFound hs =>
      obtain ⟨h1, h2, h3⟩ := ih _ _ h
      refine ⟨?_, h2, h3⟩
      rw [h1]
      show (Spec.notFoundOf cs).getD hs = ((hs :: cs.filterMap (fun c => match c with | .notFound hs => some hs | _ => none)).getLast?).getD _
      rw [List.getLast?_cons]
      rfl

/-- **C81**: a new application, set up by any calls of `Filter`, `Routers` and `NotFound`, has the not-found handlers of
the last `NotFound` call, the default one if there was none; its global filters are those passed to `Filter`, in the order of the first time each was passed; its routes are
those of the `Routers` calls, in order, however the calls are interleaved. -/
theorem C81_build (cs : List Spec.Call) (s : Strip) (h : Spec.build cs new = some s) :
    s.notFound = (Spec.notFoundOf cs).getD [defaultNotFound] ∧ s.filters = Spec.firsts (Spec.filtersOf cs) ∧
    registerAll (Spec.routersOf cs) newRoot = some s.root := by
  obtain ⟨h1, h2, h3⟩ := build_eq cs new s h
  exact ⟨h1, h2.trans (fappend_firsts _), h3⟩

/-! ## C83 -/

/-- The recovery filter calls `Next` only once. -/
theorem recovery_once (lg : Bool) (dev : Option Str) (nx : S → Out) (s : S) :
    interp (recovery lg dev) 0 nx s = interp (recovery lg dev) 0 (fun _ => nx (s.push (.nextBeg 0 s.rw.written))) s := by
  unfold recovery
  simp only [interp]
  cases nx (s.push (.nextBeg 0 s.rw.written)) with
  | mk t r =>
    rcases r with _ | _ | v
    · rfl
    · rfl
    · simp only
      cases lg
      · rfl
      · simp only [Bool.not_true, Bool.false_eq_true, if_false, interp]
        show interp (if t.rw.written then _ else _) _ _ _ = interp (if t.rw.written then _ else _) _ _ _
        cases t.rw.written
        · cases dev <;> rfl
        · rfl

/-- The chain behind the recovery filter, and what the filter does with its outcome. -/
theorem recovery_run (lg : Bool) (dev : Option Str) (qs : List Act) (a : Act) (rw : RW) (hq : ∀ q ∈ qs, Spec.PassThrough q)
    (hw : rw.written = false) : ∃ j t, ((Spec.alone a rw).2 = none → qs.length + 2 ≤ j) ∧
    run (recovery lg dev :: (qs ++ [a])) rw =
      match interp (recovery lg dev) 0 (fun _ => (⟨j, (Spec.alone a rw).1, t⟩, (Spec.alone a rw).2)) ⟨0, rw, [.start 0]⟩ with
      | (s', some v) => (s', some v)
      | (s', none) => finish (loop (qs.length + 2) (handlerOf (recovery lg dev :: (qs ++ [a]))) (qs.length + 1)) s' := by
  obtain ⟨h1, h2, h3⟩ := pass_loop (recovery lg dev :: qs) a 1 (by
    intro i h hi
    obtain ⟨j, rfl⟩ := Nat.exists_eq_add_of_le' hi
    simp only [List.getElem_cons_succ]
    exact hq _ (List.getElem_mem _)) (qs.length + 1) ⟨1, rw, [.start 0, .nextBeg 0 rw.written]⟩ (Nat.le_refl _) (by simp) (by simp) hw
  have hlen : (recovery lg dev :: (qs ++ [a])).length = qs.length + 2 := by simp
  have hrun : run (recovery lg dev :: (qs ++ [a])) rw =
      match interp (recovery lg dev) 0
        (fun s' => loop (qs.length + 2) (handlerOf (recovery lg dev :: (qs ++ [a]))) (qs.length + 1) s'.bump)
        ⟨0, rw, [.start 0]⟩ with
      | (s', some v) => (s', some v)
      | (s', none) =>
        finish (loop (qs.length + 2) (handlerOf (recovery lg dev :: (qs ++ [a]))) (qs.length + 1)) s' := by
    unfold run
    rw [hlen]
    rfl
  have hlen' : (recovery lg dev :: qs ++ [a]).length = qs.length + 2 := by simp
  rw [hlen', List.cons_append] at h1 h2 h3
  refine ⟨_, (loop (qs.length + 2) (handlerOf (recovery lg dev :: (qs ++ [a]))) (qs.length + 1) ⟨1, rw, [.start 0, .nextBeg 0 rw.written]⟩).1.tr, h3, ?_⟩
  rw [hrun, recovery_once]
  simp only at h1 h2
  rw [← h1, ← h2]
  rfl

/-- **C83**: behind the recovery filter and filters that leave the response alone, an action that does not panic answers
as it does alone. -/
theorem C83_no_panic (lg : Bool) (dev : Option Str) (qs : List Act) (a : Act) (hq : ∀ q ∈ qs, Spec.PassThrough q)
    (ha : (Spec.alone a newRW).2 = none) : serveHTTP (recovery lg dev :: (qs ++ [a])) = serveHTTP [a] := by
  refine serveHTTP_congr _ _ ?_
  obtain ⟨j, t, hj, h⟩ := recovery_run lg dev qs a newRW hq rfl
  have hj := hj ha
  rw [h, ha]
  have e : interp (recovery lg dev) 0 (fun _ => (⟨j, (Spec.alone a newRW).1, t⟩, none)) ⟨0, newRW, [.start 0]⟩ =
      (⟨j, (Spec.alone a newRW).1, t ++ [.nextEnd 0]⟩, none) := rfl
  rw [e]
  simp only
  generalize hz : (Spec.alone a newRW).1 = z
  have hp : Spec.alone a newRW = (z, none) := by rw [← hz, ← ha]
  rw [hp]
  by_cases hw : z.written = true
  · rw [finish_pos (s := ⟨j, z, _⟩) hw]
  · rw [finish_neg (s := ⟨j, z, _⟩) (by simpa using hw), loop_ge _ _ _ _ (by simp; omega)]

/-- **C83**: behind the recovery filter (with a logger, in production mode) and filters that leave the response alone, an
action that panics with a value before anything was written is answered with one header, status 500, and no body; the
panic does not reach the server. -/
theorem C83_panic (qs : List Act) (a : Act) (v : Nat) (w : RW) (hq : ∀ q ∈ qs, Spec.PassThrough q)
    (ha : Spec.alone a newRW = (w, some (some v))) (hw : w.status = 0) (ho : w.once = false) (hh : w.hijacked = false)
    (hb : ∀ b ∈ w.befores, b.status = none ∧ b.panics = false) :
    (serveHTTP (recovery true none :: (qs ++ [a]))).1.events =
      w.events ++ w.befores.reverse.map (fun b => Ev.before b.id) ++ [.header 500, .body []] ∧
    (serveHTTP (recovery true none :: (qs ++ [a]))).2 = none := by
  obtain ⟨j, t, -, h⟩ := recovery_run true none qs a newRW hq rfl
  rw [ha] at h
  have hwr : w.written = false := by simp [RW.written, hw]
  have hr : (run (recovery true none :: (qs ++ [a])) newRW).1.rw = { w with status := 500 } ∧
      (run (recovery true none :: (qs ++ [a])) newRW).2 = none := by
    rw [h]
    have e : interp (recovery true none) 0 (fun _ => (⟨j, w, t⟩, some (some v))) ⟨0, newRW, [.start 0]⟩ =
        (⟨j, { w with status := 500 }, t ++ [.nextRec 0 (some v) w]⟩, none) := by
      simp [recovery, interp, RW.op, RW.writeHeader, S.push, hwr]
    rw [e]
    simp only
    rw [finish_pos (s := ⟨j, { w with status := 500 }, _⟩) rfl]
    exact ⟨rfl, rfl⟩
  unfold serveHTTP
  cases hx : run (recovery true none :: (qs ++ [a])) newRW with
  | mk s r =>
    rw [hx] at hr
    obtain ⟨h1, h2⟩ := hr
    simp only at h1 h2
    subst h2
    have hcall : ∀ (l : List BF) (u : RW), (∀ b ∈ l, b.status = none ∧ b.panics = false) →
        callBefore l u = ({ u with events := u.events ++ l.map (fun b => .before b.id) }, false) := by
      intro l
      induction l with
      | nil => intro u _; simp [callBefore]
      | cons b l ih =>
        intro u hl
        obtain ⟨e1, e2⟩ := hl b (by simp)
        simp only [callBefore, e1, e2]
        rw [if_neg (by simp), ih _ (fun b hb => hl b (by simp [hb]))]
        simp
    have hwrite : s.rw.write [] 0 = (writeBody { w with
        status := 500
        once := true
        events := w.events ++ w.befores.reverse.map (fun b => Ev.before b.id) ++ [.header 500] } [] 0, false) := by
      rw [h1]
      unfold RW.write commit
      rw [if_neg (by simp [ho])]
      simp only
      rw [hcall _ _ (by simpa using hb)]
      simp [hh]
    simp only [hwrite]
    simp [writeBody]

/-- The innermost handler of a dispatched request with pass-through route filters is its action. -/
theorem routeHandle_action (prog : Filter → Act) (act : RouteAction → Str → Params → Str → Act) (s : Strip) (method path : Str)
    {r : Route} {ra : RouteAction} {f : Str} {ps : Params} {info : Str}
    (hh : handle s.root method path = .dispatch r ra f ps info) (hr : ∀ f ∈ ra.filters, Spec.PassThrough (prog f)) :
    Spec.alone (routeHandle prog act s method path) newRW = Spec.alone (act ra f ps info) newRW := by
  unfold routeHandle
  rw [hh]
  simp only
  rw [alone_nested]
  exact C82_pass_through _ _ newRW (by
    intro q hq
    obtain ⟨f, hf, rfl⟩ := List.mem_map.mp hq
    exact hr f hf) rfl

/-- **C83** for requests: the application's first filter is the recovery filter (`LoadClassicFilters`), the other global
filters and those of the route leave the response alone. An action that panics with a value before anything was written,
and without having registered callbacks or hijacked the connection, is answered with status 500 and an empty body. -/
theorem C83_request_panic (prog : Filter → Act) (act : RouteAction → Str → Params → Str → Act) (s : Strip) (method path : Str)
    {r : Route} {ra : RouteAction} {f : Str} {ps : Params} {info : Str} (f0 : Filter) (gs : List Filter) (v : Nat) (w : RW)
    (hh : handle s.root method path = .dispatch r ra f ps info)
    (hf : s.filters = f0 :: gs) (h0 : prog f0 = recovery true none)
    (hg : ∀ f ∈ gs, Spec.PassThrough (prog f)) (hr : ∀ f ∈ ra.filters, Spec.PassThrough (prog f))
    (ha : Spec.alone (act ra f ps info) newRW = (w, some (some v)))
    (hw : w.status = 0) (ho : w.once = false) (hj : w.hijacked = false) (hb : w.befores = []) :
    (serve prog act s method path).1.events = w.events ++ [.header 500, .body []] ∧
    (serve prog act s method path).2 = none := by
  have e : serve prog act s method path =
      serveHTTP (recovery true none :: (gs.map prog ++ [routeHandle prog act s method path])) := by
    unfold serve
    rw [hf, List.map_cons, h0]
    rfl
  rw [e]
  have := C83_panic (gs.map prog) (routeHandle prog act s method path) v w (by
    intro q hq
    obtain ⟨f, hf, rfl⟩ := List.mem_map.mp hq
    exact hg f hf) ((routeHandle_action prog act s method path hh hr).trans ha) hw ho hj (by simp [hb])
  simpa [hb] using this

/-- **C83** for requests: the recovery filter changes nothing for an action that does not panic. -/
theorem C83_request_no_panic (prog : Filter → Act) (act : RouteAction → Str → Params → Str → Act) (s : Strip) (method path : Str)
    {r : Route} {ra : RouteAction} {f : Str} {ps : Params} {info : Str} (f0 : Filter) (gs : List Filter) (lg : Bool) (dev : Option Str)
    (hh : handle s.root method path = .dispatch r ra f ps info)
    (hf : s.filters = f0 :: gs) (h0 : prog f0 = recovery lg dev)
    (hg : ∀ f ∈ gs, Spec.PassThrough (prog f)) (hr : ∀ f ∈ ra.filters, Spec.PassThrough (prog f))
    (ha : (Spec.alone (act ra f ps info) newRW).2 = none) :
    serve prog act s method path = serveHTTP [act ra f ps info] := by
  have e : serve prog act s method path =
      serveHTTP (recovery lg dev :: (gs.map prog ++ [routeHandle prog act s method path])) := by
    unfold serve
    rw [hf, List.map_cons, h0]
    rfl
  have ha' : (Spec.alone (routeHandle prog act s method path) newRW).2 = none := by
    rw [routeHandle_action prog act s method path hh hr]; exact ha
  rw [e, C83_no_panic lg dev _ _ (by
    intro q hq
    obtain ⟨f, hf, rfl⟩ := List.mem_map.mp hq
    exact hg f hf) ha']
  exact serveHTTP_congr [routeHandle prog act s method path] _ (routeHandle_action prog act s method path hh hr)

/-! ## The hypotheses can be met -/

namespace Ex
/-- Filter 0 is the recovery filter, filter 1 looks at `Written` after `Next`, filter 2 does nothing. -/
def prog : Filter → Act
  | 0 => recovery true none
  | 1 => .next (.written fun b => if b then .eff 1 .done else .done)
  | _ => .done

/-- Controller 3 panics, the others answer 201 with the name of the route. -/
def act (ra : RouteAction) (_ : Str) (_ : Params) (info : Str) : Act :=
  if ra.ctl.id = 3 then .op .flush (.panic (some 7)) else .op (.writeHeader 201) (.op (.write info info.length) .done)

def strip (fs : List Filter) : Strip := ⟨fs, Router.Ex.root, [defaultNotFound]⟩

def events (fs : List Filter) (m p : Str) : List Ev := (serve prog act (strip fs) m p).1.events

theorem pass1 : Spec.PassThrough (prog 1) := .next (.written fun b => by cases b <;> first | exact .done | exact .eff .done)
theorem pass2 : Spec.PassThrough (prog 2) := .done
end Ex

example : Ex.events [1, 2] b!"GET" b!"/nowhere" = [.header 404, .body b!"404 Not Found", .body []] := by decide +kernel
example : Ex.events [1, 2] b!"GET" b!"/users" = [.header 201, .body b!"/users", .body []] := by decide +kernel
example : Ex.events [0, 1, 2] b!"GET" b!"/users" = [.header 201, .body b!"/users", .body []] := by decide +kernel
example : Ex.events [0, 1, 2] b!"GET" b!"/users/7/posts" = [.flush, .header 500, .body []] := by decide +kernel
example : (serve Ex.prog Ex.act (Ex.strip [1]) b!"GET" b!"/users/7/posts").2 = some (some 7) := by decide +kernel
example : (serve Ex.prog Ex.act ((Ex.strip [1]).setNotFound [.op (.writeHeader 410) .done]) b!"GET" b!"/nowhere").1.events = [.header 410, .body []] := by
  decide +kernel
example : ((Spec.build [.filter [0, 1], .routers [], .filter [1, 2, 0]] new).map (·.filters)) = some [0, 1, 2] := by decide +kernel

end Verif.App
