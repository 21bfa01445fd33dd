import Verif.Model.ReqContext
/-! C178: what the filters and the action of a request see in the Go context. -/
namespace Verif.RCtx
open Verif.Ctx (Arg keyOf)

/-! ## Specification: a context is a list of attached values, the newest first -/

/-- What is seen through the strip context and through the request's context: the attached values, newest first. -/
structure View where
  ctx : List (Str × Arg)
  req : List (Str × Arg)

/-- One act: `attach` puts a value on what the strip context shows, `provideReq` on what the request shows, and
`attachReq` on what the request shows, which the strip context shows from then on, in the place of what it showed. -/
def View.after (w : View) : Act → Option View
  | .attach v name => (keyOf v name).map (fun k => ⟨(k, v) :: w.ctx, w.req⟩)
  | .attachReq v name => (keyOf v name).map (fun k => ⟨(k, v) :: w.req, (k, v) :: w.req⟩)
  | .provideReq v name => (keyOf v name).map (fun k => ⟨w.ctx, (k, v) :: w.req⟩)
  | .attachSelf _ _ => none

def View.afterAll (w : View) : List Act → Option View
  | [] => some w
  | a :: as => (w.after a).bind (fun w => w.afterAll as)

/-- The values every request starts with: the strip context itself, then those of the server. -/
def startVals (vals : Ctx.Context) (self : Nat) : List (Str × Arg) :=
  (b!"github.com/wujiu2020/strip:Context:", .ptr contextTy (some self)) :: vals

/-- `ctx.Value(key)` comes back, with this answer. -/
def Answers (st : St) (c : GoCtx) (k : Str) (r : Option Arg) : Prop := ∃ n, value st.obj n c k = some r

/-- `ctx.Value(key)` never comes back (in Go: the stack overflows, which ends the process). -/
def Hangs (st : St) (c : GoCtx) (k : Str) : Prop := ∀ n, value st.obj n c k = none

/-- For every key, the context gives what the list has for it. -/
def Shows (st : St) (c : GoCtx) (l : List (Str × Arg)) : Prop := ∀ k, Answers st c k (l.lookup k)

/-- The act does not wrap the strip context in itself. -/
def Act.plain : Act → Prop
  | .attachSelf _ _ => False
  | _ => True

/-! ## Lemmas -/

theorem value_more (obj : Nat → GoCtx) : ∀ (n : Nat) (c : GoCtx) (k : Str) (r : Option Arg) (m : Nat),
    value obj n c k = some r → value obj (n + m) c k = some r := by
  intro n
  induction n with
  | zero => intro c k r m h; simp [value] at h
  | succ n ih =>
    intro c k r m h
    rw [Nat.succ_add]
    cases c with
    | base vals => simpa [value] using h
    | value k' v p =>
      simp only [value] at h ⊢
      split at h
      · rename_i hk; rw [if_pos hk]; exact h
      · rename_i hk; rw [if_neg hk]; exact ih p k r m h
    | strip i => simp only [value] at h ⊢; exact ih _ k r m h

/-- A context made without strip contexts. -/
def Free : GoCtx → Prop
  | .base _ => True
  | .value _ _ p => Free p
  | .strip _ => False

/-- A context that may end in the application's strip context. -/
def Over : GoCtx → Prop
  | .base _ => True
  | .value _ _ p => Over p
  | .strip i => i = 0

def flat (below : List (Str × Arg)) : GoCtx → List (Str × Arg)
  | .base vals => vals
  | .value k v p => (k, v) :: flat below p
  | .strip _ => below

theorem Free.over : ∀ {c : GoCtx}, Free c → Over c
  | .base _, _ => trivial
  | .value _ _ p, h => Free.over (c := p) h
  | .strip _, h => h.elim

theorem flat_free (l l' : List (Str × Arg)) : ∀ {c : GoCtx}, Free c → flat l c = flat l' c
  | .base _, _ => rfl
  | .value _ _ p, h => by simp only [flat]; rw [flat_free l l' (c := p) h]
  | .strip _, h => h.elim

theorem shows_flat (st : St) (l : List (Str × Arg)) : ∀ (c : GoCtx),
    (¬ Free c → Shows st (.strip 0) l) → Over c → Shows st c (flat l c)
  | .base vals, _, _ => fun k => ⟨1, rfl⟩
  | .value k' v p, h0, h => fun k => by
    by_cases hk : k = k'
    · refine ⟨1, ?_⟩
      simp [value, flat, List.lookup, hk]
    · obtain ⟨n, hn⟩ := shows_flat st l p h0 h k
      refine ⟨n + 1, ?_⟩
      simp only [value, if_neg hk, flat, hn]
      rw [List.lookup_cons]
      have : (k == k') = false := by simpa using hk
      rw [this]
  | .strip i, h0, h => by
    have hi : i = 0 := h
    subst hi
    exact h0 (fun h => h)

theorem shows_free (st : St) (l : List (Str × Arg)) (c : GoCtx) (h : Free c) : Shows st c (flat l c) :=
  shows_flat st l c (fun hn => (hn h).elim) h.over

theorem shows_strip (st : St) (i : Nat) (l : List (Str × Arg)) (h : Shows st (st.obj i) l) : Shows st (.strip i) l :=
  fun k => by
    obtain ⟨n, hn⟩ := h k
    exact ⟨n + 1, hn⟩

/-- The invariant: the request's context and the application's are made of values only, the level's own one may end in
the application's; they read as the view says. -/
structure Inv (i : Nat) (st : St) (below : List (Str × Arg)) (w : View) : Prop where
  req : Free st.req
  reqv : flat below st.req = w.req
  zero : Free (st.obj 0)
  over : Over (st.obj i)
  ctx : flat below (st.obj i) = w.ctx
  zerov : i ≠ 0 → flat [] (st.obj 0) = below

theorem inv_act (i : Nat) (st : St) (below : List (Str × Arg)) (w : View) (a : Act) (hp : a.plain)
    (h : Inv i st below w) :
    match act i st a, w.after a with
    | some st', some w' => Inv i st' below w'
    | none, none => True
    | _, _ => False := by
  have hfree0 : i = 0 → Free (st.obj i) := fun hi => by rw [hi]; exact h.zero
  cases a with
  | attach v name =>
    simp only [act, View.after]
    cases hk : keyOf v name with
    | none => trivial
    | some k =>
      refine ⟨h.req, h.reqv, ?_, ?_, ?_, ?_⟩
      · simp only [replace]
        split
        · rename_i h0; exact hfree0 h0.symm
        · exact h.zero
      · simp only [replace, if_pos]; exact h.over
      · simp only [replace, if_pos, flat]; rw [h.ctx]
      · intro hi
        simp only [replace]
        rw [if_neg (fun h0 : (0 : Nat) = i => hi h0.symm)]
        exact h.zerov hi
  | attachReq v name =>
    simp only [act, View.after]
    cases hk : keyOf v name with
    | none => trivial
    | some k =>
      refine ⟨h.req, ?_, ?_, ?_, ?_, ?_⟩
      · simp only [replace, flat]; rw [h.reqv]
      · simp only [replace]
        split
        · exact h.req
        · exact h.zero
      · simp only [replace, if_pos]; exact h.req.over
      · simp only [replace, if_pos, flat]; rw [h.reqv]
      · intro hi
        simp only [replace]
        rw [if_neg (fun h0 : (0 : Nat) = i => hi h0.symm)]
        exact h.zerov hi
  | provideReq v name =>
    simp only [act, View.after]
    cases hk : keyOf v name with
    | none => trivial
    | some k =>
      refine ⟨h.req, ?_, h.zero, h.over, h.ctx, h.zerov⟩
      simp only [flat]; rw [h.reqv]
  | attachSelf v name => exact hp.elim

theorem inv_acts (i : Nat) (below : List (Str × Arg)) : ∀ (as : List Act) (st : St) (w : View),
    (∀ a ∈ as, a.plain) → Inv i st below w →
    match acts i as st, w.afterAll as with
    | some st', some w' => Inv i st' below w'
    | none, none => True
    | _, _ => False
  | [], st, w, _, h => h
  | a :: as, st, w, hp, h => by
    have h1 := inv_act i st below w a (hp a List.mem_cons_self) h
    simp only [acts, View.afterAll]
    cases ha : act i st a with
    | none =>
      cases hw : w.after a with
      | none => trivial
      | some w' => rw [ha, hw] at h1; exact h1.elim
    | some st' =>
      cases hw : w.after a with
      | none => rw [ha, hw] at h1; exact h1.elim
      | some w' =>
        rw [ha, hw] at h1
        exact inv_acts i below as st' w' (fun b hb => hp b (List.mem_cons_of_mem _ hb)) h1

theorem obj_other (i j : Nat) (hij : j ≠ i) : ∀ (as : List Act) (st st' : St), acts i as st = some st' →
    st'.obj j = st.obj j
  | [], st, st', h => by cases h; rfl
  | a :: as, st, st', h => by
    simp only [acts] at h
    cases ha : act i st a with
    | none => rw [ha] at h; cases h
    | some s1 =>
      rw [ha] at h
      rw [obj_other i j hij as s1 st' h]
      cases a with
      | attach v name =>
        simp only [act] at ha
        cases hk : keyOf v name with
        | none => rw [hk] at ha; cases ha
        | some k => rw [hk] at ha; cases ha; simp only [replace, if_neg hij]
      | attachReq v name =>
        simp only [act] at ha
        cases hk : keyOf v name with
        | none => rw [hk] at ha; cases ha
        | some k => rw [hk] at ha; cases ha; simp only [replace, if_neg hij]
      | provideReq v name =>
        simp only [act] at ha
        cases hk : keyOf v name with
        | none => rw [hk] at ha; cases ha
        | some k => rw [hk] at ha; cases ha; rfl
      | attachSelf v name =>
        simp only [act] at ha
        cases hk : keyOf v name with
        | none => rw [hk] at ha; cases ha
        | some k => rw [hk] at ha; cases ha; simp only [replace, if_neg hij]

/-! ## The property -/

/-- An answer does not depend on how long one waits for it: there is at most one, and none when the lookup hangs. -/
theorem C178_one_answer (st : St) (c : GoCtx) (k : Str) (r r' : Option Arg) (h : Answers st c k r) :
    (Answers st c k r' → r' = r) ∧ ¬ Hangs st c k := by
  obtain ⟨n, hn⟩ := h
  refine ⟨?_, fun hh => by rw [hh n] at hn; cases hn⟩
  rintro ⟨m, hm⟩
  have h1 := value_more st.obj n c k r m hn
  have h2 := value_more st.obj m c k r' n hm
  rw [Nat.add_comm, h1] at h2
  cases h2
  rfl

/-- **C178**: for every request, and every sequence of attachments by the filters of the application and then by those of
the route: the request fails exactly when one of the attached values is of a kind that `CtxWithValue` refuses; otherwise
the context of the application, the one of the route and the one of the request show exactly the lists of the
specification; what the route attaches is not seen through the application's context. -/
theorem C178_exact (vals : Ctx.Context) (self : Nat) (outer inner : List Act)
    (ho : ∀ a ∈ outer, a.plain) (hi : ∀ a ∈ inner, a.plain) :
    match (View.mk (startVals vals self) (startVals vals self)).afterAll outer with
    | none => request vals self outer inner = none
    | some app =>
      match (View.mk app.ctx app.req).afterAll inner with
      | none => request vals self outer inner = none
      | some route => ∃ st, request vals self outer inner = some st ∧
          Shows st (.strip 0) app.ctx ∧ Shows st (.strip 1) route.ctx ∧ Shows st st.req route.req := by
  have hkey : keyOf (.ptr contextTy (some self)) [] = some b!"github.com/wujiu2020/strip:Context:" := rfl
  have hs : start vals self = some ⟨fun _ => .value b!"github.com/wujiu2020/strip:Context:"
      (.ptr contextTy (some self)) (.base vals), .value b!"github.com/wujiu2020/strip:Context:"
      (.ptr contextTy (some self)) (.base vals)⟩ := by
    simp only [start, hkey, Option.map]
  have hreq : request vals self outer inner = (acts 0 outer ⟨fun _ => .value b!"github.com/wujiu2020/strip:Context:"
      (.ptr contextTy (some self)) (.base vals), .value b!"github.com/wujiu2020/strip:Context:"
      (.ptr contextTy (some self)) (.base vals)⟩).bind (fun st => acts 1 inner (enter st)) := by
    simp only [request, hs, Option.bind]
  rw [hreq]
  have h0 := inv_acts 0 [] outer ⟨fun _ => .value b!"github.com/wujiu2020/strip:Context:"
      (.ptr contextTy (some self)) (.base vals), .value b!"github.com/wujiu2020/strip:Context:"
      (.ptr contextTy (some self)) (.base vals)⟩ ⟨startVals vals self, startVals vals self⟩ ho
      ⟨trivial, rfl, trivial, trivial, rfl, fun h => (h rfl).elim⟩
  cases ha : (View.mk (startVals vals self) (startVals vals self)).afterAll outer with
  | none =>
    rw [ha] at h0
    cases hb : acts 0 outer _ with
    | none => rfl
    | some st => rw [hb] at h0; exact h0.elim
  | some app =>
    rw [ha] at h0
    cases hb : acts 0 outer _ with
    | none => rw [hb] at h0; exact h0.elim
    | some st =>
      rw [hb] at h0
      have h0' : Inv 0 st [] app := h0
      have hE : Inv 1 (enter st) app.ctx ⟨app.ctx, app.req⟩ := by
        refine ⟨h0'.req, ?_, h0'.zero, rfl, rfl, fun _ => h0'.ctx⟩
        show flat app.ctx st.req = app.req
        rw [flat_free app.ctx [] h0'.req, h0'.reqv]
      have h1 := inv_acts 1 app.ctx inner (enter st) ⟨app.ctx, app.req⟩ hi hE
      simp only [Option.bind]
      cases hc : (View.mk app.ctx app.req).afterAll inner with
      | none =>
        rw [hc] at h1
        cases hd : acts 1 inner (enter st) with
        | none => rfl
        | some st' => rw [hd] at h1; exact h1.elim
      | some route =>
        rw [hc] at h1
        cases hd : acts 1 inner (enter st) with
        | none => rw [hd] at h1; exact h1.elim
        | some st' =>
          rw [hd] at h1
          have h1' : Inv 1 st' app.ctx route := h1
          have hz : Shows st' (.strip 0) app.ctx := by
            apply shows_strip
            have := shows_free st' [] (st'.obj 0) h1'.zero
            rw [h1'.zerov (by decide)] at this
            exact this
          refine ⟨st', rfl, hz, ?_, ?_⟩
          · apply shows_strip
            have := shows_flat st' app.ctx (st'.obj 1) (fun _ => hz) h1'.over
            rw [h1'.ctx] at this
            exact this
          · have := shows_free st' app.ctx st'.req h1'.req
            rw [h1'.reqv] at this
            exact this

/-! ## What follows for filters -/

theorem act_lookup (w w' : View) (a : Act) (k : Str) (x : Arg) (hc : w.ctx.lookup k = some x)
    (hr : w.req.lookup k = some x) (h : w.after a = some w')
    (hne : ∀ v name, (a = .attach v name ∨ a = .attachReq v name ∨ a = .provideReq v name) → keyOf v name ≠ some k) :
    w'.ctx.lookup k = some x ∧ w'.req.lookup k = some x := by
  have skip : ∀ (k' : Str) (v : Arg) (l : List (Str × Arg)), k' ≠ k → ((k', v) :: l).lookup k = l.lookup k := by
    intro k' v l hk
    rw [List.lookup_cons]
    have : (k == k') = false := by simpa using fun h : k = k' => hk h.symm
    rw [this]
  cases a with
  | attach v name =>
    have hn := hne v name (Or.inl rfl)
    simp only [View.after] at h
    cases hk : keyOf v name with
    | none => rw [hk] at h; cases h
    | some k' =>
      rw [hk] at h; cases h
      have : k' ≠ k := fun e => hn (by rw [hk, e])
      exact ⟨by rw [skip k' v _ this]; exact hc, hr⟩
  | attachReq v name =>
    have hn := hne v name (Or.inr (Or.inl rfl))
    simp only [View.after] at h
    cases hk : keyOf v name with
    | none => rw [hk] at h; cases h
    | some k' =>
      rw [hk] at h; cases h
      have : k' ≠ k := fun e => hn (by rw [hk, e])
      exact ⟨by rw [skip k' v _ this]; exact hr, by rw [skip k' v _ this]; exact hr⟩
  | provideReq v name =>
    have hn := hne v name (Or.inr (Or.inr rfl))
    simp only [View.after] at h
    cases hk : keyOf v name with
    | none => rw [hk] at h; cases h
    | some k' =>
      rw [hk] at h; cases h
      have : k' ≠ k := fun e => hn (by rw [hk, e])
      exact ⟨hc, by rw [skip k' v _ this]; exact hr⟩
  | attachSelf v name => cases h

/-- The act attaches nothing under this key. -/
def Act.leaves (k : Str) (a : Act) : Prop :=
  ∀ v name, (a = .attach v name ∨ a = .attachReq v name ∨ a = .provideReq v name) → keyOf v name ≠ some k

theorem acts_lookup (k : Str) (x : Arg) : ∀ (as : List Act) (w w' : View), w.ctx.lookup k = some x →
    w.req.lookup k = some x → w.afterAll as = some w' → (∀ a ∈ as, a.leaves k) →
    w'.ctx.lookup k = some x ∧ w'.req.lookup k = some x
  | [], w, w', hc, hr, h, _ => by cases h; exact ⟨hc, hr⟩
  | a :: as, w, w', hc, hr, h, hl => by
    simp only [View.afterAll] at h
    cases ha : w.after a with
    | none => rw [ha] at h; cases h
    | some w1 =>
      rw [ha] at h
      obtain ⟨h1, h2⟩ := act_lookup w w1 a k x hc hr ha (hl a List.mem_cons_self)
      exact acts_lookup k x as w1 w' h1 h2 h (fun b hb => hl b (List.mem_cons_of_mem _ hb))

theorem afterAll_append : ∀ (as bs : List Act) (w : View),
    w.afterAll (as ++ bs) = (w.afterAll as).bind (fun w => w.afterAll bs)
  | [], bs, w => rfl
  | a :: as, bs, w => by
    simp only [List.cons_append, View.afterAll]
    cases w.after a with
    | none => rfl
    | some w1 => exact afterAll_append as bs w1

/-- A value attached the way the request logger does it (to the request, whose context the strip context then takes over)
is seen by all that follows: through the context of the application, that of the route and that of the request, whatever
else is attached later under other keys, in whatever way. -/
theorem C178_attached_for_all (vals : Ctx.Context) (self : Nat) (before after inner : List Act) (v : Arg)
    (name : List Str) (k : Str) (hk : keyOf v name = some k) (hb : ∀ a ∈ before, a.plain)
    (ha : ∀ a ∈ after, a.plain ∧ a.leaves k) (hi : ∀ a ∈ inner, a.plain ∧ a.leaves k) (st : St)
    (h : request vals self (before ++ .attachReq v name :: after) inner = some st) :
    Answers st (.strip 0) k (some v) ∧ Answers st (.strip 1) k (some v) ∧ Answers st st.req k (some v) := by
  have hx := C178_exact vals self (before ++ .attachReq v name :: after) inner
    (by
      intro a hm
      rcases List.mem_append.mp hm with hm | hm
      · exact hb a hm
      · rcases List.mem_cons.mp hm with rfl | hm
        · trivial
        · exact (ha a hm).1)
    (fun a hm => (hi a hm).1)
  cases hw : (View.mk (startVals vals self) (startVals vals self)).afterAll
      (before ++ .attachReq v name :: after) with
  | none => rw [hw] at hx; rw [h] at hx; cases hx
  | some app =>
    rw [hw] at hx
    have happ : app.ctx.lookup k = some v ∧ app.req.lookup k = some v := by
      rw [afterAll_append] at hw
      cases hw1 : (View.mk (startVals vals self) (startVals vals self)).afterAll before with
      | none => rw [hw1] at hw; cases hw
      | some w1 =>
        rw [hw1] at hw
        have hw' : (w1.after (.attachReq v name)).bind (fun w => w.afterAll after) = some app := hw
        simp only [View.after, hk, Option.map, Option.bind] at hw'
        exact acts_lookup k v after _ app (by simp [List.lookup]) (by simp [List.lookup]) hw'
          (fun a hm => (ha a hm).2)
    simp only at hx
    cases hv : (View.mk app.ctx app.req).afterAll inner with
    | none => rw [hv] at hx; rw [h] at hx; cases hx
    | some route =>
      rw [hv] at hx
      obtain ⟨st', hst, s0, s1, s2⟩ := hx
      rw [h] at hst
      cases hst
      obtain ⟨r1, r2⟩ := acts_lookup k v inner _ route happ.1 happ.2 hv (fun a hm => (hi a hm).2)
      refine ⟨?_, ?_, ?_⟩
      · rw [← happ.1]; exact s0 k
      · rw [← r1]; exact s1 k
      · rw [← r2]; exact s2 k

theorem logger_found (l : List (Str × Arg)) (a : Nat)
    (h : l.lookup b!"github.com/wujiu2020/strip:Logger:" = some (.ptr Ctx.loggerTy (some a))) :
    Ctx.getLogger l = .var a := by
  have hk : ∀ x, keyOf (.ptr Ctx.loggerTy x) [] = some b!"github.com/wujiu2020/strip:Logger:" := fun _ => rfl
  simp only [Ctx.getLogger, Ctx.find, hk, h, if_true]

/-- The logger of the request logger: `helpers.GetLogger` finds it with the strip context of the application, with that of
the route, and with the context of the request, wherever it is called. -/
theorem C178_logger_everywhere (vals : Ctx.Context) (self : Nat) (before after inner : List Act) (a : Nat)
    (hb : ∀ a ∈ before, a.plain)
    (ha : ∀ a ∈ after, a.plain ∧ a.leaves b!"github.com/wujiu2020/strip:Logger:")
    (hi : ∀ a ∈ inner, a.plain ∧ a.leaves b!"github.com/wujiu2020/strip:Logger:") (st : St)
    (h : request vals self (before ++ .attachReq (.ptr Ctx.loggerTy (some a)) [] :: after) inner = some st)
    (c : GoCtx) (hc : c = .strip 0 ∨ c = .strip 1 ∨ c = st.req) (l : List (Str × Arg)) (hl : Shows st c l) :
    Ctx.getLogger l = .var a := by
  obtain ⟨h0, h1, h2⟩ := C178_attached_for_all vals self before after inner (.ptr Ctx.loggerTy (some a)) []
    b!"github.com/wujiu2020/strip:Logger:" rfl hb ha hi st h
  apply logger_found
  have : Answers st c b!"github.com/wujiu2020/strip:Logger:" (some (.ptr Ctx.loggerTy (some a))) := by
    rcases hc with rfl | rfl | rfl
    · exact h0
    · exact h1
    · exact h2
  exact (C178_one_answer st c _ _ _ this).1 (hl _)

/-- When every filter attaches in that way, the strip context and the request never differ. -/
theorem C178_agree (vals : Ctx.Context) (self : Nat) (outer inner : List Act)
    (ho : ∀ a ∈ outer, ∃ v name, a = .attachReq v name) (hi : ∀ a ∈ inner, ∃ v name, a = .attachReq v name)
    (st : St) (h : request vals self outer inner = some st) (k : Str) :
    ∃ r, Answers st (.strip 1) k r ∧ Answers st st.req k r := by
  have pl : ∀ as : List Act, (∀ a ∈ as, ∃ v name, a = .attachReq v name) → ∀ a ∈ as, a.plain := by
    intro as has a ha
    obtain ⟨v, name, rfl⟩ := has a ha
    trivial
  have eqv : ∀ (as : List Act) (w w' : View), w.ctx = w.req → (∀ a ∈ as, ∃ v name, a = .attachReq v name) →
      w.afterAll as = some w' → w'.ctx = w'.req := by
    intro as
    induction as with
    | nil => intro w w' he _ hw; cases hw; exact he
    | cons a as ih =>
      intro w w' he has hw
      obtain ⟨v, name, rfl⟩ := has a List.mem_cons_self
      simp only [View.afterAll, View.after] at hw
      cases hk : keyOf v name with
      | none => rw [hk] at hw; cases hw
      | some k =>
        rw [hk] at hw
        exact ih ⟨(k, v) :: w.req, (k, v) :: w.req⟩ w' rfl (fun b hb => has b (List.mem_cons_of_mem _ hb)) hw
  have hx := C178_exact vals self outer inner (pl outer ho) (pl inner hi)
  cases hw : (View.mk (startVals vals self) (startVals vals self)).afterAll outer with
  | none => rw [hw] at hx; rw [h] at hx; cases hx
  | some app =>
    rw [hw] at hx
    simp only at hx
    cases hv : (View.mk app.ctx app.req).afterAll inner with
    | none => rw [hv] at hx; rw [h] at hx; cases hx
    | some route =>
      rw [hv] at hx
      obtain ⟨st', hst, _, s1, s2⟩ := hx
      rw [h] at hst
      cases hst
      have e := eqv inner _ route (eqv outer _ app rfl ho hw) hi hv
      exact ⟨route.ctx.lookup k, s1 k, by rw [e]; exact s2 k⟩

/-- A value attached with `ReplaceContext` alone is lost to the strip context as soon as a later filter attaches any value
to the request in the way of the request logger: for every pair of such values under different keys. -/
theorem C178_lost (vals : Ctx.Context) (self : Nat) (v v' : Arg) (name name' : List Str) (k k' : Str)
    (hk : keyOf v name = some k) (hk' : keyOf v' name' = some k') (hne : k ≠ k')
    (hnew : (startVals vals self).lookup k = none) :
    ∃ st, request vals self [.attach v name, .attachReq v' name'] [] = some st ∧
      Answers st (.strip 0) k none ∧ Answers st (.strip 1) k none ∧ Answers st st.req k none := by
  have hx := C178_exact vals self [.attach v name, .attachReq v' name'] []
    (by
      intro a hm
      rcases List.mem_cons.mp hm with rfl | hm
      · trivial
      · rcases List.mem_cons.mp hm with rfl | hm
        · trivial
        · cases hm)
    (fun a hm => nomatch hm)
  simp only [View.afterAll, View.after, hk, hk', Option.map, Option.bind] at hx
  obtain ⟨st, hst, s0, s1, s2⟩ := hx
  have e : ((k', v') :: startVals vals self).lookup k = none := by
    rw [List.lookup_cons]
    have : (k == k') = false := by simpa using hne
    rw [this]; exact hnew
  refine ⟨st, hst, ?_, ?_, ?_⟩
  · rw [← e]; exact s0 k
  · rw [← e]; exact s1 k
  · rw [← e]; exact s2 k

theorem self_hang (st : St) (i : Nat) (k k' : Str) (v : Arg) (ho : st.obj i = .value k v (.strip i)) (hne : k' ≠ k) :
    ∀ n, value st.obj n (.strip i) k' = none ∧ value st.obj n (.value k v (.strip i)) k' = none := by
  intro n
  induction n with
  | zero => exact ⟨rfl, rfl⟩
  | succ n ih =>
    refine ⟨?_, ?_⟩
    · simp only [value]; rw [ho]; exact ih.2
    · simp only [value, if_neg hne]; exact ih.1

/-- A strip context must not be wrapped in itself: after `ctx.ReplaceContext(CtxWithValue(ctx, v))` the lookup of every
other key never comes back, at any point of any request. -/
theorem C178_self (i : Nat) (st st' : St) (v : Arg) (name : List Str) (k : Str) (hk : keyOf v name = some k)
    (h : act i st (.attachSelf v name) = some st') :
    Answers st' (.strip i) k (some v) ∧ ∀ k', k' ≠ k → Hangs st' (.strip i) k' := by
  simp only [act, hk, Option.map] at h
  cases h
  have ho : (replace st i (.value k v (.strip i))).obj i = .value k v (.strip i) := by simp only [replace, if_pos]
  refine ⟨⟨2, ?_⟩, fun k' hne n => (self_hang _ i k k' v ho hne n).1⟩
  simp only [value]
  rw [ho]
  simp only [if_true]

/-! ## A concrete request -/

def exUserTy : Ctx.Ty := ⟨7, b!"shop/models", b!"User", false⟩
/-- A session filter attaches the user to the request; then the request logger its logger; the route a named second user to
its context. -/
def exOuter : List Act := [.attachReq (.ptr exUserTy (some 10)) [], .attachReq (.ptr Ctx.loggerTy (some 11)) []]
def exInner : List Act := [.attach (.ptr exUserTy (some 12)) [b!"owner"]]

theorem ex_plain : (∀ a ∈ exOuter, a.plain) ∧ (∀ a ∈ exInner, a.plain) := by
  constructor
  · intro a h
    simp only [exOuter, List.mem_cons, List.not_mem_nil, or_false] at h
    rcases h with rfl | rfl <;> trivial
  · intro a h
    simp only [exInner, List.mem_cons, List.not_mem_nil, or_false] at h
    rcases h with rfl; trivial

theorem ex_seen : ∃ st, request [] 1 exOuter exInner = some st ∧
    value st.obj 9 (.strip 1) b!"shop/models:User:owner" = some (some (.ptr exUserTy (some 12))) ∧
    value st.obj 9 (.strip 0) b!"shop/models:User:owner" = some none ∧
    value st.obj 9 (.strip 1) b!"github.com/wujiu2020/strip:Logger:" = some (some (.ptr Ctx.loggerTy (some 11))) ∧
    value st.obj 9 st.req b!"shop/models:User:" = some (some (.ptr exUserTy (some 10))) :=
  ⟨_, rfl, by decide +kernel, by decide +kernel, by decide +kernel, by decide +kernel⟩

/-- The hypotheses of `C178_lost` are met. -/
theorem ex_lost : keyOf (.ptr exUserTy (some 10)) [] = some b!"shop/models:User:" ∧
    keyOf (.ptr Ctx.loggerTy (some 11)) [] = some b!"github.com/wujiu2020/strip:Logger:" ∧
    (startVals [] 1).lookup b!"shop/models:User:" = none := ⟨rfl, rfl, by decide +kernel⟩

end Verif.RCtx
