import Verif.Props.InjectApply
import Verif.Props.InjectOrigin
/-! # C117: what `Apply` does, exactly -/
namespace Verif.Inj

/-- Specification of a failing `Apply` on the field at which it stops, structs being entered `n` levels deep: a tagged field whose type is
`bad` and which keeps its value, or a struct in which the fields before the failing one are filled and those behind it are as before. -/
def FailedAt (gives : Key → Val → Prop) (asg : Val → Nat → Bool) (bad : Key → Prop) : Nat → Field → Field → Prop
  | n, x, y => x.settable = true ∧
    ((x.tag = .inject ∧ bad x.key ∧ y = x) ∨
     (x.tag = .none ∧ match n with
      | 0 => False
      | m + 1 => ∃ a z b a' z', x.sub = a ++ z :: b ∧ y = x.withSub (a' ++ z' :: b) ∧ All2 (Filled gives asg m) a a' ∧ FailedAt gives asg bad m z z'))

/-- The same for the fields of the struct itself. -/
def FailedIn (gives : Key → Val → Prop) (asg : Val → Nat → Bool) (bad : Key → Prop) (n : Nat) (fs fs' : List Field) : Prop :=
  ∃ a z b a' z', fs = a ++ z :: b ∧ fs' = a' ++ z' :: b ∧ All2 (Filled gives asg n) a a' ∧ FailedAt gives asg bad n z z'

theorem FailedAt.mono {h h' : Key → Val → Prop} {asg : Val → Nat → Bool} {b b' : Key → Prop} (hm : ∀ k v, h k v → h' k v) (hb : ∀ k, b k → b' k) :
    ∀ n x y, FailedAt h asg b n x y → FailedAt h' asg b' n x y := by
  intro n
  induction n with
  | zero =>
    intro x y hf
    unfold FailedAt at hf ⊢
    obtain ⟨h1, h2 | h2⟩ := hf
    · exact ⟨h1, .inl ⟨h2.1, hb _ h2.2.1, h2.2.2⟩⟩
    · exact absurd h2.2 id
  | succ n ih =>
    intro x y hf
    unfold FailedAt at hf ⊢
    obtain ⟨h1, h2 | ⟨h2, a, z, c, a', z', h3, h4, h5, h6⟩⟩ := hf
    · exact ⟨h1, .inl ⟨h2.1, hb _ h2.2.1, h2.2.2⟩⟩
    · exact ⟨h1, .inr ⟨h2, a, z, c, a', z', h3, h4, h5.mono (fun x y => Filled.mono hm n x y), ih z z' h6⟩⟩

theorem FailedIn.mono {h h' : Key → Val → Prop} {asg : Val → Nat → Bool} {b b' : Key → Prop} (hm : ∀ k v, h k v → h' k v) (hb : ∀ k, b k → b' k)
    {n : Nat} {fs fs' : List Field} (hf : FailedIn h asg b n fs fs') : FailedIn h' asg b' n fs fs' := by
  obtain ⟨a, z, c, a', z', h3, h4, h5, h6⟩ := hf
  exact ⟨a, z, c, a', z', h3, h4, h5.mono (fun x y => Filled.mono hm n x y), FailedAt.mono hm hb n z z' h6⟩

/-! More nesting does not change an answer. -/

theorem fillList_mono {st st' : Field → St → Res Unit × Field × St} (h : ∀ x s, (st x s).1 ≠ .diverge → st' x s = st x s) :
    ∀ fs s, (fillList st fs s).1 ≠ .diverge → fillList st' fs s = fillList st fs s := by
  intro fs
  induction fs with
  | nil => intro s _; rfl
  | cons x xs ih =>
    intro s hd
    have hx := h x s
    simp only [fillList] at hd ⊢
    generalize st x s = o at hx hd ⊢
    obtain ⟨r, x', s'⟩ := o
    cases r with
    | diverge => exact absurd rfl hd
    | err => rw [hx (by simp)]
    | ok u =>
      rw [hx (by simp)]
      simp only at hd ⊢
      rw [ih s' ?_]
      generalize fillList st xs s' = o at hd ⊢
      obtain ⟨r, a, b⟩ := o
      exact hd

theorem fillField_mono {f f' i : Nat} {asg : Val → Nat → Bool} (hf : f ≤ f') :
    ∀ n x s, (fillField f i asg n x s).1 ≠ .diverge → fillField f' i asg n x s = fillField f i asg n x s := by
  have inj : ∀ (x : Field) (s : St), (match get s i x.key with
        | none => ((.err, x, s) : Res Unit × Field × St)
        | some p => match invoke f i s p with
          | (.ok v, s') => (.ok (), if asg v x.ty then x.assign v else x, s')
          | (.err, s') => (.err, x, s')
          | (.diverge, s') => (.diverge, x, s')).1 ≠ .diverge →
      (match get s i x.key with
        | none => ((.err, x, s) : Res Unit × Field × St)
        | some p => match invoke f' i s p with
          | (.ok v, s') => (.ok (), if asg v x.ty then x.assign v else x, s')
          | (.err, s') => (.err, x, s')
          | (.diverge, s') => (.diverge, x, s')) =
      (match get s i x.key with
        | none => ((.err, x, s) : Res Unit × Field × St)
        | some p => match invoke f i s p with
          | (.ok v, s') => (.ok (), if asg v x.ty then x.assign v else x, s')
          | (.err, s') => (.err, x, s')
          | (.diverge, s') => (.diverge, x, s')) := by
    intro x s hd
    cases hp : get s i x.key with
    | none => rfl
    | some p =>
      rw [hp] at hd
      simp only at hd ⊢
      rw [invoke_mono hf s p ?_]
      intro h
      apply hd
      generalize invoke f i s p = o at h ⊢
      obtain ⟨r, s'⟩ := o
      simp only at h
      subst h
      rfl
  intro n
  induction n with
  | zero =>
    intro x s hd
    unfold fillField at hd ⊢
    by_cases h1 : x.settable = false ∨ x.tag = .dash
    · rw [if_pos h1, if_pos h1]
    · rw [if_neg h1] at hd
      rw [if_neg h1, if_neg h1]
      by_cases h2 : x.tag = .inject
      · rw [if_pos h2] at hd
        rw [if_pos h2, if_pos h2]; exact inj x s hd
      · rw [if_neg h2, if_neg h2]
  | succ n ih =>
    intro x s hd
    unfold fillField at hd ⊢
    by_cases h1 : x.settable = false ∨ x.tag = .dash
    · rw [if_pos h1, if_pos h1]
    · rw [if_neg h1] at hd
      rw [if_neg h1, if_neg h1]
      by_cases h2 : x.tag = .inject
      · rw [if_pos h2] at hd
        rw [if_pos h2, if_pos h2]; exact inj x s hd
      · rw [if_neg h2] at hd
        rw [if_neg h2, if_neg h2]
        simp only at hd ⊢
        rw [fillList_mono ih x.sub s ?_]
        intro h
        apply hd
        generalize fillList (fillField f i asg n) x.sub s = o at h ⊢
        obtain ⟨r, a, b⟩ := o
        exact h

theorem applyStruct_mono {f f' i : Nat} {s : St} {asg : Val → Nat → Bool} {fs : List Field} (hf : f ≤ f') (h : (applyStruct f s i asg fs).1 ≠ .diverge) :
    applyStruct f' s i asg fs = applyStruct f s i asg fs :=
  fillList_mono (fun x s => fillField_mono hf 2 x s) fs _ h

/-! Where a failing `Apply` stops. -/

/-- What is assumed of the state in which a field is reached. -/
structure Mid (s0 : St) (i F n : Nat) (ks : List Key) (s : St) : Prop where
  w : WF s
  e : Ext i s0 s
  ok : [] ∉ ks
  res : ∀ k ∈ ks, Resolvable s0 i k → ResN s0 i F k
  back : ∀ k, Resolvable s i k → Resolvable s0 i k
  st : ∀ y ∈ s.status, DoneKey s i y

theorem fillList_stops {s0 : St} {i F n : Nat} {asg : Val → Nat → Bool}
    (hs : ∀ x s, Mid s0 i F n (needs n x) s → (fillField F i asg n x s).1 = .err →
      FailedAt (Holds (fillField F i asg n x s).2.2 i) asg (fun k => ¬ Resolvable s0 i k) n x (fillField F i asg n x s).2.1) :
    ∀ fs s, Mid s0 i F n (fs.flatMap (needs n)) s → (fillList (fillField F i asg n) fs s).1 = .err →
      FailedIn (Holds (fillList (fillField F i asg n) fs s).2.2 i) asg (fun k => ¬ Resolvable s0 i k) n fs (fillList (fillField F i asg n) fs s).2.1 := by
  intro fs
  induction fs with
  | nil => intro s _ h; cases h
  | cons x xs ih =>
    intro s m hr
    have mx : Mid s0 i F n (needs n x) s :=
      ⟨m.w, m.e, fun h => m.ok (by simp [h]), fun k hk => m.res k (by simp [hk]), m.back, m.st⟩
    have h1 := hs x s mx
    have h2 := fillField_ok (f := F) (i := i) (asg := asg) n x s m.w mx.ok
    have h3 := fillField_complete (s0 := s0) (asg := asg) (Nat.le_refl F) n x s m.w m.e mx.ok
    simp only [fillList] at hr ⊢
    generalize fillField F i asg n x s = o at h1 h2 h3 hr ⊢
    obtain ⟨r, x', s'⟩ := o
    obtain ⟨⟨l, hl⟩, _, hok⟩ := h2
    simp only at h1 h3 hl hok
    cases r with
    | diverge => cases hr
    | err => exact ⟨[], x, xs, [], x', rfl, rfl, .nil, h1 rfl⟩
    | ok u =>
      obtain ⟨g1, g2⟩ := hok rfl
      have g3 := (h3 (fun k hk => mx.res k hk (m.back k (g2 k hk))) m.st).2
      have w' := hl.lk.wf m.w
      have m' : Mid s0 i F n (xs.flatMap (needs n)) s' :=
        ⟨w', m.e.trans hl.lk.ext, fun h => m.ok (by rw [List.flatMap_cons]; exact List.mem_append_right _ h),
          fun k hk => m.res k (by rw [List.flatMap_cons]; exact List.mem_append_right _ hk), fun k hR => m.back k (hl.lk.back hR), g3⟩
      have h4 := ih s' m'
      have h5 : ∃ l, LkA i s' (fillList (fillField F i asg n) xs s').2.2 l :=
        (fillList_ok (n := n) (fillField_ok (f := F) (i := i) (asg := asg) n) xs s' w'
          (fun y hy hk => m'.ok (List.mem_flatMap.2 ⟨y, hy, hk⟩))).1
      simp only at hr ⊢
      generalize fillList (fillField F i asg n) xs s' = o at h4 h5 hr ⊢
      obtain ⟨r, xs', s''⟩ := o
      simp only at hr h4 h5 ⊢
      subst hr
      obtain ⟨a, z, b, a', z', e1, e2, e3, e4⟩ := h4 rfl
      obtain ⟨k, hk⟩ := h5
      refine ⟨x :: a, z, b, x' :: a', z', by rw [e1]; rfl, by rw [e2]; rfl, .cons _ _ _ _ ?_ e3, e4⟩
      exact Filled.mono (fun k v h => h.lk hk.lk hk.args) n x x' g1

theorem fillField_stops {s0 : St} {i F : Nat} {asg : Val → Nat → Bool} (w0 : WF s0) :
    ∀ n x s, Mid s0 i F n (needs n x) s → (fillField F i asg n x s).1 = .err →
      FailedAt (Holds (fillField F i asg n x s).2.2 i) asg (fun k => ¬ Resolvable s0 i k) n x (fillField F i asg n x s).2.1 := by
  have inj : ∀ n x s, Mid s0 i F n (needs n x) s → ¬ (x.settable = false ∨ x.tag = .dash) → x.tag = .inject → (fillField F i asg n x s).1 = .err →
      FailedAt (Holds (fillField F i asg n x s).2.2 i) asg (fun k => ¬ Resolvable s0 i k) n x (fillField F i asg n x s).2.1 := by
    intro n x s m h1 h2 hr
    have hset : x.settable = true := by
      cases h : x.settable with
      | true => rfl
      | false => exact absurd (.inl h) h1
    have hneeds : needs n x = [x.key] := by unfold needs; rw [if_neg h1, if_pos h2]
    have hbad : ¬ Resolvable s0 i x.key := by
      intro hR
      have := fillField_complete (s0 := s0) (asg := asg) (Nat.le_refl F) n x s m.w m.e m.ok
        (fun k hk => by rw [hneeds] at hk; rw [List.mem_singleton.1 hk]; exact m.res _ (by rw [hneeds]; simp) hR) m.st
      rw [this.1] at hr; cases hr
    have hx : (fillField F i asg n x s).2.1 = x := by
      unfold fillField at hr ⊢
      rw [if_neg h1, if_pos h2] at hr ⊢
      cases hp : get s i x.key with
      | none => rfl
      | some p =>
        rw [hp] at hr
        simp only at hr ⊢
        generalize invoke F i s p = o at hr ⊢
        obtain ⟨r, s'⟩ := o
        cases r with
        | ok v => cases hr
        | err => rfl
        | diverge => rfl
    unfold FailedAt
    exact ⟨hset, .inl ⟨h2, hbad, hx⟩⟩
  intro n
  induction n with
  | zero =>
    intro x s m hr
    by_cases h1 : x.settable = false ∨ x.tag = .dash
    · unfold fillField at hr; rw [if_pos h1] at hr; cases hr
    · by_cases h2 : x.tag = .inject
      · exact inj 0 x s m h1 h2 hr
      · unfold fillField at hr; rw [if_neg h1, if_neg h2] at hr; cases hr
  | succ n ih =>
    intro x s m hr
    by_cases h1 : x.settable = false ∨ x.tag = .dash
    · unfold fillField at hr; rw [if_pos h1] at hr; cases hr
    · by_cases h2 : x.tag = .inject
      · exact inj (n + 1) x s m h1 h2 hr
      · have hneeds : needs (n + 1) x = x.sub.flatMap (needs n) := by rw [needs, if_neg h1, if_neg h2]
        rw [hneeds] at m
        have hset : x.settable = true := by
          cases h : x.settable with
          | true => rfl
          | false => exact absurd (.inl h) h1
        have htag : x.tag = .none := by
          cases h : x.tag with
          | none => rfl
          | dash => exact absurd (.inr h) h1
          | inject => exact absurd h h2
        have h3 := fillList_stops ih x.sub s ⟨m.w, m.e, m.ok, m.res, m.back, m.st⟩
        unfold fillField at hr ⊢
        rw [if_neg h1, if_neg h2] at hr ⊢
        simp only at hr ⊢
        generalize fillList (fillField F i asg n) x.sub s = o at h3 hr ⊢
        obtain ⟨r, fs, s'⟩ := o
        simp only at hr h3 ⊢
        obtain ⟨a, z, b, a', z', e1, e2, e3, e4⟩ := h3 hr
        unfold FailedAt
        exact ⟨hset, .inr ⟨htag, a, z, b, a', z', e1, by rw [e2], e3, e4⟩⟩

/-! ## The theorems -/

/-- What an `Apply` called: for types not made before in this injector, the function of the nearest provider, with what the injector made
before or else what the nearest provider gives. -/
def CalledFor (f : Nat) (cs : List Cmd) (i : Nat) (new : List Call) : Prop :=
  ∀ c ∈ new, c.inj = i ∧ (∀ n, ¬ Made f cs i c.name n) ∧
    ∃ pr deps out, (reach f cs).provs[c.prov]? = some pr ∧ Nearest cs i c.name pr ∧ pr.kind = .func deps out ∧ c.args.length = deps.length ∧
      ∀ d a, (d, a) ∈ deps.zip c.args → Uses f cs ((reach f cs).calls ++ new) i d a

theorem LkA.calledFor {f : Nat} {cs : List Cmd} (h : Cmds cs) {i : Nat} {s' : St} {l : List Call} (hl : LkA i (Inj.clr (reach f cs)) s' l) :
    s'.calls = (reach f cs).calls ++ l ∧ CalledFor f cs i l := by
  refine ⟨hl.lk.calls, ?_⟩
  intro c hc
  obtain ⟨h1, h2, h3, _, _⟩ := hl.lk.call c hc
  obtain ⟨pr, deps, out, g1, g2, g3, g4⟩ := hl.args c hc
  have hp := hl.lk.ext.provs
  have g1' : (reach f cs).provs[c.prov]? = some pr := by rw [hp] at g1; exact g1
  refine ⟨h1, ?_, pr, deps, out, g1', ?_, g2, g3, ?_⟩
  · intro n hn
    have := made_cached hn h
    have h3' : (reach f cs).caches i c.name = none := h3
    rw [h3'] at this; cases this
  · exact (get_nearest (f := f) h i c.name pr).1 ⟨c.prov, (get_clr _ _ _).symm.trans h2, g1'⟩
  · intro d a hda
    have := hl.uses (f := f) h rfl rfl ⟨[], by simp⟩ rfl rfl (g4 d a hda)
    rw [hl.lk.calls] at this
    exact this

/-- **C117 (success).** After a successful `Apply` every settable field with an `inject` tag, down to two struct levels below the top, has the
value the injector made for its type before, or else the value the nearest provider gives, called now if it is a function (kept as it was if it
cannot be assigned); every other field is as before; and nothing but these providers and what they need has been called. -/
theorem C117_apply_ok {f f' : Nat} {cs : List Cmd} (h : Cmds cs) {i : Nat} {asg : Val → Nat → Bool} {fs fs' : List Field} {s' : St}
    (hk : FieldsOk 2 fs) (ha : applyStruct f' (reach f cs) i asg fs = (.ok (), fs', s')) :
    ∃ new, s'.calls = (reach f cs).calls ++ new ∧ CalledFor f cs i new ∧ All2 (Filled (Uses f cs s'.calls i) asg 2) fs fs' := by
  have w := WF.reach f cs h
  obtain ⟨⟨l, hl⟩, _, hok⟩ := fillList_ok (n := 2) (fillField_ok (f := f') (i := i) (asg := asg) 2) fs (clr (reach f cs)) (w.status []) hk
  have ha' : fillList (fillField f' i asg 2) fs (clr (reach f cs)) = (.ok (), fs', s') := ha
  rw [ha'] at hl hok
  simp only at hl hok
  obtain ⟨h1, _⟩ := hok trivial
  obtain ⟨h2, h3⟩ := hl.calledFor h
  exact ⟨l, h2, h3, h1.mono (fun x y r => Filled.mono (fun k v hh => hl.uses h rfl rfl ⟨[], by simp⟩ rfl rfl hh) 2 x y r)⟩

/-- **C117 (which).** `Apply` succeeds, for some nesting depth, exactly when the types of all tagged fields can be made from the providers in
reach and what the history made in this injector; more depth does not change the outcome. -/
theorem C117_apply_succeeds_iff {f : Nat} {cs : List Cmd} (h : Cmds cs) {i : Nat} {asg : Val → Nat → Bool} {fs : List Field} (hk : FieldsOk 2 fs) :
    ((∃ f', (applyStruct f' (reach f cs) i asg fs).1 = .ok ()) ↔
      ∀ x ∈ fs, ∀ k ∈ needs 2 x, Can cs (fun y => ∃ n, Made f cs i y n) i k) ∧
    ∀ f' f'', f' ≤ f'' → (applyStruct f' (reach f cs) i asg fs).1 ≠ .diverge →
      applyStruct f'' (reach f cs) i asg fs = applyStruct f' (reach f cs) i asg fs := by
  refine ⟨?_, fun f' f'' hf hd => applyStruct_mono hf hd⟩
  rw [← cached_iff_made h]
  exact C28_apply_iff h hk

/-- **C117 (failure).** A failing `Apply` stops at the first tagged field whose type cannot be made: the tagged fields before it are filled
as by a successful one, that field and everything behind it is as before. -/
theorem C117_apply_fails {f f' : Nat} {cs : List Cmd} (h : Cmds cs) {i : Nat} {asg : Val → Nat → Bool} {fs fs' : List Field} {s' : St}
    (hk : FieldsOk 2 fs) (ha : applyStruct f' (reach f cs) i asg fs = (.err, fs', s')) :
    ∃ new, s'.calls = (reach f cs).calls ++ new ∧ CalledFor f cs i new ∧
      FailedIn (Uses f cs s'.calls i) asg (fun k => ¬ Can cs (fun y => ∃ n, Made f cs i y n) i k) 2 fs fs' := by
  have w := WF.reach f cs h
  obtain ⟨⟨l, hl⟩, _, _⟩ := fillList_ok (n := 2) (fillField_ok (f := f') (i := i) (asg := asg) 2) fs (clr (reach f cs)) (w.status []) hk
  have ha' : fillList (fillField f' i asg 2) fs (clr (reach f cs)) = (.err, fs', s') := ha
  rw [ha'] at hl
  simp only at hl
  obtain ⟨h2, h3⟩ := hl.calledFor h
  refine ⟨l, h2, h3, ?_⟩
  -- a depth at which every type that can be made is made
  have hb : ∃ N, ∀ k ∈ fs.flatMap (needs 2), Resolvable (clr (reach f cs)) i k → ResN (clr (reach f cs)) i N k := by
    generalize fs.flatMap (needs 2) = ks
    induction ks with
    | nil => exact ⟨0, by simp⟩
    | cons k ks ih =>
      obtain ⟨N, hN⟩ := ih
      by_cases hR : Resolvable (clr (reach f cs)) i k
      · obtain ⟨M, hM⟩ := (resolvable_iff (w.status [])).1 hR
        refine ⟨max N M, ?_⟩
        intro x hx hRx
        rcases List.mem_cons.1 hx with rfl | hx
        · exact hM.le (Nat.le_max_right _ _)
        · exact (hN x hx hRx).le (Nat.le_max_left _ _)
      · refine ⟨N, ?_⟩
        intro x hx hRx
        rcases List.mem_cons.1 hx with rfl | hx
        · exact absurd hRx hR
        · exact hN x hx hRx
  obtain ⟨N, hN⟩ := hb
  have hF : applyStruct (max f' N) (reach f cs) i asg fs = (.err, fs', s') := by
    rw [applyStruct_mono (Nat.le_max_left _ _) (by rw [ha]; simp)]; exact ha
  have hF' : fillList (fillField (max f' N) i asg 2) fs (clr (reach f cs)) = (.err, fs', s') := hF
  have hstop := fillList_stops (s0 := clr (reach f cs)) (i := i) (asg := asg) (fillField_stops (F := max f' N) (w.status []) 2) fs (clr (reach f cs))
    ⟨w.status [], Ext.refl i _, fun hx => by
      obtain ⟨y, hy, hk'⟩ := List.mem_flatMap.1 hx
      exact hk y hy hk', fun k hk' hR => (hN k hk' hR).le (Nat.le_max_right _ _), fun k hR => hR, fun y hy => by cases hy⟩
  rw [hF'] at hstop
  refine (hstop rfl).mono (fun k v hh => hl.uses h rfl rfl ⟨[], by simp⟩ rfl rfl hh) (fun k hn hc => hn ?_)
  rw [← cached_iff_made h] at hc
  exact ((can_iff h i k).2 hc).clr

/-- A struct with a tagged field, a nested struct with a tagged field and one whose type nobody provides, and a further tagged field: the first
two are filled, the rest is kept. -/
example : let T : Key := b!":T:"
    let cs : List Cmd := [.provide 0 ⟨T, .func [] true⟩]
    let fs : List Field := [.mk true .inject T 0 (.obj 9) [],
      .mk true .none [] 0 (.obj 6) [.mk true .inject T 0 (.obj 5) [], .mk true .inject b!":U:" 0 (.obj 4) []], .mk true .inject T 0 (.obj 3) []]
    Cmds cs ∧ FieldsOk 2 fs ∧ (applyStruct 3 (reach 3 cs) 0 (fun _ _ => true) fs).1 = .err ∧
      (applyStruct 3 (reach 3 cs) 0 (fun _ _ => true) fs).2.1 = [.mk true .inject T 0 (.res 0) [],
        .mk true .none [] 0 (.obj 6) [.mk true .inject T 0 (.res 0) [], .mk true .inject b!":U:" 0 (.obj 4) []], .mk true .inject T 0 (.obj 3) []] := by
  refine ⟨?_, ?_, rfl, rfl⟩
  · intro c hc
    simp only [List.mem_cons, List.not_mem_nil, or_false] at hc
    subst hc
    exact ⟨by decide, by decide⟩
  · intro x hx
    simp only [List.mem_cons, List.not_mem_nil, or_false] at hx
    rcases hx with rfl | rfl | rfl <;> decide

end Verif.Inj
