import Verif.Proofs.RouterSearch
/-! Helper lemmas: which declarations are accepted, and that the tree represents all registrations. -/
namespace Verif.Router
open Verif.Go Spec

theorem child_pre1 (s : Str) (es ks : List Reg) : child s (es ++ pre1 s ks) = child s es ++ ks := by
  unfold child
  by_cases hw : isWildSeg s = true
  · rw [if_pos hw, if_pos hw, wildIn_append]
    cases ks with
    | nil => simp [pre1]
    | cons k0 ks =>
      cases hi : wildIn es with
      | none => rw [wildFold_new hw _ _ _ (by intro l h; cases h)]; simp
      | some x =>
        obtain ⟨w, l⟩ := x
        by_cases hwp : w = s
        · subst hwp; rw [wildFold_same hw]; simp
        · rw [wildFold_new hw _ _ _ (by intro l h; cases h; exact hwp rfl)]; simp [hwp]
  · rw [if_neg hw, if_neg hw, beneath_append, beneath_pre1_same]

theorem childAt_preL : ∀ (pre : List Str) (es ks : List Reg), childAt pre (es ++ preL pre ks) = childAt pre es ++ ks := by
  intro pre
  induction pre with
  | nil => intro es ks; rw [preL_nil]; rfl
  | cons s pre ih =>
    intro es ks
    rw [preL_cons]
    show childAt pre (child s (es ++ pre1 s (preL pre ks))) = childAt pre (child s es) ++ ks
    rw [child_pre1, ih]

theorem childAt_append (a b : List Str) (es : List Reg) : childAt (a ++ b) es = childAt b (childAt a es) := by
  unfold childAt; rw [List.foldl_append]

theorem preL_append (pre : List Str) (a b : List Reg) : preL pre (a ++ b) = preL pre a ++ preL pre b := by
  unfold preL; simp

theorem preL_preL (a b : List Str) (ks : List Reg) : preL a (preL b ks) = preL (a ++ b) ks := by
  unfold preL; simp

theorem regs_preL (hs : List Handler) : ∀ (pre : List Str) (fs : List Filter), regs pre fs hs = preL pre (regs [] fs hs) := by
  induction hs using handlers_ind with
  | nil => intro pre fs; rfl
  | other h rest hn ih => intro pre fs; rw [regs_other hn, regs_other hn]; exact ih pre fs
  | router path hs rest ih1 ih2 =>
    intro pre fs
    rw [regs_router, regs_router, preL_append, ← ih2]
    congr 1
    split
    · rfl
    · rw [ih1 (pre ++ pathSegs path), ih1 ([] ++ pathSegs path)]
      show _ = (_ :: preL pre (preL ([] ++ pathSegs path) _))
      rw [preL_preL]
      rfl

theorem accept_router (pre : List Str) (fs : List Filter) (path : Str) (hs rest : List Handler) (es : List Reg) :
    accept pre fs (.router path hs :: rest) es =
      ((if pathSegs path = [] then true
       else !pathClashes (pathSegs path) (childAt pre es) && wildLast (pathSegs path) && declsOk (argMethods hs) &&
        accept (pre ++ pathSegs path) (innerFilters fs hs) hs (es ++ [⟨pre ++ pathSegs path, innerFilters fs hs, argMethods hs⟩])) &&
      accept pre fs rest (es ++ (if pathSegs path = [] then [] else
        ⟨pre ++ pathSegs path, innerFilters fs hs, argMethods hs⟩ :: regs (pre ++ pathSegs path) (innerFilters fs hs) hs))) := by
  simp only [accept, acceptOne, regsOne]
  rfl

theorem accept_other {pre : List Str} {fs : List Filter} {h : Handler} {rest : List Handler} {es : List Reg}
    (hn : ∀ path hs, h ≠ .router path hs) : accept pre fs (h :: rest) es = accept pre fs rest es := by
  cases h with
  | router p hs => exact absurd rfl (hn p hs)
  | _ => simp [accept, acceptOne, regsOne]

theorem preL_one (pre segs : List Str) (fs : List Filter) (ms : List MethodDecl) :
    [(⟨pre ++ segs, fs, ms⟩ : Reg)] = preL pre [⟨segs, fs, ms⟩] := rfl

theorem accept_rel (hs : List Handler) : ∀ (pre : List Str) (fs : List Filter) (es : List Reg),
    accept pre fs hs es = accept [] fs hs (childAt pre es) := by
  induction hs using handlers_ind with
  | nil => intro pre fs es; simp [accept]
  | other h rest hn ih => intro pre fs es; rw [accept_other hn, accept_other hn]; exact ih pre fs es
  | router path hs rest ih1 ih2 =>
    intro pre fs es
    rw [accept_router, accept_router]
    by_cases hp : pathSegs path = []
    · simp only [if_pos hp, List.append_nil, Bool.true_and]
      exact ih2 pre fs es
    · simp only [if_neg hp, List.nil_append]
      congr 1
      · congr 1
        rw [ih1 (pre ++ pathSegs path), ih1 (pathSegs path), childAt_append, preL_one, childAt_preL]
      · rw [ih2 pre]
        congr 1
        have : (⟨pre ++ pathSegs path, innerFilters fs hs, argMethods hs⟩ :: regs (pre ++ pathSegs path) (innerFilters fs hs) hs : List Reg) =
            preL pre (⟨pathSegs path, innerFilters fs hs, argMethods hs⟩ :: regs (pathSegs path) (innerFilters fs hs) hs) := by
          show _ = _ :: preL pre _
          rw [regs_preL hs (pre ++ pathSegs path), regs_preL hs (pathSegs path), preL_preL]
        rw [this, childAt_preL]

abbrev AnyP : Str → Prop := fun _ => True

theorem nestK_WF {fs : List Filter} {hs : List Handler} {n n' : Route} (hn : WF AnyP n) (hk : nestK fs hs n = some n') :
    WF AnyP n' ∧ Frame n n' := by
  unfold nestK at hk
  cases hm : configMethods (innerFilters fs hs) n.tbl (argMethods hs) with
  | none => rw [hm] at hk; cases hk
  | some t =>
    rw [hm] at hk
    obtain ⟨ha, hb⟩ := configNested_WF hs _ [] (n.setTbl t) n' (fun _ _ _ _ => trivial) (hn.setTbl t) hk
    exact ⟨ha, by simpa using hb.pp, by simpa using hb.chain, by simpa using hb.isEnd⟩

theorem tableAt_here_snoc (es : List Reg) (fs : List Filter) (ms : List MethodDecl) (t : Table) (h : tableAt es [] {} = some t) :
    tableAt (es ++ [⟨[], fs, ms⟩]) [] {} = configMethods fs t ms := by
  rw [tableAt_append, h]
  show tableAt [⟨[], fs, ms⟩] [] t = _
  rw [tableAt_cons_match _ _ _ _ rfl]
  cases configMethods fs t ms with
  | none => rfl
  | some t' => rfl

theorem nestK_rep_of (hs : List Handler) {fs : List Filter} (ih1 : ∀ (es : List Reg) (r : Route), WF AnyP r → Rep es r →
    match configNested (innerFilters fs hs) hs r with
    | some r' => accept [] (innerFilters fs hs) hs es = true ∧ Rep (es ++ regs [] (innerFilters fs hs) hs) r'
    | none => accept [] (innerFilters fs hs) hs es = false) (es : List Reg) (n : Route) (hWn : WF AnyP n) (hRn : Rep es n) :
    match nestK fs hs n with
    | some n' => (declsOk (argMethods hs) && accept [] (innerFilters fs hs) hs (es ++ [⟨[], innerFilters fs hs, argMethods hs⟩])) = true ∧
        Rep (es ++ ⟨[], innerFilters fs hs, argMethods hs⟩ :: regs [] (innerFilters fs hs) hs) n'
    | none => (declsOk (argMethods hs) && accept [] (innerFilters fs hs) hs (es ++ [⟨[], innerFilters fs hs, argMethods hs⟩])) = false := by
  have hsome := configMethods_some (innerFilters fs hs) (argMethods hs) n.tbl
  have htbl : tableAt es [] {} = some n.tbl := by cases hRn; assumption
  unfold nestK
  cases hm : configMethods (innerFilters fs hs) n.tbl (argMethods hs) with
  | none => rw [hm] at hsome; simp only [Option.bind_none]; rw [← hsome]; rfl
  | some t =>
    rw [hm] at hsome
    rw [← hsome]
    simp only [Option.bind_some, Option.isSome_some, Bool.true_and]
    have hR' : Rep (es ++ [⟨[], innerFilters fs hs, argMethods hs⟩]) (n.setTbl t) :=
      hRn.setTbl (by rw [tableAt_here_snoc _ _ _ _ htbl, hm]) (by simp)
    have := ih1 _ _ (hWn.setTbl t) hR'
    cases hc : configNested (innerFilters fs hs) hs (n.setTbl t) with
    | none => rw [hc] at this; exact this
    | some n' => rw [hc] at this; simpa using this

theorem configNested_rep (hs : List Handler) : ∀ (fs : List Filter) (es : List Reg) (r : Route), WF AnyP r → Rep es r →
    match configNested fs hs r with
    | some r' => accept [] fs hs es = true ∧ Rep (es ++ regs [] fs hs) r'
    | none => accept [] fs hs es = false := by
  induction hs using handlers_ind with
  | nil => intro fs es r _ hR; simp [configNested, accept, regs, hR]
  | other h rest hn ih =>
    intro fs es r hW hR
    rw [configNested_other hn, regs_other hn, accept_other hn]
    exact ih fs es r hW hR
  | router path hs rest ih1 ih2 =>
    intro fs es r hW hR
    rw [configNested_router, regs_router, accept_router]
    by_cases hp : pathSegs path = []
    · simp only [if_pos hp, List.append_nil, List.nil_append, Bool.true_and]
      exact ih2 fs es r hW hR
    · simp only [if_neg hp, List.nil_append]
      have hk := fun es n hWn hRn => nestK_rep_of hs (ih1 (innerFilters fs hs)) es n hWn hRn
      have hins := insertAt_rep (P := AnyP) (k0 := ⟨[], innerFilters fs hs, argMethods hs⟩) rfl (fun n n' => nestK_WF) hk (pathSegs path) es r (fun _ _ => trivial) hW hR
      have hacc : accept (pathSegs path) (innerFilters fs hs) hs (es ++ [⟨pathSegs path, innerFilters fs hs, argMethods hs⟩]) =
          accept [] (innerFilters fs hs) hs (childAt (pathSegs path) es ++ [⟨[], innerFilters fs hs, argMethods hs⟩]) := by
        rw [accept_rel hs (pathSegs path)]
        congr 1
        have : [(⟨pathSegs path, innerFilters fs hs, argMethods hs⟩ : Reg)] = preL (pathSegs path) [⟨[], innerFilters fs hs, argMethods hs⟩] := by
          simp [preL]
        rw [this, childAt_preL]
      have hc0 : childAt [] es = es := rfl
      rw [hacc, hc0]
      have hreg : (⟨pathSegs path, innerFilters fs hs, argMethods hs⟩ :: regs (pathSegs path) (innerFilters fs hs) hs : List Reg) =
          preL (pathSegs path) (⟨[], innerFilters fs hs, argMethods hs⟩ :: regs [] (innerFilters fs hs) hs) := by
        rw [regs_preL hs (pathSegs path)]; simp [preL]
      rw [hreg]
      cases hi : insertAt (nestK fs hs) (pathSegs path) r with
      | none =>
        rw [hi] at hins
        simp only [Option.bind_none]
        rw [Bool.and_assoc _ (declsOk _), hins, Bool.false_and]
      | some r1 =>
        rw [hi] at hins
        obtain ⟨a1, a2⟩ := hins
        simp only [Option.bind_some]
        rw [Bool.and_assoc _ (declsOk _), a1, Bool.true_and]
        have hW1 := (insertAt_WF (fun n n' => nestK_WF) (pathSegs path) r r1 (fun _ _ => trivial) hW hi).1
        have := ih2 fs _ r1 hW1 a2
        rw [← List.append_assoc]
        exact this

theorem routers_rep (hs : List Handler) (es : List Reg) (r : Route) (hW : WF AnyP r) (hR : Rep es r) :
    match routers hs r with
    | some r' => acceptCall hs es = true ∧ Rep (es ++ callRegs hs) r' ∧ WF AnyP r' ∧ Frame r r'
    | none => acceptCall hs es = false := by
  have h : routers hs r = nestK [] hs r := rfl
  have := nestK_rep_of hs (fs := []) (configNested_rep hs (innerFilters [] hs)) es r hW hR
  rw [h]
  cases hn : nestK [] hs r with
  | none => rw [hn] at this; exact this
  | some r' =>
    rw [hn] at this
    exact ⟨this.1, this.2, nestK_WF hW hn⟩

theorem registerAll_rep (hss : List (List Handler)) : ∀ (es : List Reg) (r : Route), WF AnyP r → Rep es r →
    match registerAll hss r with
    | some r' => acceptAll hss es = true ∧ Rep (es ++ allRegs hss) r' ∧ WF AnyP r' ∧ Frame r r'
    | none => acceptAll hss es = false := by
  induction hss with
  | nil => intro es r hW hR; simp [registerAll, acceptAll, allRegs, hR, hW, Frame.refl]
  | cons hs hss ih =>
    intro es r hW hR
    have h1 := routers_rep hs es r hW hR
    unfold registerAll acceptAll
    cases hr : routers hs r with
    | none => rw [hr] at h1; simp [h1]
    | some r1 =>
      rw [hr] at h1
      obtain ⟨a1, a2, a3, a4⟩ := h1
      have h2 := ih _ r1 a3 a2
      simp only [Option.bind_some, a1, Bool.true_and]
      cases hr2 : registerAll hss r1 with
      | none => rw [hr2] at h2; exact h2
      | some r2 =>
        rw [hr2] at h2
        obtain ⟨b1, b2, b3, b4⟩ := h2
        refine ⟨b1, ?_, b3, a4.trans b4⟩
        have : allRegs (hs :: hss) = callRegs hs ++ allRegs hss := by simp [allRegs]
        rw [this, ← List.append_assoc]; exact b2

end Verif.Router
