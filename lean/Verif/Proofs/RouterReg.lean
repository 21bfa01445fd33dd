import Verif.Proofs.RouterTree
/-! Helper lemmas: registration refines the flat list of registrations. -/
namespace Verif.Router
open Verif.Go Spec

variable {P : Str → Prop}

/-- the node reached by following raw segments -/
def nodeAt : List Str → Route → Option Route
  | [], r => some r
  | p :: q, r => (findChild r p).bind (nodeAt q)

/-- what is registered at a pattern: is it an end route, and its table -/
def obs (r : Route) (q : List Str) : Bool × Table :=
  match nodeAt q r with
  | none => (false, {})
  | some n => (n.isEnd, n.tbl)

theorem obs_nil (r : Route) : obs r [] = (r.isEnd, r.tbl) := rfl

theorem obs_cons (r : Route) (p : Str) (q : List Str) :
    obs r (p :: q) = match findChild r p with | none => (false, {}) | some c => obs c q := by
  unfold obs
  simp only [nodeAt]
  cases findChild r p <;> rfl

theorem findChild_setTbl (r : Route) (t : Table) (p : Str) :
    findChild (r.setTbl t) p = findChild r p := by simp [findChild]

theorem findChild_setEnd (r : Route) (p : Str) : findChild r.setEnd p = findChild r p := by
  simp [findChild]

theorem obs_setTbl (r : Route) (t : Table) (q : List Str) :
    obs (r.setTbl t) q = if q = [] then (r.isEnd, t) else obs r q := by
  cases q with
  | nil => simp [obs_nil]
  | cons p q => simp [obs_cons, findChild_setTbl]

theorem obs_setEnd (r : Route) (q : List Str) :
    obs r.setEnd q = if q = [] then (true, r.tbl) else obs r q := by
  cases q with
  | nil => simp [obs_nil]
  | cons p q => simp [obs_cons, findChild_setEnd]

theorem obs_newChild (r : Route) (p : Str) (q : List Str) : obs (newChild r p) q = (false, {}) := by
  cases q with
  | nil => simp [obs_nil]
  | cons a q => simp [obs_cons, findChild, litLookup]

theorem obs_newRoot (q : List Str) : obs newRoot q = if q = [] then (true, {}) else (false, {}) := by
  cases q with
  | nil => rfl
  | cons a q => simp [obs_cons, findChild, litLookup, newRoot, Route.params, Route.lits, Route.wild]

theorem insertAt_WF {k : Route → Option Route}
    (hk : ∀ n n', WF P n → k n = some n' → WF P n' ∧ Frame n n') :
    ∀ (segs : List Str) (r r' : Route), (∀ s ∈ segs, P s) → WF P r →
      insertAt k segs r = some r' → WF P r' ∧ Frame r r' := by
  intro segs
  induction segs with
  | nil => intro r r' _ hr h; exact hk r r' hr h
  | cons p rest ih =>
    intro r r' hP hr h
    obtain ⟨_, _, _, _, _, _, h1, h2, _⟩ := insertAt_step hr (hP p (by simp))
      (fun n n' hn hi => ih n n' (fun s hs => hP s (by simp [hs])) hn hi) h
    exact ⟨h1, h2⟩

theorem insertAt_obs {k : Route → Option Route}
    (hk : ∀ n n', WF P n → k n = some n' → WF P n' ∧ Frame n n') :
    ∀ (segs : List Str) (r r' : Route), segs ≠ [] → (∀ s ∈ segs, P s) → WF P r →
      insertAt k segs r = some r' →
      ∃ n n', k n = some n' ∧ WF P n ∧ n.isEnd = true ∧ n.chain = r.chain ++ segs ∧
        n.tbl = (obs r segs).2 ∧
        (∀ q, q ≠ [] → obs n q = obs r (segs ++ q)) ∧
        (∀ q, obs r' (segs ++ q) = obs n' q) ∧
        (∀ q, ¬ segs <+: q → obs r' q = obs r q ∨ obs r' q = (false, {})) ∧
        ((∀ s, P s → PlainWild s) → ∀ q, ¬ segs <+: q → obs r' q = obs r q) := by
  intro segs
  induction segs with
  | nil => intro r r' h; exact absurd rfl h
  | cons p rest ih =>
    intro r r' _ hP hr h
    have hP' : ∀ s ∈ rest, P s := fun s hs => hP s (by simp [hs])
    obtain ⟨rt0, rt, hrt0, hi, hWrt, hFrt, hWr', hFr', htbl, hfp, hsub, heq, -, -⟩ :=
      insertAt_step hr (hP p (by simp))
      (fun n n' hn hi => insertAt_WF hk rest n n' hP' hn hi) h
    -- the child descended into looks like the old subtree
    have hc0 : ∀ q, obs ((findChild r p).getD (newChild r p)) q = obs r (p :: q) := by
      intro q
      rw [obs_cons]
      cases findChild r p with
      | none => simp [obs_newChild]
      | some c => rfl
    have hc0W : WF P ((findChild r p).getD (newChild r p)) ∧
        ((findChild r p).getD (newChild r p)).chain = r.chain ++ [p] := by
      cases hf : findChild r p with
      | some c => exact ⟨(findChild_WF hr hf).1, (findChild_WF hr hf).2.chain⟩
      | none => exact ⟨newChild_WF, rfl⟩
    have hnil : obs r' [] = obs r [] := by rw [obs_nil, obs_nil, hFr'.isEnd, htbl]
    -- unrelated first segments
    have hother1 : ∀ p' q, p' ≠ p → obs r' (p' :: q) = obs r (p' :: q) ∨
        obs r' (p' :: q) = (false, {}) := by
      intro p' q hne
      rw [obs_cons, obs_cons]
      cases hf : findChild r' p' with
      | none => right; rfl
      | some c => left; rw [hsub p' c hne hf]
    have hother2 : (∀ s, P s → PlainWild s) → ∀ p' q, p' ≠ p →
        obs r' (p' :: q) = obs r (p' :: q) := by
      intro hpl p' q hne
      rw [obs_cons, obs_cons, heq hpl p' hne]
    by_cases hrest : rest = []
    · subst hrest
      simp only [List.isEmpty_nil, if_true] at hrt0
      refine ⟨rt0, rt, hi, ?_, ?_, ?_, ?_, ?_, ?_, ?_, ?_⟩
      · rw [hrt0]; exact hc0W.1.setEnd
      · rw [hrt0]; simp
      · rw [hrt0]; simpa using hc0W.2
      · rw [hrt0, ← hc0 [], obs_nil]; simp
      · intro q hq; rw [hrt0, obs_setEnd, if_neg hq, hc0]; rfl
      · intro q; rw [List.singleton_append, obs_cons, hfp]
      · intro q hq
        cases q with
        | nil => left; exact hnil
        | cons p' q =>
          apply hother1
          rintro rfl
          exact hq (by simp)
      · intro hpl q hq
        cases q with
        | nil => exact hnil
        | cons p' q =>
          apply hother2 hpl
          rintro rfl
          exact hq (by simp)
    · have hE : rest.isEmpty = false := by simpa using hrest
      rw [hE] at hrt0
      simp only [Bool.false_eq_true, if_false] at hrt0
      rw [← hrt0] at hc0 hc0W
      obtain ⟨n, n', h1, h2, h3, h4, h5, h6, h7, h8, h9⟩ := ih rt0 rt hrest hP' hc0W.1 hi
      refine ⟨n, n', h1, h2, h3, ?_, ?_, ?_, ?_, ?_, ?_⟩
      · rw [h4, hc0W.2]; simp
      · rw [h5, hc0]
      · intro q hq; rw [h6 q hq, hc0]; rfl
      · intro q; rw [List.cons_append, obs_cons, hfp]; exact h7 q
      · intro q hq
        cases q with
        | nil => left; exact hnil
        | cons p' q =>
          by_cases hp' : p' = p
          · subst hp'
            have : ¬ rest <+: q := fun h => hq (by simpa using h)
            rw [obs_cons, hfp]
            rcases h8 q this with h | h
            · left; simp only []; rw [h, hc0]
            · right; exact h
          · exact hother1 p' q hp'
      · intro hpl q hq
        cases q with
        | nil => exact hnil
        | cons p' q =>
          by_cases hp' : p' = p
          · subst hp'
            have : ¬ rest <+: q := fun h => hq (by simpa using h)
            rw [obs_cons, hfp]
            simp only []
            rw [h9 hpl q this, hc0]
          · exact hother2 hpl p' q hp'

/-! ### registrations -/

/-- Induction over declaration lists. -/
theorem handlers_ind {motive : List Handler → Prop} (nil : motive [])
    (router : ∀ path hs rest, motive hs → motive rest → motive (.router path hs :: rest))
    (other : ∀ h rest, (∀ path hs, h ≠ .router path hs) → motive rest → motive (h :: rest)) :
    ∀ hs, motive hs := by
  have key : ∀ n, ∀ hs : List Handler, sizeOf hs ≤ n → motive hs := by
    intro n
    induction n with
    | zero => intro hs h; cases hs <;> simp at h
    | succ n ih =>
      intro hs h
      cases hs with
      | nil => exact nil
      | cons a rest =>
        have hr : motive rest := ih rest (by simp at h; omega)
        cases a with
        | router path hs' => exact router path hs' rest (ih hs' (by simp at h; omega)) hr
        | str _ => exact other _ _ (by simp) hr
        | filter _ => exact other _ _ (by simp) hr
        | exempt _ => exact other _ _ (by simp) hr
        | method _ => exact other _ _ (by simp) hr
        | name _ => exact other _ _ (by simp) hr
  exact fun hs => key _ hs (Nat.le_refl _)

theorem configNested_other {fs : List Filter} {h : Handler} {rest : List Handler} {r : Route}
    (hn : ∀ path hs, h ≠ .router path hs) :
    configNested fs (h :: rest) r = configNested fs rest r := by
  cases h with
  | router p hs => exact absurd rfl (hn p hs)
  | _ => simp [configNested, configOne]

theorem regs_other {pre : List Str} {fs : List Filter} {h : Handler} {rest : List Handler}
    (hn : ∀ path hs, h ≠ .router path hs) : regs pre fs (h :: rest) = regs pre fs rest := by
  cases h with
  | router p hs => exact absurd rfl (hn p hs)
  | _ => simp [regs, regsOne]

/-- filters in force inside a nested router -/
def innerFilters (fs : List Filter) (hs : List Handler) : List Filter :=
  fremove (fappend fs (argFilters hs)) (argExempts hs)

/-- the recursive call made at the node of a nested router -/
def nestK (fs : List Filter) (hs : List Handler) (node : Route) : Option Route :=
  (configMethods (innerFilters fs hs) node.tbl (argMethods hs)).bind fun t =>
    configNested (innerFilters fs hs) hs (node.setTbl t)

theorem configNested_router {fs : List Filter} {path : Str} {hs rest : List Handler} {r : Route} :
    configNested fs (.router path hs :: rest) r =
      if pathSegs path = [] then configNested fs rest r
      else (insertAt (nestK fs hs) (pathSegs path) r).bind (configNested fs rest) := by
  have h1 := splitRoutePath_head path
  have h2 := splitRoutePath_eq path
  simp only [configNested, configOne, h1]
  split
  · rfl
  · rename_i h
    rw [h2, if_neg h]
    rfl

theorem regs_router {pre : List Str} {fs : List Filter} {path : Str} {hs rest : List Handler} :
    regs pre fs (.router path hs :: rest) =
      (if pathSegs path = [] then [] else
        ⟨pre ++ pathSegs path, innerFilters fs hs, argMethods hs⟩ ::
          regs (pre ++ pathSegs path) (innerFilters fs hs) hs) ++ regs pre fs rest := by
  simp only [regs, regsOne]
  rfl

theorem regs_prefix (pre : List Str) (fs : List Filter) (hs : List Handler) :
    ∀ e ∈ regs pre fs hs, pre <+: e.pattern := by
  induction hs using handlers_ind generalizing pre fs with
  | nil => intro e he; simp [regs] at he
  | other h rest hn ih => intro e he; rw [regs_other hn] at he; exact ih pre fs e he
  | router path hs rest ih1 ih2 =>
    intro e he
    rw [regs_router] at he
    rcases List.mem_append.1 he with he | he
    · split at he
      · simp at he
      · rcases List.mem_cons.1 he with rfl | he
        · exact List.prefix_append _ _
        · exact (List.prefix_append _ _).trans (ih1 _ _ e he)
    · exact ih2 _ _ e he

theorem configNested_WF (hs : List Handler) :
    ∀ (fs : List Filter) (pre : List Str) (r r' : Route),
      (∀ e ∈ regs pre fs hs, ∀ s ∈ e.pattern, P s) → WF P r →
      configNested fs hs r = some r' → WF P r' ∧ Frame r r' := by
  induction hs using handlers_ind with
  | nil =>
    intro fs pre r r' _ hr h
    simp [configNested] at h; subst h; exact ⟨hr, Frame.refl _⟩
  | other h rest hn ih =>
    intro fs pre r r' hP hr h
    rw [configNested_other hn] at h
    rw [regs_other hn] at hP
    exact ih fs pre r r' hP hr h
  | router path hs rest ih1 ih2 =>
    intro fs pre r r' hP hr h
    rw [configNested_router] at h
    rw [regs_router] at hP
    split at h
    · rename_i hnil
      simp only [hnil, if_true, List.nil_append] at hP
      exact ih2 fs pre r r' hP hr h
    · rename_i hne
      simp only [hne, if_false] at hP
      cases hi : insertAt (nestK fs hs) (pathSegs path) r with
      | none => rw [hi] at h; cases h
      | some r1 =>
        rw [hi] at h
        have hk : ∀ n n', WF P n → nestK fs hs n = some n' → WF P n' ∧ Frame n n' := by
          intro n n' hn hk
          unfold nestK at hk
          cases hm : configMethods (innerFilters fs hs) n.tbl (argMethods hs) with
          | none => rw [hm] at hk; cases hk
          | some t =>
            rw [hm] at hk
            obtain ⟨ha, hb⟩ := ih1 _ (pre ++ pathSegs path) (n.setTbl t) n'
              (fun e he s hs => hP e (by simp [he]) s hs) (hn.setTbl t) hk
            exact ⟨ha, by simpa using hb.pp, by simpa using hb.chain, by simpa using hb.isEnd⟩
        obtain ⟨ha, hb⟩ := insertAt_WF hk (pathSegs path) r r1
          (fun s hs' => hP ⟨pre ++ pathSegs path, innerFilters fs hs, argMethods hs⟩ (by simp) s (by simp [hs'])) hr hi
        obtain ⟨hc, hd⟩ := ih2 fs pre r1 r' (fun e he s hs => hP e (by simp [he]) s hs) ha h
        exact ⟨hc, hb.trans hd⟩

/-- table of a pattern after further registrations, as a fold -/
theorem tableAt_append (es es' : List Reg) (q : List Str) (t : Table) :
    tableAt (es ++ es') q t = (tableAt es q t).bind (tableAt es' q) := by
  simp [tableAt, List.filter_append]
  rfl

theorem tableAt_nomatch (es : List Reg) (q : List Str) (t : Table)
    (h : ∀ e ∈ es, e.pattern ≠ q) : tableAt es q t = some t := by
  unfold tableAt
  rw [List.filter_eq_nil_iff.2 (by simpa using h)]
  rfl

theorem tableAt_cons_match (e : Reg) (es : List Reg) (q : List Str) (t : Table)
    (h : e.pattern = q) :
    tableAt (e :: es) q t = (configMethods e.filters t e.methods).bind (tableAt es q) := by
  unfold tableAt
  rw [List.filter_cons_of_pos (by simpa using h)]
  rfl

theorem tableAt_cons_nomatch (e : Reg) (es : List Reg) (q : List Str) (t : Table)
    (h : e.pattern ≠ q) : tableAt (e :: es) q t = tableAt es q t := by
  unfold tableAt
  rw [List.filter_cons_of_neg (by simpa using h)]

theorem regs_pattern_ne (hs : List Handler) : ∀ (pre : List Str) (fs : List Filter),
    ∀ e ∈ regs pre fs hs, e.pattern ≠ pre := by
  induction hs using handlers_ind with
  | nil => intro pre fs e he; simp [regs] at he
  | other h rest hn ih => intro pre fs e he; rw [regs_other hn] at he; exact ih pre fs e he
  | router path hs rest ih1 ih2 =>
    intro pre fs e he
    rw [regs_router] at he
    rcases List.mem_append.1 he with he | he
    · split at he
      · simp at he
      · rename_i hne
        rcases List.mem_cons.1 he with rfl | he
        · simpa using hne
        · have h1 := regs_prefix _ _ _ e he
          intro h
          rw [h] at h1
          have := h1.length_le
          rw [List.length_append] at this
          exact hne (List.length_eq_zero_iff.1 (by omega))
    · exact ih2 pre fs e he

/-- Registration below a node refines the flat registrations. -/
theorem configNested_obs (hs : List Handler) :
    ∀ (fs : List Filter) (pre : List Str) (r r' : Route),
      (∀ e ∈ regs pre fs hs, ∀ s ∈ e.pattern, P s) → WF P r →
      configNested fs hs r = some r' →
      (∀ q, (obs r' q).1 = true → (obs r q).1 = true ∨ ∃ e ∈ regs pre fs hs, e.pattern = pre ++ q) ∧
      ((∀ s, P s → PlainWild s) → ∀ q,
        ((obs r' q).1 = true ↔ (obs r q).1 = true ∨ ∃ e ∈ regs pre fs hs, e.pattern = pre ++ q) ∧
        tableAt (regs pre fs hs) (pre ++ q) (obs r q).2 = some (obs r' q).2) := by
  induction hs using handlers_ind with
  | nil =>
    intro fs pre r r' _ hr h
    simp [configNested] at h; subst h
    simp [regs, tableAt]
  | other h rest hn ih =>
    intro fs pre r r' hP hr h
    rw [configNested_other hn] at h
    rw [regs_other hn] at hP ⊢
    exact ih fs pre r r' hP hr h
  | router path hs rest ih1 ih2 =>
    intro fs pre r r' hP hr h
    rw [configNested_router] at h
    rw [regs_router] at hP ⊢
    split at h
    · rename_i hnil
      simp only [hnil, if_true, List.nil_append] at hP ⊢
      exact ih2 fs pre r r' hP hr h
    · rename_i hne
      simp only [hne, if_false] at hP ⊢
      cases hi : insertAt (nestK fs hs) (pathSegs path) r with
      | none => rw [hi] at h; cases h
      | some r1 =>
        rw [hi] at h
        replace h : configNested fs rest r1 = some r' := h
        have hPin : ∀ e ∈ regs (pre ++ pathSegs path) (innerFilters fs hs) hs,
            ∀ s ∈ e.pattern, P s := fun e he s hs => hP e (by simp [he]) s hs
        have hPrest : ∀ e ∈ regs pre fs rest, ∀ s ∈ e.pattern, P s :=
          fun e he s hs => hP e (by simp [he]) s hs
        have hPseg : ∀ s ∈ pathSegs path, P s :=
          fun s hs' => hP ⟨pre ++ pathSegs path, innerFilters fs hs, argMethods hs⟩ (by simp) s (by simp [hs'])
        have hk : ∀ n n', WF P n → nestK fs hs n = some n' → WF P n' ∧ Frame n n' := by
          intro n n' hn hk
          unfold nestK at hk
          cases hm : configMethods (innerFilters fs hs) n.tbl (argMethods hs) with
          | none => rw [hm] at hk; cases hk
          | some t =>
            rw [hm] at hk
            obtain ⟨ha, hb⟩ := configNested_WF hs _ (pre ++ pathSegs path) (n.setTbl t) n'
              hPin (hn.setTbl t) hk
            exact ⟨ha, by simpa using hb.pp, by simpa using hb.chain, by simpa using hb.isEnd⟩
        obtain ⟨hr1, -⟩ := insertAt_WF hk (pathSegs path) r r1 hPseg hr hi
        obtain ⟨n, n', hkn, hnW, hnE, -, hntbl, hnobs, hsame, hsub, hplain⟩ :=
          insertAt_obs hk (pathSegs path) r r1 hne hPseg hr hi
        unfold nestK at hkn
        cases hm : configMethods (innerFilters fs hs) n.tbl (argMethods hs) with
        | none => rw [hm] at hkn; cases hkn
        | some t =>
          rw [hm] at hkn
          obtain ⟨e1, t1⟩ := ih1 _ (pre ++ pathSegs path) (n.setTbl t) n' hPin (hnW.setTbl t) hkn
          obtain ⟨e2, t2⟩ := ih2 fs pre r1 r' hPrest hr1 h
          constructor
          · intro q hq
            rcases e2 q hq with hq1 | ⟨e, he, hep⟩
            · by_cases hpre : pathSegs path <+: q
              · obtain ⟨q2, rfl⟩ := hpre
                by_cases hq2 : q2 = []
                · subst hq2
                  right; exact ⟨⟨pre ++ pathSegs path, innerFilters fs hs, argMethods hs⟩, by simp, by simp⟩
                · rw [hsame] at hq1
                  rcases e1 q2 hq1 with hq3 | ⟨e, he, hep⟩
                  · rw [obs_setTbl, if_neg hq2, hnobs q2 hq2] at hq3
                    exact Or.inl hq3
                  · right; exact ⟨e, by simp [he], by rw [hep]; simp⟩
              · rcases hsub q hpre with hq2 | hq2
                · rw [hq2] at hq1; exact Or.inl hq1
                · rw [hq2] at hq1; simp at hq1
            · right; exact ⟨e, by simp [he], hep⟩
          · intro hpl q
            by_cases hpre : pathSegs path <+: q
            · obtain ⟨q2, rfl⟩ := hpre
              have hAssoc : pre ++ (pathSegs path ++ q2) = pre ++ pathSegs path ++ q2 := by simp
              by_cases hq2 : q2 = []
              · subst hq2
                constructor
                · constructor
                  · intro _; right; exact ⟨⟨pre ++ pathSegs path, innerFilters fs hs, argMethods hs⟩, by simp, by simp⟩
                  · intro _
                    rw [(t2 hpl _).1]; left
                    rw [hsame, (t1 hpl []).1]; left
                    rw [obs_setTbl]; simp [hnE]
                · rw [List.cons_append, tableAt_cons_match _ _ _ _ (by simp)]
                  simp only []
                  rw [show (obs r (pathSegs path ++ [])).2 = n.tbl by rw [hntbl]; simp, hm]
                  show tableAt _ _ t = _
                  rw [tableAt_append]
                  have := (t1 hpl []).2
                  rw [obs_setTbl] at this
                  simp only [if_true, List.append_nil] at this
                  rw [List.append_nil, this]
                  have h2 := (t2 hpl (pathSegs path)).2
                  rw [← List.append_nil (pathSegs path), hsame [], List.append_nil] at h2
                  exact h2
              · have hobs : obs r1 (pathSegs path ++ q2) = obs n' q2 := hsame q2
                have hobs2 : obs (n.setTbl t) q2 = obs r (pathSegs path ++ q2) := by
                  rw [obs_setTbl, if_neg hq2, hnobs q2 hq2]
                have h1 := t1 hpl q2
                have h2 := t2 hpl (pathSegs path ++ q2)
                rw [hobs] at h2
                rw [hobs2] at h1
                constructor
                · rw [h2.1, h1.1]
                  constructor
                  · rintro ((h | ⟨e, he, hep⟩) | ⟨e, he, hep⟩)
                    · exact Or.inl h
                    · right; exact ⟨e, by simp [he], by rw [hep]; simp⟩
                    · right; exact ⟨e, by simp [he], hep⟩
                  · rintro (h | ⟨e, he, hep⟩)
                    · exact Or.inl (Or.inl h)
                    · rw [List.cons_append] at he
                      rcases List.mem_cons.1 he with rfl | he
                      · simp at hep; exact absurd hep hq2
                      · rcases List.mem_append.1 he with he | he
                        · left; right; exact ⟨e, he, by rw [hep]; simp⟩
                        · right; exact ⟨e, he, hep⟩
                · rw [List.cons_append, tableAt_cons_nomatch _ _ _ _ (by simp; exact hq2),
                    tableAt_append, hAssoc, h1.2]
                  show tableAt _ _ _ = _
                  rw [← hAssoc]; exact h2.2
            · have h2 := t2 hpl q
              rw [hplain hpl q hpre] at h2
              have hno : ∀ e ∈ regs (pre ++ pathSegs path) (innerFilters fs hs) hs,
                  e.pattern ≠ pre ++ q := by
                intro e he hep
                have := regs_prefix _ _ _ e he
                rw [hep] at this
                exact hpre ((List.prefix_append_right_inj pre).1 this)
              have hno0 : pre ++ pathSegs path ≠ pre ++ q := by
                intro h
                have := List.append_cancel_left h
                exact hpre (this ▸ List.prefix_refl _)
              constructor
              · rw [h2.1]
                constructor
                · rintro (h | ⟨e, he, hep⟩)
                  · exact Or.inl h
                  · right; exact ⟨e, by simp [he], hep⟩
                · rintro (h | ⟨e, he, hep⟩)
                  · exact Or.inl h
                  · rw [List.cons_append] at he
                    rcases List.mem_cons.1 he with rfl | he
                    · exact absurd hep hno0
                    · rcases List.mem_append.1 he with he | he
                      · exact absurd hep (hno e he)
                      · right; exact ⟨e, he, hep⟩
              · rw [List.cons_append, tableAt_cons_nomatch _ _ _ _ hno0, tableAt_append,
                  tableAt_nomatch _ _ _ hno]
                exact h2.2

/-! ### a whole application -/

/-- every non-empty segment predicate that registrations satisfy automatically -/
theorem regs_seg_ne (hs : List Handler) : ∀ (pre : List Str) (fs : List Filter),
    (∀ s ∈ pre, s ≠ []) → ∀ e ∈ regs pre fs hs, ∀ s ∈ e.pattern, s ≠ [] := by
  induction hs using handlers_ind with
  | nil => intro pre fs _ e he; simp [regs] at he
  | other h rest hn ih => intro pre fs hp e he; rw [regs_other hn] at he; exact ih pre fs hp e he
  | router path hs rest ih1 ih2 =>
    intro pre fs hp e he
    rw [regs_router] at he
    have hp2 : ∀ s ∈ pre ++ pathSegs path, s ≠ [] := by
      intro s hs
      rcases List.mem_append.1 hs with h | h
      · exact hp s h
      · exact pathSegs_ne_nil path s h
    rcases List.mem_append.1 he with he | he
    · split at he
      · simp at he
      · rcases List.mem_cons.1 he with rfl | he
        · exact hp2
        · exact ih1 _ _ hp2 e he
    · exact ih2 pre fs hp e he

theorem allRegs_seg_ne (hss : List (List Handler)) :
    ∀ e ∈ allRegs hss, ∀ s ∈ e.pattern, s ≠ [] := by
  intro e he
  obtain ⟨hs, _, he⟩ := List.mem_flatMap.1 he
  unfold callRegs at he
  rcases List.mem_cons.1 he with rfl | he
  · simp
  · exact regs_seg_ne hs [] _ (by simp) e he

theorem routers_obs (hs : List Handler) (r r' : Route)
    (hP : ∀ e ∈ callRegs hs, ∀ s ∈ e.pattern, P s) (hr : WF P r) (h : routers hs r = some r') :
    WF P r' ∧ Frame r r' ∧
      (∀ q, (obs r' q).1 = true → (obs r q).1 = true ∨ ∃ e ∈ callRegs hs, e.pattern = q) ∧
      ((∀ s, P s → PlainWild s) → r.isEnd = true → ∀ q,
        ((obs r' q).1 = true ↔ (obs r q).1 = true ∨ ∃ e ∈ callRegs hs, e.pattern = q) ∧
        tableAt (callRegs hs) q (obs r q).2 = some (obs r' q).2) := by
  unfold routers configRoutes at h
  simp only [] at h
  have hP' : ∀ e ∈ regs [] (fremove (fappend [] (argFilters hs)) (argExempts hs)) hs,
      ∀ s ∈ e.pattern, P s := fun e he => hP e (by simp [callRegs, he])
  cases hm : configMethods (fremove (fappend [] (argFilters hs)) (argExempts hs)) r.tbl
      (argMethods hs) with
  | none => rw [hm] at h; cases h
  | some t =>
    rw [hm] at h
    replace h : configNested _ hs (r.setTbl t) = some r' := h
    obtain ⟨hW, hF⟩ := configNested_WF hs _ [] _ _ hP' (hr.setTbl t) h
    obtain ⟨h1, h2⟩ := configNested_obs hs _ [] _ _ hP' (hr.setTbl t) h
    refine ⟨hW, ⟨by simpa using hF.pp, by simpa using hF.chain, by simpa using hF.isEnd⟩, ?_, ?_⟩
    · intro q hq
      rcases h1 q hq with h | ⟨e, he, hep⟩
      · rw [obs_setTbl] at h
        split at h
        · rename_i hq0; right; exact ⟨⟨[], _, _⟩, List.mem_cons_self, hq0.symm⟩
        · exact Or.inl h
      · right; exact ⟨e, List.mem_cons_of_mem _ he, by simpa using hep⟩
    · intro hpl hrE q
      obtain ⟨h3, h4⟩ := h2 hpl q
      rw [List.nil_append] at h4 h3
      unfold callRegs
      by_cases hq : q = []
      · subst hq
        constructor
        · constructor
          · intro _; right; exact ⟨⟨[], _, _⟩, List.mem_cons_self, rfl⟩
          · intro _; rw [h3, obs_setTbl]; left; simpa using hrE
        · rw [tableAt_cons_match _ _ _ _ rfl]
          simp only []
          rw [obs_nil]
          simp only []
          rw [hm]
          rw [obs_setTbl] at h4
          simpa using h4
      · rw [obs_setTbl, if_neg hq] at h3 h4
        constructor
        · rw [h3]
          constructor
          · rintro (h | ⟨e, he, hep⟩)
            · exact Or.inl h
            · right; exact ⟨e, List.mem_cons_of_mem _ he, hep⟩
          · rintro (h | ⟨e, he, hep⟩)
            · exact Or.inl h
            · rcases List.mem_cons.1 he with rfl | he
              · exact absurd hep.symm hq
              · right; exact ⟨e, he, hep⟩
        · rw [tableAt_cons_nomatch _ _ _ _ (fun h => hq h.symm)]
          exact h4

/-- An application refines its flat registrations. -/
theorem registerAll_obs (hss : List (List Handler)) : ∀ (r r' : Route),
    (∀ e ∈ allRegs hss, ∀ s ∈ e.pattern, P s) → WF P r → registerAll hss r = some r' →
    WF P r' ∧ Frame r r' ∧
      (∀ q, (obs r' q).1 = true → (obs r q).1 = true ∨ ∃ e ∈ allRegs hss, e.pattern = q) ∧
      ((∀ s, P s → PlainWild s) → r.isEnd = true → ∀ q,
        ((obs r' q).1 = true ↔ (obs r q).1 = true ∨ ∃ e ∈ allRegs hss, e.pattern = q) ∧
        tableAt (allRegs hss) q (obs r q).2 = some (obs r' q).2) := by
  induction hss with
  | nil =>
    intro r r' _ hr h
    simp [registerAll] at h; subst h
    simp [allRegs, tableAt, hr, Frame.refl]
  | cons hs hss ih =>
    intro r r' hP hr h
    unfold registerAll at h
    cases h1 : routers hs r with
    | none => rw [h1] at h; cases h
    | some r1 =>
      rw [h1] at h
      replace h : registerAll hss r1 = some r' := h
      have hA : allRegs (hs :: hss) = callRegs hs ++ allRegs hss := by simp [allRegs]
      rw [hA] at hP ⊢
      obtain ⟨a1, a2, a3, a4⟩ := routers_obs hs r r1 (fun e he => hP e (by simp [he])) hr h1
      obtain ⟨b1, b2, b3, b4⟩ := ih r1 r' (fun e he => hP e (by simp [he])) a1 h
      refine ⟨b1, a2.trans b2, ?_, ?_⟩
      · intro q hq
        rcases b3 q hq with hq | ⟨e, he, hep⟩
        · rcases a3 q hq with hq | ⟨e, he, hep⟩
          · exact Or.inl hq
          · exact Or.inr ⟨e, by simp [he], hep⟩
        · exact Or.inr ⟨e, by simp [he], hep⟩
      · intro hpl hrE q
        obtain ⟨c1, c2⟩ := a4 hpl hrE q
        obtain ⟨d1, d2⟩ := b4 hpl (by rw [a2.isEnd, hrE]) q
        constructor
        · rw [d1, c1]
          constructor
          · rintro ((h | ⟨e, he, hep⟩) | ⟨e, he, hep⟩)
            · exact Or.inl h
            · exact Or.inr ⟨e, by simp [he], hep⟩
            · exact Or.inr ⟨e, by simp [he], hep⟩
          · rintro (h | ⟨e, he, hep⟩)
            · exact Or.inl (Or.inl h)
            · rcases List.mem_append.1 he with he | he
              · exact Or.inl (Or.inr ⟨e, he, hep⟩)
              · exact Or.inr ⟨e, he, hep⟩
        · rw [tableAt_append, c2]; exact d2

end Verif.Router
