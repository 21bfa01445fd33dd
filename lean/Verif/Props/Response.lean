import Verif.Model.Response
/-!
# C17–C19: the response writer
-/
namespace Verif.Resp

/-! ## Specification -/

/-- The status on the wire (net/http): the first of `WriteHeader`, `Write`, `Flush` that the underlying
writer receives commits the header, the latter two with 200. -/
def Spec.wireStatus : List Ev → Option Nat
  | [] => none
  | .header c :: _ => some c
  | .body _ :: _ => some 200
  | .flush :: _ => some 200
  | .before _ :: es => Spec.wireStatus es

/-- Number of `WriteHeader` calls the underlying writer received. -/
def Spec.headers (es : List Ev) : Nat := (es.filter (fun e => match e with | .header _ => true | _ => false)).length

/-- Body bytes accepted. -/
def Spec.bodyBytes (es : List Ev) : Str := es.flatMap (fun e => match e with | .body bs => bs | _ => [])

/-- Callbacks registered by a sequence of calls. -/
def Spec.registered (os : List Op) : List BF :=
  os.filterMap (fun o => match o with | .before b => some b | _ => none)

/-- The last non-zero code passed to `WriteHeader` in a sequence of calls. -/
def Spec.lastCode (os : List Op) : Nat :=
  os.foldl (fun c o => match o with | .writeHeader s => if s = 0 then c else s | _ => c) 0

/-- Well-behaved callbacks: no panics, no code 0. -/
def Spec.BFok (b : BF) : Prop := b.panics = false ∧ b.status ≠ some 0

/-- The code after callbacks ran in this order. -/
def Spec.codeAfter (c : Nat) (bs : List BF) : Nat := bs.foldl (fun c b => b.status.getD c) c

open Spec

def isFlush : Ev → Prop | .flush => True | _ => False
def isBodyOrFlush : Ev → Prop | .flush => True | .body _ => True | _ => False
def Op.isWrite : Op → Bool | .write _ _ => true | _ => false
def Op.isFlush : Op → Bool | .flush => true | _ => false
def Op.isHijack : Op → Bool | .hijack => true | _ => false
def Op.isWriteHeader : Op → Bool | .writeHeader _ => true | _ => false

/-! ## Lemmas -/

theorem callBefore_ok (bs : List BF) (h : ∀ b ∈ bs, BFok b) : ∀ w : RW,
    callBefore bs w = ({ w with
      status := codeAfter w.status bs
      events := w.events ++ bs.map (fun b => .before b.id) }, false) := by
  induction bs with
  | nil => intro w; simp [callBefore, codeAfter]
  | cons b bs ih =>
    intro w
    obtain ⟨h1, h2⟩ := h b (by simp)
    have ih := ih (fun x hx => h x (by simp [hx]))
    unfold callBefore
    cases hs : b.status with
    | none =>
      simp only [h1]
      rw [if_neg (by simp), ih]
      simp [codeAfter, hs]
    | some s =>
      have hs0 : s ≠ 0 := by rintro rfl; exact h2 hs
      simp only [RW.writeHeader, if_neg hs0, h1]
      rw [if_neg (by simp), ih]
      simp [codeAfter, hs]

theorem commit_ok {w : RW} (h : ∀ b ∈ w.befores, BFok b) (hh : w.hijacked = false) :
    ∃ c, c = (if codeAfter w.status w.befores.reverse = 0 then 200
        else codeAfter w.status w.befores.reverse) ∧
      commit w = ({ w with
        once := true
        status := c
        events := w.events ++ w.befores.reverse.map (fun b => .before b.id) ++ [.header c] }, false) := by
  refine ⟨_, rfl, ?_⟩
  unfold commit
  rw [callBefore_ok _ (by simpa using h)]
  simp only []
  split <;> simp_all

/-- State reached before the first write. -/
theorem runOps_pre (os : List Op) (hw : ∀ o ∈ os, o.isWrite = false) :
    ∃ es, (∀ e ∈ es, isFlush e) ∧ (os.all (fun o => !o.isFlush) = true → es = []) ∧
      ∀ w : RW, w.once = false →
      runOps os w = { w with
        status := if lastCode os = 0 then w.status else lastCode os,
        befores := w.befores ++ registered os,
        hijacked := w.hijacked || os.any Op.isHijack,
        events := w.events ++ es } := by
  have hcode : ∀ (os : List Op) (c : Nat),
      os.foldl (fun c o => match o with | .writeHeader s => if s = 0 then c else s | _ => c) c =
        if lastCode os = 0 then c else lastCode os := by
    intro os
    induction os with
    | nil => intro c; simp [lastCode]
    | cons o os ih =>
      intro c
      unfold lastCode
      rw [List.foldl_cons, List.foldl_cons, ih, ih]
      cases o with
      | writeHeader s => by_cases hs : s = 0 <;> by_cases hl : lastCode os = 0 <;> simp [hs, hl]
      | write bs n => by_cases hl : lastCode os = 0 <;> simp [hl]
      | flush => by_cases hl : lastCode os = 0 <;> simp [hl]
      | before b => by_cases hl : lastCode os = 0 <;> simp [hl]
      | hijack => by_cases hl : lastCode os = 0 <;> simp [hl]
  induction os with
  | nil => exact ⟨[], by simp, by simp, by intro w hw; simp [runOps, lastCode, registered]⟩
  | cons o os ih =>
    obtain ⟨es, h1, h2, h3⟩ := ih (fun o ho => hw o (by simp [ho]))
    have hcons : ∀ o, lastCode (o :: os) = if lastCode os = 0 then
        (match o with | .writeHeader s => if s = 0 then 0 else s | _ => 0) else lastCode os := by
      intro o
      show List.foldl _ _ _ = _
      rw [List.foldl_cons, hcode]
    cases o with
    | write bs n => have := hw (.write bs n) (by simp); cases this
    | flush =>
      refine ⟨.flush :: es, by simp [isFlush]; exact h1, by simp [Op.isFlush], ?_⟩
      intro w ho
      simp only [runOps, RW.op]
      rw [h3 _ (by simpa using ho)]
      simp [hcons, registered, Op.isHijack, List.append_assoc]
      split <;> simp_all
    | before b =>
      refine ⟨es, h1, by intro h; exact h2 (by simpa [Op.isFlush] using h), ?_⟩
      intro w ho
      simp only [runOps, RW.op]
      rw [h3 _ (by simpa using ho)]
      simp [hcons, registered, Op.isHijack, List.append_assoc]
      split <;> simp_all
    | hijack =>
      refine ⟨es, h1, by intro h; exact h2 (by simpa [Op.isFlush] using h), ?_⟩
      intro w ho
      simp only [runOps, RW.op]
      rw [h3 _ (by simpa using ho)]
      simp [hcons, registered, Op.isHijack]
      split <;> simp_all
    | writeHeader s =>
      refine ⟨es, h1, by intro h; exact h2 (by simpa [Op.isFlush] using h), ?_⟩
      intro w ho
      simp only [runOps, RW.op, RW.writeHeader]
      split
      · rename_i hs
        subst hs
        rw [h3 _ ho]
        simp [hcons, registered, Op.isHijack]
        split <;> simp_all
      · rename_i hs
        rw [h3 _ (by simpa using ho)]
        simp [hcons, registered, Op.isHijack, hs]
        split <;> simp_all

/-- After the header has been committed, only bodies and flushes follow. -/
theorem runOps_post (os : List Op) : ∀ w : RW, w.once = true →
    ∃ es, (∀ e ∈ es, isBodyOrFlush e) ∧ (runOps os w).events = w.events ++ es ∧
      (runOps os w).size = w.size + (bodyBytes es).length ∧ (runOps os w).once = true ∧
      (runOps os w).status = (if lastCode os = 0 then w.status else lastCode os) := by
  have hcode : ∀ (os : List Op) (c : Nat),
      os.foldl (fun c o => match o with | .writeHeader s => if s = 0 then c else s | _ => c) c =
        if lastCode os = 0 then c else lastCode os := by
    intro os
    induction os with
    | nil => intro c; simp [lastCode]
    | cons o os ih =>
      intro c
      unfold lastCode
      rw [List.foldl_cons, List.foldl_cons, ih, ih]
      cases o with
      | writeHeader s => by_cases hs : s = 0 <;> by_cases hl : lastCode os = 0 <;> simp [hs, hl]
      | write bs n => by_cases hl : lastCode os = 0 <;> simp [hl]
      | flush => by_cases hl : lastCode os = 0 <;> simp [hl]
      | before b => by_cases hl : lastCode os = 0 <;> simp [hl]
      | hijack => by_cases hl : lastCode os = 0 <;> simp [hl]
  induction os with
  | nil => intro w h; exact ⟨[], by simp, by simp [runOps], by simp [runOps, bodyBytes], h, by simp [runOps, lastCode]⟩
  | cons o os ih =>
    intro w h
    have hcons : ∀ o, lastCode (o :: os) = if lastCode os = 0 then
        (match o with | .writeHeader s => if s = 0 then 0 else s | _ => 0) else lastCode os := by
      intro o
      show List.foldl _ _ _ = _
      rw [List.foldl_cons, hcode]
    cases o with
    | writeHeader s =>
      obtain ⟨es, h1, h2, h3, h4, h5⟩ := ih (w.writeHeader s).1 (by
        unfold RW.writeHeader; split <;> exact h)
      have e1 : (w.writeHeader s).1.events = w.events := by unfold RW.writeHeader; split <;> rfl
      have e2 : (w.writeHeader s).1.size = w.size := by unfold RW.writeHeader; split <;> rfl
      refine ⟨es, h1, by simp only [runOps, RW.op]; rw [h2, e1], by simp only [runOps, RW.op]; rw [h3, e2],
        h4, ?_⟩
      simp only [runOps, RW.op]
      rw [h5, hcons]
      unfold RW.writeHeader
      by_cases hs : s = 0 <;> by_cases hl : lastCode os = 0 <;> simp [hs, hl]
    | write bs n =>
      obtain ⟨es, h1, h2, h3, h4, h5⟩ := ih (writeBody w bs n) h
      have : (w.op (.write bs n)).1 = writeBody w bs n := by simp [RW.op, RW.write, h]
      refine ⟨.body (bs.take n) :: es, by simp [isBodyOrFlush]; exact h1, ?_, ?_, ?_, ?_⟩
      · simp only [runOps, this]; rw [h2]; simp [writeBody]
      · simp only [runOps, this]; rw [h3]; simp [writeBody, bodyBytes, Nat.add_assoc]
      · simp only [runOps, this]; exact h4
      · simp only [runOps, this]; rw [h5, hcons]; split <;> simp_all [writeBody]
    | flush =>
      obtain ⟨es, h1, h2, h3, h4, h5⟩ := ih { w with events := w.events ++ [.flush] } h
      refine ⟨.flush :: es, by simp [isBodyOrFlush]; exact h1, ?_, ?_, h4, ?_⟩
      · simp only [runOps, RW.op]; rw [h2]; simp
      · simp only [runOps, RW.op]; rw [h3]; simp [bodyBytes]
      · simp only [runOps, RW.op]; rw [h5, hcons]; split <;> simp_all
    | before b =>
      obtain ⟨es, h1, h2, h3, h4, h5⟩ := ih { w with befores := w.befores ++ [b] } h
      refine ⟨es, h1, by simp only [runOps, RW.op]; rw [h2], by simp only [runOps, RW.op]; rw [h3], h4, ?_⟩
      simp only [runOps, RW.op]; rw [h5, hcons]; split <;> simp_all
    | hijack =>
      obtain ⟨es, h1, h2, h3, h4, h5⟩ := ih { w with hijacked := true } h
      refine ⟨es, h1, by simp only [runOps, RW.op]; rw [h2], by simp only [runOps, RW.op]; rw [h3], h4, ?_⟩
      simp only [runOps, RW.op]; rw [h5, hcons]; split <;> simp_all

theorem runOps_append (a b : List Op) (w : RW) : runOps (a ++ b) w = runOps b (runOps a w) := by
  induction a generalizing w with
  | nil => rfl
  | cons o a ih => exact ih _

/-- Split a call sequence at its first write. -/
theorem split_write (os : List Op) : (∀ o ∈ os, o.isWrite = false) ∨
    ∃ pre bs n post, os = pre ++ .write bs n :: post ∧ ∀ o ∈ pre, o.isWrite = false := by
  induction os with
  | nil => left; simp
  | cons o os ih =>
    by_cases ho : o.isWrite = true
    · right
      cases o with
      | write bs n => exact ⟨[], bs, n, os, rfl, by simp⟩
      | _ => cases ho
    · rcases ih with h | ⟨pre, bs, n, post, h1, h2⟩
      · left
        intro x hx
        rcases List.mem_cons.1 hx with rfl | hx
        · simpa using ho
        · exact h x hx
      · right
        refine ⟨o :: pre, bs, n, post, by rw [h1]; rfl, ?_⟩
        intro x hx
        rcases List.mem_cons.1 hx with rfl | hx
        · simpa using ho
        · exact h2 x hx

/-! ## C17 -/

/-- The code sent by the first write after the calls `pre`: the last `WriteHeader` code, as changed by
the callbacks in their calling order, 200 if there is none. -/
def Spec.sentCode (pre : List Op) : Nat :=
  let c := codeAfter (lastCode pre) (registered pre).reverse
  if c = 0 then 200 else c

theorem first_write {pre : List Op} {bs : Str} {n : Nat} (hpre : ∀ o ∈ pre, o.isWrite = false)
    (hb : ∀ b ∈ registered pre, BFok b) (hh : pre.any Op.isHijack = false) :
    ∃ es, (∀ e ∈ es, isFlush e) ∧ (pre.all (fun o => !o.isFlush) = true → es = []) ∧
      runOps (pre ++ [.write bs n]) newRW =
        { status := sentCode pre, size := (bs.take n).length, befores := registered pre, once := true,
          hijacked := false,
          events := es ++ (registered pre).reverse.map (fun b => .before b.id) ++
            [.header (sentCode pre), .body (bs.take n)] } := by
  obtain ⟨es, h1, h2, h3⟩ := runOps_pre pre hpre
  refine ⟨es, h1, h2, ?_⟩
  have h3 := h3 newRW rfl
  rw [runOps_append, h3]
  have hst : (if lastCode pre = 0 then (newRW).status else lastCode pre) = lastCode pre := by
    split
    · rename_i h; rw [h]; rfl
    · rfl
  simp only [runOps, RW.op, RW.write]
  rw [hst]
  simp only [newRW, Bool.false_eq_true, if_false, List.nil_append, Bool.false_or, hh]
  obtain ⟨c, hc, he⟩ := commit_ok (w := { status := lastCode pre, befores := registered pre, once := false, hijacked := false, events := es }) hb rfl
  rw [he]
  have hc' : c = sentCode pre := hc
  subst hc'
  simp [writeBody]

/-- **C17.** For every sequence of calls (without hijacking, and with callbacks that neither panic nor
set status 0), the underlying writer either has received only flushes (nothing was written), or what
happened is: flushes; then every callback registered before the first `Write`, once, last registered
first; immediately afterwards one `WriteHeader`; then only bodies and flushes. -/
theorem C17_header_once {os : List Op} (hb : ∀ b ∈ registered os, BFok b)
    (hh : os.any Op.isHijack = false) :
    ((∀ o ∈ os, o.isWrite = false) ∧ ∀ e ∈ (runOps os newRW).events, isFlush e) ∨
    ∃ pre bs n post es rest, os = pre ++ .write bs n :: post ∧ (∀ o ∈ pre, o.isWrite = false) ∧
      (∀ e ∈ es, isFlush e) ∧ (∀ e ∈ rest, isBodyOrFlush e) ∧
      (runOps os newRW).events = es ++ (registered pre).reverse.map (fun b => .before b.id) ++
        .header (sentCode pre) :: rest := by
  rcases split_write os with h | ⟨pre, bs, n, post, rfl, h⟩
  · left
    refine ⟨h, ?_⟩
    obtain ⟨es, h1, -, h3⟩ := runOps_pre os h
    rw [h3 newRW rfl]
    simpa [newRW] using h1
  · right
    have hb' : ∀ b ∈ registered pre, BFok b := fun b hbm => hb b (by
      simp [registered] at hbm ⊢
      obtain ⟨a, ha, hab⟩ := hbm
      exact Or.inl ⟨a, ha, hab⟩)
    have hh' : pre.any Op.isHijack = false := by
      simp only [List.any_append, Bool.or_eq_false_iff] at hh
      exact hh.1
    obtain ⟨es, h1, -, h3⟩ := first_write (bs := bs) (n := n) h hb' hh'
    have hsplit : pre ++ Op.write bs n :: post = (pre ++ [.write bs n]) ++ post := by simp
    obtain ⟨rest, g1, g2, -⟩ := runOps_post post (runOps (pre ++ [.write bs n]) newRW) (by rw [h3])
    refine ⟨pre, bs, n, post, es, .body (bs.take n) :: rest, rfl, h, h1, ?_, ?_⟩
    · intro e he
      rcases List.mem_cons.1 he with rfl | he
      · trivial
      · exact g1 e he
    · rw [hsplit, runOps_append, g2, h3]
      simp

/-- **C17 (at most one header, with hijacking and misbehaving callbacks).** In every run at most one
`WriteHeader` reaches the underlying writer, and callbacks run at most once each. -/
theorem C17_at_most_one_header (os : List Op) : headers (runOps os newRW).events ≤ 1 := by
  have hcb : ∀ (bs : List BF) (w : RW), headers (callBefore bs w).1.events = headers w.events ∧
      (callBefore bs w).1.once = w.once := by
    intro bs
    induction bs with
    | nil => intro w; exact ⟨rfl, rfl⟩
    | cons b bs ih =>
      intro w
      have e0 : headers (w.events ++ [Ev.before b.id]) = headers w.events := by
        simp [headers, List.filter_append]
      unfold callBefore
      cases hs : b.status with
      | none =>
        simp only []
        split
        · exact ⟨e0, rfl⟩
        · have := ih { w with events := w.events ++ [Ev.before b.id] }
          exact ⟨this.1.trans e0, this.2⟩
      | some s =>
        simp only [RW.writeHeader]
        by_cases h0 : s = 0
        · simp only [h0, if_true]; exact ⟨e0, trivial⟩
        · simp only [h0, if_false]
          split
          · exact ⟨e0, rfl⟩
          · have := ih { w with status := s, events := w.events ++ [Ev.before b.id] }
            exact ⟨this.1.trans e0, this.2⟩
  have hcommit : ∀ w : RW, headers (commit w).1.events ≤ headers w.events + 1 ∧
      (commit w).1.once = true := by
    intro w
    have := hcb w.befores.reverse { w with once := true }
    unfold commit
    split
    · rename_i w' heq
      rw [heq] at this
      exact ⟨by rw [this.1]; exact Nat.le_succ _, this.2⟩
    · rename_i w' heq
      rw [heq] at this
      simp only [] at this
      have h2 : headers (if w'.status = 0 then { w' with status := 200 } else w').events =
          headers w.events ∧ (if w'.status = 0 then { w' with status := 200 } else w').once = true := by
        split
        · exact this
        · exact this
      generalize (if w'.status = 0 then { w' with status := 200 } else w') = v at h2
      simp only []
      split
      · exact ⟨by rw [h2.1]; exact Nat.le_succ _, h2.2⟩
      · refine ⟨?_, h2.2⟩
        simp only [headers, List.filter_append] at h2 ⊢
        simp only [List.length_append]
        rw [h2.1]
        simp
  have hnb : ∀ (w : RW) (e : Ev), (∀ c, e ≠ .header c) → headers (w.events ++ [e]) = headers w.events := by
    intro w e he
    unfold headers
    rw [List.filter_append]
    cases e with
    | header c => exact absurd rfl (he c)
    | _ => simp
  have key : ∀ (os : List Op) (w : RW), headers w.events ≤ 1 → (w.once = false → headers w.events = 0) →
      headers (runOps os w).events ≤ 1 := by
    intro os
    induction os with
    | nil => intro w h _; exact h
    | cons o os ih =>
      intro w h h0
      unfold runOps
      cases o with
      | writeHeader s =>
        apply ih
        · simp only [RW.op, RW.writeHeader]; split <;> exact h
        · simp only [RW.op, RW.writeHeader]; split <;> exact h0
      | flush =>
        apply ih
        · simp only [RW.op]; rw [hnb _ _ (by simp)]; exact h
        · simp only [RW.op]; rw [hnb _ _ (by simp)]; exact h0
      | before b => exact ih _ h h0
      | hijack => exact ih _ h h0
      | write bs n =>
        simp only [RW.op, RW.write]
        split
        · rename_i ho
          apply ih
          · simp only [writeBody]; rw [hnb _ _ (by simp)]; exact h
          · intro h1; simp only [writeBody] at h1; rw [ho] at h1; cases h1
        · rename_i ho
          have hz := h0 (by simpa using ho)
          obtain ⟨c1, c2⟩ := hcommit w
          split
          · rename_i w' heq
            rw [heq] at c1 c2
            exact ih _ (by omega) (fun h1 => by rw [c2] at h1; cases h1)
          · rename_i w' heq
            rw [heq] at c1 c2
            apply ih
            · simp only [writeBody] at c1 ⊢; rw [hnb _ _ (by simp)]; omega
            · intro h1; simp only [writeBody] at h1; rw [c2] at h1; cases h1
  exact key os newRW (by decide) (fun _ => by decide)

example : (runOps [.before ⟨1, none, false⟩, .before ⟨2, some 201, false⟩, .writeHeader 404, .flush,
    .write b!"ab" 2, .before ⟨3, none, false⟩, .write b!"cd" 1] newRW).events =
    [.flush, .before 2, .before 1, .header 201, .body b!"ab", .body b!"c"] := by decide +kernel

/-! ## C18 -/

theorem wireStatus_skip_before (l : List BF) (es : List Ev) :
    wireStatus (l.map (fun b => Ev.before b.id) ++ es) = wireStatus es := by
  induction l with
  | nil => rfl
  | cons b l ih => exact ih

/-- **C18 (partial).** If nothing is flushed before the first write, the status on the wire is the last
code passed to `WriteHeader` before it (as changed by callbacks), 200 if there was none. Missing: a
`Flush` before the first write. -/
theorem C18_wire_status_partial {pre post : List Op} {bs : Str} {n : Nat}
    (hpre : ∀ o ∈ pre, o.isWrite = false) (hflush : ∀ o ∈ pre, o.isFlush = false)
    (hb : ∀ b ∈ registered pre, BFok b) (hh : pre.any Op.isHijack = false) :
    wireStatus (runOps (pre ++ .write bs n :: post) newRW).events = some (sentCode pre) := by
  obtain ⟨es, h1, h2, h3⟩ := first_write (bs := bs) (n := n) hpre hb hh
  have hes : es = [] := h2 (by
    rw [List.all_eq_true]
    intro o ho
    simp [hflush o ho])
  subst hes
  have hsplit : pre ++ Op.write bs n :: post = (pre ++ [.write bs n]) ++ post := by simp
  obtain ⟨rest, g1, g2, -⟩ := runOps_post post (runOps (pre ++ [.write bs n]) newRW) (by rw [h3])
  rw [hsplit, runOps_append, g2, h3]
  simp only [List.nil_append, List.append_assoc]
  rw [wireStatus_skip_before]
  rfl

/-- Without callbacks that set a status, this is the last code passed to `WriteHeader`. -/
theorem C18_sent_code_plain {pre : List Op} (hb : ∀ b ∈ registered pre, b.status = none) :
    sentCode pre = if lastCode pre = 0 then 200 else lastCode pre := by
  have : ∀ (l : List BF) (c : Nat), (∀ b ∈ l, b.status = none) → codeAfter c l = c := by
    intro l
    induction l with
    | nil => intro c _; rfl
    | cons b l ih =>
      intro c h
      unfold codeAfter
      rw [List.foldl_cons, h b (by simp)]
      exact ih c (fun x hx => h x (by simp [hx]))
  unfold sentCode
  simp only []
  rw [this _ _ (by simpa using hb)]

/-- **C18 is false of the code** when `Flush` comes before the first write: `WriteHeader(404)`, `Flush`,
`Write` sends 200, because `WriteHeader` is only passed on by `Write`. -/
theorem C18_wire_status_violated :
    ∃ pre bs n, (∀ o ∈ pre, o.isWrite = false) ∧ registered pre = [] ∧ lastCode pre = 404 ∧
      wireStatus (runOps (pre ++ [.write bs n]) newRW).events = some 200 :=
  ⟨[.writeHeader 404, .flush], b!"x", 1, by decide, by decide, by decide, by decide⟩

example : wireStatus (runOps [.writeHeader 404, .writeHeader 403, .write b!"x" 1] newRW).events = some 403 := by
  decide

/-! ## C19 -/

/-- **C19 (Size).** `Size` always is the number of body bytes accepted by the underlying writer. -/
theorem C19_size (os : List Op) : (runOps os newRW).size = (bodyBytes (runOps os newRW).events).length := by
  have hcb : ∀ (bs : List BF) (w : RW), bodyBytes (callBefore bs w).1.events = bodyBytes w.events ∧
      (callBefore bs w).1.size = w.size := by
    intro bs
    induction bs with
    | nil => intro w; exact ⟨rfl, rfl⟩
    | cons b bs ih =>
      intro w
      have e0 : bodyBytes (w.events ++ [Ev.before b.id]) = bodyBytes w.events := by
        simp [bodyBytes]
      unfold callBefore
      cases hs : b.status with
      | none =>
        simp only []
        split
        · exact ⟨e0, rfl⟩
        · have := ih { w with events := w.events ++ [Ev.before b.id] }
          exact ⟨this.1.trans e0, this.2⟩
      | some s =>
        simp only [RW.writeHeader]
        by_cases h0 : s = 0
        · simp only [h0, if_true]; exact ⟨e0, trivial⟩
        · simp only [h0, if_false]
          split
          · exact ⟨e0, rfl⟩
          · have := ih { w with status := s, events := w.events ++ [Ev.before b.id] }
            exact ⟨this.1.trans e0, this.2⟩
  have hcommit : ∀ w : RW, bodyBytes (commit w).1.events = bodyBytes w.events ∧
      (commit w).1.size = w.size := by
    intro w
    have := hcb w.befores.reverse { w with once := true }
    unfold commit
    split
    · rename_i w' heq
      rw [heq] at this
      exact this
    · rename_i w' heq
      rw [heq] at this
      simp only [] at this
      have h2 : bodyBytes (if w'.status = 0 then { w' with status := 200 } else w').events =
          bodyBytes w.events ∧ (if w'.status = 0 then { w' with status := 200 } else w').size = w.size := by
        split
        · exact this
        · exact this
      generalize (if w'.status = 0 then { w' with status := 200 } else w') = v at h2
      simp only []
      split
      · exact h2
      · refine ⟨?_, h2.2⟩
        simp only [bodyBytes, List.flatMap_append] at h2 ⊢
        rw [h2.1]
        simp
  have key : ∀ (os : List Op) (w : RW), w.size = (bodyBytes w.events).length →
      (runOps os w).size = (bodyBytes (runOps os w).events).length := by
    intro os
    induction os with
    | nil => intro w h; exact h
    | cons o os ih =>
      intro w h
      have hbody : ∀ (w : RW) (bs : Str) (n : Nat), w.size = (bodyBytes w.events).length →
          (writeBody w bs n).size = (bodyBytes (writeBody w bs n).events).length := by
        intro w bs n h
        simp only [writeBody, bodyBytes, List.flatMap_append] at h ⊢
        rw [h]
        simp
      unfold runOps
      cases o with
      | writeHeader s =>
        apply ih
        simp only [RW.op, RW.writeHeader]; split <;> exact h
      | flush =>
        apply ih
        simp only [RW.op, bodyBytes, List.flatMap_append] at h ⊢
        rw [h]; simp
      | before b => exact ih _ h
      | hijack => exact ih _ h
      | write bs n =>
        simp only [RW.op, RW.write]
        split
        · exact ih _ (hbody _ _ _ h)
        · have c := hcommit w
          split
          · rename_i w' heq
            rw [heq] at c
            exact ih _ (by rw [c.1, c.2]; exact h)
          · rename_i w' heq
            rw [heq] at c
            exact ih _ (hbody _ _ _ (by rw [c.1, c.2]; exact h))
  exact key os newRW (by decide)

/-- **C19 (Status, partial).** Once the header is committed, `Status` is the code that was sent, as
long as `WriteHeader` is not called afterwards. Missing: `WriteHeader` after the first write. -/
theorem C19_status_partial {pre post : List Op} {bs : Str} {n : Nat}
    (hpre : ∀ o ∈ pre, o.isWrite = false) (hb : ∀ b ∈ registered pre, BFok b)
    (hh : pre.any Op.isHijack = false) (hpost : ∀ o ∈ post, o.isWriteHeader = false) :
    Ev.header (runOps (pre ++ .write bs n :: post) newRW).status ∈
      (runOps (pre ++ .write bs n :: post) newRW).events := by
  obtain ⟨es, h1, h2, h3⟩ := first_write (bs := bs) (n := n) hpre hb hh
  have hsplit : pre ++ Op.write bs n :: post = (pre ++ [.write bs n]) ++ post := by simp
  obtain ⟨rest, g1, g2, g3, g4, g5⟩ :=
    runOps_post post (runOps (pre ++ [.write bs n]) newRW) (by rw [h3])
  have hl : lastCode post = 0 := by
    have : ∀ (l : List Op) (c : Nat), (∀ o ∈ l, o.isWriteHeader = false) →
        l.foldl (fun c o => match o with | .writeHeader s => if s = 0 then c else s | _ => c) c = c := by
      intro l
      induction l with
      | nil => intro c _; rfl
      | cons o l ih =>
        intro c h
        rw [List.foldl_cons]
        cases o with
        | writeHeader s => have := h (.writeHeader s) (by simp); cases this
        | _ => exact ih c (fun x hx => h x (by simp [hx]))
    exact this post 0 hpost
  rw [hsplit, runOps_append, g2, g5, h3, hl]
  simp

/-- **C19 is false of the code** after a late `WriteHeader`: the client got 200, `Status` says 500. -/
theorem C19_status_violated :
    ∃ os, (runOps os newRW).status = 500 ∧ wireStatus (runOps os newRW).events = some 200 ∧
      headers (runOps os newRW).events = 1 :=
  ⟨[.write b!"ok" 2, .writeHeader 500], by decide, by decide, by decide⟩

end Verif.Resp
