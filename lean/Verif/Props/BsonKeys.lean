import Verif.Props.Bson
/-!
# C157: a session holds what was put there, and nothing else
-/
namespace Verif.Bson
open Verif.Go
open Verif.Conv (IntKind Src Any)

/-! ## As claimed, for keys without zero bytes -/

/-- C157: on the next request a session has exactly the keys it had, if none of them contains a zero byte (and no key of a map stored in
it does). -/
theorem C157_keys_partial (o : Order) (vs : Str → Option GV) (b : Str) (hs : Spec.Storable vs) (hm : (conv o).marshal vs = some b)
    (hb : b.length < 2147483648) : ∃ m, (conv o).unmarshal b = some m ∧ ∀ k, m k ≠ none ↔ vs k ≠ none := by
  refine ⟨_, C140_round_trip o vs b hs hm hb, fun k => ?_⟩
  cases vs k <;> simp

/-! ## A key that sets other keys -/

/-- The key that, with the value `v` stored under it, stores `v` under `x` and `y` and `w` under `K`: after `x` and a zero byte, the bytes
of `v`, of an element `K` with the value `w`, and the beginning of an element `y`. -/
def Spec.forged (x : Str) (v : GV) (K : Str) (w : GV) (y : Str) : Str :=
  match enc v, enc w with
  | some (t, p), some (t2, p2) => x ++ 0 :: (p ++ (t2 :: (K ++ 0 :: (p2 ++ t :: y))))
  | _, _ => []

/-- What the next request finds. -/
def Spec.found (vs : Str → Option GV) (x : Str) (v : GV) (K : Str) (w : GV) (y : Str) (k : Str) : Option GV :=
  if k = Spec.forged x v K w y then none else if k = K then some w else if k = x ∨ k = y then some v else vs k

theorem forged_nul {x : Str} {v : GV} {K : Str} {w : GV} {y : Str} {tp tp2 : UInt8 × Str} (h1 : enc v = some tp) (h2 : enc w = some tp2) :
    (0 : UInt8) ∈ Spec.forged x v K w y := by
  unfold Spec.forged
  rw [h1, h2]
  simp

theorem encElems_cons {k : Str} {ks : List Str} {v : GV} {vs : List GV} {t : UInt8} {p : Str} (h : enc v = some (t, p)) :
    encElems (k :: ks) (v :: vs) = (encElems ks vs).map (fun r => t :: (k ++ 0 :: p) ++ r) := by
  rw [encElems.eq_def]
  simp only []
  rw [h]
  cases encElems ks vs <;> rfl

theorem encElems_cons_none {k : Str} {ks : List Str} {v : GV} {vs : List GV} (h : enc v = none) :
    encElems (k :: ks) (v :: vs) = none := by
  rw [encElems.eq_def]
  simp only []
  rw [h]

/-- the keys, as the reader will see them -/
def expand (bad x K y : Str) (ks : List Str) : List Str := ks.flatMap fun k => if k = bad then [x, K, y] else [k]

theorem expand_bytes {vs : Str → Option GV} {x : Str} {v : GV} {K : Str} {w : GV} {y : Str} {tp tp2 : UInt8 × Str} (h1 : enc v = some tp)
    (h2 : enc w = some tp2) (hbad : vs (Spec.forged x v K w y) = some v) (hx : (0 : UInt8) ∉ x) (hK : (0 : UInt8) ∉ K) (hy : (0 : UInt8) ∉ y)
    (hxK : x ≠ K) (hyK : y ≠ K) (h0 : vs x = none ∧ vs K = none ∧ vs y = none) : ∀ ks : List Str, (∀ k ∈ ks, vs k ≠ none) →
    encElems (expand (Spec.forged x v K w y) x K y ks) ((expand (Spec.forged x v K w y) x K y ks).filterMap (Spec.found vs x v K w y)) =
      encElems ks (ks.filterMap vs) := by
  have hz := forged_nul (x := x) (K := K) (y := y) h1 h2
  have hxb : x ≠ Spec.forged x v K w y := fun e => hx (e ▸ hz)
  have hKb : K ≠ Spec.forged x v K w y := fun e => hK (e ▸ hz)
  have hyb : y ≠ Spec.forged x v K w y := fun e => hy (e ▸ hz)
  intro ks
  induction ks with
  | nil => intro _; rfl
  | cons k ks ih =>
    intro hne
    have ih := ih (fun k hk => hne k (List.mem_cons_of_mem _ hk))
    unfold expand at ih ⊢
    rw [List.flatMap_cons]
    by_cases hk : k = Spec.forged x v K w y
    · rw [if_pos hk]
      have fx : Spec.found vs x v K w y x = some v := by simp [Spec.found, hxb, hxK]
      have fK : Spec.found vs x v K w y K = some w := by simp [Spec.found, hKb]
      have fy : Spec.found vs x v K w y y = some v := by simp [Spec.found, hyb, hyK]
      obtain ⟨t, p⟩ := tp
      obtain ⟨t2, p2⟩ := tp2
      have hv : vs k = some v := by rw [hk]; exact hbad
      simp only [List.cons_append, List.nil_append, List.filterMap_cons, fx, fK, fy, hv]
      rw [encElems_cons h1, encElems_cons h2, encElems_cons h1, encElems_cons h1, ih, hk]
      cases encElems ks (ks.filterMap vs) with
      | none => rfl
      | some r =>
        simp only [Option.map_some, Option.some.injEq]
        unfold Spec.forged
        rw [h1, h2]
        simp
    · rw [if_neg hk]
      have hkn := hne k List.mem_cons_self
      have hkx : k ≠ x := fun e => hkn (e ▸ h0.1)
      have hkK : k ≠ K := fun e => hkn (e ▸ h0.2.1)
      have hky : k ≠ y := fun e => hkn (e ▸ h0.2.2)
      have fk : Spec.found vs x v K w y k = vs k := by simp [Spec.found, hk, hkx, hkK, hky]
      simp only [List.cons_append, List.nil_append, List.filterMap_cons, fk]
      cases hvk : vs k with
      | none => exact absurd hvk hkn
      | some u =>
        simp only []
        cases hu : enc u with
        | none => rw [encElems_cons_none hu, encElems_cons_none hu]
        | some tp => rw [encElems_cons (t := tp.1) (p := tp.2) hu, encElems_cons (t := tp.1) (p := tp.2) hu, ih]

/-- C157, refuted: whoever chooses a key under which the program stores a value he knows, sets every key of the session to every value:
the next request finds `w` under `K`, which was never set, and not the key that was set. Nothing else changes. -/
theorem C157_injection_violated (o : Order) (vs : Str → Option GV) (b : Str) (x K y : Str) (v w : GV)
    (hfin : ∃ l : List Str, ∀ k, vs k ≠ none → k ∈ l)
    (hkeys : ∀ k, vs k ≠ none → k ≠ Spec.forged x v K w y → (0 : UInt8) ∉ k) (hvals : ∀ k u, vs k = some u → Spec.Ok u)
    (hbad : vs (Spec.forged x v K w y) = some v) (h0 : vs x = none ∧ vs K = none ∧ vs y = none)
    (hx : (0 : UInt8) ∉ x) (hK : (0 : UInt8) ∉ K) (hy : (0 : UInt8) ∉ y) (hxK : x ≠ K) (hyK : y ≠ K) (hw : Spec.Ok w) (hw' : ¬ Spec.Unstorable w)
    (hm : (conv o).marshal vs = some b) (hb : b.length < 2147483648) :
    (conv o).unmarshal b = some (fun k => (Spec.found vs x v K w y k).map Spec.reload) ∧
    Spec.found vs x v K w y K = some w ∧ Spec.found vs x v K w y (Spec.forged x v K w y) = none ∧
    ∀ k, k ≠ Spec.forged x v K w y → k ≠ x → k ≠ K → k ≠ y → Spec.found vs x v K w y k = vs k := by
  obtain ⟨-, hk⟩ := o.listed vs hfin
  have hne : ∀ k ∈ o.keys vs, vs k ≠ none := fun k h => (hk k).1 h
  have hv : Spec.Ok v := hvals _ _ hbad
  rw [conv_marshal] at hm
  simp only [marshal, Option.map_eq_some_iff] at hm
  obtain ⟨c, hc, rfl⟩ := hm
  have hvu : ¬ Spec.Unstorable v := by
    intro hu
    have := (encElems_none ((o.keys vs).filterMap vs) (o.keys vs) (filterMap_length _ hne).symm (okAll_filterMap hvals _)).2
      (anyUnstorable_filterMap _ |>.2 ⟨_, (hk _).2 (by rw [hbad]; simp), v, hbad, hu⟩)
    rw [hc] at this
    cases this
  obtain ⟨tp, h1⟩ : ∃ tp, enc v = some tp := by
    cases h : enc v with
    | none => exact absurd ((enc_none v hv).1 h) hvu
    | some tp => exact ⟨tp, rfl⟩
  obtain ⟨tp2, h2⟩ : ∃ tp, enc w = some tp := by
    cases h : enc w with
    | none => exact absurd ((enc_none w hw).1 h) hw'
    | some tp => exact ⟨tp, rfl⟩
  have hz := forged_nul (x := x) (K := K) (y := y) h1 h2
  have hxb : x ≠ Spec.forged x v K w y := fun e => hx (e ▸ hz)
  have hKb : K ≠ Spec.forged x v K w y := fun e => hK (e ▸ hz)
  have hyb : y ≠ Spec.forged x v K w y := fun e => hy (e ▸ hz)
  have fx : Spec.found vs x v K w y x = some v := by simp [Spec.found, hxb, hxK]
  have fK : Spec.found vs x v K w y K = some w := by simp [Spec.found, hKb]
  have fy : Spec.found vs x v K w y y = some v := by simp [Spec.found, hyb, hyK]
  have fo : ∀ k, k ≠ Spec.forged x v K w y → k ≠ x → k ≠ K → k ≠ y → Spec.found vs x v K w y k = vs k := by
    intro k a b c d
    simp [Spec.found, a, b, c, d]
  refine ⟨?_, fK, by simp [Spec.found], fo⟩
  rw [conv_unmarshal]
  have hmem : ∀ k, k ∈ expand (Spec.forged x v K w y) x K y (o.keys vs) ↔ Spec.found vs x v K w y k ≠ none := by
    intro k
    unfold expand
    rw [List.mem_flatMap]
    constructor
    · rintro ⟨k', hk', hin⟩
      split at hin
      · simp only [List.mem_cons, List.not_mem_nil, or_false] at hin
        rcases hin with rfl | rfl | rfl
        · rw [fx]; simp
        · rw [fK]; simp
        · rw [fy]; simp
      · rename_i hb'
        rw [List.mem_singleton] at hin
        subst hin
        have hn := hne k hk'
        rw [fo k hb' (fun e => hn (e ▸ h0.1)) (fun e => hn (e ▸ h0.2.1)) (fun e => hn (e ▸ h0.2.2))]
        exact hn
    · intro hf
      have hbm : Spec.forged x v K w y ∈ o.keys vs := (hk _).2 (by rw [hbad]; simp)
      by_cases e1 : k = Spec.forged x v K w y
      · exact absurd (by simp [Spec.found, e1]) hf
      · by_cases e2 : k = x ∨ k = K ∨ k = y
        · exact ⟨_, hbm, by rw [if_pos rfl]; simpa using e2⟩
        · simp only [not_or] at e2
          rw [fo k e1 e2.1 e2.2.1 e2.2.2] at hf
          exact ⟨k, (hk k).2 hf, by rw [if_neg e1]; simp⟩
  have hne' : ∀ k ∈ expand (Spec.forged x v K w y) x K y (o.keys vs), Spec.found vs x v K w y k ≠ none := fun k h => (hmem k).1 h
  have hc' := (expand_bytes h1 h2 hbad hx hK hy hxK hyK h0 (o.keys vs) hne).trans hc
  have hl : (frame c).length = c.length + 5 := by simp [frame, leBytes_length]; omega
  have hz' : ∀ k ∈ expand (Spec.forged x v K w y) x K y (o.keys vs), (0 : UInt8) ∉ k := by
    intro k hin
    unfold expand at hin
    obtain ⟨k', hk', hin⟩ := List.mem_flatMap.1 hin
    split at hin
    · simp only [List.mem_cons, List.not_mem_nil, or_false] at hin
      rcases hin with rfl | rfl | rfl <;> assumption
    · rename_i hb'
      rw [List.mem_singleton] at hin
      subst hin
      exact hkeys k (hne k hk') hb'
  have hok : ∀ k u, Spec.found vs x v K w y k = some u → Spec.Ok u := by
    intro k u h
    unfold Spec.found at h
    split at h
    · cases h
    · split at h
      · cases h; exact hw
      · split at h
        · cases h; exact hv
        · exact hvals k u h
  have hd := decElems_enc _ _ c hc' (filterMap_length _ hne').symm hz' (okAll_filterMap hok _) (by omega) ((frame c).length) (by omega)
  exact unmarshal_frame c (Spec.found vs x v K w y) _ hmem hd.2 (decDoc_frame_nil (frame c).length c _ (by omega) hd.1)

section
variable {σ : Type} {C : Sess.CacheApi σ} {cfg : Sess.Config} {good : Str → Prop}

/-- reading a session after a flush, whatever the converter makes of its values -/
theorem next_request_of (L : Sess.Lawful C cfg.sessionExpire good) (o : Order) (h : List (Int × Sess.HOp GV)) (t0 t1 t2 : Int)
    (st : Sess.Handle GV × σ) (hg : good st.1.sid) (hc : st.1.closed = false) (hch : st.1.changed = true)
    (f : Sess.Fault) (hw : Sess.Spec.Within t0 (t0 + cfg.sessionExpire * Cache.second) (h ++ [(t1, .flush f)]))
    (hu : Sess.Spec.Undisturbed st.1.sid h) (hnd : Sess.Spec.NoDestroy h)
    (hok : Sess.FlushesOk C (conv o) cfg (h ++ [(t1, .flush f)]) st)
    (h12 : t1 ≤ t2) (h2 : t2 < t0 + cfg.sessionExpire * Cache.second) (m : Str → Option GV)
    (hrt : ∀ b, (conv o).marshal (Sess.Spec.lastSaid h st.1.values) = some b → (conv o).unmarshal b = some m) :
    ∃ hd, Sess.read C (conv o) .none t2 st.1.sid (Sess.hrun C (conv o) cfg (h ++ [(t1, .flush f)]) st).2 =
        ((Sess.hrun C (conv o) cfg (h ++ [(t1, .flush f)]) st).2, .ok hd) ∧ ∀ k, hd.get k = m k := by
  have hh := (Sess.flushed_holds (conv o) L h t0 t1 st hg hc (.inl hch) f hw hu hnd hok).later (conv o) L h12
  have hv : (Sess.hrun C (conv o) cfg (h ++ [(t1, .flush f)]) st).1.values = Sess.Spec.lastSaid h st.1.values := by
    funext k
    have := Sess.C33_get_last_set C (conv o) cfg (h ++ [(t1, .flush f)]) st k
    rw [Sess.Handle.get] at this
    rw [this]
    unfold Sess.Spec.lastSaid
    simp [Sess.Spec.says]
  obtain ⟨b, h3, h4⟩ := hh
  rw [hv] at h3
  refine ⟨{ sid := st.1.sid, values := m, changed := false, closed := false }, ?_, fun k => rfl⟩
  unfold Sess.read
  simp only [Sess.call]
  rw [L.get_spec _ t2 st.1.sid hg, h4 t2 (Int.le_refl _) h2]
  simp only [hrt b h3]

/-- C157, refuted, from one request to the next: after any history of a session store that ends with a successful flush and leaves the
forged key set, the next request finds `w` under `K`, although the program never set it. -/
theorem C157_next_request_violated (L : Sess.Lawful C cfg.sessionExpire good) (o : Order) (h : List (Int × Sess.HOp GV)) (t0 t1 t2 : Int)
    (st : Sess.Handle GV × σ) (hg : good st.1.sid) (hc : st.1.closed = false) (hch : st.1.changed = true)
    (f : Sess.Fault) (hw : Sess.Spec.Within t0 (t0 + cfg.sessionExpire * Cache.second) (h ++ [(t1, .flush f)]))
    (hu : Sess.Spec.Undisturbed st.1.sid h) (hnd : Sess.Spec.NoDestroy h)
    (hok : Sess.FlushesOk C (conv o) cfg (h ++ [(t1, .flush f)]) st)
    (h12 : t1 ≤ t2) (h2 : t2 < t0 + cfg.sessionExpire * Cache.second) (vs : Str → Option GV) (hvs : Sess.Spec.lastSaid h st.1.values = vs)
    (x K y : Str) (v w : GV) (hfin : ∃ l : List Str, ∀ k, vs k ≠ none → k ∈ l)
    (hkeys : ∀ k, vs k ≠ none → k ≠ Spec.forged x v K w y → (0 : UInt8) ∉ k) (hvals : ∀ k u, vs k = some u → Spec.Ok u)
    (hbad : vs (Spec.forged x v K w y) = some v) (h0 : vs x = none ∧ vs K = none ∧ vs y = none)
    (hx : (0 : UInt8) ∉ x) (hK : (0 : UInt8) ∉ K) (hy : (0 : UInt8) ∉ y) (hxK : x ≠ K) (hyK : y ≠ K) (hokw : Spec.Ok w) (hw' : ¬ Spec.Unstorable w)
    (hsize : ∀ b, (conv o).marshal vs = some b → b.length < 2147483648) :
    ∃ hd, Sess.read C (conv o) .none t2 st.1.sid (Sess.hrun C (conv o) cfg (h ++ [(t1, .flush f)]) st).2 =
        ((Sess.hrun C (conv o) cfg (h ++ [(t1, .flush f)]) st).2, .ok hd) ∧
      hd.get K = some (Spec.reload w) ∧ hd.get (Spec.forged x v K w y) = none := by
  obtain ⟨hd, g1, g2⟩ := next_request_of L o h t0 t1 t2 st hg hc hch f hw hu hnd hok h12 h2
    (fun k => (Spec.found vs x v K w y k).map Spec.reload) (by
      intro b hm
      rw [hvs] at hm
      exact (C157_injection_violated o vs b x K y v w hfin hkeys hvals hbad h0 hx hK hy hxK hyK hokw hw' hm (hsize b hm)).1)
  have hz : Spec.found vs x v K w y (Spec.forged x v K w y) = none := by simp [Spec.found]
  refine ⟨hd, g1, ?_, by rw [g2]; simp [hz]⟩
  rw [g2]
  have : Spec.found vs x v K w y K = some w := by
    unfold Spec.found
    by_cases hKb : K = Spec.forged x v K w y
    · exfalso; rw [← hKb, h0.2.1] at hbad; cases hbad
    · rw [if_neg hKb, if_pos rfl]
  rw [this]; rfl
end

theorem decDoc_frame_none (n : Nat) (b : Str) (h : b.length + 5 < 2147483648) (hd : decElems n (b ++ [0]) = none) :
    decDoc (n + 1) (frame b) = none := by
  have hl : (frame b).length = b.length + 5 := by simp [frame, leBytes_length]; omega
  have hf : frame b = leBytes 4 (b.length + 5) ++ (b ++ [0]) := by simp [frame]
  unfold decDoc
  have hr : readInt 4 (frame b) = some (((b.length + 5 : Nat) : Int), b ++ [0]) := by
    rw [hf]; exact readInt_len _ h _
  rw [hr]
  simp only
  rw [if_neg (by rw [hl]; omega)]
  have e : (((b.length + 5 : Nat) : Int)).toNat = b.length + 5 := by omega
  have ht : (frame b).take (b.length + 5) = frame b := by rw [← hl, List.take_length]
  have hb : (frame b).drop 4 = b ++ [0] := by
    unfold frame
    rw [List.append_assoc, leBytes_drop]
  rw [e, ht, hb, hd]

theorem keys_single (o : Order) (vs : Str → Option GV) (a : Str) (h : ∀ k, vs k ≠ none ↔ k = a) : o.keys vs = [a] := by
  obtain ⟨h1, h2⟩ := o.listed vs ⟨[a], fun k hk => by simp [(h k).1 hk]⟩
  have h3 : ∀ k, k ∈ o.keys vs ↔ k = a := fun k => (h2 k).trans (h k)
  cases hk : o.keys vs with
  | nil => rw [hk] at h3; exact absurd ((h3 a).2 rfl) (by simp)
  | cons c l =>
    rw [hk] at h1 h3
    have ha := (h3 c).1 (by simp)
    subst ha
    cases l with
    | nil => rfl
    | cons d l =>
      have hc := (h3 d).1 (by simp)
      subst hc
      exact absurd h1 (by simp)

/-- C157, refuted: a key with a zero byte can also make the session unreadable: `true` stored under `x`, a zero byte and a text that does not
start with the byte 0 or 1. -/
theorem C157_unreadable_violated (o : Order) (x r : Str) (c : UInt8) (hx : (0 : UInt8) ∉ x) (hc : c ≠ 0 ∧ c ≠ 1) (vs : Str → Option GV)
    (hvs : ∀ k, vs k = if k = x ++ 0 :: c :: r then some (.bool true) else none) (b : Str) (hm : (conv o).marshal vs = some b)
    (hb : b.length < 2147483648) : (conv o).unmarshal b = none := by
  have hk : o.keys vs = [x ++ 0 :: c :: r] := keys_single o vs _ (fun k => by rw [hvs]; by_cases h : k = x ++ 0 :: c :: r <;> simp [h])
  rw [conv_marshal, hk] at hm
  simp only [List.filterMap_cons, hvs, if_true, List.filterMap_nil] at hm
  rw [marshal, encElems_cons (t := 8) (p := [1]) rfl] at hm
  have he : encElems [] [] = some [] := by simp [encElems]
  rw [he] at hm
  simp only [Option.map_some, Option.some.injEq] at hm
  subst hm
  have hl : ∀ d, (frame d).length = d.length + 5 := by intro d; simp [frame, leBytes_length]; omega
  rw [conv_unmarshal, unmarshal]
  rw [hl] at hb
  rw [decDoc_frame_none _ _ hb]
  · rfl
  · have e : (8 :: (x ++ 0 :: c :: r ++ 0 :: [1]) ++ []) ++ [0] = 8 :: (x ++ 0 :: (c :: (r ++ [0, 1, 0]))) := by simp
    rw [e, hl]
    obtain ⟨n, hn⟩ : ∃ n, (8 :: (x ++ 0 :: c :: r ++ 0 :: [1]) ++ []).length + 5 = n + 2 := ⟨_, rfl⟩
    rw [hn]
    unfold decElems
    rw [if_neg (by decide), cutNul_name _ _ hx]
    simp only []
    have : decVal (n + 1) 8 (c :: (r ++ [0, 1, 0])) = none := by
      rw [decVal, if_neg (by decide), if_pos rfl]
      unfold readBool
      simp only []
      rw [if_neg hc.2, if_neg hc.1]
    rw [this]

/-! ## The hypotheses are met -/

/-- A shop that notes the products a client looked at: `seen:` and the product, as the client names it. The forged product makes the
client an administrator. -/
def exShop : Str → Option GV := fun k => if k = Spec.forged b!"seen:" (.bool true) b!"role" (.str b!"admin") b!"z" then some (.bool true) else none

example : Spec.forged b!"seen:" (.bool true) b!"role" (.str b!"admin") b!"z" =
    b!"seen:" ++ [0, 1, 2] ++ b!"role" ++ [0, 6, 0, 0, 0] ++ b!"admin" ++ [0, 8] ++ b!"z" := by decide +kernel

example (o : Order) : ∃ b m, (conv o).marshal exShop = some b ∧ (conv o).unmarshal b = some m ∧ exShop b!"role" = none ∧
    m b!"role" = some (.str b!"admin") := by
  have hk : o.keys exShop = [Spec.forged b!"seen:" (.bool true) b!"role" (.str b!"admin") b!"z"] :=
    keys_single o _ _ (fun k => by unfold exShop; by_cases h : k = Spec.forged b!"seen:" (.bool true) b!"role" (.str b!"admin") b!"z" <;> simp [h])
  have hm : (conv o).marshal exShop = some (frame (8 :: (Spec.forged b!"seen:" (.bool true) b!"role" (.str b!"admin") b!"z" ++ [0, 1]))) := by
    rw [conv_marshal, hk]
    decide +kernel
  have h0 : exShop b!"seen:" = none ∧ exShop b!"role" = none ∧ exShop b!"z" = none := by decide +kernel
  have hb : exShop (Spec.forged b!"seen:" (.bool true) b!"role" (.str b!"admin") b!"z") = some (.bool true) := by simp [exShop]
  have hne : ∀ k, exShop k ≠ none → k = Spec.forged b!"seen:" (.bool true) b!"role" (.str b!"admin") b!"z" := by
    intro k h
    unfold exShop at h
    split at h
    · assumption
    · exact absurd rfl h
  have := C157_injection_violated o exShop _ b!"seen:" b!"role" b!"z" (.bool true) (.str b!"admin")
    ⟨[Spec.forged b!"seen:" (.bool true) b!"role" (.str b!"admin") b!"z"], fun k h => by simp [hne k h]⟩
    (fun k h h' => absurd (hne k h) h') (fun k u h => by
      have := hne k (by rw [h]; simp)
      rw [this, hb] at h
      cases h; trivial) hb h0 (by decide) (by decide) (by decide) (by decide) (by decide) trivial (by simp [Spec.Unstorable]) hm (by decide +kernel)
  exact ⟨_, _, hm, this.1, h0.2.1, by rw [this.2.1]; rfl⟩

end Verif.Bson
