import Verif.Props.Bson
/-!
# C164: a session record that is cut off or continued is refused
-/
namespace Verif.Bson
open Verif.Go

theorem unmarshal_none_of {s : Str} (h : decDoc (s.length + 1) s = none) : unmarshal s = none := by
  unfold unmarshal; rw [h]; rfl

/-- the record of a session is a document whose length is its first four bytes -/
theorem marshal_frame {o : Order} {vs : Str → Option GV} {b : Str} (h : (conv o).marshal vs = some b) : ∃ x, b = frame x := by
  have h' : marshal (o.keys vs) ((o.keys vs).filterMap vs) = some b := h
  unfold marshal at h'
  cases he : encElems (o.keys vs) ((o.keys vs).filterMap vs) with
  | none => rw [he] at h'; cases h'
  | some x => rw [he] at h'; exact ⟨x, (Option.some.inj h').symm⟩

theorem short_doc (n : Nat) (x c : Str) (hx : x.length + 5 < 2147483648) (hp : c <+: frame x) (hlt : c.length < (frame x).length) :
    decDoc n c = none := by
  cases n with
  | zero => rfl
  | succ n =>
    have hl : (frame x).length = x.length + 5 := by simp [frame, leBytes_length]; omega
    unfold decDoc
    by_cases h4 : c.length < 4
    · have : readInt 4 c = none := by unfold readInt; rw [if_pos h4]
      rw [this]
    · obtain ⟨e, he⟩ := hp
      have hc : c = leBytes 4 (x.length + 5) ++ c.drop 4 := by
        have h1 : (c ++ e).take 4 = c.take 4 := by rw [List.take_append_of_le_length (by omega)]
        have h2 : (frame x).take 4 = leBytes 4 (x.length + 5) := by
          unfold frame
          rw [List.append_assoc, leBytes_take]
        rw [he, h2] at h1
        rw [h1, List.take_append_drop]
      have hr : readInt 4 c = some (((x.length + 5 : Nat) : Int), c.drop 4) := by
        rw [hc]
        rw [readInt_len _ hx _, leBytes_drop]
      rw [hr]
      simp only
      rw [if_pos (Or.inr (by omega))]

theorem long_doc (n : Nat) (x e : Str) (hx : x.length + 5 < 2147483648) :
    decDoc n (frame x ++ e) = none ∨ ∃ es, decDoc n (frame x ++ e) = some (es, e) := by
  cases n with
  | zero => exact .inl rfl
  | succ n =>
    have hl : (frame x).length = x.length + 5 := by simp [frame, leBytes_length]; omega
    have hf : frame x ++ e = leBytes 4 (x.length + 5) ++ ((x ++ [0]) ++ e) := by simp [frame]
    unfold decDoc
    have hr : readInt 4 (frame x ++ e) = some (((x.length + 5 : Nat) : Int), (x ++ [0]) ++ e) := by
      rw [hf]; exact readInt_len _ hx _
    rw [hr]
    simp only
    split
    · exact .inl rfl
    · cases decElems n (List.drop 4 (List.take ((x.length + 5 : Nat) : Int).toNat (frame x ++ e))) with
      | none => exact .inl rfl
      | some p =>
        obtain ⟨es, r⟩ := p
        simp only
        split
        · right
          refine ⟨es, ?_⟩
          have : (((x.length + 5 : Nat) : Int)).toNat = (frame x).length := by omega
          rw [this, List.drop_left]
        · exact .inl rfl

/-- **C164**: what is left of a session's record (of less than 2 GB) when its end is missing is not taken for a session; nor is the
record with something behind it. -/
theorem C164_damaged (o : Order) (vs : Str → Option GV) (b : Str) (hm : (conv o).marshal vs = some b) (hb : b.length < 2147483648) :
    (∀ c, c <+: b → c ≠ b → (conv o).unmarshal c = none) ∧ ∀ e, e ≠ [] → (conv o).unmarshal (b ++ e) = none := by
  obtain ⟨x, rfl⟩ := marshal_frame hm
  have hl : (frame x).length = x.length + 5 := by simp [frame, leBytes_length]; omega
  refine ⟨fun c hc hne => ?_, fun e he => ?_⟩
  · rw [conv_unmarshal]
    refine unmarshal_none_of (short_doc _ x c (by omega) hc ?_)
    have := hc.length_le
    have : c.length ≠ (frame x).length := fun h => hne (hc.eq_of_length h)
    omega
  · rw [conv_unmarshal]
    unfold unmarshal
    rcases long_doc ((frame x ++ e).length + 1) x e (by omega) with h | ⟨es, h⟩
    · rw [h]; rfl
    · rw [h]
      unfold toMap
      simp only
      rw [if_neg he]

section
variable {σ : Type} {C : Sess.CacheApi σ} {cfg : Sess.Config} {good : Str → Prop}

/-- **C164** (for a request): if the cache holds such a record for the session of a request, `Start` reports an error; there is no session,
no cookie is set and the cache is left as it is. -/
theorem C164_start (L : Sess.Lawful C cfg.sessionExpire good) (o : Order) (H : Sess.Hmac) (cc : Sess.CookieConfig) (vs : Str → Option GV)
    (b c : Str) (hm : (conv o).marshal vs = some b) (hb : b.length < 2147483648)
    (hc : (c <+: b ∧ c ≠ b) ∨ ∃ e, e ≠ [] ∧ c = b ++ e) (t t0 : Int) (newSid sid : Str) (cs : Sess.Cookies) (s : σ)
    (hs : Sess.readSid H cfg cs cc.cookieName t = some (sid, t0)) (hg : good sid) (hv : L.view s t sid = some c) :
    Sess.start C (conv o) cfg H cc .none t newSid cs s = (s, .done (.error .conv) [] cs) := by
  have hu : (conv o).unmarshal c = none := by
    obtain ⟨h1, h2⟩ := C164_damaged o vs b hm hb
    rcases hc with ⟨h, h'⟩ | ⟨e, h, rfl⟩
    · exact h1 c h h'
    · exact h2 e h
  have hr : Sess.read C (conv o) .none t sid s = (s, .error .conv) := by
    unfold Sess.read
    simp only [Sess.call]
    rw [L.get_spec s t sid hg, hv]
    simp only [hu]
  unfold Sess.start
  rw [hs]
  simp only [hr]
end

theorem refused {s : Str} (h : (unmarshal s).isNone = true) : unmarshal s = none := Option.isNone_iff_eq_none.1 h

/-- the record of a session with `n = 5`: each shorter one, and one with a further byte, is refused; so is one in which the length of a
text within it goes beyond its end, and one which is said to be shorter than it is -/
theorem C164_example (o : Order) : (conv o).marshal exValues = some [12, 0, 0, 0, 0x10, 110, 0, 5, 0, 0, 0, 0] ∧
    (conv o).unmarshal [12, 0, 0, 0, 0x10, 110, 0, 5, 0, 0, 0] = none ∧
    (conv o).unmarshal [12, 0, 0] = none ∧ (conv o).unmarshal [] = none ∧
    (conv o).unmarshal [12, 0, 0, 0, 0x10, 110, 0, 5, 0, 0, 0, 0, 0] = none ∧
    ((conv o).unmarshal [14, 0, 0, 0, 0x02, 110, 0, 2, 0, 0, 0, 65, 0, 0]).isSome = true ∧
    (conv o).unmarshal [14, 0, 0, 0, 0x02, 110, 0, 200, 0, 0, 0, 65, 0, 0] = none ∧
    (conv o).unmarshal [4, 0, 0, 0] = none ∧
    (conv o).unmarshal [3, 0, 0, 0, 0] = none := by
  refine ⟨(C140_example o).1, ?_⟩
  rw [conv_unmarshal]
  refine ⟨refused (by decide +kernel), refused (by decide +kernel), refused (by decide +kernel), refused (by decide +kernel),
    by decide +kernel, refused (by decide +kernel), refused (by decide +kernel), refused (by decide +kernel)⟩

end Verif.Bson
