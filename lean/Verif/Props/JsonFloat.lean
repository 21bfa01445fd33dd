import Verif.Props.Json
/-! C180: floats in the JSON of an answer. -/
namespace Verif.Json
open Verif.Go

/-- The float that a client gets who reads a JSON number into the format: the one nearest to it (`nearest_unique`: there is
only one), with the sign of the number. -/
def Spec.ClientGets (bits : Nat) (j : J) (neg : Bool) (b : Nat) : Prop :=
  ∃ num den, 0 < den ∧ Spec.IsReal j neg num den ∧ Flt.Spec.Nearest (Flt.fmtOf bits) num den b

theorem isReal_den {j : J} {neg : Bool} {num den : Nat} (h : Spec.IsReal j neg num den) : 0 < den := by
  cases h with
  | num => exact Nat.one_pos
  | dec => exact Nat.pow_pos (by decide)

theorem isReal_inv {j : J} {neg : Bool} {num den : Nat} (h : Spec.IsReal j neg num den) :
    (∃ n : Nat, j = .num (if neg = true then -(n : Int) else (n : Int)) ∧ num = n ∧ den = 1) ∨
      ∃ (n : Nat) (x : Int), j = .dec neg n x ∧ num = n * 10 ^ x.toNat ∧ den = 10 ^ (-x).toNat := by
  cases h with
  | num => exact .inl ⟨_, rfl, rfl, rfl⟩
  | dec => exact .inr ⟨_, _, rfl, rfl, rfl⟩

theorem says_float {bits : Nat} {neg : Bool} {b : Nat} {j : J} (h : Spec.Says (.float bits (.num neg b)) j) :
    Spec.ClientGets bits j neg b := by
  cases h with
  | float h1 h2 => exact ⟨_, _, isReal_den h1, h1, h2⟩

/-- **C180**: every finite float is written as one JSON number, compact and indented alike, from which a client gets exactly
that float back, whatever its size. -/
theorem C180_back (bf : Bool) (bits : Nat) (neg : Bool) (b : Nat) (hb : b < (Flt.fmtOf bits).inf) :
    ∃ t j, enc bf (.float bits (.num neg b)) = some t ∧ Spec.parse t = some j ∧ Spec.parse (indent t) = some j ∧
      Spec.ClientGets bits j neg b := by
  cases he : enc bf (.float bits (.num neg b)) with
  | none =>
    have := (C141_fails_iff bf _).1 he
    simp only [Spec.NoJson] at this
    exact absurd hb (Nat.not_lt.2 (this neg b rfl))
  | some t =>
    obtain ⟨⟨j, h1, h2, h3⟩, -⟩ := C141_says bf _ t he
    exact ⟨t, j, rfl, h2, h3, says_float h1⟩

/-- A client never gets another float: what it gets is determined by the number, up to the sign of zero. -/
theorem C180_only (bits : Nat) (j : J) (neg neg' : Bool) (b b' : Nat) (h : Spec.ClientGets bits j neg b)
    (h' : Spec.ClientGets bits j neg' b') : b' = b ∧ (neg' = neg ∨ j = .num 0) := by
  have hfm : (Flt.fmtOf bits).mb ≠ 0 := by unfold Flt.fmtOf; split <;> decide
  obtain ⟨num, den, hd, hr, hn⟩ := h
  obtain ⟨num', den', hd', hr', hn'⟩ := h'
  have key : num' = num ∧ den' = den ∧ (neg' = neg ∨ j = .num 0) := by
    rcases isReal_inv hr with ⟨n, hj, rfl, rfl⟩ | ⟨n, x, hj, rfl, rfl⟩ <;>
      rcases isReal_inv hr' with ⟨n', hj', rfl, rfl⟩ | ⟨n', x', hj', rfl, rfl⟩
    · rw [hj] at hj'
      injection hj' with hi
      have : num' = num ∧ (neg' = neg ∨ (if neg = true then -(num : Int) else (num : Int)) = 0) := by
        cases neg <;> cases neg' <;> simp at hi ⊢ <;> omega
      refine ⟨this.1, rfl, this.2.imp id fun h => ?_⟩
      rw [hj, h]
    · rw [hj] at hj'
      cases hj'
    · rw [hj] at hj'
      cases hj'
    · rw [hj] at hj'
      cases hj'
      exact ⟨rfl, rfl, Or.inl rfl⟩
  obtain ⟨rfl, rfl, hs⟩ := key
  exact ⟨Flt.nearest_unique _ _ _ _ _ hn' hn hfm hd, hs⟩

/-- Different finite floats (other than the two zeros) have different texts. -/
theorem C180_distinct (bf : Bool) (bits : Nat) (neg neg' : Bool) (b b' : Nat) (hb : b < (Flt.fmtOf bits).inf)
    (hb' : b' < (Flt.fmtOf bits).inf) (h : enc bf (.float bits (.num neg b)) = enc bf (.float bits (.num neg' b'))) : b' = b := by
  obtain ⟨t, j, h1, h2, -, h3⟩ := C180_back bf bits neg b hb
  obtain ⟨t', j', h1', h2', -, h3'⟩ := C180_back bf bits neg' b' hb'
  rw [h1, h1'] at h
  cases h
  rw [h2] at h2'
  cases h2'
  exact (C180_only bits j neg neg' b b' h3 h3').1

/-- An answer whose body is a struct with a float in it: the client gets the object with the float of the program; an
infinity or a NaN makes the answer the error object with code 500 instead, with the status the program has chosen. -/
theorem C180_answer (dev bf : Bool) (status : Nat) (name : Str) (hname : Spec.Utf8 name) (bits : Nat) (v : Flt.F) (msg : Str)
    (bs : List Resp.BF) (hq : Api.Spec.Quiet bs) (hs : status ≠ 204) :
    ∃ x, Api.Spec.Gets (Api.Spec.answer bs ((Api.ResBody.mk status (some (jval bf (.struct [name] [.float bits v]) msg))).write dev).ops)
        (Api.Spec.wanted status) x ∧
      (∀ neg b, v = .num neg b → b < (Flt.fmtOf bits).inf →
        ∃ j, Spec.parse x = some (.obj [(name, j)]) ∧ Spec.ClientGets bits j neg b) ∧
      ((∀ neg b, v = .num neg b → (Flt.fmtOf bits).inf ≤ b) →
        ∃ m, Spec.Reads msg m ∧ Spec.parse x = some (.obj [(b!"code", .num 500), (b!"message", .str m)])) := by
  obtain ⟨x, h1, -, h2, h3⟩ := C141_answer dev bf status (.struct [name] [.float bits v]) msg bs hq hs
  have hno : Spec.NoJson (.struct [name] [.float bits v]) ↔ ∀ neg b, v = .num neg b → (Flt.fmtOf bits).inf ≤ b := by
    simp only [Spec.NoJson, Spec.AnyNoJson, or_false]
  refine ⟨x, h1, ?_, fun h => h3 (hno.2 h)⟩
  intro neg b hv hb
  obtain ⟨j, hj, hsays⟩ := h2 (fun h => absurd hb (Nat.not_lt.2 (hno.1 h neg b hv)))
  cases hsays with
  | struct hm =>
    simp only [List.zip_cons_cons, List.zip_nil_right] at hm
    cases hm with
    | cons hk hf hrest =>
      cases hrest
      rw [C141_text _ _ hk hname] at hj
      rw [hv] at hf
      exact ⟨_, hj, says_float hf⟩

/-- A small number, a large one, negative zero, a `float32`; and what has no JSON. -/
theorem ex_floats : jsonFloat 64 (.num true 0x3e7ad7f29abcaf48) = some b!"-1e-7" ∧
    jsonFloat 64 (.num false 0x444b1ae4d6e2ef50) = some b!"1e+21" ∧
    jsonFloat 64 (.num true 0) = some b!"-0" ∧
    jsonFloat 32 (.num false 0x3dcccccd) = some b!"0.1" ∧
    jsonFloat 64 .nan = none ∧ jsonFloat 64 (.num true Flt.f64.inf) = none := by
  decide +kernel

end Verif.Json
