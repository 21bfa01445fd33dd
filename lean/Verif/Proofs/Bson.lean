import Verif.Model.Bson
import Verif.Proofs.Num
/-! The BSON converter reads back what it wrote (no property theorems here). -/
namespace Verif.Bson
open Verif.Go
open Verif.Conv (IntKind Src Any)

/-! ## Numbers -/

theorem leBytes_length : ∀ (w n : Nat), (leBytes w n).length = w
  | 0, _ => rfl
  | w + 1, n => by rw [leBytes, List.length_cons, leBytes_length w]

theorem leVal_leBytes : ∀ (w n : Nat), leVal (leBytes w n) = n % 256 ^ w
  | 0, n => by simp [leBytes, leVal, Nat.mod_one]
  | w + 1, n => by
    rw [leBytes, leVal, leVal_leBytes w, Nat.pow_succ]
    have h1 : (UInt8.ofNat (n % 256)).toNat = n % 256 := by
      simp
    rw [h1, Nat.mul_comm (256 ^ w) 256, Nat.mod_mul]

theorem leBytes_take (w n : Nat) (r : Str) : (leBytes w n ++ r).take w = leBytes w n := by
  have := List.take_left (l₁ := leBytes w n) (l₂ := r)
  rwa [leBytes_length] at this

theorem leBytes_drop (w n : Nat) (r : Str) : (leBytes w n ++ r).drop w = r := by
  have := List.drop_left (l₁ := leBytes w n) (l₂ := r)
  rwa [leBytes_length] at this

theorem readInt_leBytes (w n : Nat) (r : Str) : readInt w (leBytes w n ++ r) = some (wrapS (8 * w) ((n % 256 ^ w : Nat) : Int), r) := by
  unfold readInt
  rw [if_neg (by simp [leBytes_length]), leBytes_take, leBytes_drop, leVal_leBytes]

/-- A length is read back. -/
theorem readInt_len (n : Nat) (h : n < 2147483648) (r : Str) : readInt 4 (leBytes 4 n ++ r) = some ((n : Int), r) := by
  rw [readInt_leBytes]
  refine congrArg (fun x => some (x, r)) ?_
  unfold wrapS
  have e3 : 256 ^ 4 = 4294967296 := by decide
  rw [e3, Nat.mod_eq_of_lt (by omega)]
  have e1 : (2 : Int) ^ (8 * 4 - 1) = 2147483648 := by decide
  have e2 : (2 : Int) ^ (8 * 4) = 4294967296 := by decide
  rw [e1, e2]
  omega

theorem readInt_i32 (i : Int) (h1 : -2147483648 ≤ i) (h2 : i < 2147483648) (r : Str) : readInt 4 (leInt 4 i ++ r) = some (i, r) := by
  unfold leInt
  rw [readInt_leBytes]
  refine congrArg (fun x => some (x, r)) ?_
  unfold wrapS
  have e0 : ((2 ^ (8 * 4) : Nat) : Int) = 4294967296 := by decide
  have e1 : (2 : Int) ^ (8 * 4 - 1) = 2147483648 := by decide
  have e2 : (2 : Int) ^ (8 * 4) = 4294967296 := by decide
  have e3 : 256 ^ 4 = 4294967296 := by decide
  rw [e0, e1, e2, e3, Nat.mod_eq_of_lt (by omega)]
  omega

theorem readInt_i64 (i : Int) (h1 : -9223372036854775808 ≤ i) (h2 : i < 9223372036854775808) (r : Str) :
    readInt 8 (leInt 8 i ++ r) = some (i, r) := by
  unfold leInt
  rw [readInt_leBytes]
  refine congrArg (fun x => some (x, r)) ?_
  unfold wrapS
  have e0 : ((2 ^ (8 * 8) : Nat) : Int) = 18446744073709551616 := by decide
  have e1 : (2 : Int) ^ (8 * 8 - 1) = 9223372036854775808 := by decide
  have e2 : (2 : Int) ^ (8 * 8) = 18446744073709551616 := by decide
  have e3 : 256 ^ 8 = 18446744073709551616 := by decide
  rw [e0, e1, e2, e3, Nat.mod_eq_of_lt (by omega)]
  omega

/-! ## Texts -/

theorem cutNul_name : ∀ (name r : Str), (0 : UInt8) ∉ name → cutNul (name ++ 0 :: r) = some (name, r)
  | [], r, _ => by simp [cutNul]
  | b :: name, r, h => by
    have hb : b ≠ 0 := fun e => h (by simp [e])
    have hr : (0 : UInt8) ∉ name := fun e => h (by simp [e])
    rw [List.cons_append, cutNul, if_neg hb, cutNul_name name r hr]
    rfl

theorem takeN_append (s r : Str) : takeN s.length (s ++ r) = some (s, r) := by
  unfold takeN
  rw [if_neg (by simp), List.take_left, List.drop_left]

theorem readStr_encStr (s r : Str) (h : s.length + 1 < 2147483648) : readStr (encStr s ++ r) = some (s, r) := by
  have e : encStr s ++ r = leBytes 4 (s.length + 1) ++ ((s ++ [0]) ++ r) := by simp [encStr]
  unfold readStr
  rw [e, readInt_len _ h]
  simp only
  rw [if_neg (by omega)]
  have : (((s.length + 1 : Nat) : Int)).toNat = (s ++ [0]).length := by simp
  rw [this, takeN_append]
  simp

theorem zero_notMem_fmtInt (n : Nat) : (0 : UInt8) ∉ fmtInt (n : Int) := by
  show (0 : UInt8) ∉ natDec n
  intro h
  have := natDec_digits n 0 h
  unfold isDig at this
  exact absurd this (by decide)

theorem indexNames_nz (n len : Nat) : ∀ k ∈ indexNames n len, (0 : UInt8) ∉ k := by
  intro k hk
  obtain ⟨i, _, rfl⟩ := List.mem_map.1 hk
  exact zero_notMem_fmtInt (n + i)

theorem indexNames_length (n len : Nat) : (indexNames n len).length = len := by simp [indexNames]

end Verif.Bson
