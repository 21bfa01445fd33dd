import Verif.Model.CacheTyped
import Verif.Props.CacheLife
import Verif.Props.Conv
import Verif.Props.FloatText
/-! C177: values of Go types through a cache and back. -/
namespace Verif.Cache
open Verif.Go

/-- The value is one of its type: an integer in the range of its kind, a float with bits of its format. -/
def TypedSpec.Of : TVal → Prop
  | .int .int i => -(2 ^ 63) ≤ i ∧ i < 2 ^ 63
  | .int .int8 i => -128 ≤ i ∧ i < 128
  | .int .int16 i => -32768 ≤ i ∧ i < 32768
  | .int .int32 i => -(2 ^ 31) ≤ i ∧ i < 2 ^ 31
  | .int .int64 i => -(2 ^ 63) ≤ i ∧ i < 2 ^ 63
  | .int .uint i => 0 ≤ i ∧ i < 2 ^ 64
  | .int .uint8 i => 0 ≤ i ∧ i < 256
  | .int .uint16 i => 0 ≤ i ∧ i < 65536
  | .int .uint32 i => 0 ≤ i ∧ i < 2 ^ 32
  | .int .uint64 i => 0 ≤ i ∧ i < 2 ^ 64
  | .float bits (.num _ b) => (bits = 32 ∧ b ≤ 0x7f800000) ∨ (bits = 64 ∧ b ≤ 0x7ff0000000000000)
  | _ => True

/-- A value MongoDB gives back with the same text: no float of 32 bits, and no unsigned integer that needs 64 bits. -/
def TypedSpec.Mongo : TVal → Prop
  | .float bits _ => bits = 64
  | .int _ i => i < 2 ^ 63
  | _ => True

/-- What the caller gets from the text `Get` returned, with the method of `utils.StrTo` named after the type of the value
(`String`, `Bytes`, `Bool`, `Int8`, `Float64`, … and `MustInt8`, …), is the value, without an error. -/
def TypedSpec.ComesBack (g : Flt.Exotic) (t : Str) : TVal → Prop
  | .text s => t = s
  | .bytes s => t = s
  | .bool b => Conv.strToBool t = (b, true)
  | .int k i => Conv.utilsStrTo k t = (i, none) ∧ Conv.utilsMust k t = i
  | .float bits v => Flt.utilsFloat g bits t = (v, none)

theorem of_inType {k : Conv.IntKind} {i : Int} (h : TypedSpec.Of (.int k i)) : Conv.Spec.InType k i := by
  unfold Conv.Spec.InType NumSpec.Fits
  cases k <;> simp only [TypedSpec.Of] at h <;> simp [Conv.IntKind.signed, Conv.IntKind.width] <;> omega

theorem stored_back (g : Flt.Exotic) (v : TVal) (h : TypedSpec.Of v) :
    TypedSpec.ComesBack g (toStr v.stored) v := by
  cases v with
  | text s => rfl
  | bytes s => rfl
  | bool b => exact Conv.C51_bool_round_trip b
  | int k i => exact Conv.C51_utils_round_trip k i (of_inType h)
  | float bits v =>
    refine Flt.C173_roundtrip g bits v ?_
    rintro neg b rfl
    rcases h with ⟨rfl, hb⟩ | ⟨rfl, hb⟩
    · exact hb
    · exact hb

/-- **C177**: a value of any of these types stored in redis or memcached is found by `Get` while its time lasts, and the
method of its type gives the value back: the very integer, the very float (all bits), the very text. -/
theorem C177_servers (g : Flt.Exotic) (pre k : Str) (v : TVal) (ps : List Int) (now t : Int) (s : Server)
    (h : List (Int × Op)) (hv : TypedSpec.Of v) (hu : LifeSpec.Usual ps) (ha : ∀ x ∈ h, LifeSpec.Leaves k x.2)
    (hr : LifeSpec.redisHas now t (LifeSpec.asked ps)) (hm : LifeSpec.memcacheHas now t (LifeSpec.asked ps))
    (hk : legalKey (pre ++ k) = true) :
    (∃ text, (redis pre t (.get k) (final (redis pre) ((now, .set k v.stored ps) :: h) s)).2 = .val text ∧
      TypedSpec.ComesBack g text v) ∧
    (∃ text, (memcache pre t (.get k) (final (memcache pre) ((now, .set k v.stored ps) :: h) s)).2 = .val text ∧
      TypedSpec.ComesBack g text v) :=
  ⟨⟨_, (C176_redis pre k v.stored ps now t s h hu ha).2.1 hr, stored_back g v hv⟩,
    ⟨_, (C176_memcache pre k v.stored ps now t s h hu ha hk).2.1 hm, stored_back g v hv⟩⟩

/-- **C177**: the same for MongoDB, for the values it keeps as they are. -/
theorem C177_mgo (g : Flt.Exotic) (ae : Bool) (k : Str) (v : TVal) (ps : List Int) (now t : Int) (c : Coll)
    (h : List (Int × Op)) (hv : TypedSpec.Of v) (_hm : TypedSpec.Mongo v) (hu : LifeSpec.Usual ps)
    (ha : ∀ x ∈ h, LifeSpec.Leaves k x.2 ∧ x.1 ≤ t) (hr : LifeSpec.mgoHas now t (LifeSpec.asked ps)) :
    ∃ text, (mgo ae t (.get k) (final (mgo ae) ((now, .set k v.stored ps) :: h) c)).2 = .val text ∧
      TypedSpec.ComesBack g text v :=
  ⟨_, (C176_mgo ae k v.stored ps now t c h hu ha).2.1 hr, stored_back g v hv⟩

/-- a float of 64 bits (one tenth), a float of 32 bits, an `int8`, a `uint64` above 2^63 -/
example : TypedSpec.Of (.float 64 (.num false 0x3fb999999999999a)) ∧ TypedSpec.Of (.float 32 (.num true 0x3dcccccd)) ∧
    TypedSpec.Of (.int .int8 (-128)) ∧ TypedSpec.Of (.int .uint64 (2 ^ 63 + 1)) ∧
    LifeSpec.redisHas 0 59999999999 (LifeSpec.asked []) ∧ LifeSpec.mgoHas 0 (10 ^ 17) (LifeSpec.asked [-1]) ∧
    (∀ g, TypedSpec.ComesBack g b!"-128" (.int .int8 (-128))) := by
  refine ⟨Or.inr ⟨rfl, by decide⟩, Or.inl ⟨rfl, by decide⟩, by simp [TypedSpec.Of], by simp [TypedSpec.Of], ?_, ?_, ?_⟩
  · simp [LifeSpec.redisHas, LifeSpec.asked]
  · simp [LifeSpec.mgoHas, LifeSpec.asked]
  · intro g; exact ⟨by decide +kernel, by decide +kernel⟩

end Verif.Cache
