import Verif.Model.Cache
import Verif.Model.Conv
import Verif.Model.FloatText
/-! Values of Go types given to a cache and read back with the methods of `utils.StrTo`
(caches/caches.go:18-21, utils/converter.go:14-93, 145-184). -/
namespace Verif.Cache
open Verif.Go

/-- A value given to `Set`: a string, a byte slice, a boolean, an integer of a kind, a float of 32 or 64 bits
(caches/caches.go:20). -/
inductive TVal where
  | text (s : Str)
  | bytes (s : Str)
  | bool (b : Bool)
  | int (k : Conv.IntKind) (i : Int)
  | float (bits : Nat) (v : Flt.F)

/-- The value as `Model/Cache.lean` has it. redis and memcached get `utils.ToStr` of it (caches/provider_redis.go:55,
caches/provider_memcache.go:41); MongoDB stores it as it is and `Get` takes `ToStr` of what comes back
(caches/provider_mgo.go:84, 97): a boolean and a float of 64 bits come back as they are, and therefore behave like their
text. (A float of 32 bits comes back from MongoDB as one of 64 bits; not modelled.) -/
def TVal.stored : TVal → Val
  | .text s => .text s
  | .bytes s => .bytes s
  | .bool b => .text (Conv.toStr (.bool b))
  | .int _ i => .int i
  | .float bits v => .text (Flt.toStrF (Flt.fmtOf bits) v)

end Verif.Cache
