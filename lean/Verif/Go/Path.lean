import Verif.Go.Bytes
/-!
# Go's `path.Clean` on rooted paths (standard library, trusted base)
-/
namespace Verif.Go

/-- One component step of `path.Clean` on a rooted path; the stack is kept reversed. -/
def cleanStep (stack : List Str) (c : Str) : List Str :=
  if c = [] ∨ c = b!"." then stack
  else if c = b!".." then stack.tail
  else c :: stack

/-- The components of `path.Clean(p)` for a rooted `p`. -/
def cleanComps (p : Str) : List Str :=
  ((splitOn1 47 p).foldl cleanStep []).reverse

/-- `path.Clean(p)` for a path that begins with '/'. -/
def cleanRooted (p : Str) : Str := 47 :: join1 47 (cleanComps p)

end Verif.Go
