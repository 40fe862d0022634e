import Verif.PlannerIter
import Verif.RangeSpec

/-
Notions used in the statements about ranges of planners.
-/

namespace Noarr

/-- `n` increments. -/
def PlanIter.incs {w : Nat} (a : PlanIter w) : Nat → PlanIter w
  | 0 => a
  | n + 1 => (a.incs n).inc

end Noarr
