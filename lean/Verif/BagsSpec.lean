import Verif.Bags

/-
Ownership, for the statements of C62 and C63.
-/

namespace Noarr

/-- The bag `x` owns the block `p`: its destructor frees it. -/
def World.Owns (w : World) (x p : Nat) : Prop := ∃ o, w.vars x = some o ∧ o.data.owned = some p

end Noarr
