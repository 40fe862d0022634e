import Verif.Serialize

/-
What is required of the scalars in a round trip.
-/

namespace Noarr

/-- Reading gives the values in `V` back after they have been written with a newline after them, with any
white space before them and anything after them. -/
def RoundTrips (C : Codec) (V : List UInt8 → Prop) : Prop :=
  ∀ b, V b → ∀ ws rest, (∀ c ∈ ws, isSpace c = true) →
    C.dec (ws ++ C.enc b ++ '\n' :: rest) = (true, some b, '\n' :: rest)

end Noarr
