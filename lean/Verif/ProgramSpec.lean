import Verif.Program
import Verif.Names
import Verif.MemVisited
import Verif.MatrixLemmas
import Verif.FlatSpec

/-
What programs mean without any layout: the bags are arrays, that is, functions from indices to values.
-/

namespace Noarr

/-- The index space of an array: which dimensions it has, at which indices it has elements (given as states with these
indices), how many bytes they have, and which lengths can be asked for. -/
structure Space where
  own : Dim → Bool
  has : State → Prop
  size : State → Nat
  length : Dim → State → Nat → Prop

/-- The values of the elements of some arrays. -/
abbrev Arrays := Nat → State → List UInt8

open Classical in
/-- the array `x` gets a new value at the indices `u` -/
noncomputable def Arrays.put (V : Arrays) (x : Nat) (u : State) (v : List UInt8) : Arrays :=
  fun y w => if y = x ∧ w = u then v else V y w

/-- An array with the index space `I` has one element for the state: its indices in the dimensions of the array. Indices
in other dimensions do not matter. -/
def Space.At (I : Space) (st u : State) : Prop :=
  u = st.only I.own ∧ I.has u ∧ ∀ q, st (.len q) = none

/-- The meaning of a program without any layout: from the arrays `V` it comes to the result `a` and the arrays `V'`. -/
inductive Prog.Yields {α : Type} (I : Nat → Space) : Prog α → Arrays → α → Arrays → Prop
  | done {V a} : Yields I (.done a) V a V
  | get {V a V' x st k} (u : State) : (I x).At st u → Yields I (k (V x u)) V a V' → Yields I (.get x st k) V a V'
  | set {V a V' x st v k} (u : State) : (I x).At st u → v.length = (I x).size u → Yields I k (V.put x u v) a V' →
      Yields I (.set x st v k) V a V'
  | length {V a V' x d st k} (n : Nat) : (I x).length d st n → Yields I (k n) V a V' → Yields I (.length x d st k) V a V'

/-- The program only uses elements that exist, only assigns values of the right size, and only asks for lengths that
there are - whatever it reads. -/
def Prog.Within {α : Type} (I : Nat → Space) : Prog α → Prop
  | .done _ => True
  | .get x st k => ∃ u, (I x).At st u ∧ ∀ v, v.length = (I x).size u → (k v).Within I
  | .set x st v k => ∃ u, (I x).At st u ∧ v.length = (I x).size u ∧ k.Within I
  | .length x d st k => ∃ n, (I x).length d st n ∧ (k n).Within I

/-- `s` is a layout for the index space: all its elements can be accessed, they are of the given sizes, and it has the
lengths. -/
structure Space.LaidOut (I : Space) (s : Struct) : Prop where
  sound : s.Sound
  tidy : s.tidy
  names : ∀ q, s.names q → I.own q = true
  total : ∃ v N, (s.sem .ideal).size .empty = some v ∧ v.Num N
  accessible : ∀ u, I.has u → Accessible s u
  differ : ∀ u u', I.has u → I.has u' → u ≠ u' → Agree s u u' ∧
    ∃ q, ((s.sem .ideal).sig.needs u q ∨ (s.sem .ideal).sig.needs u' q) ∧ ¬ SameNum (u (.idx q)) (u' (.idx q))
  elem : ∀ u, I.has u → (s.sem .ideal).elem u = some (I.size u)
  length : ∀ d st n, I.length d st n → ∃ v, (s.sem .ideal).len d st = some v ∧ v.Num n

/-- The bags contain the arrays: each has a layout for the index space, a blob that is large enough, and the values. -/
structure BagsHold (I : Nat → Space) (B : Bags) (V : Arrays) : Prop where
  layout : ∀ x, (I x).LaidOut (B x).structure_
  large : ∀ x, BagFor (B x).structure_ (B x)
  value : ∀ x u, (I x).has u → (B x).get .ideal u = .ok (V x u)

/-- The indices that `for_each` visits are an index space. The structure it belongs to is a layout for it; so is every
other structure that is traversed in the same way, up to the order. -/
def Space.ofTraversal (own : Dim → Bool) (sts : List State) (size : State → Nat) : Space where
  own := own
  has := (· ∈ sts)
  size := size
  length _ _ _ := False

end Noarr
