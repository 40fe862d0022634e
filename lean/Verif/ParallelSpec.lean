import Verif.Parallel
import Verif.ProgramSpec

/-
What programs that run at the same time should do, without any layout.
-/

namespace Noarr

/-- The use of an element of an array: the array, the indices, and whether the element is written. -/
abbrev Use := Nat × State × Bool

/-- The meaning of a program without any layout, as `Prog.Yields`, with the elements it uses. -/
inductive Prog.Uses {α : Type} (I : Nat → Space) : Prog α → Arrays → List Use → α → Arrays → Prop
  | done {V a} : Uses I (.done a) V [] a V
  | get {V a V' x st k us} (u : State) : (I x).At st u → Uses I (k (V x u)) V us a V' →
      Uses I (.get x st k) V ((x, u, false) :: us) a V'
  | set {V a V' x st v k us} (u : State) : (I x).At st u → v.length = (I x).size u → Uses I k (V.put x u v) us a V' →
      Uses I (.set x st v k) V ((x, u, true) :: us) a V'
  | length {V a V' x d st k us} (n : Nat) : (I x).length d st n → Uses I (k n) V us a V' →
      Uses I (.length x d st k) V us a V'

/-- No element that is written according to one list is used according to the other. -/
def NoConflict (us us' : List Use) : Prop :=
  ∀ x u w w', (x, u, w) ∈ us → (x, u, w') ∈ us' → w = false ∧ w' = false

/-- The result of `n` programs that write different elements: each element has the value that the program which
writes it gives to it, when it runs alone; `us i` are the uses, and `Vs i` the arrays after program `i` alone. -/
def Merged (V : Arrays) (n : Nat) (us : Nat → List Use) (Vs : Nat → Arrays) (V' : Arrays) : Prop :=
  ∀ x u, (∀ i, i < n → (x, u, true) ∈ us i → V' x u = Vs i x u) ∧
    ((∀ i, i < n → (x, u, true) ∉ us i) → V' x u = V x u)

/-- Threads with the programs `ps`, started with the bags `B`, safely come to the values `R`, in whatever order their
operations are executed: no operation is undefined, no two operations of different threads are a data race, the number
of operations is bounded, and the bags have the values `R` when all the threads are done. -/
def RunsTo (I : Nat → Space) (ps : List (Prog Unit)) (B : Bags) (R : Arrays) : Prop :=
  ∃ N, ∀ log qs C, Execution .ideal ps B log qs C →
    (∀ p ∈ qs, p.isDone = false → ∃ r, p.step .ideal C = .ok r) ∧
    (∀ i j a b, (i, some a) ∈ log → (j, some b) ∈ log → i ≠ j → ¬ a.conflicts b) ∧ log.length ≤ N ∧
    (∀ x, (C x).structure_ = (B x).structure_) ∧ ((∀ p ∈ qs, p.isDone = true) → BagsHold I C R)

end Noarr
