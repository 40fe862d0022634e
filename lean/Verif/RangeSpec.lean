import Verif.Range

/-
Notions used in the statements about parallel execution.
-/

namespace Noarr

/-- `xs` is an interleaving of the sequences `ls`: what may happen when each of them is run by a thread
of its own. -/
inductive Interleaved {α : Type} : List (List α) → List α → Prop
  | done {ls} : (∀ l ∈ ls, l = []) → Interleaved ls []
  | step {pre post l xs} (a : α) : Interleaved (pre ++ l :: post) xs →
      Interleaved (pre ++ (a :: l) :: post) (a :: xs)

/-- An interleaving contains everything as many times as the sequences do. -/
theorem Interleaved.perm {α : Type} {ls : List (List α)} {xs : List α} (h : Interleaved ls xs) :
    xs.Perm ls.flatten := by
  induction h with
  | done h => rw [List.flatten_eq_nil_iff.2 h]
  | step a _ ih =>
    refine (ih.cons a).trans ?_
    simp only [List.flatten_append, List.flatten_cons, List.cons_append]
    exact List.perm_middle.symm

/-- `n` increments. -/
def Iter.incs {w : Nat} (a : Iter w) : Nat → Iter w
  | 0 => a
  | n + 1 => (a.incs n).inc

end Noarr
