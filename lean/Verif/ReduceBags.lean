import Verif.Parallel
import Verif.Reduce

/-
Parallel reduction into a bag: `tbb_reduce` with an output bag (interop/tbb.hpp).
-/

namespace Noarr

/-- How threads with the programs `ps`, started with the bags `B`, can end: all of them are done; or an operation fails;
or two of their accesses are a data race, which is undefined behaviour ([intro.races]). -/
inductive ParallelFor (A : Arith) (ps : List (Prog Unit)) (B : Bags) : Except Fail Bags → Prop
  | done {log qs C} : Execution A ps B log qs C → (∀ p ∈ qs, p.isDone = true) → ParallelFor A ps B (.ok C)
  | fail {log qs C p e} : Execution A ps B log qs C → p ∈ qs → p.isDone = false → p.step A C = .error e →
      ParallelFor A ps B (.error e)
  | race {log qs C i j a b} : Execution A ps B log qs C → (i, some a) ∈ log → (j, some b) ∈ log → i ≠ j →
      a.conflicts b → ParallelFor A ps B (.error .ub)

/-- The functions of a user that are given to `tbb_reduce` (interop/tbb.hpp:87-89): they are called with a state and
with one or two bags, here the numbers of the bags. -/
structure BagReducer where
  neut : State → Nat → Prog Unit
  acc : State → Nat → Prog Unit
  join : State → Nat → Nat → Prog Unit

/-- The bags while the private copies exist (interop/tbb.hpp:69-75, 93, 97): the bags below `K` are those of the user;
from `K` on there are the copies, in memory from `malloc`, with the structure of the output (line 90). -/
def Bags.withCopies (B : Bags) (K out : Nat) (fresh : List Mem) : Bags := fun x =>
  if x < K then B x else
    match fresh[x - K]? with
    | some m => ⟨(B out).structure_, m⟩
    | none => B x

/-- What the thread with the copy `c` does (interop/tbb.hpp:67-77): `f_neut` for all the elements of the output, then
`f_acc` for the states of the subranges that the thread gets. -/
def BagReducer.thread (F : BagReducer) (outs : List State) (c : Nat) (sts : List State) : Prog Unit :=
  (Prog.each (F.neut · c) outs).bind fun _ => Prog.each (F.acc · c) sts

/-- `out_ptrs.combine_each(...)` (interop/tbb.hpp:78-82) -/
def BagReducer.combine (F : BagReducer) (outs : List State) (out : Nat) (copies : List Nat) : Prog Unit :=
  Prog.inOrder (copies.map fun c => Prog.each (F.join · out c) outs)

/-- `tbb_reduce(t, f_neut, f_acc, f_join, out_bag)` (interop/tbb.hpp:87-109, through 43-84): how it can end, for a program
with the bags `B`, numbered below `K`; `out` is the number of the output. As in `TbbReduce`, the range is split in some
way (`tree`), its parts are distributed among threads in some way (`threads`), and the output is shared if its signature
accepts the top dimension of the traverser. `make_bag(out_struct, ptr)` (lines 94, 98, 102, 103) gives the bag for a copy
or, when the output is shared, for the output. -/
inductive TbbReduceBags (A : Arith) (t : Traverser) (F : BagReducer) (K out : Nat) (B : Bags) : Except Fail Bags → Prop
  | shared {r : Range} {tree : SplitTree} {leaves : List Range} {threads : List (List Range)}
      {xss : List (List State)} {res : Except Fail Bags} :
      t.range A = some r → ((B out).structure_.sem A).sig.allAccept r.dim = true → tree.leaves r = some leaves →
      threads.flatten.Perm (leaves.filter fun l => !l.empty) → threads.mapM (threadStates A) = some xss →
      ParallelFor A (xss.map (Prog.each (F.acc · out))) B res → TbbReduceBags A t F K out B res
  | copies {r : Range} {tree : SplitTree} {leaves : List Range} {threads : List (List Range)}
      {xss : List (List State)} {outs : List State} {size : Val} {n : Nat} {fresh : List Mem} {mid : Except Fail Bags} :
      t.range A = some r → ((B out).structure_.sem A).sig.allAccept r.dim = false → tree.leaves r = some leaves →
      threads.flatten.Perm (leaves.filter fun l => !l.empty) → threads.mapM (threadStates A) = some xss →
      (Traverser.mk (B out).structure_ []).forEach A [] = some outs →
      ((B out).structure_.sem A).size .empty = some size → size.nat? = some n →
      fresh.length = threads.length → (∀ f ∈ fresh, f.length = n) →
      ParallelFor A (xss.zipIdx.map fun xi => F.thread outs (K + xi.2) xi.1) (B.withCopies K out fresh) mid →
      TbbReduceBags A t F K out B (do
        let C ← mid
        let r ← (F.combine outs out ((List.range xss.length).map (K + ·))).run A C
        .ok r.2)

end Noarr
