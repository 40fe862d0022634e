import Verif.Range
import Verif.Memory

/-
Parallel reduction: `tbb_reduce` (interop/tbb.hpp).
-/

namespace Noarr

/-- The functions given to `tbb_reduce` (interop/tbb.hpp:43-45). They are the user's; the ones modelled
are those the function is made for: `f_neut(state, out)` is `out[state] = neut`, `f_acc(state, out)` is
`out[state] = op(out[state], input(state))`, and `f_join(state, to, from)` is
`to[state] = op(to[state], from[state])`. The values are kept in memory as the bytes `enc` gives; `dec`
reads them back. -/
structure Reducer (α : Type) where
  neut : α
  op : α → α → α
  input : State → α
  enc : α → List UInt8
  dec : List UInt8 → α

namespace Reducer
variable {α : Type} (A : Arith) (R : Reducer α) (out : Struct)

/-- `f_neut(state, out)` (interop/tbb.hpp:43-45, the functions of a user). -/
def neutAt (st : State) (m : Mem) : Except Fail Mem := out.setAt A m st (R.enc R.neut)

/-- The value that `f_acc(state, out)` writes, from the one it has read (interop/tbb.hpp:43-45, the
functions of a user). -/
def update (st : State) (b : List UInt8) : List UInt8 := R.enc (R.op (R.dec b) (R.input st))

/-- `f_acc(state, out)` (interop/tbb.hpp:43-45, the functions of a user). -/
def accAt (st : State) (m : Mem) : Except Fail Mem := do
  let b ← out.getAt A m st
  out.setAt A m st (R.update st b)

/-- `f_join(state, to, from)` (interop/tbb.hpp:43-45, the functions of a user). -/
def joinAt (from_ : Mem) (st : State) (to : Mem) : Except Fail Mem := do
  let a ← out.getAt A to st
  let b ← out.getAt A from_ st
  out.setAt A to st (R.enc (R.op (R.dec a) (R.dec b)))

end Reducer

/-- The calls of a function that a `for_each` makes, one after another (extra/traverser.hpp:241-275). -/
def callAll (f : State → Mem → Except Fail Mem) : List State → Mem → Except Fail Mem
  | [], m => .ok m
  | st :: sts, m => do callAll f sts (← f st m)

/-- What happens with the private copy of one thread (interop/tbb.hpp:67-77): memory from `malloc`, with
any contents, is filled by `f_neut`, for all elements of the output; then `f_acc` is called for the states
`sts` of the subranges that the thread gets. -/
def privateCopy {α : Type} (A : Arith) (R : Reducer α) (out : Struct) (outs : List State) (fresh : Mem)
    (sts : List State) : Except Fail Mem := do
  callAll (R.accAt A out) sts (← callAll (R.neutAt A out) outs fresh)

/-- `out_ptrs.combine_each(...)` (interop/tbb.hpp:78-82): the private copies are joined into the output,
one after another. -/
def combineEach {α : Type} (A : Arith) (R : Reducer α) (out : Struct) (outs : List State) :
    List Mem → Mem → Except Fail Mem
  | [], m => .ok m
  | c :: cs, m => do combineEach A R out outs cs (← callAll (R.joinAt A out c) outs m)

/-- A thread that updates the shared output (interop/tbb.hpp:49-52): it may have read an element, and not
written the new value yet; and it has more calls of `f_acc` to do. -/
structure Worker where
  held : Option (State × List UInt8)
  todo : List State

/-- Runs of threads that share the output (interop/tbb.hpp:49-52), and how they can end. Reading and
writing an element are separate steps, which the threads take in any order. -/
inductive SharedRun {α : Type} (A : Arith) (R : Reducer α) (out : Struct) :
    Mem → List Worker → Except Fail Mem → Prop
  | done {m ws} : (∀ w ∈ ws, w.held = none ∧ w.todo = []) → SharedRun A R out m ws (.ok m)
  | read {m pre post st todo b res} : out.getAt A m st = .ok b →
      SharedRun A R out m (pre ++ ⟨some (st, b), todo⟩ :: post) res →
      SharedRun A R out m (pre ++ ⟨none, st :: todo⟩ :: post) res
  | readFail {m pre post st todo e} : out.getAt A m st = .error e →
      SharedRun A R out m (pre ++ ⟨none, st :: todo⟩ :: post) (.error e)
  | write {m m' pre post st b todo res} : out.setAt A m st (R.update st b) = .ok m' →
      SharedRun A R out m' (pre ++ ⟨none, todo⟩ :: post) res →
      SharedRun A R out m (pre ++ ⟨some (st, b), todo⟩ :: post) res
  | writeFail {m pre post st b todo e} : out.setAt A m st (R.update st b) = .error e →
      SharedRun A R out m (pre ++ ⟨some (st, b), todo⟩ :: post) (.error e)

/-- The states a thread visits: it gets some of the leaves of the split range, one after another
(interop/tbb.hpp:51, 76). -/
def threadStates (A : Arith) (leaves : List Range) : Option (List State) :=
  seqAll (leaves.map fun r => r.forEach A)

/-- `tbb_reduce(t, f_neut, f_acc, f_join, out_struct, out_ptr)` (interop/tbb.hpp:43-84): how it can end,
with `m` in the memory at `out_ptr` before the call. `tbb::parallel_for` splits the range in some way
(`tree`) and distributes the leaves among threads in some way (`threads`); it does nothing for an empty
range. If the signature of the output
accepts the top dimension of the traverser, the output is shared; otherwise each thread that gets a leaf
has a private copy, and the copies are joined at the end. (Which threads have a copy, and in which order
the copies are joined, is up to `tbb::combinable`.) -/
inductive TbbReduce {α : Type} (A : Arith) (t : Traverser) (R : Reducer α) (out : Struct) (m : Mem) :
    Except Fail Mem → Prop
  | shared {r : Range} {tree : SplitTree} {leaves : List Range} {threads : List (List Range)}
      {xss : List (List State)} {res : Except Fail Mem} :
      t.range A = some r → (out.sem A).sig.allAccept r.dim = true → tree.leaves r = some leaves →
      threads.flatten.Perm (leaves.filter fun l => !l.empty) → threads.mapM (threadStates A) = some xss →
      SharedRun A R out m (xss.map fun xs => ⟨none, xs⟩) res → TbbReduce A t R out m res
  | copies {r : Range} {tree : SplitTree} {leaves : List Range} {threads : List (List Range)}
      {xss : List (List State)} {outs : List State} {size : Val} {n : Nat} {fresh : List Mem} :
      t.range A = some r → (out.sem A).sig.allAccept r.dim = false → tree.leaves r = some leaves →
      threads.flatten.Perm (leaves.filter fun l => !l.empty) → threads.mapM (threadStates A) = some xss →
      (Traverser.mk out []).forEach A [] = some outs →
      (out.sem A).size .empty = some size → size.nat? = some n →
      fresh.length = threads.length → (∀ f ∈ fresh, f.length = n) →
      TbbReduce A t R out m (do
        let cs ← (fresh.zip xss).mapM fun fx => privateCopy A R out outs fx.1 fx.2
        combineEach A R out outs cs m)

end Noarr
