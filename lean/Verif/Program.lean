import Verif.Memory

/-
Programs that work with bags: whatever a C++ function can do with the elements and the lengths of some bags.
-/

namespace Noarr

/-- A program with a result of type `α` that works with bags, which are numbered. A program either is done, or reads
an element `bag[state]`, assigns to it, or asks for `bag.length<Dim>(state)` (interop/bag.hpp:181-185, 207-217); how it
goes on may depend on what it has read. `bag.at<Dims...>(indices...)` (interop/bag.hpp:169-174) is `bag[state]` with the
state of these indices. Everything else that the program computes is done by Lean functions. -/
inductive Prog (α : Type) where
  | done (a : α)
  | get (x : Nat) (st : State) (k : List UInt8 → Prog α)
  | set (x : Nat) (st : State) (v : List UInt8) (k : Prog α)
  | length (x : Nat) (d : Dim) (st : State) (k : Nat → Prog α)

/-- the bags of a program -/
abbrev Bags := Nat → Bag

def Bags.put (B : Bags) (x : Nat) (b : Bag) : Bags := fun y => if y = x then b else B y

/-- `bag.length<Dim>(state)`, converted to `std::size_t` (interop/bag.hpp:207-217) -/
def Bag.lengthAt (A : Arith) (b : Bag) (d : Dim) (st : State) : Except Fail Nat :=
  match (b.structure_.sem A).len d st with
  | some v => match v.nat? with
    | some n => .ok n
    | none => .error .ub
  | none => .error .ill

namespace Prog

/-- Running a program: its result, and the bags afterwards. -/
def run {α : Type} (A : Arith) : Prog α → Bags → Except Fail (α × Bags)
  | done a, B => .ok (a, B)
  | get x st k, B => do
    let v ← (B x).get A st
    (k v).run A B
  | set x st v k, B => do
    let b ← (B x).set A st v
    k.run A (B.put x b)
  | length x d st k, B => do
    let n ← (B x).lengthAt A d st
    (k n).run A B

/-- one program after another -/
def bind {α β : Type} : Prog α → (α → Prog β) → Prog β
  | done a, f => f a
  | get x st k, f => get x st fun v => (k v).bind f
  | set x st v k, f => set x st v (k.bind f)
  | length x d st k, f => length x d st fun n => (k n).bind f

/-- The program that calls `body` with each of the states, one after another: `traverser.for_each(body)`, if these are
the states that the traverser visits (extra/traverser.hpp:198-202). -/
def each (body : State → Prog Unit) : List State → Prog Unit
  | [] => done ()
  | st :: sts => (body st).bind fun _ => each body sts

end Prog

/-- `traverser.for_each(body)` (extra/traverser.hpp:198-202) as a part of a program. `none`: it does not compile. -/
def Traverser.forEachProg (A : Arith) (t : Traverser) (body : State → Prog Unit) : Option (Prog Unit) :=
  (t.forEach A []).map (Prog.each body)

end Noarr
