import Verif.Program

/-
Programs that run at the same time on the same bags: the functions that tbb::parallel_for, OpenMP or std::execution::par
call (interop/tbb.hpp, interop/omp.hpp, interop/std_para.hpp).
-/

namespace Noarr

/-- An access to the memory of a bag. -/
structure Access where
  bag : Nat
  start : Nat
  bytes : Nat
  write : Bool

/-- Accesses by different threads that are a data race: a byte is common to both, and at least one of them writes it
(ISO C++, [intro.races]). -/
def Access.conflicts (a b : Access) : Prop :=
  a.bag = b.bag ∧ (a.write = true ∨ b.write = true) ∧
    ∃ i, (a.start ≤ i ∧ i < a.start + a.bytes) ∧ (b.start ≤ i ∧ i < b.start + b.bytes)

/-- The next operation of a program: how the program goes on, the bags afterwards, and the access to memory if it is one. -/
def Prog.step {α : Type} (A : Arith) : Prog α → Bags → Except Fail (Prog α × Bags × Option Access)
  | .done a, B => .ok (.done a, B, none)
  | .get x st k, B => do
    let v ← (B x).get A st
    let p ← (B x).structure_.place A st
    .ok (k v, B, some ⟨x, p.1, p.2, false⟩)
  | .set x st v k, B => do
    let b ← (B x).set A st v
    let p ← (B x).structure_.place A st
    .ok (k, B.put x b, some ⟨x, p.1, p.2, true⟩)
  | .length x d st k, B => do
    let n ← (B x).lengthAt A d st
    .ok (k n, B, none)

def Prog.isDone {α : Type} : Prog α → Bool
  | .done _ => true
  | _ => false

/-- Threads that start at the same time with the programs `ps`, and do not wait for each other. Every operation is one
step, and the next one can be of any thread that is not done. `log` lists the operations up to now, with the numbers of
the threads. -/
inductive Execution (A : Arith) (ps : List (Prog Unit)) (B : Bags) :
    List (Nat × Option Access) → List (Prog Unit) → Bags → Prop
  | start : Execution A ps B [] ps B
  | step {log qs C i p q C' a} : Execution A ps B log qs C → qs[i]? = some p → p.isDone = false →
      p.step A C = .ok (q, C', a) → Execution A ps B (log ++ [(i, a)]) (qs.set i q) C'

/-- The same programs one after another. -/
def Prog.inOrder : List (Prog Unit) → Prog Unit
  | [] => .done ()
  | p :: ps => p.bind fun _ => inOrder ps

end Noarr
