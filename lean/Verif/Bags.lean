import Verif.Memory
import Verif.Proto

/-
Ownership of the data of bags (interop/bag.hpp): programs that make, move, copy, assign, refer to, view, read, write and
destroy bags.
-/

namespace Noarr

/-- Who frees a block of memory: the bags, or the caller that passed a pointer to `make_bag`. -/
inductive Who
  | bags
  | caller
deriving DecidableEq

/-- The memory: blocks with addresses; the addresses of freed blocks are not used again. -/
structure Heap where
  next : Nat
  cell : Nat → Option (Who × Mem)

/-- `bag_t::data_t`, by the policy (interop/bag.hpp:21-103): `std::unique_ptr<char[]>`, `std::vector<char>`, `void *`,
`const void *`, `std::nullptr_t`. A pointer is null or points to the start of a block. Simplification: a vector that was
not moved from has a block also if its size is 0; of the containers, only `std::vector`. -/
inductive Handle
  | own (p : Option Nat)
  | vec (p : Option Nat)
  | ptr (p : Option Nat)
  | cptr (p : Option Nat)
  | null

/-- `bag_t` (interop/bag.hpp:113-119). -/
structure BagObj where
  structure_ : Struct
  data : Handle

/-- The memory and the bags that are alive, by the names of their variables. -/
structure World where
  heap : Heap
  vars : Nat → Option BagObj

/-- No bags and no memory. -/
def World.init : World := ⟨⟨0, fun _ => none⟩, fun _ => none⟩

def World.setVar (w : World) (x : Nat) (o : Option BagObj) : World :=
  { w with vars := fun y => if y = x then o else w.vars y }

def World.setCell (w : World) (p : Nat) (c : Option (Who × Mem)) : World :=
  { w with heap := { w.heap with cell := fun q => if q = p then c else w.heap.cell q } }

/-- `new char[n]()`: a new block. It succeeds. -/
def World.alloc (w : World) (who : Who) (m : Mem) : World :=
  { w with heap := ⟨w.heap.next + 1, fun p => if p = w.heap.next then some (who, m) else w.heap.cell p⟩ }

/-- `delete[]`: undefined unless it is a block that is not freed yet, and freed by the one who allocated it. -/
def World.free (w : World) (who : Who) (p : Nat) : Except Fail World :=
  match w.heap.cell p with
  | some (who', _) =>
    if who' = who then .ok (w.setCell p none) else .error .ub
  | none => .error .ub

/-- The block that the destructor of the data frees. -/
def Handle.owned : Handle → Option Nat
  | own p => p
  | vec p => p
  | _ => none

/-- The destructor of the data. -/
def World.release (w : World) (h : Handle) : Except Fail World :=
  match h.owned with
  | some p => w.free .bags p
  | none => .ok w

/-- What remains in a bag that was moved from (interop/bag.hpp:135): the move constructors of the standard library. -/
def Handle.moved : Handle → Handle
  | own _ => .own none
  | vec _ => .vec none
  | h => h

/-- `std::is_trivially_copy_constructible_v<data_t>`, `std::is_trivially_copy_assignable_v<data_t>`. -/
def Handle.copyable : Handle → Bool
  | own _ => false
  | vec _ => false
  | _ => true

/-- The policies are equal. -/
def Handle.alike : Handle → Handle → Bool
  | own _, own _ => true
  | vec _, vec _ => true
  | ptr _, ptr _ => true
  | cptr _, cptr _ => true
  | null, null => true
  | _, _ => false

/-- The data of `get_ref()` (interop/bag.hpp:370-373): `make_bag(structure(), data())`, where `data()` (158-161) is
`void *` for `unique_ptr` (63-66) and raw pointers (73-77), `const char *` for a vector, which is `const` here (36-39),
`const void *` (84-87), or `nullptr` (99-102). -/
def Handle.ref : Handle → Handle
  | own p => .ptr p
  | vec p => .cptr p
  | ptr p => .ptr p
  | cptr p => .cptr p
  | null => .null

/-- The pointer of `data()`, if it is one to `char` or `void` (so that `get_at(data(), state)` compiles). -/
def Handle.addr : Handle → Option (Option Nat)
  | own p => some p
  | vec p => some p
  | ptr p => some p
  | cptr p => some p
  | null => none

/-- The pointer of `data()`, if it is not `const`. -/
def Handle.addrMut : Handle → Option (Option Nat)
  | own p => some p
  | ptr p => some p
  | _ => none

/-- The operations of a program on bags. `x` and `y` are variables; `y` is the new one (or the one assigned to). -/
inductive BagOp
  /-- `auto y = make_bag(s);` or `auto y = make_vector_bag(s);` -/
  | make (vector : Bool) (s : Struct) (y : Nat)
  /-- `auto y = bag(s, std::move(v));`: the memory of a `unique_ptr` or vector of the caller goes to the bag. -/
  | adopt (vector : Bool) (s : Struct) (p : Nat) (y : Nat)
  /-- `auto y = make_bag(s, p);` with a pointer to a block of the caller, `void *` or `const void *`. -/
  | observe (const : Bool) (s : Struct) (p : Nat) (y : Nat)
  /-- `auto y = make_bag(s, nullptr);` -/
  | makeNull (s : Struct) (y : Nat)
  /-- `auto y = std::move(x);` -/
  | move (x y : Nat)
  /-- `auto y = x;` -/
  | copy (x y : Nat)
  /-- `y = std::move(x);` -/
  | moveAssign (x y : Nat)
  /-- `y = x;` -/
  | copyAssign (x y : Nat)
  /-- `auto y = x.get_ref();` -/
  | ref (x y : Nat)
  /-- `auto y = x ^ p;` -/
  | view (x : Nat) (p : Proto) (y : Nat)
  /-- `auto y = std::move(x) ^ p;` -/
  | viewMove (x : Nat) (p : Proto) (y : Nat)
  /-- The end of the lifetime of `x`. -/
  | destroy (x : Nat)
  /-- `x[st]`, read. -/
  | read (x : Nat) (st : State)
  /-- `x[st] = b;` -/
  | write (x : Nat) (st : State) (b : List UInt8)
  /-- The caller allocates a block. -/
  | malloc (m : Mem)
  /-- The caller frees a block. -/
  | mfree (p : Nat)

/-- Reading `x[st]` (interop/bag.hpp:181-185, extra/funcs.hpp:117-152). It is undefined for a null pointer, and for a
pointer to a block that was freed. -/
def World.read (A : Arith) (w : World) (x : Nat) (st : State) : Except Fail (List UInt8) :=
  match w.vars x with
  | none => .error .ill
  | some o => match o.data.addr with
    | none => .error .ill
    | some a => match o.structure_.place A st with
      | .error e => .error e
      | .ok _ => match a.bind w.heap.cell with
        | none => .error .ub
        | some (_, m) => o.structure_.getAt A m st

/-- Assigning to `x[st]`. -/
def World.write (A : Arith) (w : World) (x : Nat) (st : State) (b : List UInt8) : Except Fail World :=
  match w.vars x with
  | none => .error .ill
  | some o => match o.data.addrMut with
    | none => .error .ill
    | some a => match o.structure_.place A st with
      | .error e => .error e
      | .ok _ => match a with
        | none => .error .ub
        | some p => match w.heap.cell p with
          | none => .error .ub
          | some (who, m) => match o.structure_.setAt A m st b with
            | .error e => .error e
            | .ok m' => .ok (w.setCell p (some (who, m')))

/-- The number of bytes of a new bag: `s | get_size()` (interop/bag.hpp:121). -/
def bytesOf (A : Arith) (s : Struct) : Except Fail Nat :=
  match (s.sem A).size .empty with
  | none => .error .ill
  | some v => match v.nat? with
    | some n => .ok n
    | none => .error .ub

/-- Declares the variable `y`, whose name is not in use. -/
def World.declare (w : World) (y : Nat) (o : BagObj) : Except Fail World :=
  match w.vars y with
  | none => .ok (w.setVar y (some o))
  | some _ => .error .ill

/-- One operation. Simplification: assignment does not ask whether the structures have the same type. -/
def World.step (A : Arith) (w : World) : BagOp → Except Fail World
  -- interop/bag.hpp:121, 310-335; 26-29, 58-61: the bytes are zero
  | .make v s y => do
    let n ← bytesOf A s
    let h := if v then Handle.vec (some w.heap.next) else .own (some w.heap.next)
    (w.alloc .bags (List.replicate n 0)).declare y ⟨s, h⟩
  -- interop/bag.hpp:123, 270-274
  | .adopt v s p y => match w.heap.cell p with
    | some (.caller, m) =>
      (w.setCell p (some (.bags, m))).declare y ⟨s, if v then .vec (some p) else .own (some p)⟩
    | _ => .error .ub
  -- interop/bag.hpp:125, 343-357
  | .observe c s p y => w.declare y ⟨s, if c then .cptr (some p) else .ptr (some p)⟩
  -- interop/bag.hpp:121, 94-97, 365-368
  | .makeNull s y => do
    let _ ← bytesOf A s
    w.declare y ⟨s, .null⟩
  -- interop/bag.hpp:135
  | .move x y => match w.vars x with
    | none => .error .ill
    | some o => (w.setVar x (some ⟨o.structure_, o.data.moved⟩)).declare y o
  -- interop/bag.hpp:129-134
  | .copy x y => match w.vars x with
    | none => .error .ill
    | some o => if o.data.copyable then w.declare y o else .error .ill
  -- interop/bag.hpp:143: what `y` owned is freed. Assigning a vector to itself leaves it unspecified.
  | .moveAssign x y => match w.vars x, w.vars y with
    | some o, some o' =>
      if !o.data.alike o'.data then .error .ill
      else if x = y then match o.data with
        | .vec _ => .error .ub
        | _ => .ok w
      else do
        let w' ← w.release o'.data
        .ok ((w'.setVar x (some ⟨o.structure_, o.data.moved⟩)).setVar y (some o))
    | _, _ => .error .ill
  -- interop/bag.hpp:137-142
  | .copyAssign x y => match w.vars x, w.vars y with
    | some o, some o' =>
      if o.data.alike o'.data && o.data.copyable then .ok (w.setVar y (some o)) else .error .ill
    | _, _ => .error .ill
  -- interop/bag.hpp:370-373
  | .ref x y => match w.vars x with
    | none => .error .ill
    | some o => match o.data with
      | .null => do
        let _ ← bytesOf A o.structure_
        w.declare y ⟨o.structure_, .null⟩
      | h => w.declare y ⟨o.structure_, h.ref⟩
  -- interop/bag.hpp:251-257
  | .view x p y => match w.vars x with
    | none => .error .ill
    | some o =>
      if p.keepsLayout && o.data.copyable then match p.inst A [o.structure_] with
        | some s => w.declare y ⟨s, o.data⟩
        | none => .error .ill
      else .error .ill
  -- interop/bag.hpp:243-249: `get` of the base is `const` (base/contain.hpp:33-42, 123-128), so `std::move` makes a
  -- `const data_t &&`, the constructor at line 125 is chosen, and the data are copied: it does not compile for
  -- `unique_ptr`, and copies the elements of a vector
  | .viewMove x p y => match w.vars x with
    | none => .error .ill
    | some o =>
      if p.keepsLayout then match p.inst A [o.structure_] with
        | some s => match o.data with
          | .own _ => .error .ill
          | .vec none => (w.alloc .bags []).declare y ⟨s, .vec (some w.heap.next)⟩
          | .vec (some q) => match w.heap.cell q with
            | some (_, m) => (w.alloc .bags m).declare y ⟨s, .vec (some w.heap.next)⟩
            | none => .error .ub
          | h => w.declare y ⟨s, h⟩
        | none => .error .ill
      else .error .ill
  -- interop/bag.hpp:145
  | .destroy x => match w.vars x with
    | none => .error .ill
    | some o => do
      let w' ← w.release o.data
      .ok (w'.setVar x none)
  | .read x st => do
    let _ ← w.read A x st
    .ok w
  | .write x st b => w.write A x st b
  | .malloc m => .ok (w.alloc .caller m)
  | .mfree p => w.free .caller p

/-- A program: the operations one after another. -/
def World.run (A : Arith) (w : World) : List BagOp → Except Fail World
  | [] => .ok w
  | op :: ops => do
    let w' ← w.step A op
    w'.run A ops

end Noarr
