import Verif.Memory

/-
The example programs that work with matrices in bags (examples/matrix/noarr_matrix_functions.hpp,
examples/matrix/matrix.cpp). They use a structure through `make_bag`, `length` and `at` only, and are meant to
work with every layout.

An `int` is a value of a type `R` with an addition, a multiplication and a zero, and a representation in
bytes. (Signed overflow is undefined behaviour in C++; here `R` is whatever the operations do.) A failed
`assert` counts as undefined behaviour.
-/

namespace Noarr

/-- The elements: a type of values, how many bytes a value has, and the bytes of a value. -/
structure ElemType (R : Type) where
  size : Nat
  enc : R → List UInt8
  dec : List UInt8 → R
  enc_length : ∀ x, (enc x).length = size
  dec_enc : ∀ x, dec (enc x) = x

/-- `for (std::size_t i = lo; i < hi; i++) body` -/
def forRange {σ : Type} (lo hi : Nat) (body : Nat → σ → Except Fail σ) (x : σ) : Except Fail σ :=
  (List.range' lo (hi - lo)).foldlM (fun x i => body i x) x

/-- `bag.length<Dim>()`, converted to `std::size_t` (interop/bag.hpp:207-217) -/
def Bag.length (A : Arith) (b : Bag) (d : Dim) : Except Fail Nat :=
  match (b.structure_.sem A).len d .empty with
  | some v => match v.nat? with
    | some n => .ok n
    | none => .error .ub
  | none => .error .ill

/-- the state of `bag.at<'n', 'm'>(i, j)` (interop/bag.hpp:169-174) -/
def atNM (n m : Dim) (i j : Nat) : State := State.empty.withAll [(n, .dyn i), (m, .dyn j)]

/-- `assert(c)` -/
def assertThat (c : Bool) : Except Fail Unit := if c then .ok () else .error .ub

section
variable {R : Type} [Add R] [Mul R] [Zero R] (A : Arith) (E : ElemType R) (n m : Dim)

/-- the value of `bag.at<'n', 'm'>(i, j)` -/
def Bag.value (b : Bag) (i j : Nat) : Except Fail R := do .ok (E.dec (← b.get A (atNM n m i j)))

/-- `bag.at<'n', 'm'>(i, j) = x` -/
def Bag.assign (b : Bag) (i j : Nat) (x : R) : Except Fail Bag := b.set A (atNM n m i j) (E.enc x)

/-- `noarr_matrix_multiply` (examples/matrix/noarr_matrix_functions.hpp:19-48) -/
def noarrMultiply (matrix1 matrix2 : Bag) (s : Struct) : Except Fail Bag := do
  let result ← makeBag A s
  let x1 ← matrix1.length A n
  let y1 ← matrix1.length A m
  let x2 ← matrix2.length A n
  let y2 ← matrix2.length A m
  assertThat (x1 == y2)
  forRange 0 x2 (fun i result =>
    forRange 0 y1 (fun j result => do
      let sum ← forRange 0 x1 (fun k sum => do
        let value1 ← matrix1.value A E n m k j
        let value2 ← matrix2.value A E n m i k
        .ok (sum + value1 * value2)) 0
      result.assign A E n m i j sum) result) result

/-- `noarr_matrix_copy` (examples/matrix/noarr_matrix_functions.hpp:57-67) -/
def noarrCopy (source : Bag) (s : Struct) : Except Fail Bag := do
  let result ← makeBag A s
  let x ← source.length A n
  let y ← source.length A m
  forRange 0 x (fun i result =>
    forRange 0 y (fun j result => do
      result.assign A E n m i j (← source.value A E n m i j)) result) result

/-- `noarr_matrix_transpose` (examples/matrix/noarr_matrix_functions.hpp:74-90): `std::swap` reads both
elements and then writes both (also if they are the same element). -/
def noarrTranspose (matrix : Bag) : Except Fail Bag := do
  let x ← matrix.length A n
  let y ← matrix.length A m
  assertThat (x == y)
  forRange 0 x (fun i matrix =>
    forRange i y (fun j matrix => do
      let value1 ← matrix.value A E n m i j
      let value2 ← matrix.value A E n m j i
      let matrix ← matrix.assign A E n m i j value2
      matrix.assign A E n m j i value1) matrix) matrix

/-- `noarr_matrix_scalar_multiplication` (examples/matrix/noarr_matrix_functions.hpp:98-107) -/
def noarrScale (matrix : Bag) (scalar : R) : Except Fail Bag := do
  let x ← matrix.length A n
  let y ← matrix.length A m
  forRange 0 x (fun i matrix =>
    forRange 0 y (fun j matrix => do
      matrix.assign A E n m i j ((← matrix.value A E n m i j) * scalar)) matrix) matrix

/-- `classic_matrix` (examples/matrix/matrix.cpp:29-65): a matrix in a `std::vector`, by rows -/
structure Classic (R : Type) where
  n : Nat
  m : Nat
  ary : List R

omit [Add R] [Mul R] [Zero R] in
/-- reading `matrix.at(i, j)` (examples/matrix/matrix.cpp:46-47); outside of the vector it is undefined -/
def Classic.value (c : Classic R) (i j : Nat) : Except Fail R :=
  match c.ary[i + j * c.n]? with
  | some x => .ok x
  | none => .error .ub

omit [Add R] [Mul R] [Zero R] in
/-- assigning to `matrix.at(i, j)` (examples/matrix/matrix.cpp:46-47) -/
def Classic.assign (c : Classic R) (i j : Nat) (x : R) : Except Fail (Classic R) :=
  if i + j * c.n < c.ary.length then .ok { c with ary := c.ary.set (i + j * c.n) x } else .error .ub

/-- `clasic_matrix_multiply` (examples/matrix/matrix.cpp:168-189). `fresh` are the random numbers that
`get_clasic_matrix` (lines 74-86) puts into the new matrix. -/
def classicMultiply (matrix1 matrix2 : Classic R) (fresh : Nat → R) : Except Fail (Classic R) := do
  assertThat (matrix1.n == matrix2.m)
  let result : Classic R := ⟨matrix2.n, matrix1.m, (List.range (matrix2.n * matrix1.m)).map fresh⟩
  forRange 0 matrix2.n (fun i result =>
    forRange 0 matrix1.m (fun j result => do
      let sum ← forRange 0 matrix1.n (fun k sum => do
        let value1 ← matrix1.value k j
        let value2 ← matrix2.value i k
        .ok (sum + value1 * value2)) 0
      result.assign i j sum) result) result

/-- `noarr_matrix_to_clasic` (examples/matrix/matrix.cpp:122-138) -/
def noarrToClassic (source : Bag) (fresh : Nat → R) : Except Fail (Classic R) := do
  let x ← source.length A n
  let y ← source.length A m
  let target : Classic R := ⟨x, y, (List.range (x * y)).map fresh⟩
  forRange 0 x (fun i target =>
    forRange 0 y (fun j target => do
      target.assign i j (← source.value A E n m i j)) target) target

/-- `clasic_matrix_to_noarr` (examples/matrix/matrix.cpp:147-159) -/
def classicToNoarr (source : Classic R) (s : Struct) : Except Fail Bag := do
  let target ← makeBag A s
  forRange 0 source.n (fun i target =>
    forRange 0 source.m (fun j target => do
      target.assign A E n m i j (← source.value i j)) target) target

/-- `are_equal_classic_matrices` (examples/matrix/matrix.cpp:95-113): after the first difference nothing more is read -/
def classicEqual [DecidableEq R] (m1 m2 : Classic R) : Except Fail Bool :=
  if m1.n ≠ m2.n then .ok false
  else if m1.m ≠ m2.m then .ok false
  else forRange 0 (m1.n * m1.m) (fun i eq =>
    if !eq then .ok false else
    match m1.ary[i]?, m2.ary[i]? with
    | some x, some y => .ok (x == y)
    | _, _ => .error .ub) true

/-- `matrix_demo` (examples/matrix/matrix.cpp:197-225) without the printing: the two matrices, which are
random in the code, are arguments. The result is the condition that is asserted at the end. -/
def matrixDemo [DecidableEq R] (s : Struct) (classic1 classic2 : Classic R) (fresh fresh' : Nat → R) :
    Except Fail Bool := do
  let noarr1 ← classicToNoarr A E n m classic1 s
  let noarr2 ← classicToNoarr A E n m classic2 s
  let classicResult ← classicMultiply classic1 classic2 fresh
  let noarrResult ← noarrMultiply A E n m noarr1 noarr2 s
  let classicNoarrResult ← noarrToClassic A E n m noarrResult fresh'
  classicEqual classicResult classicNoarrResult

end

/-- `matrix_rows() ^ set_length<'n'>(x) ^ set_length<'m'>(y)` (examples/matrix/matrix.cpp:21, 269) -/
def matrixRows (n m : Dim) (x y : Nat) : Struct :=
  (Struct.vector m (.vector n (.scalar 4 4))).apply [.setLength n (.dyn x), .setLength m (.dyn y)]

/-- `matrix_columns() ^ set_length<'n'>(x) ^ set_length<'m'>(y)` (examples/matrix/matrix.cpp:22, 271) -/
def matrixColumns (n m : Dim) (x y : Nat) : Struct :=
  (Struct.vector n (.vector m (.scalar 4 4))).apply [.setLength n (.dyn x), .setLength m (.dyn y)]

end Noarr
