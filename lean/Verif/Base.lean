/-
Values and arithmetic.

Models: base/utility.hpp:481-551 (`constexpr_arithmetic`)
and the built-in arithmetic of `std::size_t`.
-/

namespace Noarr

/-- A dimension name (`char` or `dim<...>` in the code, base/utility.hpp:13-38).
Only equality of names is ever used. -/
abbrev Dim := Nat

/-- Why a number is not the mathematically expected one. -/
inductive Fault
  /-- an unsigned operation left the range of the type -/
  | wrap
  /-- undefined behaviour (division by zero, oversized shift) -/
  | ub
deriving DecidableEq, Repr

/-- The arithmetic used to evaluate expressions. The code always uses `size_t`
arithmetic (`machine (2^64)`); the other instances are used to say when that
arithmetic is exact. -/
structure Arith where
  add : Nat → Nat → Except Fault Nat
  sub : Nat → Nat → Except Fault Nat
  mul : Nat → Nat → Except Fault Nat
  div : Nat → Nat → Except Fault Nat
  mod : Nat → Nat → Except Fault Nat

/-- Unbounded natural numbers; a negative difference and a division by zero are faults. -/
def Arith.ideal : Arith where
  add a b := .ok (a + b)
  sub a b := if b ≤ a then .ok (a - b) else .error .wrap
  mul a b := .ok (a * b)
  div a b := if b = 0 then .error .ub else .ok (a / b)
  mod a b := if b = 0 then .error .ub else .ok (a % b)

/-- As `ideal`, but a result not below `W` is a fault as well. -/
def Arith.checked (W : Nat) : Arith where
  add a b := if a + b < W then .ok (a + b) else .error .wrap
  sub a b := if b ≤ a then .ok (a - b) else .error .wrap
  mul a b := if a * b < W then .ok (a * b) else .error .wrap
  div a b := if b = 0 then .error .ub else .ok (a / b)
  mod a b := if b = 0 then .error .ub else .ok (a % b)

/-- Unsigned arithmetic modulo `W`, as done by `size_t` with `W = 2^64`;
only a division by zero is undefined. -/
def Arith.machine (W : Nat) : Arith where
  add a b := .ok ((a + b) % W)
  sub a b := .ok ((a + (W - b % W)) % W)
  mul a b := .ok ((a * b) % W)
  div a b := if b = 0 then .error .ub else .ok (a / b)
  mod a b := if b = 0 then .error .ub else .ok (a % b)

/-- A state value, length, size or offset: `std::integral_constant<size_t, n>` (`lit n`),
a run-time `size_t` (`dyn n`), or the useless result of a faulty computation. -/
inductive Val
  | lit (n : Nat)
  | dyn (n : Nat)
  | bad (f : Fault)
deriving DecidableEq, Repr

namespace Val

/-- The number a value stands for, if it is not the result of a fault. -/
def nat? : Val → Option Nat
  | lit n => some n
  | dyn n => some n
  | bad _ => none

/-- the result of a run-time operation -/
def ofDyn : Except Fault Nat → Val
  | .ok n => dyn n
  | .error f => bad f

/-- the result of an operation on constants -/
def ofLit : Except Fault Nat → Val
  | .ok n => lit n
  | .error f => bad f

variable (A : Arith)

/-- `operator+`, base/utility.hpp:486-499 (two constants give a constant, otherwise `size_t`). -/
def add : Val → Val → Val
  | bad f, _ => bad f
  | _, bad f => bad f
  | lit a, lit b => ofLit (A.add a b)
  | lit a, dyn b => ofDyn (A.add a b)
  | dyn a, lit b => ofDyn (A.add a b)
  | dyn a, dyn b => ofDyn (A.add a b)

/-- `operator-`, base/utility.hpp:501-514. -/
def sub : Val → Val → Val
  | bad f, _ => bad f
  | _, bad f => bad f
  | lit a, lit b => ofLit (A.sub a b)
  | lit a, dyn b => ofDyn (A.sub a b)
  | dyn a, lit b => ofDyn (A.sub a b)
  | dyn a, dyn b => ofDyn (A.sub a b)

/-- `operator*`, base/utility.hpp:516-529: a constant zero factor gives the constant zero. -/
def mul : Val → Val → Val
  | bad f, _ => bad f
  | _, bad f => bad f
  | lit a, lit b => ofLit (A.mul a b)
  | lit a, dyn b => if a = 0 then lit 0 else ofDyn (A.mul a b)
  | dyn a, lit b => if b = 0 then lit 0 else ofDyn (A.mul a b)
  | dyn a, dyn b => ofDyn (A.mul a b)

/-- `operator/`, base/utility.hpp:531-539: the constant zero divided by a run-time value is the
constant zero, without dividing. -/
def div : Val → Val → Val
  | bad f, _ => bad f
  | _, bad f => bad f
  | lit a, lit b => ofLit (A.div a b)
  | lit a, dyn b => if a = 0 then lit 0 else ofDyn (A.div a b)
  | dyn a, lit b => ofDyn (A.div a b)
  | dyn a, dyn b => ofDyn (A.div a b)

/-- `operator%`, base/utility.hpp:541-549. -/
def mod : Val → Val → Val
  | bad f, _ => bad f
  | _, bad f => bad f
  | lit a, lit b => ofLit (A.mod a b)
  | lit a, dyn b => if a = 0 then lit 0 else ofDyn (A.mod a b)
  | dyn a, lit b => ofDyn (A.mod a b)
  | dyn a, dyn b => ofDyn (A.mod a b)

/-- `std::size_t(a < b)`, structs/blocks.hpp:425, 432, 440 -/
def ltVal : Val → Val → Val
  | bad f, _ => bad f
  | _, bad f => bad f
  | lit a, lit b => dyn (if a < b then 1 else 0)
  | lit a, dyn b => dyn (if a < b then 1 else 0)
  | dyn a, lit b => dyn (if a < b then 1 else 0)
  | dyn a, dyn b => dyn (if a < b then 1 else 0)

/-- the value converted to `size_t` (`const std::size_t x = v;`) -/
def toDyn : Val → Val
  | lit n => dyn n
  | dyn n => dyn n
  | bad f => bad f

end Val

/-- State tags: `index_in<d>` and `length_in<d>` (base/state.hpp:25-53). -/
inductive Tag
  | idx (d : Dim)
  | len (d : Dim)
deriving DecidableEq, Repr

end Noarr
