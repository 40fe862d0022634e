import Verif.Struct
import Verif.Memory

/-
Textual names of structures (extra/mangle.hpp).
-/

namespace Noarr

/-- `static_cast<char>(V % 10) + '0'` (extra/mangle.hpp:58, 63). -/
def digitChar (n : Nat) : Char := Char.ofNat (n % 10 + '0'.toNat)

/-- `mangle_integral<T, V, Acc>` for a value that is not negative (extra/mangle.hpp:52-64). -/
def mangleNat (v : Nat) (acc : List Char) : List Char :=
  if h : v ≥ 10 then mangleNat (v / 10) (digitChar v :: acc) else digitChar v :: acc
termination_by v
decreasing_by omega

/-- `mangle_value<T, V>` (extra/mangle.hpp:46-68): there is no specialization for negative values. -/
def mangleValue : Int → Option (List Char)
  | .ofNat v => some (mangleNat v [])
  | .negSucc _ => none

/-- The loop of `append_int` (extra/mangle.hpp:171-178): the digits are written in front of `done`, which has
`sz` characters, into a buffer with `room` bytes left; writing in front of the buffer is undefined. -/
def appendLoop (u : Nat) (room : Nat) (done : List Char) : Except Fail (Nat × List Char) :=
  match room with
  | 0 => .error .ub
  | room + 1 => if u / 10 = 0 then .ok (room, digitChar u :: done) else appendLoop (u / 10) room (digitChar u :: done)

/-- `append_int(out, neg, u)` (extra/mangle.hpp:169-183), for an unsigned type of `bytes` bytes: what is
appended. The number of characters is that of the digits: the sign is not counted. -/
def appendInt (bytes : Nat) (neg : Bool) (u : Nat) : Except Fail (List Char) := do
  let r ← appendLoop u (bytes * 3 + 1) []
  let sz := r.2.length
  if neg then
    match r.1 with
    | 0 => .error .ub
    | _ + 1 => .ok (('-' :: r.2).take sz)
  else .ok (r.2.take sz)

/-- The value of a signed integer as it is given to `append_int` (extra/mangle.hpp:201-209): the sign and the
absolute value. (The minimum is converted to the unsigned type, which yields its absolute value.) -/
def appendSigned (bytes : Nat) (t : Int) : Except Fail (List Char) := appendInt bytes (decide (t < 0)) t.natAbs

mutual
/-- A parameter of a structure template, as `mangle_param` sees it (extra/mangle.hpp:122-149):
a structure (with its name and parameters), a type, a value (of a type), a dimension; the types that are
described by a number, `std::integral_constant<size_t, L>` and `lit_t<L>` (extra/mangle.hpp:107-120), are
kept apart. -/
inductive Desc
  | node (name : List Char) (ps : Descs)
  | type (name : List Char)
  | constant (sizeType : List Char) (n : Nat)
  | lit (n : Nat)
  | value (type : List Char) (n : Nat)
  | dim (c : Char)
/-- The parameters of a structure template (`struct_params<...>`, base/structs_common.hpp). -/
inductive Descs
  | nil
  | cons (p : Desc) (ps : Descs)
end

/-- `std::integral_constant<` (extra/mangle.hpp:110-111). -/
def constantName : List Char := "std::integral_constant".toList

mutual
/-- `mangle`, `mangle_param`, `scalar_name`, `mangle_desc` (extra/mangle.hpp:32-39, 70-157). Names of types
are parameters of the model. (The number in a type is mangled as an `int`, so that numbers that do not fit
do not compile; this is left out.) -/
def Desc.text : Desc → List Char
  | .node name ps => name ++ '<' :: (ps.text ++ ['>'])
  | .type name => name
  | .constant st n => constantName ++ '<' :: (st ++ ',' :: (mangleNat n [] ++ ['>']))
  | .lit n => "lit_t".toList ++ '<' :: (mangleNat n [] ++ ['>'])
  | .value type n => '(' :: (type ++ ')' :: mangleNat n [])
  | .dim c => ['\'', c, '\'']
/-- `integer_sequence_concat_sep` with a comma (extra/mangle.hpp:155, base/utility.hpp:143-163): a separator
goes between texts that are not empty. -/
def Descs.text : Descs → List Char
  | .nil => []
  | .cons p .nil => p.text
  | .cons p (.cons q ps) => p.text ++ ',' :: (Descs.cons q ps).text
end

mutual
/-- What `mangle_expr` is given (extra/mangle.hpp:185-218): a structure, with what it contains
(`flexible_contain`), an integer, or an integral constant. -/
inductive Expr
  | node (type : Desc) (items : Exprs)
  | num (type : List Char) (n : Nat)
  | lit (n : Nat)
inductive Exprs
  | nil
  | cons (e : Expr) (es : Exprs)
end

mutual
/-- `append` (extra/mangle.hpp:185-218) for unsigned integers of `bytes` bytes. -/
def Expr.text (bytes : Nat) : Expr → Except Fail (List Char)
  | .node d es => do
    let t ← es.text bytes
    .ok (d.text ++ '{' :: (t ++ ['}']))
  | .num type n => do
    let t ← appendInt bytes false n
    .ok (type ++ '{' :: (t ++ ['}']))
  | .lit n => do
    let t ← appendInt bytes false n
    .ok ("lit<".toList ++ (t ++ ">".toList))
/-- `append_items` (extra/mangle.hpp:164-167). -/
def Exprs.text (bytes : Nat) : Exprs → Except Fail (List Char)
  | .nil => .ok []
  | .cons e es => do
    let t ← e.text bytes
    let t' ← es.text bytes
    .ok (t ++ ',' :: t')
end

end Noarr
