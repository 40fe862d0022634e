import Verif.Memory

/-
Serialization of the data (interop/serialize_data.hpp).
-/

namespace Noarr

/-- How values of a scalar type are written to and read from a stream: `out << x` appends the characters
`enc x`; `in >> x` makes of the characters of the stream whether it succeeded, the new value of `x`
(`none`: it is not changed), and the characters left. These operators belong to the standard library (or to the user): they are
parameters here. -/
structure Codec where
  enc : List UInt8 → List Char
  dec : List Char → Bool × Option (List UInt8) × List Char

/-- An input stream: whether it has not failed, and the characters left. -/
structure Stream where
  good : Bool
  chars : List Char

/-- The function that `serialize_data` passes to `for_each` (interop/serialize_data.hpp:22-23): `out << x
<< '\n'`. -/
def writeElem (A : Arith) (s : Struct) (C : State → Codec) (m : Mem) (out : List Char) (st : State) :
    Except Fail (List Char) := do
  let b ← s.getAt A m st
  .ok (out ++ (C st).enc b ++ ['\n'])

/-- `serialize_data(out, s, data)` and `serialize_data(out, bag)` (interop/serialize_data.hpp:20-30): the
characters that are appended to the stream. `C st` is the codec of the type of the element at `st`. -/
def serializeData (A : Arith) (s : Struct) (C : State → Codec) (m : Mem) : Except Fail (List Char) :=
  match (Traverser.mk s []).forEach A [] with
  | none => .error .ill
  | some sts => sts.foldlM (writeElem A s C m) []

/-- The function that `deserialize_data` passes to `for_each` (interop/serialize_data.hpp:11): `in >> x`.
A stream that has failed is left alone, and so is the element. -/
def readElem (A : Arith) (s : Struct) (C : State → Codec) (im : Stream × Mem) (st : State) :
    Except Fail (Stream × Mem) :=
  if im.1.good then
    let r := (C st).dec im.1.chars
    match r.2.1 with
    | some b => do
      let m ← s.setAt A im.2 st b
      .ok (⟨r.1, r.2.2⟩, m)
    | none => .ok (⟨r.1, r.2.2⟩, im.2)
  else .ok im

/-- `deserialize_data(in, s, data)` and `deserialize_data(in, bag)` (interop/serialize_data.hpp:9-18): the
stream and the data afterwards. -/
def deserializeData (A : Arith) (s : Struct) (C : State → Codec) (inp : Stream) (m : Mem) :
    Except Fail (Stream × Mem) :=
  match (Traverser.mk s []).forEach A [] with
  | none => .error .ill
  | some sts => sts.foldlM (readElem A s C) (inp, m)

/-! ### Three codecs -/

/-- the characters skipped by `>>` -/
def isSpace (c : Char) : Bool := c == ' ' || c == '\n' || c == '\t' || c == '\r' || c == '\x0b' || c == '\x0c'

/-- the number with the given bytes, from the lowest -/
def ofBytes : List UInt8 → Nat
  | [] => 0
  | b :: bs => b.toNat + 256 * ofBytes bs

/-- the bytes of a number, from the lowest -/
def toBytes : Nat → Nat → List UInt8
  | 0, _ => []
  | e + 1, n => UInt8.ofNat (n % 256) :: toBytes e (n / 256)

/-- decimal digits -/
def digits (n : Nat) : List Char :=
  if n < 10 then [Char.ofNat (48 + n)] else digits (n / 10) ++ [Char.ofNat (48 + n % 10)]

/-- the value of decimal digits -/
def parseDigits (cs : List Char) : Nat := cs.foldl (fun n c => 10 * n + (c.toNat - 48)) 0

/-- Unsigned integers of `e` bytes (little endian), in decimal. Reading a sign is left out. Too large a
number makes the stream fail and gives the largest value; no digits give zero. At the end of the stream
the variable is not changed. -/
def uintCodec (e : Nat) : Codec where
  enc b := digits (ofBytes b)
  dec cs :=
    let cs := cs.dropWhile isSpace
    let ds := cs.takeWhile Char.isDigit
    let n := parseDigits ds
    if cs.isEmpty then (false, none, [])
    else if ds.isEmpty then (false, some (toBytes e 0), cs)
    else if n < 256 ^ e then (true, some (toBytes e n), cs.dropWhile Char.isDigit)
    else (false, some (toBytes e (256 ^ e - 1)), cs.dropWhile Char.isDigit)

/-- an optional sign: whether it is a minus, and the rest -/
def takeSign : List Char → Bool × List Char
  | '-' :: cs => (true, cs)
  | '+' :: cs => (false, cs)
  | cs => (false, cs)

/-- Signed integers of `e` bytes (two's complement, little endian), in decimal. -/
def intCodec (e : Nat) : Codec where
  enc b := let n := ofBytes b
    if n < 256 ^ e / 2 then digits n else '-' :: digits (256 ^ e - n)
  dec cs :=
    let nc := takeSign (cs.dropWhile isSpace)
    let ds := nc.2.takeWhile Char.isDigit
    let n := parseDigits ds
    let rest := nc.2.dropWhile Char.isDigit
    if (cs.dropWhile isSpace).isEmpty then (false, none, [])
    else if ds.isEmpty then (false, some (toBytes e 0), rest)
    else if nc.1 then
      if n ≤ 256 ^ e / 2 then (true, some (toBytes e ((256 ^ e - n) % 256 ^ e)), rest)
      else (false, some (toBytes e (256 ^ e / 2)), rest)
    else
      if n < 256 ^ e / 2 then (true, some (toBytes e n), rest) else (false, some (toBytes e (256 ^ e / 2 - 1)), rest)

/-- `char`, `signed char`, `unsigned char` (not as numbers): the character itself; reading skips white
space. At the end of the stream the variable is not changed. -/
def charCodec : Codec where
  enc b := b.map fun x => Char.ofNat x.toNat
  dec cs := match cs.dropWhile isSpace with
    | [] => (false, none, [])
    | c :: cs => (true, some [UInt8.ofNat c.toNat], cs)

end Noarr
