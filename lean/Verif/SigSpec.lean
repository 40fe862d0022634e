import Verif.Struct

/-
What a user can read off a signature: the dimensions on each way through it, from the outermost to the innermost, with
their static lengths, or the fields of the tuples that are passed. And what each view does to such a way. Used for C68.
-/

namespace Noarr

/-- The length in the type that a parameter gives: a constant, or unknown. -/
def constLen : Val → ArgLen
  | .lit n => .static n
  | _ => .dynamic

/-- The product of two lengths as a `std::size_t`, known if both are. -/
def timesLen : ArgLen → ArgLen → ArgLen
  | .static a, .static b => .static (a * b % 2 ^ 64)
  | _, _ => .dynamic

/-- A length without the first `s`, as a `std::size_t`, known if both are. -/
def minusLen : ArgLen → Val → ArgLen
  | .static l, .lit s => .static (((l : Int) - s) % 2 ^ 64).toNat
  | _, _ => .dynamic

/-- The new name of a dimension: the first pair that mentions it decides. -/
def lineName (ps : List (Dim × Dim)) (e : Dim) : Dim :=
  ((ps.find? fun p => p.1 = e).map Prod.snd).getD e

/-- A dimension on the way: an array dimension with its length in the type, or field `i` of a tuple of `n`. -/
inductive Entry
  | arr (l : ArgLen)
  | field (i n : Nat)
deriving DecidableEq

/-- A way through a signature, from the outermost dimension. -/
abbrev Line := List (Dim × Entry)

/-- The ways through a signature. -/
def Sig.lines : Sig → List Line
  | scalar _ => [[]]
  | void => [[]]
  | fn d l r => r.lines.map ((d, .arr l) :: ·)
  | dep d n rs => (List.finRange n).flatMap fun i => (rs i).lines.map ((d, .field i n) :: ·)
  | ill => []

/-- The first entry with one of the dimensions, and what follows it, is rewritten; each of the alternatives gives one
way. -/
def Line.rewrite (ds : List Dim) (G : Entry → Line → List Line) : Line → List Line
  | [] => [[]]
  | (e, x) :: w => if e ∈ ds then G x w else (Line.rewrite ds G w).map ((e, x) :: ·)

/-- The first entry with one of the dimensions is replaced; each of the alternatives gives one way. -/
def Line.edit (ds : List Dim) (F : Entry → List Line) : Line → List Line :=
  Line.rewrite ds fun x w => (F x).map (· ++ w)

/-- Of a tuple, only the fields `f 0 … f (m-1)` are kept, in this order. -/
def pickFields (d : Dim) (m : Nat) (f : Nat → Nat) (i : Nat) : List Line :=
  (List.range m).filterMap fun j => if f j = i then some [(d, .field j m)] else none

/-- An array dimension gets another length in the type. -/
def relen (d : Dim) (g : ArgLen → ArgLen) : Entry → List Line
  | .arr l => [[(d, .arr (g l))]]
  | _ => []

/-- The outer one of the two dimensions is removed, the inner one is replaced; the lengths are multiplied. -/
def Line.mergeTwo (maj min d : Dim) : Line → List Line :=
  Line.rewrite [maj, min] fun
    | .arr lo, w => Line.edit [min, maj] (relen d (timesLen lo)) w
    | _, _ => []

/-- All but the innermost of `n` dimensions among `ds` are removed, the innermost is replaced; the lengths are
multiplied. -/
def Line.mergeAll (ds : List Dim) (d : Dim) : Nat → ArgLen → Line → List Line
  | _, _, [] => [[]]
  | n, acc, (e, x) :: w =>
    if e ∈ ds then
      match x with
      | .arr l =>
        if n ≤ 1 then [(d, .arr (timesLen acc l)) :: w]
        else Line.mergeAll ds d (n - 1) (timesLen acc l) w
      | _ => []
    else (Line.mergeAll ds d n acc w).map ((e, x) :: ·)

/-- What the views (other than `reorder`) do to a way through the signature. -/
def View.edit : View → Line → List Line
  | .bcast d, w => [(d, .arr .dynamic) :: w]
  | .fix d i, w => Line.edit [d] (fun
      | .arr _ => [[]]
      | .field j _ => if i = .lit j then [[]] else []) w
  | .setLength d l, w => Line.edit [d] (relen d fun _ => constLen l) w
  | .shift d a, w => Line.edit [d] (fun
      | .arr l => [[(d, .arr (minusLen l a))]]
      | .field i n => match a with
        | .lit a => pickFields d (n - a) (· + a) i
        | _ => []) w
  | .slice d a l, w => Line.edit [d] (fun
      | .arr _ => [[(d, .arr (constLen l))]]
      | .field i _ => match a, l with
        | .lit a, .lit m => pickFields d m (· + a) i
        | _, _ => []) w
  | .span d a e, w => Line.edit [d] (fun
      | .arr _ => [[(d, .arr (constLen e))]]
      | .field i _ => match a, e with
        | .lit a, .lit e => pickFields d (e - a) (· + a) i
        | _, _ => []) w
  | .step d a k, w => Line.edit [d] (fun
      | .arr _ => [[(d, .arr (constLen k))]]
      | .field i n => match a, k with
        | .lit a, .lit k => pickFields d ((n + k - a - 1) / k) (· * k + a) i
        | _, _ => []) w
  | .reverse d, w => Line.edit [d] (fun
      | .arr l => [[(d, .arr l)]]
      | .field i n => pickFields d n (n - 1 - ·) i) w
  | .reorder _, _ => []
  | .hoist d, w => (w.find? fun p => p.1 = d).toList.flatMap fun p => (Line.edit [d] (fun _ => [[]]) w).map (p :: ·)
  | .rename ps, w => [w.map fun p => (lineName ps p.1, p.2)]
  | .join a b d, w => (w.find? fun p => p.1 = a).toList.flatMap fun p =>
      (Line.edit [a, b] (fun _ => [[]]) w).map ((d, p.2) :: ·)
  | .intoBlocks d maj min, w => Line.edit [d] (fun _ => [[(maj, .arr .dynamic), (min, .arr .dynamic)]]) w
  | .intoBlocksDyn d maj min pres, w =>
      Line.edit [d] (fun _ => [[(maj, .arr .dynamic), (min, .arr .dynamic), (pres, .arr .dynamic)]]) w
  | .intoBlocksStat d border maj min k, w => Line.edit [d] (fun
      | .arr (.static l) => match k with
        | .lit k => [[(border, .field 0 2), (maj, .arr (.static (l / k))), (min, .arr (.static k))],
            [(border, .field 1 2), (maj, .arr (.static 1)), (min, .arr (.static (l % k)))]]
        | _ => [[(border, .field 0 2), (maj, .arr .dynamic), (min, .arr .dynamic)],
            [(border, .field 1 2), (maj, .arr (.static 1)), (min, .arr .dynamic)]]
      | _ => [[(border, .field 0 2), (maj, .arr .dynamic), (min, .arr (constLen k))],
          [(border, .field 1 2), (maj, .arr (.static 1)), (min, .arr .dynamic)]]) w
  | .mergeBlocks maj min d, w => Line.mergeTwo maj min d w
  | .mergeZ _ _ ds d, w => Line.mergeAll ds d ds.length (.static 1) w

end Noarr
