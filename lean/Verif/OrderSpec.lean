import Verif.TraverseSpec
import Verif.SigHard

/-
Notions used in the statements about orders that only permute a traversal (C28, C50).
-/

namespace Noarr

/-- The lengths in a state. -/
abbrev Lens := Dim → Option Val

namespace Lens

def remove (L : Lens) (ds : List Dim) : Lens := fun q => if q ∈ ds then none else L q

def set (L : Lens) (d : Dim) (l : Val) : Lens := fun q => if q = d then some l else L q

end Lens

/-- The lengths in the state handed down by a view, from those in the state given to it. -/
def View.lens (A : Arith) (L : Lens) : View → Lens
  | .bcast d => L.remove [d]
  | .fix d _ => L.remove [d]
  | .setLength d l => L.set d l
  | .shift d a => fun q => if q = d then (L d).map (·.add A a) else L q
  | .rename ps => fun q =>
    if q ∈ ps.map Prod.fst then L (Sig.renameDim ps q) else if q ∈ ps.map Prod.snd then none else L q
  | .intoBlocks d maj min | .intoBlocksDyn d maj min _ =>
    match L maj, L min with
    | some ml, some nl => (L.remove [d, maj, min]).set d (ml.mul A nl)
    | _, _ => L.remove [d, maj, min]
  | .intoBlocksStat d border maj min _ => L.remove [d, border, maj, min]
  | .mergeBlocks maj min d => L.remove [maj, min, d]
  | .mergeZ _ _ ds _ => L.remove ds
  | _ => L

/-- Every length the structure reports in dimension `d`, when the lengths `L` are given, satisfies
`P`. -/
def EveryLength (S : Sem) (L : Lens) (d : Dim) (P : Nat → Prop) : Prop :=
  ∀ st l m, (∀ q, st (.len q) = L q) → S.len d st = some l → l.Num m → P m

/-- The length in dimension `d` is known wherever there is such a dimension, when the lengths `L` are
given. -/
def KnownLength (S : Sem) (L : Lens) (d : Dim) : Prop :=
  ∀ st, (∀ q, st (.len q) = L q) → st (.idx d) = none →
    (∃ l, S.len d st = some l) ∨ (S.hasLen d st = some false ∧ ¬ S.sig.needs st d)

/-- The structure has at least `y` indices in dimension `d` wherever there is such a dimension, when the
lengths `L` are given. -/
def LengthAtLeast (S : Sem) (L : Lens) (d : Dim) (y : Nat) : Prop :=
  ∀ st, (∀ q, st (.len q) = L q) → st (.idx d) = none → S.sig.needs st d →
    ∃ l N, S.len d st = some l ∧ l.Num N ∧ y ≤ N

/-- The signature has an ordinary (not tuple) dimension `q`. -/
def Sig.hasFn (q : Dim) : Sig → Prop
  | .scalar _ => False
  | .void => False
  | .fn d _ r => q = d ∨ r.hasFn q
  | .dep _ _ rs => ∃ i, (rs i).hasFn q
  | .ill => False

/-- No name is both a tuple dimension and an ordinary one. -/
def Struct.unmixed (A : Arith) (s : Struct) : Prop :=
  ∀ q, (s.sem A).sig.hasFn q → ¬ s.hard q

/-- What is required of a view in an order, where `s` is the structure below and `L` are the lengths
given to the view by the views after it:
- `reorder` names all the dimensions;
- `reverse`, `slice`, `span`, `shift`, `step` and the block views apply to ordinary dimensions, and no
  other length depends on a dimension that is reversed;
- slices and spans are inside the structure and steps are not zero;
- the index of `fix` is in range;
- `into_blocks` has a block length, or a number of blocks, that divides the length;
  `into_blocks_dynamic` and `into_blocks_static` have one that need not divide it;
- the two dimensions of `merge_blocks` are always there together and have lengths.
`bcast` is left out as it repeats elements; `join` cannot be traversed; `merge_zcurve` is left out. -/
def View.admits (A : Arith) (s : Struct) (L : Lens) : View → Prop
  | .reorder ds => ((s.sem A).sig.reassemble ds .empty).complete = true
  | .hoist _ => True
  | .rename _ => True
  | .setLength d l => ∀ l', L d = some l' → l' = l
  | .reverse d => ¬ (s.sem A).sig.hasDep d ∧ ¬ s.hard d ∧ ¬ s.drive d
  | .slice d a n => ¬ (s.sem A).sig.hasDep d ∧
      ∃ x m, a.Num x ∧ n.Num m ∧ LengthAtLeast (s.sem A) L d (x + m)
  | .span d a b => ¬ (s.sem A).sig.hasDep d ∧
      ∃ x y, a.Num x ∧ b.Num y ∧ x ≤ y ∧ LengthAtLeast (s.sem A) L d y
  | .shift d a => ¬ (s.sem A).sig.hasDep d ∧ L d = none ∧ ∃ x, a.Num x
  | .step d a k => ¬ (s.sem A).sig.hasDep d ∧ ∃ x y, a.Num x ∧ k.Num y ∧ 0 < y
  | .fix d i => (s.sem A).sig.allAccept d = true ∧
      ∀ u, (∀ q, u (.len q) = L.remove [d] q) → (s.sem A).sig.needs u d → u (.idx d) = some i →
        IndexOk (s.sem A) u d
  | .intoBlocks d maj min => ¬ (s.sem A).sig.hasDep d ∧
      ((L maj = none ∧ ∃ nl n, L min = some nl ∧ nl.Num n ∧ 0 < n ∧
          EveryLength (s.sem A) (L.remove [d, maj, min]) d (n ∣ ·)) ∨
       (L min = none ∧ KnownLength (s.sem A) (L.remove [d, maj, min]) d ∧
          ∃ ml m, L maj = some ml ∧ ml.Num m ∧ 0 < m ∧
          EveryLength (s.sem A) (L.remove [d, maj, min]) d (m ∣ ·)))
  | .intoBlocksDyn d maj min pres => ¬ (s.sem A).sig.hasDep d ∧ L pres = none ∧
      ((L maj = none ∧ ∃ nl n, L min = some nl ∧ nl.Num n ∧ 0 < n) ∨
       (L min = none ∧ ∃ ml m, L maj = some ml ∧ ml.Num m ∧ 0 < m))
  | .intoBlocksStat d border maj min nl => ¬ (s.sem A).sig.hasDep d ∧
      L border = none ∧ L maj = none ∧ L min = none ∧ ∃ n, nl.Num n ∧ 0 < n
  | .mergeBlocks maj min d => ¬ (s.sem A).sig.hasDep maj ∧ ¬ (s.sem A).sig.hasDep min ∧ L d = none ∧
      (∀ st, (s.sem A).sig.needs st maj ↔ (s.sem A).sig.needs st min) ∧
      KnownLength (s.sem A) (L.remove [maj, min, d]) maj ∧
      KnownLength (s.sem A) (L.remove [maj, min, d]) min
  | _ => False

/-- What a view leaves of the elements of the structure below: the condition on the state. -/
def View.keeps (u : State) : View → Prop
  | .slice d a n => ∀ i x m, u (.idx d) = some (.dyn i) → a.Num x → n.Num m → x ≤ i ∧ i < x + m
  | .span d a b => ∀ i x y, u (.idx d) = some (.dyn i) → a.Num x → b.Num y → x ≤ i ∧ i < y
  | .shift d a => ∀ i x, u (.idx d) = some (.dyn i) → a.Num x → x ≤ i
  | .step d a k => ∀ i x y, u (.idx d) = some (.dyn i) → a.Num x → k.Num y → ∃ j, i = j * y + x
  | .fix d i => u (.idx d) = some i
  | _ => True

/-- The lengths in the state of the structure below the views, if those in the state of the top
structure are `L`. -/
def lensUnder (A : Arith) (L : Lens) : List View → Lens
  | [] => L
  | v :: vs => v.lens A (lensUnder A L vs)

/-- All the views of an order meet the requirements. -/
def OrderAdmits (A : Arith) (L : Lens) (s : Struct) : List View → Prop
  | [] => True
  | v :: vs => v.admits A s (lensUnder A L vs) ∧ s.unmixed A ∧ OrderAdmits A L (.view v s) vs

/-- As `Addresses`, when the lengths `L` are in the state. -/
structure AddressesWith (S : Sem) (L : Lens) (st : State) : Prop where
  ok : ∀ q, S.sig.needs st q → IndexOk S st q
  only : ∀ q, (st (.idx q)).isSome → S.sig.needs st q
  lens : ∀ q, st (.len q) = L q

/-- What an order leaves of the elements of the structure: the first view keeps the element, and the
other views keep the corresponding element of the view. -/
def OrderKeeps (A : Arith) (L : Lens) (s : Struct) : List View → State → Prop
  | [], _ => True
  | v :: vs, u => v.keeps u ∧ ∃ st, AddressesWith ((Struct.view v s).sem A) (lensUnder A L vs) st ∧
      (v.sem A (s.sem A)).sub st = some u ∧ OrderKeeps A L (.view v s) vs st

end Noarr
