import Verif.Depend

/-
The preconditions under which valid indices address memory inside a structure (C05, C06).
-/

namespace Noarr

/-- Both are numbers, the first one is less. -/
def LtVal (a b : Val) : Prop := ∃ x y, a.Num x ∧ b.Num y ∧ x < y

/-- Both are numbers, the first one is not greater. -/
def LeVal (a b : Val) : Prop := ∃ x y, a.Num x ∧ b.Num y ∧ x ≤ y

/-- Every index in the state is below the length that the structure reports for its dimension
(in the state without that index). Dimensions without a length are not restricted. -/
def Valid (A : Arith) (s : Struct) (st : State) : Prop :=
  ∀ q i n, st (.idx q) = some i → (s.sem A).len q (st.remove (.idx q)) = some n → LtVal i n

/-- The precondition of a view: `S` is the structure it is applied to, `st` the state given to the
view and `u` the state handed down to `S`.

* `fix`: the index is in range;
* `shift`, if a length is given: there are that many elements after the shift;
* `slice`, `span`: the window is inside the structure;
* `reverse`: the length is known;
* `join`: the index is in range in both dimensions;
* `into_blocks`, `into_blocks_dynamic`, if both block lengths are given: the structure has no length
  of its own, and at least as many elements as the blocks;
* `into_blocks_dynamic`: the length of the presence dimension is known;
* `into_blocks_static`: the length of the structure is known;
* `merge_blocks`: the length is known; if it is given, it is at most the number of elements in the
  blocks;
* `merge_zcurve`: at least two different dimensions, lengths divisible by the alignment, within the
  maximum, and the shift amount is less than the word width. -/
def View.pre (A : Arith) (S : Sem) (st u : State) : View → Prop
  | .fix d i => ∀ m, S.len d (u.remove (.idx d)) = some m → LtVal i m
  | .shift d a => ∀ l m, st (.len d) = some l → S.len d (u.remove (.idx d)) = some m →
      LeVal (l.add A a) m
  | .slice d a n => ∀ m, S.len d (u.remove (.idx d)) = some m → LeVal (a.add A n) m
  | .span d _ e => ∀ m, S.len d (u.remove (.idx d)) = some m → LeVal e m
  | .reverse d => st (.idx d) ≠ none → S.hasLen d (st.remove (.idx d)) ≠ some false
  | .join a b d => ∀ i m, st (.idx d) = some i →
      (S.len a (u.remove (.idx a)) = some m ∨ S.len b (u.remove (.idx b)) = some m) → LtVal i m
  | .intoBlocks d maj min => ∀ ml nl, st (.len maj) = some ml → st (.len min) = some nl →
      S.hasLen d (blocksClean d maj min st) = some false ∧
      ∀ m, S.len d (u.remove (.idx d)) = some m → LeVal (ml.mul A nl) m
  | .intoBlocksDyn d maj min pres =>
      (st (.idx pres) ≠ none →
        ∃ n, (intoBlocksDynSem A d maj min pres S).len pres (st.remove (.idx pres)) = some n) ∧
      ∀ ml nl, st (.len maj) = some ml → st (.len min) = some nl →
        (blocksDynClean d maj min pres st).bind (S.hasLen d) = some false ∧
        ∀ m, S.len d (u.remove (.idx d)) = some m → LeVal (nl.mul A ml) m
  | .intoBlocksStat d border maj min _ => st (.idx border) ≠ none →
      ∃ n, (blocksStatClean d border maj min st).bind (S.len d) = some n
  | .mergeBlocks maj min d => ∀ i, st (.idx d) = some i →
      (∃ n, (mergeBlocksSem A maj min d S).len d (st.remove (.idx d)) = some n) ∧
      ∀ l, st (.len d) = some l →
        ∃ ml nl, S.len maj (u.remove (.idx maj)) = some ml ∧ S.len min (u.remove (.idx min)) = some nl ∧
          LeVal l (ml.mul A nl) ∧
          (S.len min (blocksClean d maj min st) = some nl ∨ u (.len min) = some nl)
  | .mergeZ sl gl ds d => ∀ i, st (.idx d) = some i →
      2 ≤ ds.length ∧ ds.Nodup ∧ sl ≤ gl ∧ sl * ds.length < 32 ∧
      ∀ e ∈ ds, ∃ l n, S.len e (st.removeAll (.idx d :: (ds.map .idx ++ ds.map .len))) = some l ∧
        l.Num n ∧ 2 ^ sl ∣ n ∧ n ≤ 2 ^ gl
  | _ => True

/-- The preconditions of all the views a query in state `st` goes through. -/
def Struct.Pre (A : Arith) : Struct → State → Prop
  | .scalar _ _, _ => True
  | .tuple t _ fs, st => ∀ i, (fs i).Pre A (st.remove (.idx t))
  | .vector d s, st => s.Pre A (st.removeAll [.idx d, .len d])
  | .union _ ss, st => ∀ i, (ss i).Pre A st
  | .view v s, st => ∀ u, (v.sem A (s.sem A)).sub st = some u → v.pre A (s.sem A) st u ∧ s.Pre A u

/-- Restrictions on the use of names: `reverse` is not applied to a tuple or to a dimension that
decides about `is_present`, the merging views do not reuse the name of a tuple dimension, and a name
is not a tuple dimension in one field of a tuple and an ordinary one in another field. The names
given to the parts of a dimension differ (a static assertion in the code). -/
def Struct.sane (A : Arith) : Struct → Prop
  | .scalar _ _ => True
  | .tuple _ _ fs => (∀ i, (fs i).sane A) ∧
      ∀ i j q, (fs i).hard q → ¬ (fs j).hard q → ∀ st, ((fs j).sem A).len q st = none
  | .vector _ s => s.sane A
  | .union _ ss => ∀ i, (ss i).sane A
  | .view v s => s.sane A ∧
    match v with
    | .reverse d => ¬ s.hard d ∧ ¬ s.drive d
    | .join _ _ d => ¬ s.hard d
    | .intoBlocks _ maj min => maj ≠ min
    | .intoBlocksDyn _ maj min pres => maj ≠ min ∧ min ≠ pres ∧ pres ≠ maj
    | .intoBlocksStat _ _ maj min _ => maj ≠ min
    | .mergeBlocks maj min d => maj ≠ min ∧ ¬ s.hard d
    | .mergeZ _ _ _ d => ¬ s.hard d
    | _ => True

end Noarr
