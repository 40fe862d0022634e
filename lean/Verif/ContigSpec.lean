import Verif.Contiguous
import Verif.OrderSpec

/-
Notions used in the statement about `is_contiguous` (C42).
-/

namespace Noarr

/-- The lengths in a state. -/
def State.lens (p : State) : Lens := fun q => p (.len q)

/-- The views that use every element of the structure below (into which `admits` does not allow blocks
that do not divide the length), where `is_contiguous` may hold. An element has an offset in
`into_blocks_dynamic` only if its dimension is everywhere. -/
def View.full (A : Arith) (s : Struct) : View → Prop
  | .setLength _ _ | .reorder _ | .hoist _ | .rename _ | .reverse _ | .intoBlocks _ _ _ => True
  | .intoBlocksDyn d _ _ _ => (s.sem A).sig.allAccept d = true
  | _ => False

/-- What `is_contiguous` rules out itself, when the indices in the dimensions `given` are known. -/
def View.ruledOut (given : Dim → Bool) : View → Prop
  | .mergeBlocks _ _ _ | .mergeZ _ _ _ _ | .intoBlocksStat _ _ _ _ _ => True
  | .step d _ _ => given d = false
  | .intoBlocks _ maj min | .intoBlocksDyn _ maj min _ => given maj = false ∧ given min = true
  | _ => False

/-- Every byte of the structure belongs to some element, when the lengths are `L`: no gaps in tuples
(the sizes are multiples of the alignment, which is the same for all the fields), and the views do not
leave anything out. Lengths that are given are numbers. Nothing is required of structures that
`is_contiguous` rules out itself. -/
def Struct.whole : Struct → Lens → Prop
  | .scalar _ _, _ => True
  | .tuple _ n fs, L => (∀ i, (fs i).whole L) ∧ ∃ al, 0 < al ∧ ∃ zs : Fin n → Nat, ∀ i u,
      (∀ q, u (.len q) = L q) → ((fs i).sem .ideal).align u = some al ∧
        ∃ v, ((fs i).sem .ideal).size u = some v ∧ v.Num (zs i) ∧ al ∣ zs i
  | .vector d s, L => (∀ l, L d = some l → ∃ n, l.Num n) ∧ s.whole (L.remove [d])
  | .union _ _, _ => True
  | .view v s, L => v.ruledOut (fun _ => false) ∨
    (∃ d l n, v = .bcast d ∧ L d = some l ∧ l.Num n ∧ 0 < n ∧ s.whole (L.remove [d])) ∨
    v.admits .ideal s L ∧ s.unmixed .ideal ∧ v.full .ideal s ∧ s.whole (v.lens .ideal L)

/-- The size is the same number in all the states that address an element. -/
def Struct.fixedSize (s : Struct) (L : Lens) : Prop :=
  ∃ Z, ∀ u, AddressesWith (s.sem .ideal) L u → ∃ z, (s.sem .ideal).size u = some z ∧ z.Num Z

/-- No index is given. -/
def State.noIdx (p : State) : Prop := ∀ q, p (.idx q) = none

/-- If the index of the block is given and that inside the block is not, the elements of the block are
an interval of the original dimension. -/
def chainBlocks (v : View) (d maj min : Dim) (p : State) (nx : Option Dim) (c : Option Dim → Prop) : Prop :=
  (p (.idx maj) = none ∧ p (.idx min) = none ∧ (∀ e, nx = some e → e ∉ v.dims) ∧ c nx) ∨
  (∃ nl n, p (.len min) = some nl ∧ nl.Num n ∧ 0 < n) ∧
  ((p (.idx maj) = none ∧ p (.idx min) = none ∧ nx = some maj ∧ c (some d)) ∨
   (p.has (.idx maj) = true ∧ p (.idx min) = none ∧ (nx = none ∨ nx = some min) ∧ c (some d)) ∨
   (p.has (.idx maj) = true ∧ p.has (.idx min) = true ∧ (∀ e, nx = some e → e ∉ v.dims) ∧ c nx))

/-- What `is_contiguous` should check but does not: the elements with the indices in `p` lie together,
in the order of the index in the dimension `nx` (if any). The dimensions outside of one whose index is
given in the state have to be given, too, either in the state or by `fix`; a dimension may be sliced,
shifted or spanned if all the dimensions outside of it are given; a step is allowed in a dimension that
is given. The states are translated as for `is_contiguous`. Nothing is required where `is_contiguous`
does not hold. -/
def Struct.chain : Struct → State → Option Dim → Prop
  | .scalar _ _, _, nx => nx = none
  | .tuple t n fs, p, nx =>
    (nx = none ∧ p.noIdx ∧ (Struct.tuple t n fs).whole p.lens) ∨
    ∃ k, ∃ h : k < n, p (.idx t) = some (.lit k) ∧ (fs ⟨k, h⟩).chain (p.remove (.idx t)) nx ∧
      nx ≠ some t ∧ ∃ als zs : Fin n → Nat, ∀ i : Fin n, i < k → ∀ u,
        AddressesWith ((fs ⟨k, h⟩).sem .ideal) p.lens u →
        0 < als i ∧ ((fs i).sem .ideal).align u = some (als i) ∧
        ∃ v, ((fs i).sem .ideal).size u = some v ∧ v.Num (zs i)
  | .vector d s, p, nx =>
    ((nx = none ∨ nx = some d) ∧ p.noIdx ∧ (Struct.vector d s).whole p.lens) ∨
    (p.has (.idx d) = true ∧ nx ≠ some d ∧ s.fixedSize (p.lens.remove [d]) ∧
      s.chain (p.removeAll [.idx d, .len d]) nx)
  | .union _ _, _, _ => True
  | .view v s, p, nx => v.ruledOut (fun q => p.has (.idx q)) ∨
    (∃ d, v = .bcast d ∧ nx ≠ some d ∧ s.chain (p.removeAll [.idx d, .len d]) nx) ∨
    v.admits .ideal s p.lens ∧ s.unmixed .ideal ∧
    ∀ u, (v.sem .ideal (s.sem .ideal)).sub p = some u →
    match v with
    | .setLength _ _ | .reorder _ | .hoist _ => s.chain u nx
    | .rename ps => ∃ nx', s.chain u nx' ∧ nx = nx'.map (Sig.renameDim ps) ∧
        ∀ e, nx' = some e → e ∈ ps.map Prod.fst ∨ e ∉ ps.map Prod.snd
    | .reverse d => s.chain u nx ∧ ∃ N, EveryLength (s.sem .ideal) p.lens d (· = N) ∧
        (p.has (.idx d) = true → ∃ l, (s.sem .ideal).len d (p.remove (.idx d)) = some l ∧ l.Num N)
    | .slice d _ _ | .span d _ _ | .shift d _ =>
        (p.has (.idx d) = true ∧ nx ≠ some d ∧ s.chain u nx) ∨
        (p.has (.idx d) = false ∧ (nx = none ∨ nx = some d) ∧ s.chain u (some d))
    | .step d _ _ => nx ≠ some d ∧ s.chain u nx
    | .fix d _ => nx ≠ some d ∧ s.chain u nx
    | .intoBlocks d maj min => chainBlocks v d maj min p nx (fun nx => s.chain u nx)
    | .intoBlocksDyn d maj min _ => (s.sem .ideal).sig.allAccept d = true ∧
        chainBlocks v d maj min p nx (fun nx => s.chain u nx)
    | _ => False

/-- The byte `b` belongs to an element of the structure: an element that is addressed (all its indices
are in range) by a state `u` with the lengths of `p` and the indices of `p`. -/
def InElement (S : Sem) (p : State) (b : Nat) : Prop :=
  ∃ u o k e, AddressesWith S p.lens u ∧ (∀ q i, p (.idx q) = some i → u (.idx q) = some i) ∧
    S.off u (.lit 0) = some o ∧ o.Num k ∧ S.elem u = some e ∧ k ≤ b ∧ b < k + e

end Noarr
