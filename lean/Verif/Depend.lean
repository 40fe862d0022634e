import Verif.Lemmas

/-
What the lengths of a structure depend on. Used for C05, C06, C26, C46, C47.

For a structure, four sets of dimensions are read off its syntax:
* `hard`: the index decides which lengths there are (tuple dimensions, `DimIsBorder`);
* `soft`: the length depends on other indices (`DimIsPresent` of `into_blocks_dynamic`);
* `drive`: the indices that the lengths of `soft` dimensions depend on;
* `stale`: names a view has replaced, but still answers queries for.
-/

namespace Noarr

/-- the names of a renamed structure whose internal name satisfies `H` -/
def renamed (ps : List (Dim × Dim)) (H : Dim → Prop) (q : Dim) : Prop :=
  ∃ n, H n ∧ (n ∈ ps.map Prod.fst ∨ n ∉ ps.map Prod.snd) ∧ Sig.renameDim ps n = q

def View.hard (H : Dim → Prop) (q : Dim) : View → Prop
  | .bcast d => q ≠ d ∧ H q
  | .fix d _ => q ≠ d ∧ H q
  | .intoBlocksStat _ border _ _ _ => q = border ∨ H q
  | .rename ps => renamed ps H q
  | _ => H q

def View.soft (H : Dim → Prop) (q : Dim) : View → Prop
  | .bcast d => q ≠ d ∧ H q
  | .fix d _ => q ≠ d ∧ H q
  | .intoBlocksDyn _ _ _ pres => q = pres ∨ H q
  | .rename ps => renamed ps H q ∨ (q ∈ ps.map Prod.fst ∧ q ∉ ps.map Prod.snd ∧ H q)
  | _ => H q

def View.drive (H : Dim → Prop) (q : Dim) : View → Prop
  | .bcast d => q ≠ d ∧ H q
  | .fix d _ => q ≠ d ∧ H q
  | .intoBlocks d maj min => H q ∨ (H d ∧ (q = maj ∨ q = min))
  | .intoBlocksStat d _ maj min _ => H q ∨ (H d ∧ (q = maj ∨ q = min))
  | .intoBlocksDyn _ maj min _ => H q ∨ q = maj ∨ q = min
  | .join a b d => H q ∨ ((H a ∨ H b) ∧ q = d)
  | .mergeBlocks maj min d => H q ∨ ((H maj ∨ H min) ∧ q = d)
  | .mergeZ _ _ ds d => H q ∨ ((∃ e, e ∈ ds ∧ H e) ∧ q = d)
  | .rename ps => renamed ps H q
  | _ => H q

def View.stale (H : Dim → Prop) (q : Dim) : View → Prop
  | .bcast d => q ≠ d ∧ H q
  | .fix d _ => q ≠ d ∧ H q
  | .intoBlocks d maj min => H q ∧ q ≠ d ∧ q ≠ maj ∧ q ≠ min
  | .intoBlocksStat d border maj min _ => H q ∧ q ≠ d ∧ q ≠ maj ∧ q ≠ min ∧ q ≠ border
  | .intoBlocksDyn d maj min pres => H q ∧ q ≠ d ∧ q ≠ maj ∧ q ≠ min ∧ q ≠ pres
  | .join a b d => (q = a ∧ a ≠ d) ∨ (q = b ∧ b ≠ d) ∨ H q
  | .mergeBlocks maj min d => H q ∧ q ≠ d ∧ q ≠ maj ∧ q ≠ min
  | .mergeZ _ _ ds d => q ≠ d ∧ (q ∈ ds ∨ H q)
  | .rename ps => (q ∈ ps.map Prod.fst ∧ q ∉ ps.map Prod.snd) ∨ renamed ps H q
  | _ => H q

namespace Struct

def hard : Struct → Dim → Prop
  | scalar _ _ => fun _ => False
  | tuple t _ fs => fun q => q = t ∨ ∃ i, (fs i).hard q
  | vector d s => fun q => q ≠ d ∧ s.hard q
  | union _ ss => fun q => ∃ i, (ss i).hard q
  | view v s => fun q => v.hard s.hard q

def soft : Struct → Dim → Prop
  | scalar _ _ => fun _ => False
  | tuple _ _ fs => fun q => ∃ i, (fs i).soft q
  | vector d s => fun q => q ≠ d ∧ s.soft q
  | union _ ss => fun q => ∃ i, (ss i).soft q
  | view v s => fun q => v.soft s.soft q

def drive : Struct → Dim → Prop
  | scalar _ _ => fun _ => False
  | tuple _ _ fs => fun q => ∃ i, (fs i).drive q
  | vector d s => fun q => q ≠ d ∧ s.drive q
  | union _ ss => fun q => ∃ i, (ss i).drive q
  | view v s => fun q => v.drive s.drive q

def stale : Struct → Dim → Prop
  | scalar _ _ => fun _ => False
  | tuple _ _ fs => fun q => ∃ i, (fs i).stale q
  | vector d s => fun q => q ≠ d ∧ s.stale q
  | union _ ss => fun q => ∃ i, (ss i).stale q
  | view v s => fun q => v.stale s.stale q

/-- A dimension whose length is an ordinary one. -/
def plain (s : Struct) (d : Dim) : Prop := ¬ s.hard d ∧ ¬ s.soft d ∧ ¬ s.stale d

end Struct

/-- The dimensions a view computes with are ordinary ones. For `into_blocks` and the merging views
this follows from the static assertions, as far as tuple dimensions are concerned. -/
def View.tame (s : Struct) : View → Prop
  | .reverse d => ¬ s.soft d ∧ ¬ s.stale d
  | .rename ps => (ps.map Prod.fst).Nodup ∧ (ps.map Prod.snd).Nodup
  | .join a b _ => s.plain a ∧ s.plain b
  | .intoBlocks d maj min => s.plain d ∧ ¬ s.hard maj ∧ ¬ s.hard min
  | .intoBlocksDyn d maj min pres =>
    s.plain d ∧ ¬ s.hard maj ∧ ¬ s.hard min ∧ ¬ s.hard pres
  | .intoBlocksStat d border maj min _ =>
    s.plain d ∧ ¬ s.hard maj ∧ ¬ s.hard min ∧ border ≠ maj ∧ border ≠ min
  | .mergeBlocks maj min _ => s.plain maj ∧ s.plain min
  | .mergeZ _ _ ds _ => ∀ e, e ∈ ds → s.plain e
  | _ => True

/-- All the views of the structure are applied to ordinary dimensions. -/
def Struct.tame : Struct → Prop
  | .scalar _ _ => True
  | .tuple _ _ fs => ∀ i, (fs i).tame
  | .vector _ s => s.tame
  | .union _ ss => ∀ i, (ss i).tame
  | .view v s => s.tame ∧ v.tame s

/-- `st'` has the lengths of `st` and no more indices, and the indices that the length in `q` may
depend on are the same. -/
structure Rel (s : Struct) (q : Dim) (st st' : State) : Prop where
  lens : ∀ d, st (.len d) = st' (.len d)
  fewer : ∀ e, st (.idx e) = none → st' (.idx e) = none
  here : st' (.idx q) = none → st (.idx q) = none
  hard : ∀ e, s.hard e → st (.idx e) = st' (.idx e)
  soft : s.soft q → ∀ e, s.drive e → st (.idx e) = st' (.idx e)
  stale : s.stale q → ∀ e, st' (.idx e) = none → st (.idx e) = none

/-- If the first is defined, so is the second, with the same value. -/
def Le {α : Type} (a b : Option α) : Prop := ∀ x, a = some x → b = some x

theorem Le.refl {α : Type} (a : Option α) : Le a a := fun _ h => h

theorem Le.bind {α β : Type} {a b : Option α} {f g : α → Option β} (h : Le a b)
    (hf : ∀ x, a = some x → Le (f x) (g x)) : Le (a.bind f) (b.bind g) := by
  intro y hy
  cases ha : a with
  | none => simp [ha] at hy
  | some x =>
    rw [h x ha]
    rw [ha] at hy
    exact hf x ha y hy

theorem Le.guard {a b : Option Bool} {x y : Option Val} (h : Le a b)
    (hf : a = some true → Le x y) : Le (guardLen a x) (guardLen b y) := by
  intro v hv
  rw [guardLen_eq_some] at hv ⊢
  exact ⟨h _ hv.1, hf hv.1 _ hv.2⟩

end Noarr
