import Verif.BoundsSpec
import Verif.SigUniq

/-
The conditions of C06 beyond those of C05.
-/

namespace Noarr

/-- Both are numbers, and the same one. -/
def SameNum (a b : Option Val) : Prop := ∃ i j n, a = some i ∧ b = some j ∧ i.Num n ∧ j.Num n

/-- The views that act on a tuple dimension have constant arguments (otherwise the signature does not
compile), and no stride is zero. -/
def View.exact (s : Struct) : View → Prop
  | .fix d i => s.hard d → ∃ k, i = .lit k
  | .shift d a => s.hard d → ∃ k, a = .lit k
  | .slice d a _ => s.hard d → ∃ k, a = .lit k
  | .span d a _ => s.hard d → ∃ k, a = .lit k
  | .step d a k => (s.hard d → ∃ x y, a = .lit x ∧ k = .lit y) ∧ ¬ k.Num 0
  | _ => True

/-- All the views satisfy `View.exact`. -/
def Struct.exact : Struct → Prop
  | .scalar _ _ => True
  | .tuple _ _ fs => ∀ i, (fs i).exact
  | .vector _ s => s.exact
  | .union _ ss => ∀ i, (ss i).exact
  | .view v s => s.exact ∧ v.exact s

/-- Indices in tuple dimensions are constants. -/
def ConstIdx (s : Struct) (st : State) : Prop :=
  ∀ q, s.hard q → ∀ i, st (.idx q) = some i → ∃ k, i = .lit k

/-- The indices in tuple dimensions that neither state needs agree. (They do not select memory, but
the lengths of other fields may be looked up with them.) This holds in particular if the states
contain needed indices only. -/
def Agree (s : Struct) (st st' : State) : Prop :=
  ∀ q, s.hard q → ¬ (s.sem .ideal).sig.needs st q → ¬ (s.sem .ideal).sig.needs st' q →
    st (.idx q) = st' (.idx q)

theorem Agree.of_needed {s : Struct} {st st' : State}
    (h : ∀ q, (st (.idx q)).isSome → (s.sem .ideal).sig.needs st q)
    (h' : ∀ q, (st' (.idx q)).isSome → (s.sem .ideal).sig.needs st' q) : Agree s st st' := by
  intro q _ h1 h2
  cases h3 : st (.idx q) with
  | some i => exact absurd (h q (by simp [h3])) h1
  | none =>
    cases h4 : st' (.idx q) with
    | some i => exact absurd (h' q (by simp [h4])) h2
    | none => rfl

end Noarr
