import Verif.Machine

/-
Related states and related queries. Used for C45.
-/

set_option linter.unusedVariables false

namespace Noarr

/-- `p` holds of the two results, if the first one is defined; then so is the second one. -/
def Option.Refines {α : Type} (p : α → α → Prop) (x y : Option α) : Prop :=
  ∀ v, x = some v → ∃ w, y = some w ∧ p v w

namespace Option.Refines
variable {α β : Type} {p : α → α → Prop} {q : β → β → Prop}

theorem none {y : Option α} : Refines p none y := by intro v h; cases h

theorem some {v w : α} (h : p v w) : Refines p (some v) (some w) := by
  intro v' h'; cases h'; exact ⟨w, rfl, h⟩

theorem bind {x y : Option α} {f g : α → Option β} (h : Refines p x y)
    (hf : ∀ v w, p v w → Refines q (f v) (g w)) : Refines q (x.bind f) (y.bind g) := by
  intro v hv
  cases x with
  | none => cases hv
  | some a =>
    obtain ⟨w, hw, hp⟩ := h a rfl
    subst hw
    exact hf a w hp v hv

theorem ite {b b' : Bool} {x x' y y' : Option α} (hb : b = b') (h : Refines p x y)
    (h' : Refines p x' y') : Refines p (if b then x else x') (if b' then y else y') := by
  subst hb
  cases b
  · exact h'
  · exact h

theorem dite {P : Prop} [Decidable P] {x x' y y' : Option α} (h : P → Refines p x y)
    (h' : ¬ P → Refines p x' y') : Refines p (if P then x else x') (if P then y else y') := by
  split
  · next hp => exact h hp
  · next hp => exact h' hp

end Option.Refines

/-- Lists of the same length with related items. -/
inductive Forall2 {α : Type} (p : α → α → Prop) : List α → List α → Prop
  | nil : Forall2 p [] []
  | cons {a b : α} {l l' : List α} : p a b → Forall2 p l l' → Forall2 p (a :: l) (b :: l')

/-- the two optional values are related and either both absent or both present -/
def orel (W : Nat) : Option Val → Option Val → Prop
  | none, none => True
  | some v, some w => v.Rel W w
  | _, _ => False

/-- States with related values of the same tags. -/
def State.Rel (W : Nat) (x y : State) : Prop := ∀ t, orel W (x t) (y t)

section
variable {W : Nat}

theorem State.Rel.has {x y : State} (h : x.Rel W y) (t : Tag) : x.has t = y.has t := by
  have := h t
  unfold State.has
  cases hx : x t <;> cases hy : y t <;> simp_all [orel]

theorem State.Rel.refines {x y : State} (h : x.Rel W y) (t : Tag) :
    Option.Refines (Val.Rel W) (x t) (y t) := by
  have := h t
  intro v hv
  rw [hv] at this
  cases hy : y t with
  | none => rw [hy] at this; exact this.elim
  | some w => rw [hy] at this; exact ⟨w, rfl, this⟩

theorem State.Rel.cases {x y : State} (h : x.Rel W y) (t : Tag) :
    (x t = none ∧ y t = none) ∨ ∃ v w, x t = some v ∧ y t = some w ∧ v.Rel W w := by
  have := h t
  cases hx : x t <;> cases hy : y t <;> simp_all [orel]

theorem State.Rel.set {x y : State} (h : x.Rel W y) (t : Tag) {v w : Val} (hv : v.Rel W w) :
    (x.set t v).Rel W (y.set t w) := by
  intro t'
  simp only [State.set]
  split
  · exact hv
  · exact h t'

theorem State.Rel.remove {x y : State} (h : x.Rel W y) (t : Tag) : (x.remove t).Rel W (y.remove t) := by
  intro t'
  simp only [State.remove]
  split
  · trivial
  · exact h t'

theorem State.Rel.removeAll {x y : State} (h : x.Rel W y) (ts : List Tag) :
    (x.removeAll ts).Rel W (y.removeAll ts) := by
  intro t'
  simp only [State.removeAll]
  split
  · trivial
  · exact h t'

theorem State.Rel.mapAt {x y : State} (h : x.Rel W y) (t : Tag) {f g : Val → Val}
    (hf : ∀ v w, v.Rel W w → (f v).Rel W (g w)) : (x.mapAt t f).Rel W (y.mapAt t g) := by
  intro t'
  simp only [State.mapAt]
  split
  · rcases h.cases t with ⟨h1, h2⟩ | ⟨v, w, h1, h2, h3⟩
    · rw [h1, h2]; trivial
    · rw [h1, h2]; exact hf _ _ h3
  · exact h t'

theorem State.Rel.rename {x y : State} (h : x.Rel W y) (ps : List (Dim × Dim)) :
    (renameState ps x).Rel W (renameState ps y) := by
  intro t'
  cases t' <;> simp only [renameState] <;> split <;> first | exact h _ | (split <;> first | trivial | exact h _)

theorem State.Rel.of_fits {x : State} (h : ∀ t v, x t = some v → v.fits W) : x.Rel W x := by
  intro t
  cases hx : x t with
  | none => trivial
  | some v => exact .refl (h t v hx)

/-- Queries with the same answers, apart from faults. -/
structure SemRel (W : Nat) (S T : Sem) : Prop where
  sig : S.sig = T.sig
  hasLen : ∀ q {x y : State}, x.Rel W y → Option.Refines Eq (S.hasLen q x) (T.hasLen q y)
  len : ∀ q {x y : State}, x.Rel W y → Option.Refines (Val.Rel W) (S.len q x) (T.len q y)
  size : ∀ {x y : State}, x.Rel W y → Option.Refines (Val.Rel W) (S.size x) (T.size y)
  align : ∀ {x y : State}, x.Rel W y →
    Option.Refines (fun a b => a = b ∧ a < W) (S.align x) (T.align y)
  off : ∀ {x y : State} {a b : Val}, x.Rel W y → a.Rel W b → ∀ v n, S.off x a = some v → v.nat? = some n →
    T.off y b = some v ∧ n < W
  elem : ∀ {x y : State}, x.Rel W y → Option.Refines Eq (S.elem x) (T.elem y)

structure ViewRel (W : Nat) (S T : ViewSem) : Prop where
  sig : S.sig = T.sig
  sub : ∀ {x y : State}, x.Rel W y → Option.Refines (State.Rel W) (S.sub x) (T.sub y)
  hasLen : ∀ q {x y : State}, x.Rel W y → Option.Refines Eq (S.hasLen q x) (T.hasLen q y)
  len : ∀ q {x y : State}, x.Rel W y → Option.Refines (Val.Rel W) (S.len q x) (T.len q y)
  sizeOk : S.sizeOk = T.sizeOk
  offOk : ∀ {x y : State}, x.Rel W y → S.offOk x = T.offOk y

theorem ViewRel.toSem {V V' : ViewSem} {S S' : Sem} (h : ViewRel W V V') (hs : SemRel W S S') :
    SemRel W (V.toSem S) (V'.toSem S') where
  sig := h.sig
  hasLen := h.hasLen
  len := h.len
  size hx := .ite h.sizeOk ((h.sub hx).bind fun _ _ h => hs.size h) .none
  align hx := .ite h.sizeOk ((h.sub hx).bind fun _ _ h => hs.align h) .none
  off := by
    intro x y a b hx ha v n hv hn
    simp only [ViewSem.toSem] at hv ⊢
    rw [← h.offOk hx]
    split at hv
    · next hok =>
      rw [if_pos hok]
      cases hsx : V.sub x with
      | none => rw [hsx] at hv; cases hv
      | some x' =>
        rw [hsx] at hv
        obtain ⟨y', hy', hr⟩ := h.sub hx x' hsx
        rw [hy']
        exact hs.off hr ha v n hv hn
    · cases hv
  elem hx := (h.sub hx).bind fun _ _ h => hs.elem h

theorem guardLen_rel {h h' : Option Bool} {v v' : Option Val} (hh : Option.Refines Eq h h')
    (hv : h = some true → Option.Refines (Val.Rel W) v v') :
    Option.Refines (Val.Rel W) (guardLen h v) (guardLen h' v') := by
  cases h with
  | none => exact .none
  | some b =>
    obtain ⟨b', hb', he⟩ := hh b rfl
    subst hb'; subst he
    cases b
    · exact .none
    · exact hv rfl

end

end Noarr
