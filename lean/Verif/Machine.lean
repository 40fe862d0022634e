import Verif.Struct

/-
When `size_t` arithmetic is exact: an evaluation that never leaves the range of the type gives the
same number in every arithmetic that agrees inside the range. Used for C45.
-/

set_option linter.unusedVariables false

namespace Noarr

/-- Whatever `A` computes without a fault is below `W`, and `B` computes the same (for all but sums and
products: if the operands are below `W`). -/
structure Arith.Agrees (W : Nat) (A B : Arith) : Prop where
  add : ∀ {a b c}, A.add a b = .ok c → B.add a b = .ok c ∧ c < W
  sub : ∀ {a b c}, a < W → b < W → A.sub a b = .ok c → B.sub a b = .ok c ∧ c < W
  mul : ∀ {a b c}, A.mul a b = .ok c → B.mul a b = .ok c ∧ c < W
  div : ∀ {a b c}, a < W → b < W → A.div a b = .ok c → B.div a b = .ok c ∧ c < W
  mod : ∀ {a b c}, a < W → b < W → A.mod a b = .ok c → B.mod a b = .ok c ∧ c < W

theorem Arith.agrees_machine (W : Nat) : Arith.Agrees W (.checked W) (.machine W) := by
  constructor
  · intro a b c h
    simp only [Arith.checked] at h
    split at h
    · next hlt => cases h; simp only [Arith.machine, Nat.mod_eq_of_lt hlt]; exact ⟨trivial, hlt⟩
    · cases h
  · intro a b c ha hb h
    simp only [Arith.checked] at h
    split at h
    · next hle =>
      cases h
      simp only [Arith.machine, Nat.mod_eq_of_lt hb]
      refine ⟨?_, by omega⟩
      congr 1
      rw [show a + (W - b) = (a - b) + W by omega, Nat.add_mod_right, Nat.mod_eq_of_lt (by omega)]
    · cases h
  · intro a b c h
    simp only [Arith.checked] at h
    split at h
    · next hlt => cases h; simp only [Arith.machine, Nat.mod_eq_of_lt hlt]; exact ⟨trivial, hlt⟩
    · cases h
  · intro a b c ha hb h
    simp only [Arith.checked] at h
    split at h
    · cases h
    · next h0 =>
      cases h
      simp only [Arith.machine, if_neg h0]
      exact ⟨trivial, Nat.lt_of_le_of_lt (Nat.div_le_self _ _) ha⟩
  · intro a b c ha hb h
    simp only [Arith.checked] at h
    split at h
    · cases h
    · next h0 =>
      cases h
      simp only [Arith.machine, if_neg h0]
      exact ⟨trivial, Nat.lt_of_le_of_lt (Nat.mod_le _ _) ha⟩

theorem Arith.agrees_ideal (W : Nat) : Arith.Agrees W (.checked W) .ideal := by
  constructor
  · intro a b c h
    simp only [Arith.checked] at h
    split at h <;> cases h
    next hlt => exact ⟨rfl, hlt⟩
  · intro a b c ha hb h
    simp only [Arith.checked] at h
    split at h <;> cases h
    next hle => exact ⟨by simp [Arith.ideal, hle], by omega⟩
  · intro a b c h
    simp only [Arith.checked] at h
    split at h <;> cases h
    next hlt => exact ⟨rfl, hlt⟩
  · intro a b c ha hb h
    simp only [Arith.checked] at h
    split at h <;> cases h
    next h0 => exact ⟨by simp [Arith.ideal, h0], Nat.lt_of_le_of_lt (Nat.div_le_self _ _) ha⟩
  · intro a b c ha hb h
    simp only [Arith.checked] at h
    split at h <;> cases h
    next h0 => exact ⟨by simp [Arith.ideal, h0], Nat.lt_of_le_of_lt (Nat.mod_le _ _) ha⟩

/-- The value is a number below `W` or the result of a fault. -/
def Val.fits (W : Nat) (v : Val) : Prop := ∀ n, v.nat? = some n → n < W

/-- `y` is the value `x`, which is below `W`, unless `x` is the result of a fault. -/
def Val.Rel (W : Nat) (x y : Val) : Prop := x.nat? = none ∨ (x = y ∧ x.fits W)

theorem Val.Rel.refl {W : Nat} {v : Val} (h : v.fits W) : v.Rel W v := .inr ⟨rfl, h⟩

theorem Val.Rel.lit {W n : Nat} (h : n < W) : (Val.lit n).Rel W (.lit n) :=
  .refl (by intro m hm; cases hm; exact h)

theorem Val.Rel.dyn {W n : Nat} (h : n < W) : (Val.dyn n).Rel W (.dyn n) :=
  .refl (by intro m hm; cases hm; exact h)

theorem Val.Rel.bad {W : Nat} {f : Fault} {v : Val} : (Val.bad f).Rel W v := .inl rfl

theorem Val.Rel.toDyn {W : Nat} {x y : Val} (h : x.Rel W y) : x.toDyn.Rel W y.toDyn := by
  rcases h with h | ⟨rfl, h⟩
  · cases x <;> simp [Val.nat?] at h; exact .bad
  · cases x
    · exact .dyn (h _ rfl)
    · exact .dyn (h _ rfl)
    · exact .bad

section
variable {W : Nat} {A B : Arith}

theorem Val.rel_ofLit {x y : Except Fault Nat} (h : ∀ c, x = .ok c → y = .ok c ∧ c < W) :
    (Val.ofLit x).Rel W (Val.ofLit y) := by
  cases x with
  | error => exact .bad
  | ok c => obtain ⟨h1, h2⟩ := h c rfl; subst h1; exact .lit h2

theorem Val.rel_ofDyn {x y : Except Fault Nat} (h : ∀ c, x = .ok c → y = .ok c ∧ c < W) :
    (Val.ofDyn x).Rel W (Val.ofDyn y) := by
  cases x with
  | error => exact .bad
  | ok c => obtain ⟨h1, h2⟩ := h c rfl; subst h1; exact .dyn h2

variable (h : Arith.Agrees W A B)
include h

theorem Val.Rel.add {a b a' b' : Val} (ha : a.Rel W a') (hb : b.Rel W b') :
    (a.add A b).Rel W (a'.add B b') := by
  rcases ha with ha | ⟨rfl, ha⟩
  · cases a <;> simp [Val.nat?] at ha; exact .bad
  · rcases hb with hb | ⟨rfl, hb⟩
    · cases b <;> simp [Val.nat?] at hb; cases a <;> exact .bad
    · cases a <;> cases b <;> first
        | exact .bad
        | exact Val.rel_ofLit fun c hc => h.add hc
        | exact Val.rel_ofDyn fun c hc => h.add hc

theorem Val.Rel.sub {a b a' b' : Val} (ha : a.Rel W a') (hb : b.Rel W b') :
    (a.sub A b).Rel W (a'.sub B b') := by
  rcases ha with ha | ⟨rfl, ha⟩
  · cases a <;> simp [Val.nat?] at ha; exact .bad
  · rcases hb with hb | ⟨rfl, hb⟩
    · cases b <;> simp [Val.nat?] at hb; cases a <;> exact .bad
    · cases a <;> cases b <;> first
        | exact .bad
        | exact Val.rel_ofLit fun c hc => h.sub (ha _ rfl) (hb _ rfl) hc
        | exact Val.rel_ofDyn fun c hc => h.sub (ha _ rfl) (hb _ rfl) hc

theorem Val.Rel.mul {a b a' b' : Val} (ha : a.Rel W a') (hb : b.Rel W b') :
    (a.mul A b).Rel W (a'.mul B b') := by
  rcases ha with ha | ⟨rfl, ha⟩
  · cases a <;> simp [Val.nat?] at ha; exact .bad
  · rcases hb with hb | ⟨rfl, hb⟩
    · cases b <;> simp [Val.nat?] at hb; cases a <;> exact .bad
    · cases a <;> cases b <;> first
        | exact .bad
        | exact Val.rel_ofLit fun c hc => h.mul hc
        | exact Val.rel_ofDyn fun c hc => h.mul hc
        | (simp only [Val.mul]
           split
           · next h0 => subst h0; exact .lit (by first | exact ha _ rfl | exact hb _ rfl)
           · exact Val.rel_ofDyn fun c hc => h.mul hc)

theorem Val.Rel.div {a b a' b' : Val} (ha : a.Rel W a') (hb : b.Rel W b') :
    (a.div A b).Rel W (a'.div B b') := by
  rcases ha with ha | ⟨rfl, ha⟩
  · cases a <;> simp [Val.nat?] at ha; exact .bad
  · rcases hb with hb | ⟨rfl, hb⟩
    · cases b <;> simp [Val.nat?] at hb; cases a <;> exact .bad
    · cases a <;> cases b <;> first
        | exact .bad
        | exact Val.rel_ofLit fun c hc => h.div (ha _ rfl) (hb _ rfl) hc
        | exact Val.rel_ofDyn fun c hc => h.div (ha _ rfl) (hb _ rfl) hc
        | (simp only [Val.div]
           split
           · next h0 => subst h0; exact .lit (by first | exact ha _ rfl | exact hb _ rfl)
           · exact Val.rel_ofDyn fun c hc => h.div (ha _ rfl) (hb _ rfl) hc)

theorem Val.Rel.mod {a b a' b' : Val} (ha : a.Rel W a') (hb : b.Rel W b') :
    (a.mod A b).Rel W (a'.mod B b') := by
  rcases ha with ha | ⟨rfl, ha⟩
  · cases a <;> simp [Val.nat?] at ha; exact .bad
  · rcases hb with hb | ⟨rfl, hb⟩
    · cases b <;> simp [Val.nat?] at hb; cases a <;> exact .bad
    · cases a <;> cases b <;> first
        | exact .bad
        | exact Val.rel_ofLit fun c hc => h.mod (ha _ rfl) (hb _ rfl) hc
        | exact Val.rel_ofDyn fun c hc => h.mod (ha _ rfl) (hb _ rfl) hc
        | (simp only [Val.mod]
           split
           · next h0 => subst h0; exact .lit (by first | exact ha _ rfl | exact hb _ rfl)
           · exact Val.rel_ofDyn fun c hc => h.mod (ha _ rfl) (hb _ rfl) hc)

omit h in
theorem Val.Rel.ltVal (h1 : 1 < W) {a b a' b' : Val} (ha : a.Rel W a') (hb : b.Rel W b') :
    (a.ltVal b).Rel W (a'.ltVal b') := by
  rcases ha with ha | ⟨rfl, ha⟩
  · cases a <;> simp [Val.nat?] at ha; exact .bad
  · rcases hb with hb | ⟨rfl, hb⟩
    · cases b <;> simp [Val.nat?] at hb; cases a <;> exact .bad
    · cases a <;> cases b <;> first
        | exact .bad
        | exact .dyn (by split <;> omega)

end

end Noarr
