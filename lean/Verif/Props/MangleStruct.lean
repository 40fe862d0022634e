import Verif.MangleStructLemmas

/-
C43 for the structures of the model. The texts of `mangle` and `mangle_expr` tell them apart.
-/

namespace Noarr

/-- C43: structures have the same `mangle` text exactly if they have the same type: all the same templates, dimensions,
element types and constants, at all levels; run-time values do not matter. -/
theorem C43_same_name_iff_same_type (N : Names) (hN : N.Ok) (s s' : Struct) (d d' : Desc) (h : s.desc N = some d)
    (h' : s'.desc N = some d') : d.text = d'.text ↔ s.typed = s'.typed := by
  constructor
  · intro e
    have : d = d' := (Desc.split d d' (Struct.desc_ok hN h) (Struct.desc_ok hN h') (r := []) (r' := [])
      (fun _ _ h => by cases h) (fun _ _ h => by cases h) (by simp [e])).1
    subst this
    exact Struct.desc_inj hN h h'
  · intro e
    rw [← Struct.typed_desc, e, Struct.typed_desc, h'] at h
    cases h; rfl

/-- C43: the `mangle_expr` text of every structure with 64-bit values is defined, and structures have the same text
exactly if they are equal, with all their lengths, indices and so on. -/
theorem C43_same_text_iff_equal (N : Names) (hN : N.Ok) (s s' : Struct) (e e' : Expr) (h : s.expr N = some e)
    (h' : s'.expr N = some e') (hf : s.fits (2 ^ 64)) (hf' : s'.fits (2 ^ 64)) :
    (∃ t, e.text 8 = .ok t) ∧ (e.text 8 = e'.text 8 ↔ s = s') := by
  have ho := Struct.expr_ok hN h hf
  have ho' := Struct.expr_ok hN h' hf'
  rw [Expr.text_eq (by decide) e ho, Expr.text_eq (by decide) e' ho']
  refine ⟨⟨_, rfl⟩, fun q => ?_, ?_⟩
  · have : e = e' := (Expr.split e e' ho ho' (r := []) (r' := []) (by rw [Except.ok.inj q])).1
    subst this
    exact Struct.expr_inj hN h h'
  · rintro rfl
    rw [h] at h'
    cases h'; rfl

/-- C43: the names of integral types: they tell sizes and signedness apart, and nothing else. (`bool` is called
`uint8_t`, like `unsigned char`.) -/
theorem C43_integer_types (t t' : IntType) : t.name = t'.name ↔ t.signed = t'.signed ∧ t.bytes = t'.bytes := by
  constructor
  · intro h
    simp only [IntType.name, mangleNat_eq, List.append_nil] at h
    have hd : ∀ n c, c ∈ decDigits n → c.isDigit := fun n c hc => (decDigits_decimal n).1.digits c hc
    have key : ∀ a b : Nat, decDigits (8 * a) ++ "_t".toList = decDigits (8 * b) ++ "_t".toList → a = b := by
      intro a b e
      have := decDigits_inj (List.append_cancel_right e)
      omega
    cases hs : t.signed <;> cases hs' : t'.signed <;> simp only [hs, hs'] at h
    · exact ⟨rfl, key _ _ (List.append_cancel_left h)⟩
    · exact absurd (List.cons.inj h).1 (by decide)
    · exact absurd (List.cons.inj h).1 (by decide)
    · exact ⟨rfl, key _ _ (List.append_cancel_left h)⟩
  · rintro ⟨h1, h2⟩
    simp only [IntType.name, h1, h2]

/-- C43: so different types can have the same name, for instance `bool` and `unsigned char`. -/
theorem C43_integer_types_collide : ∃ t t' : IntType, t ≠ t' ∧ t.name = t'.name :=
  ⟨⟨false, 1, 0⟩, ⟨false, 1, 1⟩, by decide, rfl⟩

/-! ### Examples -/

/-- The types of elements have names made of `i` and `j`; the first 26 dimensions are small letters. -/
def c43Names : Names where
  elem z a := List.replicate z 'i' ++ 'j' :: List.replicate a 'i'
  dim d := Char.ofNat (d + 97)
  isChar d := d < 26

theorem c43Names_ok : c43Names.Ok where
  dim := by
    have : ∀ d e : Fin 26, Char.ofNat (d + 97) = Char.ofNat (e + 97) → d = e := by decide
    intro d e hd he h
    simp only [c43Names, decide_eq_true_eq] at hd he h
    exact congrArg Fin.val (this ⟨d, hd⟩ ⟨e, he⟩ h)
  elem := by
    intro z a z' a' h
    simp only [c43Names] at h
    have hz : z = z' := by
      have h1 : ∀ (n : Nat) (r : List Char), (List.replicate n 'i' ++ 'j' :: r).takeWhile (· == 'i') = List.replicate n 'i' := by
        intro n r
        induction n with
        | zero => rfl
        | succ n ih => simp [List.replicate_succ, ih]
      have := congrArg (fun l => (List.takeWhile (· == 'i') l).length) h
      simpa [h1] using this
    subst hz
    refine ⟨rfl, ?_⟩
    have := congrArg List.length h
    simp at this
    exact this
  name := by
    intro z a
    refine ⟨fun c hc => ?_, by simp [c43Names]⟩
    have : c = 'i' ∨ c = 'j' := by
      simp only [c43Names, List.mem_append, List.mem_cons, List.mem_replicate] at hc
      grind
    rcases this with rfl | rfl <;> decide

/-- `n` rows, each a number and `m` characters, every second row from the first on, with names for the dimensions. -/
def c43Struct (n m : Val) : Struct := Struct.apply
  (.vector 1 (.tuple 2 2 fun i => if i = 0 then .scalar 4 4 else .view (.setLength 0 m) (.vector 0 (.scalar 1 1))))
  [.setLength 1 n, .step 1 (.lit 0) (.lit 2), .rename [(1, 3)]]

/-- The structures with 10 and with 11 rows have names and texts, and the names are equal, but not the texts. -/
example : ∃ d d' e e', (c43Struct (.dyn 10) (.lit 8)).desc c43Names = some d ∧
    (c43Struct (.dyn 11) (.lit 8)).desc c43Names = some d' ∧ (c43Struct (.dyn 10) (.lit 8)).expr c43Names = some e ∧
    (c43Struct (.dyn 11) (.lit 8)).expr c43Names = some e' ∧ d.text = d'.text ∧ e.text 8 ≠ e'.text 8 := by
  refine ⟨_, _, _, _, rfl, rfl, rfl, rfl,
    (C43_same_name_iff_same_type c43Names c43Names_ok (c43Struct (.dyn 10) (.lit 8)) (c43Struct (.dyn 11) (.lit 8)) _ _
      rfl rfl).2 rfl, fun h => ?_⟩
  have hf : ∀ n, n < 2 ^ 64 → (c43Struct (.dyn n) (.lit 8)).fits (2 ^ 64) := by
    intro n hn
    refine ⟨trivial, ⟨fun k hk => by cases hk; decide, fun k hk => by cases hk; decide⟩, fun k hk => by cases hk; exact hn,
      by decide, fun i => ?_⟩
    match i with
    | 0 => exact ⟨by decide, by decide⟩
    | 1 => exact ⟨fun k hk => by cases hk; decide, by decide, by decide⟩
  have := (C43_same_text_iff_equal c43Names c43Names_ok (c43Struct (.dyn 10) (.lit 8)) (c43Struct (.dyn 11) (.lit 8)) _ _
    rfl rfl (hf 10 (by decide)) (hf 11 (by decide))).2.1 h
  simp [c43Struct, Struct.apply] at this

/-- A constant that does not fit in `int`, a dimension that is not a character, and a union have no name. -/
example : (Struct.view (.setLength 0 (.lit (2 ^ 31))) (.vector 0 (.scalar 4 4))).desc c43Names = none ∧
    (Struct.vector 26 (.scalar 4 4)).desc c43Names = none ∧
    (Struct.union 1 fun _ => .vector 0 (.scalar 4 4)).desc c43Names = none := by
  refine ⟨?_, rfl, rfl⟩
  simp [Struct.desc, View.desc, View.vals, Val.desc, c43Names]

end Noarr
