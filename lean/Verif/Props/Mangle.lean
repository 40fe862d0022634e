import Verif.MangleLemmas

/-
C43: textual names of structures.
-/

namespace Noarr

/-- C43: a template parameter that is not negative is rendered as its decimal representation. (For a
negative one there is no specialization: `mangle` does not compile.) -/
theorem C43_template_integers_are_decimals (v : Int) :
    (∀ cs, mangleValue v = some cs → ∃ n : Nat, v = n ∧ Decimal cs n) ∧
    (mangleValue v = none ↔ v < 0) := by
  cases v with
  | ofNat n =>
    refine ⟨?_, ?_⟩
    · intro cs h
      cases h
      rw [mangleNat_eq, List.append_nil]
      exact ⟨n, rfl, (decDigits_decimal n).1⟩
    · simp only [mangleValue, reduceCtorEq, false_iff]
      exact Int.not_lt.2 (Int.natCast_nonneg n)
  | negSucc n =>
    refine ⟨fun cs h => (by cases h), ?_⟩
    simp only [mangleValue, true_iff]
    exact Int.negSucc_lt_zero n

/-- C43: different numbers have different decimal representations, and a number has only one. -/
theorem C43_decimals_are_unique (cs cs' : List Char) (n m : Nat) (h : Decimal cs n) (h' : Decimal cs' m) :
    cs = cs' ↔ n = m :=
  ⟨fun e => h.inj (e ▸ h'), fun e => by rw [h.eq_digits, h'.eq_digits, e]⟩

/-- C43: `mangle_expr` renders every value of an unsigned type of `bytes` bytes as its decimal
representation, and its buffer is large enough. -/
theorem C43_unsigned_integers_are_decimals (bytes u : Nat) (hb : 0 < bytes) (h : u < 256 ^ bytes) :
    ∃ cs, appendInt bytes false u = .ok cs ∧ Decimal cs u :=
  ⟨_, appendInt_pos hb h, (decDigits_decimal u).1⟩

/-- C43: the same for the values of a signed type that are not negative. Partial: for negative values the
claim is false, see `C43_negative_integers_lose_a_digit`. -/
theorem C43_signed_integers_are_decimals_partial (bytes : Nat) (t : Int) (hb : 0 < bytes) (h0 : 0 ≤ t)
    (h : t.natAbs < 256 ^ bytes) : ∃ cs, appendSigned bytes t = .ok cs ∧ Decimal cs t.natAbs := by
  rw [appendSigned, decide_eq_false (Int.not_lt.2 h0)]
  exact ⟨_, appendInt_pos hb h, (decDigits_decimal _).1⟩

/-- C43: what a negative value of a signed type is rendered as: the sign is not counted in the length of the
text, and so the last digit is lost. -/
theorem C43_negative_integers_lose_a_digit (bytes : Nat) (t : Int) (hb : 0 < bytes) (h0 : t < 0)
    (h : t.natAbs < 256 ^ bytes) :
    ∃ cs c, Decimal (cs ++ [c]) t.natAbs ∧ appendSigned bytes t = .ok ('-' :: cs) := by
  have hd := (decDigits_decimal t.natAbs).1
  refine ⟨(decDigits t.natAbs).dropLast, (decDigits t.natAbs).getLast hd.nonempty, ?_, ?_⟩
  · rw [List.dropLast_concat_getLast]
    exact hd
  · rw [appendSigned, decide_eq_true h0]
    exact appendInt_neg hb h

/-- C43: hence different negative values have the same name (here those of an `int32_t`). -/
theorem C43_negative_names_collide : ∃ t t' : Int, t ≠ t' ∧ appendSigned 4 t = appendSigned 4 t' :=
  ⟨-12, -13, by decide, by
    rw [appendSigned, appendSigned, decide_eq_true (by decide), decide_eq_true (by decide),
      appendInt_neg (by decide) (by decide), appendInt_neg (by decide) (by decide)]
    rw [show Int.natAbs (-12) = 12 by decide, show Int.natAbs (-13) = 13 by decide, decDigits, decDigits]
    simp [decDigits]⟩

/-- C43: names determine what they name: structure templates with the same `mangle` text have the same
names, and the same parameters at all levels: the same dimensions, types, and integers. -/
theorem C43_names_determine_types (d d' : Desc) (h : d.ok) (h' : d'.ok) (e : d.text = d'.text) : d = d' :=
  (Desc.split d d' h h' (r := []) (r' := []) (fun _ _ h => by cases h) (fun _ _ h => by cases h) (by simp [e])).1

/-- C43: and so do the texts of `mangle_expr`: structures with the same text are of the same type and contain
the same numbers. -/
theorem C43_texts_determine_values (bytes : Nat) (hb : 0 < bytes) (e e' : Expr) (h : e.ok bytes) (h' : e'.ok bytes) :
    (∃ t, e.text bytes = .ok t) ∧ (e.text bytes = e'.text bytes → e = e') := by
  rw [Expr.text_eq hb e h, Expr.text_eq hb e' h']
  refine ⟨⟨_, rfl⟩, fun q => ?_⟩
  exact (Expr.split e e' h h' (r := []) (r' := []) (by rw [Except.ok.inj q])).1

/-! ### Examples -/

example : mangleValue 65535 = some "65535".toList := by
  simp [mangleValue, mangleNat, digitChar]

/-- `set_length_t<'x',vector_t<'x',scalar<int32_t>>,std::integral_constant<uint64_t,42>>` (the second case of
tests/mangle_test.cpp). -/
def c43Array : Desc :=
  .node "set_length_t".toList (.cons (.dim 'x') (.cons (.node "vector_t".toList (.cons (.dim 'x')
    (.cons (.node "scalar".toList (.cons (.type "int32_t".toList) .nil)) .nil)))
    (.cons (.constant "uint64_t".toList 42) .nil)))

example : c43Array.text =
    "set_length_t".toList ++ ['<', '\'', 'x', '\'', ','] ++ "vector_t".toList ++ ['<', '\'', 'x', '\'', ','] ++
    "scalar".toList ++ ['<'] ++ "int32_t".toList ++ ['>', '>', ','] ++ constantName ++ ['<'] ++
    "uint64_t".toList ++ [',', '4', '2', '>', '>'] := by
  have e : mangleNat 42 [] = ['4', '2'] := by
    rw [mangleNat, dif_pos (by decide), mangleNat, dif_neg (by decide)]; decide
  simp only [c43Array, Desc.text, Descs.text, e, List.append_assoc, List.cons_append, List.nil_append]

theorem c43Array_ok : c43Array.ok := by
  have n : ∀ cs : List Char, (∀ c ∈ cs, c ∉ special) → IsName cs := fun _ h => h
  refine ⟨n _ (by simp [special]), by decide, by decide, trivial, ⟨n _ (by simp [special]), by decide, by decide, trivial,
    ⟨n _ (by simp [special]), by decide, by decide, ⟨n _ (by simp [special]), by decide⟩, trivial⟩, trivial⟩, n _ (by simp [special]), trivial⟩

/-- `fix_t<'x',...,uint64_t>{...,uint64_t{24},}` -/
def c43Fix : Expr :=
  .node (.node "fix_t".toList (.cons (.dim 'x') (.cons c43Array (.cons (.type "uint64_t".toList) .nil))))
    (.cons (.num "uint64_t".toList 24) (.cons (.lit 42) .nil))

example : c43Fix.ok 8 := by
  have n : ∀ cs : List Char, (∀ c ∈ cs, c ∉ special) → IsName cs := fun _ h => h
  refine ⟨⟨n _ (by simp [special]), by decide, by decide, trivial, c43Array_ok, ⟨n _ (by simp [special]), by decide⟩, trivial⟩,
    ⟨_, _, rfl, by decide⟩, ⟨n _ (by simp [special]), by decide⟩, by show 42 < 256 ^ 8; decide, trivial⟩

end Noarr
