import Verif.SerializeSpec

/-
The codecs for integers give back what was written.
-/

namespace Noarr

theorem ofBytes_lt (b : List UInt8) : ofBytes b < 256 ^ b.length := by
  induction b with
  | nil => simp [ofBytes]
  | cons x b ih =>
    simp only [ofBytes, List.length_cons, Nat.pow_succ]
    have := x.toNat_lt
    omega

theorem toBytes_ofBytes (b : List UInt8) : toBytes b.length (ofBytes b) = b := by
  induction b with
  | nil => rfl
  | cons x b ih =>
    have := x.toNat_lt
    simp only [ofBytes, List.length_cons, toBytes]
    rw [show (x.toNat + 256 * ofBytes b) % 256 = x.toNat by omega,
      show (x.toNat + 256 * ofBytes b) / 256 = ofBytes b by omega, ih]
    simp

theorem digit_spec : ∀ n : Fin 10, (Char.ofNat (48 + n)).isDigit = true ∧
    (Char.ofNat (48 + n)).toNat - 48 = n ∧ isSpace (Char.ofNat (48 + n)) = false ∧
    Char.ofNat (48 + n) ≠ '-' ∧ Char.ofNat (48 + n) ≠ '+' := by decide

theorem digits_spec (n : Nat) : (∀ c ∈ digits n, c.isDigit = true ∧ isSpace c = false ∧ c ≠ '-' ∧ c ≠ '+') ∧
    digits n ≠ [] ∧ parseDigits (digits n) = n := by
  induction n using Nat.strongRecOn with
  | ind n ih =>
    rw [digits]
    split
    · next h =>
      have := digit_spec ⟨n, h⟩
      refine ⟨?_, by simp, ?_⟩
      · intro c hc
        rw [List.mem_singleton] at hc
        subst hc
        exact ⟨this.1, this.2.2⟩
      · simpa [parseDigits] using this.2.1
    · next h =>
      obtain ⟨h1, h2, h3⟩ := ih (n / 10) (by omega)
      have := digit_spec ⟨n % 10, by omega⟩
      refine ⟨?_, by simp, ?_⟩
      · intro c hc
        rcases List.mem_append.1 hc with hc | hc
        · exact h1 c hc
        · rw [List.mem_singleton] at hc
          subst hc
          exact ⟨this.1, this.2.2⟩
      · have e := this.2.1
        simp only [parseDigits, List.foldl_append, List.foldl_cons, List.foldl_nil] at h3 ⊢
        rw [h3]
        dsimp only at e
        rw [e]; omega

theorem dropWhile_all {α : Type} {p : α → Bool} {l r : List α} (h : ∀ a ∈ l, p a = true) :
    (l ++ r).dropWhile p = r.dropWhile p := by
  induction l with
  | nil => rfl
  | cons a l ih => simp [h a (by simp), ih fun b hb => h b (by simp [hb])]

theorem takeWhile_all {α : Type} {p : α → Bool} {l r : List α} (h : ∀ a ∈ l, p a = true) :
    (l ++ r).takeWhile p = l ++ r.takeWhile p := by
  induction l with
  | nil => rfl
  | cons a l ih => simp [h a (by simp), ih fun b hb => h b (by simp [hb])]

theorem digits_head (n : Nat) (r : List Char) : (digits n ++ r).dropWhile isSpace = digits n ++ r := by
  obtain ⟨h1, h2, -⟩ := digits_spec n
  cases h : digits n with
  | nil => exact absurd h h2
  | cons c cs =>
    have := (h1 c (by simp [h])).2.1
    simp [this]

theorem digits_take (n : Nat) (r : List Char) : (digits n ++ '\n' :: r).takeWhile Char.isDigit = digits n := by
  rw [takeWhile_all fun c hc => ((digits_spec n).1 c hc).1]
  simp [show Char.isDigit '\n' = false from by decide]

theorem digits_drop (n : Nat) (r : List Char) :
    (digits n ++ '\n' :: r).dropWhile Char.isDigit = '\n' :: r := by
  rw [dropWhile_all fun c hc => ((digits_spec n).1 c hc).1]
  simp [show Char.isDigit '\n' = false from by decide]

theorem digits_isEmpty (n : Nat) : (digits n).isEmpty = false := by
  have := (digits_spec n).2.1
  cases h : digits n with
  | nil => exact absurd h this
  | cons => rfl

theorem digits_append_isEmpty (n : Nat) (r : List Char) : (digits n ++ r).isEmpty = false := by
  have := digits_isEmpty n
  cases h : digits n with
  | nil => simp [h] at this
  | cons => rfl

theorem uintCodec_roundTrips (e : Nat) : RoundTrips (uintCodec e) fun b => b.length = e := by
  intro b hb ws rest hws
  subst hb
  simp only [uintCodec]
  rw [List.append_assoc, dropWhile_all hws, digits_head, digits_take, digits_drop, digits_isEmpty, digits_append_isEmpty,
    (digits_spec _).2.2, if_pos (ofBytes_lt b), toBytes_ofBytes]
  simp

theorem takeSign_digits (n : Nat) (r : List Char) : takeSign (digits n ++ r) = (false, digits n ++ r) := by
  obtain ⟨h1, h2, -⟩ := digits_spec n
  cases hd : digits n with
  | nil => exact absurd hd h2
  | cons c cs =>
    obtain ⟨-, -, g1, g2⟩ := h1 c (by simp [hd])
    simp only [List.cons_append]
    unfold takeSign
    split
    · next e => cases e; exact absurd rfl g1
    · next e => cases e; exact absurd rfl g2
    · rfl

theorem intCodec_roundTrips (e : Nat) (he : 0 < e) : RoundTrips (intCodec e) fun b => b.length = e := by
  intro b hb ws rest hws
  subst hb
  have hlt := ofBytes_lt b
  have h256 : 256 ^ b.length / 2 * 2 = 256 ^ b.length := by
    cases h : b.length with
    | zero => omega
    | succ k => rw [Nat.pow_succ]; omega
  generalize hM : 256 ^ b.length = M at *
  simp only [intCodec, hM]
  rw [List.append_assoc, dropWhile_all hws]
  by_cases h : ofBytes b < M / 2
  · simp only [if_pos h, digits_head, takeSign_digits, digits_take, digits_drop, digits_isEmpty,
      digits_append_isEmpty, (digits_spec _).2.2, toBytes_ofBytes]
    simp
  · have hs : isSpace '-' = false := by decide
    simp only [if_neg h, List.cons_append, List.dropWhile_cons, hs, Bool.false_eq_true, if_false, takeSign,
      if_true, digits_take, digits_drop, digits_isEmpty, List.isEmpty_cons, (digits_spec _).2.2]
    rw [if_pos (by omega), show M - (M - ofBytes b) = ofBytes b by omega,
      Nat.mod_eq_of_lt hlt, toBytes_ofBytes]

/-- White space is lost if it is the data. -/
theorem charCodec_roundTrips :
    RoundTrips charCodec fun b => ∃ x : UInt8, b = [x] ∧ x.toNat < 128 ∧ isSpace (Char.ofNat x.toNat) = false := by
  rintro _ ⟨x, rfl, hx, hs⟩ ws rest hws
  simp only [charCodec, List.map_cons, List.map_nil]
  rw [List.append_assoc, dropWhile_all hws]
  simp only [List.singleton_append, List.dropWhile_cons, hs, Bool.false_eq_true, if_false]
  have : (Char.ofNat x.toNat).toNat = x.toNat := by
    rw [Char.ofNat, dif_pos (by simp [Nat.isValidChar]; omega)]
    rfl
  rw [this]
  simp

end Noarr
