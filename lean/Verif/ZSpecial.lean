import Verif.ZCurve

/-
The special part of the z-order curve (`zc_special`) deinterleaves bits. Used for C25.
-/

namespace Noarr.ZC

/-- The mask repeats its bits with the given period, up to the word size. -/
theorem testBit_repBits (fuel P b p : Nat) (hP : 0 < P) (hf : 64 ≤ P * 2 ^ fuel) (hb : b < 2 ^ P)
    (hp : p < 64) : (repBits fuel P b).testBit p = b.testBit (p % P) := by
  induction fuel generalizing P b with
  | zero =>
    simp only [repBits]
    rw [Nat.mod_eq_of_lt (by omega)]
  | succ fuel ih =>
    simp only [repBits]
    split
    · rw [Nat.mod_eq_of_lt (by omega)]
    · next h =>
      have hlt : (b <<< P) % 2 ^ 64 < 2 ^ (2 * P) := by
        refine Nat.lt_of_le_of_lt (Nat.mod_le _ _) ?_
        rw [Nat.shiftLeft_eq, Nat.two_mul, Nat.pow_add]
        exact Nat.mul_lt_mul_of_pos_right hb (Nat.two_pow_pos _)
      have hlt2 : b < 2 ^ (2 * P) :=
        Nat.lt_of_lt_of_le hb (Nat.pow_le_pow_right (by omega) (by omega))
      rw [ih (2 * P) _ (by omega) (by rw [Nat.pow_succ] at hf; rw [Nat.mul_assoc, Nat.mul_left_comm, Nat.mul_comm 2]; exact hf)
        (Nat.or_lt_two_pow hlt2 hlt)]
      rw [Nat.testBit_or, Nat.testBit_mod_two_pow, Nat.testBit_shiftLeft]
      have h2 : p % (2 * P) < 64 := Nat.lt_of_le_of_lt (Nat.mod_le _ _) hp
      have h3 := Nat.mod_lt p (show 0 < 2 * P by omega)
      have h4 : p % P = p % (2 * P) % P := by
        rw [Nat.mod_mul_left_mod]
      rw [h4]
      generalize p % (2 * P) = m at *
      by_cases hm : m < P
      · simp [Nat.mod_eq_of_lt hm, show ¬ m ≥ P by omega]
      · have h5 : m % P = m - P := by
          rw [Nat.mod_eq_sub_mod (by omega), Nat.mod_eq_of_lt (by omega)]
        have h6 : b.testBit m = false :=
          Nat.testBit_lt_two_pow (Nat.lt_of_lt_of_le hb (Nat.pow_le_pow_right (by omega) (by omega)))
        simp [h5, h6, h2, show m ≥ P by omega]

/-- the mask of iteration `k` -/
theorem testBit_mask (n k p : Nat) (hn : 2 ≤ n) (hp : p < 64) :
    (repBits 7 (n <<< k) ((1 <<< (1 <<< k)) - 1)).testBit p = decide (p % (n * 2 ^ k) < 2 ^ k) := by
  have hk : 0 < 2 ^ k := Nat.two_pow_pos k
  have h1 : n <<< k = n * 2 ^ k := Nat.shiftLeft_eq _ _
  have h2 : (1 <<< (1 <<< k)) - 1 = 2 ^ (2 ^ k) - 1 := by simp [Nat.shiftLeft_eq]
  rw [h1, h2, testBit_repBits _ _ _ _ (Nat.mul_pos (by omega) hk) ?_ ?_ hp]
  · simp [Nat.testBit_two_pow_sub_one]
  · have : 1 * 1 ≤ n * 2 ^ k := Nat.mul_le_mul (by omega) hk
    omega
  · have : 2 ^ (2 ^ k) ≤ 2 ^ (n * 2 ^ k) :=
      Nat.pow_le_pow_right (by omega) (Nat.le_mul_of_pos_left _ (by omega))
    have := Nat.two_pow_pos (2 ^ k)
    omega

/-- After `k` rounds, the wanted bits are gathered in groups of `2^k`. -/
theorem testBit_specialFold (n k tmp : Nat) (hn : 2 ≤ n) (ht : tmp < 2 ^ 64) :
    specialFold n k tmp < 2 ^ 64 ∧ ∀ q r, r < 2 ^ k →
      (specialFold n k tmp).testBit (q * (n * 2 ^ k) + r) = tmp.testBit (n * (q * 2 ^ k + r)) := by
  induction k with
  | zero =>
    refine ⟨ht, fun q r hr => ?_⟩
    have : r = 0 := by simp at hr; exact hr
    subst this
    simp [specialFold, Nat.mul_comm]
  | succ k ih =>
    obtain ⟨hlt, ih⟩ := ih
    simp only [specialFold]
    have hk : 0 < 2 ^ k := Nat.two_pow_pos k
    have hk1 : 2 ^ (k + 1) = 2 ^ k + 2 ^ k := by rw [Nat.pow_succ]; omega
    have hnk : 2 * 2 ^ k ≤ n * 2 ^ k := Nat.mul_le_mul_right _ hn
    have hn1 : (n - 1) * 2 ^ k + 2 ^ k = n * 2 ^ k := by
      rw [Nat.sub_mul]; omega
    generalize hM : repBits 7 (n <<< k) ((1 <<< (1 <<< k)) - 1) = M
    have hMb : ∀ p, p < 64 → M.testBit p = decide (p % (n * 2 ^ k) < 2 ^ k) := fun p hp => by
      rw [← hM]; exact testBit_mask n k p hn hp
    generalize hS : specialFold n k tmp = S at *
    have hand : S &&& M < 2 ^ 64 := Nat.lt_of_le_of_lt Nat.and_le_left hlt
    -- a bit of the masked value
    have hbit : ∀ p, (S &&& M).testBit p = (S.testBit p && decide (p % (n * 2 ^ k) < 2 ^ k)) := by
      intro p
      rw [Nat.testBit_and]
      by_cases hp : p < 64
      · rw [hMb p hp]
      · have : S.testBit p = false :=
          Nat.testBit_lt_two_pow (Nat.lt_of_lt_of_le hlt (Nat.pow_le_pow_right (by omega) (by omega)))
        simp [this]
    refine ⟨Nat.or_lt_two_pow hand (Nat.lt_of_le_of_lt (Nat.shiftRight_le _ _) hand), fun q r hr => ?_⟩
    rw [Nat.testBit_or, Nat.testBit_shiftRight, Nat.shiftLeft_eq, hbit, hbit]
    have hq : q * (n * 2 ^ (k + 1)) = (2 * q) * (n * 2 ^ k) := by
      rw [Nat.pow_succ, ← Nat.mul_assoc n, ← Nat.mul_assoc, Nat.mul_right_comm, Nat.mul_comm _ 2,
        ← Nat.mul_assoc]
    rw [hq]
    have hmod : ∀ a b, b < n * 2 ^ k → (a * (n * 2 ^ k) + b) % (n * 2 ^ k) = b := by
      intro a b hb
      rw [Nat.add_comm, Nat.add_mul_mod_self_right, Nat.mod_eq_of_lt hb]
    by_cases hlo : r < 2 ^ k
    · -- the bit comes from the group itself
      have e1 : (2 * q * (n * 2 ^ k) + r) % (n * 2 ^ k) = r := hmod _ _ (by omega)
      have e2 : ((n - 1) * 2 ^ k + (2 * q * (n * 2 ^ k) + r)) % (n * 2 ^ k) = (n - 1) * 2 ^ k + r := by
        have : (n - 1) * 2 ^ k + (2 * q * (n * 2 ^ k) + r) =
          2 * q * (n * 2 ^ k) + ((n - 1) * 2 ^ k + r) := by omega
        rw [this]; exact hmod _ _ (by omega)
      have e3 : ¬ (n - 1) * 2 ^ k + r < 2 ^ k := by omega
      rw [e1, e2]
      simp only [hlo, e3, decide_true, decide_false, Bool.and_true, Bool.and_false, Bool.or_false]
      rw [ih (2 * q) r hlo, Nat.pow_succ]
      congr 2
      rw [Nat.mul_comm 2 q, Nat.mul_assoc, Nat.mul_comm 2]
    · -- the bit comes from the next group
      obtain ⟨r', rfl⟩ : ∃ r', r = 2 ^ k + r' := ⟨r - 2 ^ k, by omega⟩
      have hr' : r' < 2 ^ k := by omega
      have e1 : (2 * q * (n * 2 ^ k) + (2 ^ k + r')) % (n * 2 ^ k) = 2 ^ k + r' := hmod _ _ (by omega)
      have e0 : (n - 1) * 2 ^ k + (2 * q * (n * 2 ^ k) + (2 ^ k + r')) =
          (2 * q + 1) * (n * 2 ^ k) + r' := by
        rw [Nat.add_mul, Nat.one_mul]; omega
      have e2 := hmod (2 * q + 1) r' (by omega)
      rw [e0, e1, e2]
      simp only [hr', show ¬ 2 ^ k + r' < 2 ^ k by omega, decide_true, decide_false, Bool.and_true,
        Bool.and_false, Bool.false_or]
      rw [ih (2 * q + 1) r' hr', Nat.pow_succ]
      congr 2
      rw [Nat.add_mul, Nat.one_mul, Nat.mul_comm 2 q, Nat.mul_assoc, Nat.mul_comm 2, Nat.add_assoc]

/-- The number of rounds is enough to reach the word size, and not more. -/
theorem numIter_spec (fuel P : Nat) (hP : 0 < P) (hf : 64 ≤ P * 2 ^ fuel) :
    64 ≤ P * 2 ^ numIter fuel P ∧ (P < 64 → P * 2 ^ numIter fuel P < 128) ∧
      (64 ≤ P → numIter fuel P = 0) := by
  induction fuel generalizing P with
  | zero =>
    simp only [numIter, Nat.pow_zero, Nat.mul_one] at hf ⊢
    exact ⟨hf, fun h => by omega, fun _ => trivial⟩
  | succ fuel ih =>
    simp only [numIter]
    split
    · refine ⟨?_, ?_, ?_⟩ <;> simp <;> omega
    · next h =>
      have he : P * 2 ^ (numIter fuel (2 * P) + 1) = 2 * P * 2 ^ numIter fuel (2 * P) := by
        rw [Nat.pow_succ, ← Nat.mul_assoc, Nat.mul_comm _ 2, Nat.mul_assoc]
      obtain ⟨h1, h2, h3⟩ := ih (2 * P) (by omega) (by
        rw [Nat.pow_succ, ← Nat.mul_assoc] at hf; rw [Nat.mul_assoc]; omega)
      rw [he]
      refine ⟨h1, fun _ => ?_, fun h' => absurd h' h⟩
      by_cases h4 : 2 * P < 64
      · exact h2 h4
      · rw [h3 (by omega)]; omega

/-- `zc_special` picks the bits of one dimension, for at least two dimensions. -/
theorem special_bits (n dim z : Nat) (hn : 2 ≤ n) (hd : dim < n) (hz : z < 2 ^ 64) :
    ∃ r, special n dim z = .ok r ∧ ∀ k, r.testBit k = z.testBit (n * k + (n - 1 - dim)) := by
  obtain ⟨h1, h2, h3⟩ := numIter_spec 7 n (by omega) (by omega)
  have hw : 2 ^ numIter 7 n < 64 := by
    by_cases h : n < 64
    · have := h2 h
      have : 2 * 2 ^ numIter 7 n ≤ n * 2 ^ numIter 7 n := Nat.mul_le_mul_right _ hn
      omega
    · rw [h3 (by omega)]; omega
  have hs : 1 <<< numIter 7 n = 2 ^ numIter 7 n := by simp [Nat.shiftLeft_eq]
  simp only [special, hs, show ¬ 2 ^ numIter 7 n ≥ 64 by omega, ↓reduceIte]
  refine ⟨_, rfl, fun k => ?_⟩
  have hlt : z >>> (n - dim - 1) < 2 ^ 64 := Nat.lt_of_le_of_lt (Nat.shiftRight_le _ _) hz
  have hb := (testBit_specialFold n (numIter 7 n) _ hn hlt).2 0 k
  rw [Nat.testBit_and, Nat.shiftLeft_eq, Nat.one_mul, Nat.testBit_two_pow_sub_one]
  by_cases hk : k < 2 ^ numIter 7 n
  · have := hb hk
    simp only [Nat.zero_mul, Nat.zero_add] at this
    rw [this, Nat.testBit_shiftRight]
    simp only [hk, decide_true, Bool.and_true]
    congr 1
    omega
  · have hbig : 64 ≤ n * k + (n - 1 - dim) := by
      have : n * 2 ^ numIter 7 n ≤ n * k := Nat.mul_le_mul_left _ (by omega)
      omega
    have : z.testBit (n * k + (n - 1 - dim)) = false :=
      Nat.testBit_lt_two_pow (Nat.lt_of_lt_of_le hz (Nat.pow_le_pow_right (by omega) hbig))
    simp [hk, this]

/-- For a single dimension, the final mask is an oversized shift. -/
theorem special_one (dim z : Nat) : special 1 dim z = .error .ub := by
  simp [special, numIter, Nat.shiftLeft_eq]

end Noarr.ZC
