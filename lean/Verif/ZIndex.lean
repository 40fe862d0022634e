import Verif.ZGeneral
import Verif.ZSpecial

/-
The z-order curve as a whole: the general part on the blocks, the special part within a block.
Used for C25.
-/

set_option linter.unusedSectionVars false

namespace Noarr.ZC

/-- Numbers with prescribed bits. -/
theorem exists_bits (f : Nat → Bool) (m : Nat) :
    ∃ z, z < 2 ^ m ∧ ∀ p, p < m → z.testBit p = f p := by
  induction m with
  | zero => exact ⟨0, by simp, fun p hp => by omega⟩
  | succ m ih =>
    obtain ⟨z, hz, hb⟩ := ih
    refine ⟨z ||| (if f m then 2 ^ m else 0), ?_, fun p hp => ?_⟩
    · apply Nat.or_lt_two_pow (Nat.lt_trans hz (Nat.pow_lt_pow_right (by omega) (by omega)))
      split
      · exact Nat.pow_lt_pow_right (by omega) (by omega)
      · exact Nat.two_pow_pos _
    · rw [Nat.testBit_or]
      by_cases h : p < m
      · rw [hb p h]
        split
        · rw [Nat.testBit_two_pow_of_ne (by omega)]; simp
        · simp
      · obtain rfl : p = m := by omega
        rw [Nat.testBit_lt_two_pow hz]
        split <;> simp_all

/-- Bits of two numbers below `2^m` determine them. -/
theorem eq_of_bits {a b m : Nat} (ha : a < 2 ^ m) (hb : b < 2 ^ m)
    (h : ∀ p, p < m → a.testBit p = b.testBit p) : a = b := by
  apply Nat.eq_of_testBit_eq
  intro p
  by_cases hp : p < m
  · exact h p hp
  · have h2 : 2 ^ m ≤ 2 ^ p := Nat.pow_le_pow_right (by omega) (by omega)
    rw [Nat.testBit_lt_two_pow (Nat.lt_of_lt_of_le ha h2),
      Nat.testBit_lt_two_pow (Nat.lt_of_lt_of_le hb h2)]

section Special
variable {n sl : Nat} (hn : 2 ≤ n) (h32 : sl * n < 32)
include hn h32

theorem lt64 {z : Nat} (hz : z < 2 ^ (sl * n)) : z < 2 ^ 64 :=
  Nat.lt_of_lt_of_le hz (Nat.pow_le_pow_right (by omega) (by omega))

theorem special_ok {z dim : Nat} (hd : dim < n) (hz : z < 2 ^ (sl * n)) :
    ∃ r, special n dim z = .ok r ∧ r < 2 ^ sl := by
  obtain ⟨r, h1, h2⟩ := special_bits n dim z hn hd (lt64 hn h32 hz)
  refine ⟨r, h1, ?_⟩
  apply Nat.lt_pow_two_of_testBit
  intro k hk
  rw [h2]
  apply Nat.testBit_lt_two_pow
  refine Nat.lt_of_lt_of_le hz (Nat.pow_le_pow_right (by omega) ?_)
  have := Nat.mul_le_mul_left n hk
  rw [Nat.mul_comm n sl] at this
  omega

theorem special_inj {z z' : Nat} (hz : z < 2 ^ (sl * n)) (hz' : z' < 2 ^ (sl * n))
    (h : ∀ dim < n, special n dim z = special n dim z') : z = z' := by
  apply eq_of_bits hz hz'
  intro p hp
  have hm := Nat.mod_lt p (show 0 < n by omega)
  have hd : n - 1 - p % n < n := by omega
  obtain ⟨r, h1, h2⟩ := special_bits n _ z hn hd (lt64 hn h32 hz)
  obtain ⟨r', h1', h2'⟩ := special_bits n _ z' hn hd (lt64 hn h32 hz')
  have := h _ hd
  rw [h1, h1'] at this
  cases this
  have a := h2 (p / n)
  have b := h2' (p / n)
  have e : n * (p / n) + (n - 1 - (n - 1 - p % n)) = p := by
    have := Nat.div_add_mod p n
    omega
  rw [e] at a b
  rw [← a, ← b]

theorem special_surj {t : Nat → Nat} (ht : ∀ j < n, t j < 2 ^ sl) :
    ∃ z, z < 2 ^ (sl * n) ∧ ∀ j < n, special n j z = .ok (t j) := by
  obtain ⟨z, hz, hb⟩ := exists_bits (fun p => (t (n - 1 - p % n)).testBit (p / n)) (sl * n)
  refine ⟨z, hz, fun j hj => ?_⟩
  obtain ⟨r, h1, h2⟩ := special_bits n j z hn hj (lt64 hn h32 hz)
  obtain ⟨r', h1', h3⟩ := special_ok hn h32 hj hz
  rw [h1] at h1'
  cases h1'
  rw [h1]
  congr 1
  apply eq_of_bits h3 (ht j hj)
  intro k hk
  have hlt : n * k + (n - 1 - j) < sl * n := by
    have := Nat.mul_le_mul_left n hk
    rw [Nat.mul_comm n sl, Nat.mul_succ] at this
    omega
  rw [h2, hb _ hlt]
  rw [Nat.mul_add_mod, Nat.mod_eq_of_lt (by omega : n - 1 - j < n), Nat.mul_add_div (by omega),
    Nat.div_eq_of_lt (by omega : n - 1 - j < n)]
  congr 2; omega

end Special

theorem prod_mul_pow {f g : Nat → Nat} {a : Nat} (n : Nat) (h : ∀ j < n, f j = g j * a) :
    prod f n = prod g n * a ^ n := by
  induction n with
  | zero => simp [prod]
  | succ n ih =>
    simp only [prod]
    rw [ih (fun j hj => h j (by omega)), h n (by omega), Nat.pow_succ]
    simp only [Nat.mul_assoc, Nat.mul_left_comm, Nat.mul_comm]

section Index
variable {n sl gl : Nat} {len : Nat → Nat} (hn : 2 ≤ n) (h32 : sl * n < 32) (hsg : sl ≤ gl)
  (hdiv : ∀ j < n, 2 ^ sl ∣ len j) (hle : ∀ j < n, len j ≤ 2 ^ gl)
include hn h32 hsg hdiv hle

theorem blocks_le : ∀ j < n, len j / 2 ^ sl ≤ 2 ^ (gl - sl) := by
  intro j hj
  apply Nat.div_le_of_le_mul
  rw [← Nat.pow_add, Nat.add_sub_cancel' hsg]
  exact hle j hj

theorem prod_blocks : prod len n = prod (fun j => len j / 2 ^ sl) n * 2 ^ (sl * n) := by
  rw [Nat.pow_mul]
  apply prod_mul_pow
  intro j hj
  exact (Nat.div_mul_cancel (hdiv j hj)).symm

theorem block_lt {z : Nat} (hz : z < prod len n) :
    z / 2 ^ (sl * n) < prod (fun j => len j / 2 ^ sl) n := by
  rw [prod_blocks hn h32 hsg hdiv hle] at hz
  exact Nat.div_lt_of_lt_mul (by rw [Nat.mul_comm]; exact hz)

/-- The two halves of the computation. -/
theorem index_parts {z : Nat} (hz : z < prod len n) :
    ∃ g : Nat → Nat, ∃ s : Nat → Nat,
      general .ideal n (gl - sl) (z / 2 ^ (sl * n)) (fun j => len j / 2 ^ sl) = .ok g ∧
      (∀ j < n, g j < len j / 2 ^ sl) ∧
      (∀ j < n, special n j (z % 2 ^ (sl * n)) = .ok (s j) ∧ s j < 2 ^ sl) ∧
      ∀ j < n, index .ideal n sl gl len z j = .ok (g j * 2 ^ sl + s j) := by
  obtain ⟨g, hg, hgl⟩ := general_ok (blocks_le hn h32 hsg hdiv hle) (block_lt hn h32 hsg hdiv hle hz)
  have hs : ∀ j, ∃ r, j < n → special n j (z % 2 ^ (sl * n)) = .ok r ∧ r < 2 ^ sl := by
    intro j
    by_cases hj : j < n
    · obtain ⟨r, h⟩ := special_ok hn h32 hj (Nat.mod_lt z (Nat.two_pow_pos (sl * n)))
      exact ⟨r, fun _ => h⟩
    · exact ⟨0, fun h => absurd h hj⟩
  obtain ⟨s, hs⟩ := Classical.axiomOfChoice hs
  refine ⟨g, s, hg, hgl, hs, fun j hj => ?_⟩
  simp only [index, show ¬ sl * n ≥ 32 by omega, ↓reduceIte, hg, (hs j hj).1, bind, Except.bind]
  simp only [Arith.ideal]

/-- Indices are computed without fault and lie in range. -/
theorem index_ok {z : Nat} (hz : z < prod len n) :
    ∃ r : Nat → Nat, ∀ j < n, index .ideal n sl gl len z j = .ok (r j) ∧ r j < len j := by
  obtain ⟨g, s, -, hgl, hs, hi⟩ := index_parts hn h32 hsg hdiv hle hz
  refine ⟨_, fun j hj => ⟨hi j hj, ?_⟩⟩
  have h1 := hgl j hj
  have h2 := (hs j hj).2
  have h3 : (g j + 1) * 2 ^ sl ≤ len j / 2 ^ sl * 2 ^ sl := Nat.mul_le_mul_right _ h1
  rw [Nat.div_mul_cancel (hdiv j hj), Nat.succ_mul] at h3
  omega

/-- Different numbers give different tuples of indices. -/
theorem index_inj {z z' : Nat} (hz : z < prod len n) (hz' : z' < prod len n)
    (h : ∀ j < n, index .ideal n sl gl len z j = index .ideal n sl gl len z' j) : z = z' := by
  obtain ⟨g, s, hg, hgl, hs, hi⟩ := index_parts hn h32 hsg hdiv hle hz
  obtain ⟨g', s', hg', hgl', hs', hi'⟩ := index_parts hn h32 hsg hdiv hle hz'
  have hp : ∀ j < n, g j = g' j ∧ s j = s' j := by
    intro j hj
    have := h j hj
    rw [hi j hj, hi' j hj] at this
    injection this with this
    have hpos := Nat.two_pow_pos sl
    have a1 : (g j * 2 ^ sl + s j) / 2 ^ sl = g j := by
      rw [Nat.mul_comm, Nat.mul_add_div hpos, Nat.div_eq_of_lt (hs j hj).2, Nat.add_zero]
    have a2 : (g' j * 2 ^ sl + s' j) / 2 ^ sl = g' j := by
      rw [Nat.mul_comm, Nat.mul_add_div hpos, Nat.div_eq_of_lt (hs' j hj).2, Nat.add_zero]
    have hgg : g j = g' j := by rw [← a1, ← a2, this]
    refine ⟨hgg, ?_⟩
    rw [hgg] at this
    omega
  have h1 : z / 2 ^ (sl * n) = z' / 2 ^ (sl * n) :=
    general_inj (blocks_le hn h32 hsg hdiv hle) (block_lt hn h32 hsg hdiv hle hz)
      (block_lt hn h32 hsg hdiv hle hz') hg hg' (fun j hj => (hp j hj).1)
  have h2 : z % 2 ^ (sl * n) = z' % 2 ^ (sl * n) := by
    apply special_inj hn h32 (Nat.mod_lt _ (Nat.two_pow_pos _)) (Nat.mod_lt _ (Nat.two_pow_pos _))
    intro j hj
    rw [(hs j hj).1, (hs' j hj).1, (hp j hj).2]
  rw [← Nat.div_add_mod z (2 ^ (sl * n)), ← Nat.div_add_mod z' (2 ^ (sl * n)), h1, h2]

/-- Every tuple of indices in range is reached. -/
theorem index_surj {t : Nat → Nat} (ht : ∀ j < n, t j < len j) :
    ∃ z, z < prod len n ∧ ∀ j < n, index .ideal n sl gl len z j = .ok (t j) := by
  have hpos := Nat.two_pow_pos sl
  obtain ⟨zs, hzs, hs⟩ := special_surj (t := fun j => t j % 2 ^ sl) hn h32
    (fun j _ => Nat.mod_lt _ hpos)
  obtain ⟨zg, g, hzg, hg, hgt⟩ := general_surj (t := fun j => t j / 2 ^ sl)
    (blocks_le hn h32 hsg hdiv hle) (fun j hj => by
      rw [Nat.div_lt_iff_lt_mul hpos, Nat.div_mul_cancel (hdiv j hj)]
      exact ht j hj)
  have hz : 2 ^ (sl * n) * zg + zs < prod len n := by
    rw [prod_blocks hn h32 hsg hdiv hle]
    have := Nat.mul_le_mul_left (2 ^ (sl * n)) hzg
    rw [Nat.mul_succ] at this
    rw [Nat.mul_comm (prod _ _)]
    omega
  refine ⟨_, hz, fun j hj => ?_⟩
  have e1 : (2 ^ (sl * n) * zg + zs) / 2 ^ (sl * n) = zg := by
    rw [Nat.mul_add_div (Nat.two_pow_pos _), Nat.div_eq_of_lt hzs, Nat.add_zero]
  have e2 : (2 ^ (sl * n) * zg + zs) % 2 ^ (sl * n) = zs := by
    rw [Nat.mul_add_mod, Nat.mod_eq_of_lt hzs]
  simp only [index, show ¬ sl * n ≥ 32 by omega, ↓reduceIte, e1, e2, hg, hs j hj, bind, Except.bind]
  simp only [Arith.ideal, hgt j hj]
  rw [Nat.div_add_mod' (t j)]

end Index

end Noarr.ZC
