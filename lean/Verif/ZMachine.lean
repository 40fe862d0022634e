import Verif.ZSub
import Verif.MachineZ

/-
The index function of `merge_zcurve` in `size_t`: the intermediate results stay below the word size if the volumes of
the boxes do.
-/

namespace Noarr.ZC

theorem prod_mono {f g : Nat → Nat} {n : Nat} (h : ∀ j, j < n → f j ≤ g j) : prod f n ≤ prod g n := by
  induction n with
  | zero => exact Nat.le_refl _
  | succ n ih => exact Nat.mul_le_mul (ih fun j hj => h j (by omega)) (h n (by omega))

theorem prod_pos {f : Nat → Nat} {n : Nat} (h : ∀ j, j < n → 0 < f j) : 0 < prod f n := by
  induction n with
  | zero => exact Nat.one_pos
  | succ n ih => exact Nat.mul_pos (ih fun j hj => h j (by omega)) (h n (by omega))

theorem prod_le {f : Nat → Nat} {n m : Nat} (hm : m ≤ n) (h : ∀ j, j < n → 0 < f j) : prod f m ≤ prod f n := by
  induction n with
  | zero => rw [Nat.le_zero.1 hm]; exact Nat.le_refl _
  | succ n ih =>
    by_cases e : m = n + 1
    · rw [e]; exact Nat.le_refl _
    · refine Nat.le_trans (ih (by omega) fun j hj => h j (by omega)) ?_
      exact Nat.le_mul_of_pos_right _ (h n (by omega))

theorem prodBut_mono {f g : Nat → Nat} {i n : Nat} (h : ∀ j, j < n → f j ≤ g j) : prodBut f i n ≤ prodBut g i n := by
  apply prod_mono
  intro j hj
  by_cases e : j = i
  · simp [e]
  · simp [e, h j hj]

section
variable {W : Nat} {n : Nat} {size : Nat → Nat} (hW : 1 < W) (hsW : ∀ j, j < n → size j < W)
include hW hsW

theorem facetFactor_checked {r : Nat → Nat} {lvl i j : Nat} (hjn : j < n) (hj : j ≠ i) (hlt : r j < size j)
    (hd : 2 ^ lvls lvl i j ∣ r j) :
    facetFactor (.checked W) size r lvl i j = .ok (ext size (lvls lvl i) r j) := by
  have h := facetFactor_eq hj hlt hd
  have hs := hsW j hjn
  unfold facetFactor at h ⊢
  rw [if_neg hj] at h ⊢
  generalize (if j > i then 2 else 1) * 2 ^ lvl = T at h ⊢
  simp only at h ⊢
  by_cases e : size j / T * T = r j
  · rw [if_pos e] at h ⊢
    have h1 : 1 ≤ size j := by omega
    simp only [Arith.ideal, Arith.checked, h1, ↓reduceIte, bind, Except.bind] at h ⊢
    have := Nat.mod_le (size j - 1) T
    rw [if_pos (by omega)]
    exact h
  · rw [if_neg e] at h ⊢
    exact h

theorem facet_checked {r : Nat → Nat} {lvl i : Nat} (m : Nat) (hm : m ≤ n) (hlt : ∀ j, j < n → r j < size j)
    (hd : ∀ j, j < n → 2 ^ lvls lvl i j ∣ r j) (hP : prodBut size i n < W) :
    facet (.checked W) size r lvl i m = .ok (prodBut (ext size (lvls lvl i) r) i m) := by
  induction m with
  | zero => rfl
  | succ m ih =>
    simp only [facet, ih (by omega), bind, Except.bind]
    have hpos : ∀ j, j < n → 0 < (if j = i then 1 else size j) := by
      intro j hj
      have := hlt j hj
      split <;> omega
    have hle : prodBut (ext size (lvls lvl i) r) i (m + 1) < W := by
      refine Nat.lt_of_le_of_lt (Nat.le_trans (prodBut_mono (g := size) fun j _ => ?_) (prod_le hm hpos)) hP
      simp only [ext]; omega
    by_cases h : m = i
    · simp only [facetFactor, h, ↓reduceIte, Arith.checked]
      rw [h] at hle
      simp only [prodBut, prod, ↓reduceIte, Nat.mul_one] at hle ⊢
      exact if_pos hle
    · rw [facetFactor_checked hW hsW (by omega) h (hlt m (by omega)) (hd m (by omega))]
      simp only [Arith.checked]
      simp only [prodBut, prod, h, ↓reduceIte] at hle ⊢
      exact if_pos hle

theorem step_checked {lvl i z : Nat} {r : Nat → Nat} (hi : i < n) (h : Inv n size (lvls lvl i) z r)
    (hP : prodBut size i n * 2 ^ lvl < W) :
    step (.checked W) n size lvl i (z, r) = step .ideal n size lvl i (z, r) := by
  have hpp := Nat.two_pow_pos lvl
  have hP' : prodBut size i n < W := Nat.lt_of_le_of_lt (Nat.le_mul_of_pos_right _ hpp) hP
  obtain ⟨z', r', he, h', -⟩ := (refines_step n size lvl i hi).run z r h
  have hle : prodBut (ext size (lvls lvl i) r) i n * 2 ^ lvl < W := by
    refine Nat.lt_of_le_of_lt (Nat.mul_le_mul_right _ (prodBut_mono (g := size) fun j _ => ?_)) hP
    simp only [ext]; omega
  rw [he]
  simp only [step, facet_eq n n (Nat.le_refl _) h.lt h.dvd, bind, Except.bind] at he
  simp only [step, facet_checked hW hsW n (Nat.le_refl _) h.lt h.dvd hP', bind, Except.bind]
  simp only [Arith.ideal] at he
  simp only [Arith.checked, if_pos hle]
  split
  · next hz =>
    simp only [if_pos hz] at he ⊢
    have h1 := h'.lt i hi
    have h2 := hsW i hi
    cases he
    simp only [↓reduceIte] at h1
    rw [if_pos (by omega)]
  · next hz =>
    simp only [if_neg hz] at he
    exact he

theorem level_checked {lvl z : Nat} {r : Nat → Nat} (i : Nat) (hi : i ≤ n) (h : Inv n size (lvls lvl 0) z r)
    (hP : ∀ j, j < n → prodBut size j n * 2 ^ lvl < W) :
    level (.checked W) n size lvl i (z, r) = level .ideal n size lvl i (z, r) := by
  induction i with
  | zero => rfl
  | succ i ih =>
    simp only [level, ih (by omega)]
    obtain ⟨z', r', he, h', -⟩ := (refines_level n size lvl i (by omega)).run z r h
    simp only [he, bind, Except.bind]
    exact step_checked hW hsW hi h' (hP i hi)

theorem loop_checked (levels : Nat) {z : Nat} {r : Nat → Nat} (h : Inv n size (fun _ => levels) z r)
    (hP : ∀ j, j < n → prodBut size j n * 2 ^ (levels - 1) < W) :
    loop (.checked W) n size levels (z, r) = loop .ideal n size levels (z, r) := by
  induction levels generalizing z r with
  | zero => rfl
  | succ lvl ih =>
    have h0 : (fun _ => lvl + 1) = lvls lvl 0 := by funext j; simp [lvls]
    rw [h0] at h
    simp only [loop, level_checked hW hsW n (Nat.le_refl _) h hP]
    obtain ⟨z', r', he, h', -⟩ := (refines_level n size lvl n (Nat.le_refl _)).run z r h
    simp only [he, bind, Except.bind]
    refine ih ?_ ?_
    · refine ⟨h'.lt, fun j hj => ?_, ?_⟩
      · have := h'.dvd j hj
        simpa only [lvls, hj, ↓reduceIte] using this
      · have := h'.z
        rwa [prod_congr (g := ext size (fun _ => lvl) r') (fun j hj => by simp [ext, lvls, hj])] at this
    · intro j hj
      refine Nat.lt_of_le_of_lt (Nat.mul_le_mul_left _ (Nat.pow_le_pow_right (by omega) ?_)) (hP j hj)
      omega

theorem general_checked {levels z : Nat} (hs : ∀ j, j < n → size j ≤ 2 ^ levels) (hz : z < prod size n)
    (hP : ∀ j, j < n → prodBut size j n * 2 ^ (levels - 1) < W) :
    general (.checked W) n levels z size = general .ideal n levels z size := by
  have hpos : ∀ j, j < n → 0 < size j := by
    intro j hj
    rcases Nat.eq_zero_or_pos (size j) with h | h
    · rw [prod_split hj, h] at hz; simp at hz
    · exact h
  unfold general
  rw [loop_checked hW hsW levels ⟨hpos, fun _ _ => Nat.dvd_zero _, ?_⟩ hP]
  rwa [prod_congr (g := size) (fun j hj => by have := hs j hj; simp only [ext]; omega)]

end

/-- In `size_t`, the indices are those of unbounded numbers, if for every dimension the volume of a slab - half the
maximum length in this dimension, the actual lengths in the others, counted in units of the alignment - is below the word
size. -/
theorem index_machine {W n sl gl : Nat} {len : Nat → Nat} (hW : 1 < W) (hn : 2 ≤ n) (h32 : sl * n < 32) (hsg : sl ≤ gl)
    (hdiv : ∀ j < n, 2 ^ sl ∣ len j) (hle : ∀ j < n, len j ≤ 2 ^ gl) (hl : ∀ j < n, len j < W)
    (hP : ∀ j < n, prodBut (fun j => len j / 2 ^ sl) j n * 2 ^ (gl - sl - 1) < W) {z i : Nat} (hz : z < prod len n)
    (hzW : z < W) (hi : i < n) : index (.machine W) n sl gl len z i = index .ideal n sl gl len z i := by
  obtain ⟨g, s, hg, hgl, hs, hx⟩ := index_parts hn h32 hsg hdiv hle hz
  obtain ⟨r, hr⟩ := index_ok hn h32 hsg hdiv hle hz
  have hc : index (.checked W) n sl gl len z i = .ok (g i * 2 ^ sl + s i) := by
    simp only [index, show ¬ sl * n ≥ 32 by omega, ↓reduceIte]
    rw [general_checked hW (fun j hj => Nat.lt_of_le_of_lt (Nat.div_le_self _ _) (hl j hj))
      (blocks_le hn h32 hsg hdiv hle) (block_lt hn h32 hsg hdiv hle hz) hP, hg]
    have h1 := (hr i hi).1
    rw [hx i hi] at h1
    have h2 := (hr i hi).2
    have h3 := hl i hi
    injection h1 with h1
    simp only [(hs i hi).1, bind, Except.bind, Arith.checked]
    rw [if_pos (by omega)]
    simp only
    rw [if_pos (by omega)]
  rw [hx i hi]
  let len' := fun j => if j < n then len j else 0
  have e : ∀ A : Arith, index A n sl gl len z i = index A n sl gl len' z i := fun A =>
    index_congr fun j hj => by simp [len', hj]
  rw [e] at hc ⊢
  refine (index_rel (Arith.agrees_machine W) hW (len := len') (fun j => ?_) hzW hc).1
  simp only [len']
  split
  · next h => exact hl j h
  · omega

end Noarr.ZC
