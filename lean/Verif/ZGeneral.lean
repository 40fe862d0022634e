import Verif.ZCurve

/-
The general part of the z-order curve (`zc_general`) enumerates the box. Used for C25.
-/

namespace Noarr.ZC

/-- The product of the first `n` values. -/
def prod (f : Nat → Nat) : Nat → Nat
  | 0 => 1
  | n + 1 => prod f n * f n

theorem prod_congr {f g : Nat → Nat} {n : Nat} (h : ∀ j, j < n → f j = g j) :
    prod f n = prod g n := by
  induction n with
  | zero => rfl
  | succ n ih =>
    simp only [prod]
    rw [ih fun j hj => h j (by omega), h n (by omega)]

/-- The product of all but the `i`-th value. -/
def prodBut (f : Nat → Nat) (i n : Nat) : Nat := prod (fun j => if j = i then 1 else f j) n

theorem prod_split {f : Nat → Nat} {i n : Nat} (hi : i < n) : prod f n = prodBut f i n * f i := by
  induction n with
  | zero => omega
  | succ n ih =>
    by_cases h : i = n
    · subst h
      simp only [prodBut, prod, ↓reduceIte, Nat.mul_one]
      congr 1
      exact prod_congr fun j hj => by simp [show j ≠ i by omega]
    · have := ih (by omega)
      have hn : n ≠ i := fun e => h e.symm
      simp only [prodBut, prod, hn, ↓reduceIte] at this ⊢
      rw [this, Nat.mul_right_comm]

theorem prodBut_congr {f g : Nat → Nat} {i n : Nat} (h : ∀ j, j < n → j ≠ i → f j = g j) :
    prodBut f i n = prodBut g i n := by
  apply prod_congr
  intro j hj
  by_cases e : j = i
  · simp [e]
  · simp [e, h j hj e]

/-- The extent of the box that is still open in dimension `j`. -/
def ext (size : Nat → Nat) (l r : Nat → Nat) (j : Nat) : Nat := min (2 ^ l j) (size j - r j)

/-- What holds between the steps: `l j` is the level reached in dimension `j`. -/
structure Inv (n : Nat) (size l : Nat → Nat) (z : Nat) (r : Nat → Nat) : Prop where
  lt : ∀ j, j < n → r j < size j
  dvd : ∀ j, j < n → 2 ^ l j ∣ r j
  z : z < prod (ext size l r) n

/-- The target lies in the open box. -/
def InBox (n : Nat) (size l r t : Nat → Nat) : Prop :=
  ∀ j, j < n → r j ≤ t j ∧ t j < r j + ext size l r j

/-- The computation `f` refines boxes of level `l` into boxes of level `l'`, one-to-one. -/
structure Refines (n : Nat) (size l l' : Nat → Nat)
    (f : Nat × (Nat → Nat) → Except Fault (Nat × (Nat → Nat))) : Prop where
  run : ∀ z r, Inv n size l z r → ∃ z' r', f (z, r) = .ok (z', r') ∧ Inv n size l' z' r' ∧
    ∀ t, InBox n size l' r' t → InBox n size l r t
  inj : ∀ r z₁ z₂ z₁' z₂' r₁ r₂ t, Inv n size l z₁ r → Inv n size l z₂ r →
    f (z₁, r) = .ok (z₁', r₁) → f (z₂, r) = .ok (z₂', r₂) →
    InBox n size l' r₁ t → InBox n size l' r₂ t → r₁ = r₂ ∧ (z₁' = z₂' → z₁ = z₂)
  surj : ∀ r t, (∀ j, j < n → r j < size j) → (∀ j, j < n → 2 ^ l j ∣ r j) → InBox n size l r t →
    ∃ r', InBox n size l' r' t ∧ (∀ j, j < n → r' j < size j) ∧ (∀ j, j < n → 2 ^ l' j ∣ r' j) ∧
      ∀ z', z' < prod (ext size l' r') n → ∃ z, z < prod (ext size l r) n ∧ f (z, r) = .ok (z', r')

theorem Refines.refl (n : Nat) (size l : Nat → Nat) : Refines n size l l .ok where
  run z r h := ⟨z, r, rfl, h, fun _ => id⟩
  inj r z₁ z₂ z₁' z₂' r₁ r₂ t h1 h2 e1 e2 _ _ := by
    cases e1; cases e2; exact ⟨rfl, id⟩
  surj r t h1 h2 h3 := ⟨r, h3, h1, h2, fun z hz => ⟨z, hz, rfl⟩⟩

theorem Refines.comp {n : Nat} {size l l' l'' : Nat → Nat}
    {f g : Nat × (Nat → Nat) → Except Fault (Nat × (Nat → Nat))}
    (hf : Refines n size l l' f) (hg : Refines n size l' l'' g) :
    Refines n size l l'' (fun zr => f zr >>= g) where
  run z r h := by
    obtain ⟨z', r', e, h', hb⟩ := hf.run z r h
    obtain ⟨z'', r'', e', h'', hb'⟩ := hg.run z' r' h'
    exact ⟨z'', r'', by simp [e, e', bind, Except.bind], h'', fun t ht => hb t (hb' t ht)⟩
  inj r z₁ z₂ z₁'' z₂'' r₁ r₂ t h1 h2 e1 e2 b1 b2 := by
    obtain ⟨z₁', r₁', e1', h1', hb1⟩ := hf.run z₁ r h1
    obtain ⟨z₂', r₂', e2', h2', hb2⟩ := hf.run z₂ r h2
    simp only [e1', bind, Except.bind] at e1
    simp only [e2', bind, Except.bind] at e2
    obtain ⟨x1, x2, e1'', -, hb1'⟩ := hg.run z₁' r₁' h1'
    obtain ⟨y1, y2, e2'', -, hb2'⟩ := hg.run z₂' r₂' h2'
    rw [e1] at e1''; cases e1''
    rw [e2] at e2''; cases e2''
    obtain ⟨rfl, hz⟩ := hf.inj r z₁ z₂ z₁' z₂' r₁' r₂' t h1 h2 e1' e2' (hb1' t b1) (hb2' t b2)
    obtain ⟨hr, hz'⟩ := hg.inj r₁' z₁' z₂' z₁'' z₂'' r₁ r₂ t h1' h2' e1 e2 b1 b2
    exact ⟨hr, fun h => hz (hz' h)⟩
  surj r t h1 h2 h3 := by
    obtain ⟨r', b1, l1, d1, s1⟩ := hf.surj r t h1 h2 h3
    obtain ⟨r'', b2, l2, d2, s2⟩ := hg.surj r' t l1 d1 b1
    refine ⟨r'', b2, l2, d2, fun z'' hz => ?_⟩
    obtain ⟨z', hz', e'⟩ := s2 z'' hz
    obtain ⟨z, hz, e⟩ := s1 z' hz'
    exact ⟨z, hz, by simp [e, e', bind, Except.bind]⟩

/-- The level in dimension `j` before dimension `i` is halved at level `lvl`. -/
def lvls (lvl i j : Nat) : Nat := if j < i then lvl else lvl + 1

/-- The code's case distinction computes the extent. -/
theorem facetFactor_eq {size r : Nat → Nat} {lvl i j : Nat} (hj : j ≠ i) (hlt : r j < size j)
    (hd : 2 ^ lvls lvl i j ∣ r j) :
    facetFactor .ideal size r lvl i j = .ok (ext size (lvls lvl i) r j) := by
  have htile : (if j > i then 2 else 1) * 2 ^ lvl = 2 ^ lvls lvl i j := by
    unfold lvls
    by_cases h : j < i
    · simp [h, show ¬ j > i by omega]
    · simp [h, show j > i by omega, Nat.pow_succ, Nat.mul_comm]
  simp only [facetFactor, hj, ↓reduceIte, htile, ext]
  generalize hT : 2 ^ lvls lvl i j = T at *
  have hTpos : 0 < T := hT ▸ Nat.two_pow_pos _
  obtain ⟨k, hk⟩ := hd
  have hdm := Nat.div_add_mod (size j) T
  have hml := Nat.mod_lt (size j) hTpos
  rw [Nat.mul_comm] at hdm
  split
  · next h =>
    rw [h] at hdm
    have h1 : 1 ≤ size j := by omega
    have h2 : (size j - 1) % T = size j % T - 1 := by
      rw [hk] at hdm
      have : size j - 1 = (size j % T - 1) + T * k := by omega
      rw [this, Nat.add_mul_mod_self_left, Nat.mod_eq_of_lt (by omega)]
    simp only [Arith.ideal, h1, ↓reduceIte, bind, Except.bind, h2]
    congr 1
    omega
  · next h =>
    congr 1
    have : r j + T ≤ size j := by
      rw [hk] at h hlt ⊢
      have h1 : T * k ≤ size j / T * T := by
        rw [Nat.mul_comm T k]
        exact Nat.mul_le_mul_right _ ((Nat.le_div_iff_mul_le hTpos).2 (by rw [Nat.mul_comm]; omega))
      have h2 : k < size j / T := by
        rcases Nat.lt_or_ge k (size j / T) with h3 | h3
        · exact h3
        · exfalso; apply h
          have := Nat.mul_le_mul_right T h3
          rw [Nat.mul_comm k T] at this
          omega
      have h3 : (k + 1) * T ≤ size j / T * T := Nat.mul_le_mul_right _ h2
      rw [Nat.succ_mul, Nat.mul_comm k T] at h3
      omega
    omega

theorem facet_eq {size r : Nat → Nat} {lvl i : Nat} (n m : Nat) (hm : m ≤ n)
    (hlt : ∀ j, j < n → r j < size j) (hd : ∀ j, j < n → 2 ^ lvls lvl i j ∣ r j) :
    facet .ideal size r lvl i m = .ok (prodBut (ext size (lvls lvl i) r) i m) := by
  induction m with
  | zero => rfl
  | succ m ih =>
    simp only [facet, ih (by omega), bind, Except.bind, prodBut, prod]
    by_cases h : m = i
    · simp [facetFactor, h, Arith.ideal]
    · rw [facetFactor_eq h (hlt m (by omega)) (hd m (by omega))]
      simp [h, Arith.ideal]

/-- One step of `zc_general` halves one dimension. -/
theorem refines_step (n : Nat) (size : Nat → Nat) (lvl i : Nat) (hi : i < n) :
    Refines n size (lvls lvl i) (lvls lvl (i + 1)) (step .ideal n size lvl i) := by
  have hl : ∀ j, j ≠ i → lvls lvl (i + 1) j = lvls lvl i j := by
    intro j hj; unfold lvls; split <;> split <;> omega
  have hli : lvls lvl i i = lvl + 1 := by simp [lvls]
  have hli' : lvls lvl (i + 1) i = lvl := by simp [lvls]
  have hpow : 2 ^ (lvl + 1) = 2 * 2 ^ lvl := by rw [Nat.pow_succ, Nat.mul_comm]
  have hpp : 0 < 2 ^ lvl := Nat.two_pow_pos _
  -- the step, once the facet is known
  have hstep : ∀ z r, (∀ j, j < n → r j < size j) → (∀ j, j < n → 2 ^ lvls lvl i j ∣ r j) →
      step .ideal n size lvl i (z, r) =
        let F := prodBut (ext size (lvls lvl i) r) i n
        if F * 2 ^ lvl ≤ z then .ok (z - F * 2 ^ lvl, fun j => if j = i then r i + 2 ^ lvl else r j)
        else .ok (z, r) := by
    intro z r h1 h2
    simp only [step, facet_eq n n (Nat.le_refl _) h1 h2, bind, Except.bind]
    simp only [Arith.ideal]
    split <;> simp [*]
  have hext : ∀ (r r' : Nat → Nat), (∀ j, j ≠ i → r' j = r j) → ∀ j, j ≠ i →
      ext size (lvls lvl (i + 1)) r' j = ext size (lvls lvl i) r j := by
    intro r r' h j hj
    simp only [ext, hl j hj, h j hj]
  have hlow : ∀ r, ext size (lvls lvl (i + 1)) r i = min (2 ^ lvl) (size i - r i) := by
    intro r; simp only [ext, hli']
  have hhigh : ∀ r, ext size (lvls lvl i) r i = min (2 * 2 ^ lvl) (size i - r i) := by
    intro r; simp only [ext, hli, hpow]
  have hP : ∀ r r', (∀ j, j ≠ i → r' j = r j) →
      prod (ext size (lvls lvl (i + 1)) r') n =
        prodBut (ext size (lvls lvl i) r) i n * ext size (lvls lvl (i + 1)) r' i := by
    intro r r' h
    rw [prod_split hi, prodBut_congr fun j _ hj => hext r r' h j hj]
  have hdown : ∀ a, 2 ^ (lvl + 1) ∣ a → 2 ^ lvl ∣ a := fun a h =>
    Nat.dvd_trans (Nat.pow_dvd_pow 2 (Nat.le_succ lvl)) h
  constructor
  · intro z r ⟨h1, h2, h3⟩
    rw [hstep z r h1 h2]
    dsimp only
    rw [prod_split hi, hhigh] at h3
    generalize hF : prodBut (ext size (lvls lvl i) r) i n = F at *
    have hFpos : 0 < F := by
      rcases Nat.eq_zero_or_pos F with h | h
      · rw [h] at h3; simp at h3
      · exact h
    by_cases hc : F * 2 ^ lvl ≤ z
    · simp only [hc, ↓reduceIte]
      have hgt : 2 ^ lvl < min (2 * 2 ^ lvl) (size i - r i) := by
        have := Nat.lt_of_le_of_lt hc h3
        exact Nat.lt_of_mul_lt_mul_left this
      refine ⟨_, _, rfl, ⟨?_, ?_, ?_⟩, ?_⟩
      · intro j hj
        by_cases e : j = i
        · subst e; simp; omega
        · simp [e, h1 j hj]
      · intro j hj
        by_cases e : j = i
        · subst e
          simp only [hli', ↓reduceIte]
          have := h2 j hj
          rw [hli] at this
          exact (Nat.dvd_add_right (hdown _ this)).2 (Nat.dvd_refl _)
        · simp only [e, ↓reduceIte, hl j e]; exact h2 j hj
      · rw [hP r _ (fun j hj => by simp [hj]), hF, hlow]
        simp only [↓reduceIte]
        have : min (2 ^ lvl) (size i - (r i + 2 ^ lvl)) = min (2 * 2 ^ lvl) (size i - r i) - 2 ^ lvl := by
          omega
        rw [this, Nat.mul_sub]
        omega
      · intro t ht j hj
        have := ht j hj
        by_cases e : j = i
        · subst e
          rw [hlow] at this; rw [hhigh]; simp only [↓reduceIte] at this
          omega
        · rw [hext r _ (fun j hj => by simp [hj]) j e] at this
          simpa [e] using this
    · simp only [hc, ↓reduceIte]
      refine ⟨_, _, rfl, ⟨h1, ?_, ?_⟩, ?_⟩
      · intro j hj
        by_cases e : j = i
        · subst e
          have := h2 j hj
          rw [hli] at this; rw [hli']
          exact hdown _ this
        · rw [hl j e]; exact h2 j hj
      · rw [hP r r (fun _ _ => rfl), hF, hlow]
        have h4 := h1 i hi
        by_cases h5 : 2 ^ lvl ≤ size i - r i
        · rw [Nat.min_eq_left h5]; omega
        · rw [Nat.min_eq_right (by omega)] at h3
          rw [Nat.min_eq_right (by omega)]; exact h3
      · intro t ht j hj
        have := ht j hj
        by_cases e : j = i
        · subst e; rw [hlow] at this; rw [hhigh]; omega
        · rw [hext r r (fun _ _ => rfl) j e] at this; exact this
  · intro r z₁ z₂ z₁' z₂' r₁ r₂ t ⟨h1, h2, h3⟩ ⟨_, _, h4⟩ e1 e2 b1 b2
    rw [hstep _ r h1 h2] at e1 e2
    dsimp only at e1 e2
    generalize prodBut (ext size (lvls lvl i) r) i n = F at *
    have c1 := b1 i hi
    have c2 := b2 i hi
    rw [hlow] at c1 c2
    split at e1 <;> split at e2 <;> cases e1 <;> cases e2
    · exact ⟨rfl, fun h => by omega⟩
    · simp only [↓reduceIte] at c1; omega
    · simp only [↓reduceIte] at c2; omega
    · exact ⟨rfl, id⟩
  · intro r t h1 h2 hb
    have hbi := hb i hi
    rw [hhigh] at hbi
    have hF : 0 < prodBut (ext size (lvls lvl i) r) i n := by
      have : ∀ m, m ≤ n → 0 < prodBut (ext size (lvls lvl i) r) i m := by
        intro m hm
        induction m with
        | zero => simp [prodBut, prod]
        | succ m ih =>
          have ih := ih (by omega)
          simp only [prodBut, prod] at ih ⊢
          refine Nat.mul_pos ih ?_
          split
          · omega
          · have := h1 m (by omega)
            have := Nat.two_pow_pos (lvls lvl i m)
            simp only [ext]; omega
      exact this n (Nat.le_refl _)
    by_cases hc : r i + 2 ^ lvl ≤ t i
    · refine ⟨fun j => if j = i then r i + 2 ^ lvl else r j, ?_, ?_, ?_, ?_⟩
      · intro j hj
        by_cases e : j = i
        · subst e; rw [hlow]; simp only [↓reduceIte]; omega
        · rw [hext r _ (fun j hj => by simp [hj]) j e]; simpa [e] using hb j hj
      · intro j hj
        by_cases e : j = i
        · subst e; simp; omega
        · simp [e, h1 j hj]
      · intro j hj
        by_cases e : j = i
        · subst e
          simp only [hli', ↓reduceIte]
          have := h2 j hj
          rw [hli] at this
          exact (Nat.dvd_add_right (hdown _ this)).2 (Nat.dvd_refl _)
        · simp only [e, ↓reduceIte, hl j e]; exact h2 j hj
      · intro z' hz'
        rw [hP r _ (fun j hj => by simp [hj]), hlow] at hz'
        simp only [↓reduceIte] at hz'
        refine ⟨z' + prodBut (ext size (lvls lvl i) r) i n * 2 ^ lvl, ?_, ?_⟩
        · rw [prod_split hi, hhigh]
          generalize prodBut (ext size (lvls lvl i) r) i n = F at *
          have : min (2 * 2 ^ lvl) (size i - r i) =
              min (2 ^ lvl) (size i - (r i + 2 ^ lvl)) + 2 ^ lvl := by omega
          rw [this, Nat.mul_add]
          omega
        · rw [hstep _ r h1 h2]
          simp
    · refine ⟨r, ?_, h1, ?_, ?_⟩
      · intro j hj
        by_cases e : j = i
        · subst e; rw [hlow]; omega
        · rw [hext r r (fun _ _ => rfl) j e]; exact hb j hj
      · intro j hj
        by_cases e : j = i
        · subst e
          have := h2 j hj
          rw [hli] at this; rw [hli']
          exact hdown _ this
        · rw [hl j e]; exact h2 j hj
      · intro z' hz'
        rw [hP r r (fun _ _ => rfl), hlow] at hz'
        refine ⟨z', ?_, ?_⟩
        · rw [prod_split hi, hhigh]
          refine Nat.lt_of_lt_of_le hz' (Nat.mul_le_mul_left _ ?_)
          omega
        · rw [hstep _ r h1 h2]
          have : ¬ prodBut (ext size (lvls lvl i) r) i n * 2 ^ lvl ≤ z' := by
            have := Nat.mul_le_mul_left (prodBut (ext size (lvls lvl i) r) i n)
              (Nat.min_le_left (2 ^ lvl) (size i - r i))
            omega
          simp only [this, ↓reduceIte]

theorem refines_level (n : Nat) (size : Nat → Nat) (lvl i : Nat) (hi : i ≤ n) :
    Refines n size (lvls lvl 0) (lvls lvl i) (level .ideal n size lvl i) := by
  induction i with
  | zero => exact Refines.refl n size _
  | succ i ih => exact (ih (by omega)).comp (refines_step n size lvl i (by omega))

/-- Only the levels of the first `n` dimensions matter. -/
theorem Refines.congr {n : Nat} {size l₁ l₂ l' : Nat → Nat}
    {f : Nat × (Nat → Nat) → Except Fault (Nat × (Nat → Nat))} (h : Refines n size l₁ l' f)
    (hl : ∀ j, j < n → l₁ j = l₂ j) : Refines n size l₂ l' f := by
  have he : ∀ r, prod (ext size l₂ r) n = prod (ext size l₁ r) n := fun r =>
    prod_congr fun j hj => by simp only [ext, hl j hj]
  have hI : ∀ z r, Inv n size l₂ z r → Inv n size l₁ z r := fun z r ⟨a, b, c⟩ =>
    ⟨a, fun j hj => by rw [hl j hj]; exact b j hj, by rw [← he]; exact c⟩
  have hB : ∀ r t, InBox n size l₂ r t ↔ InBox n size l₁ r t := fun r t =>
    ⟨fun hh j hj => by simpa only [ext, hl j hj] using hh j hj,
      fun hh j hj => by simpa only [ext, hl j hj] using hh j hj⟩
  refine ⟨fun z r hi => ?_, fun r z₁ z₂ z₁' z₂' r₁ r₂ t h1 h2 => ?_, fun r t a b c => ?_⟩
  · obtain ⟨z', r', e, i', b⟩ := h.run z r (hI z r hi)
    exact ⟨z', r', e, i', fun t ht => (hB r t).2 (b t ht)⟩
  · exact h.inj r z₁ z₂ z₁' z₂' r₁ r₂ t (hI _ _ h1) (hI _ _ h2)
  · obtain ⟨r', x, y, w, s⟩ := h.surj r t a (fun j hj => by rw [hl j hj]; exact b j hj) ((hB r t).1 c)
    exact ⟨r', x, y, w, fun z' hz' => by rw [he]; exact s z' hz'⟩

theorem refines_loop (n : Nat) (size : Nat → Nat) (levels : Nat) :
    Refines n size (fun _ => levels) (fun _ => 0) (loop .ideal n size levels) := by
  induction levels with
  | zero => exact Refines.refl n size _
  | succ lvl ih =>
    have h1 := (refines_level n size lvl n (Nat.le_refl _)).congr (l₂ := fun _ => lvl + 1)
      (fun j _ => by simp [lvls])
    exact h1.comp (ih.congr fun j hj => by simp [lvls, hj])

theorem inBox_zero {n : Nat} {size r t : Nat → Nat} (hr : ∀ j, j < n → r j < size j)
    : InBox n size (fun _ => 0) r t ↔ ∀ j, j < n → t j = r j := by
  constructor
  · intro h j hj
    have := h j hj
    simp only [ext] at this
    omega
  · intro h j hj
    have := h j hj
    have := hr j hj
    simp only [ext]
    omega

/-- `zc_general` is defined on every number below the volume and stays inside the box. -/
theorem general_ok {n levels : Nat} {size : Nat → Nat} (hs : ∀ j, j < n → size j ≤ 2 ^ levels)
    {z : Nat} (hz : z < prod size n) :
    ∃ r, general .ideal n levels z size = .ok r ∧ ∀ j, j < n → r j < size j := by
  have hpos : ∀ j, j < n → 0 < size j := by
    intro j hj
    rcases Nat.eq_zero_or_pos (size j) with h | h
    · rw [prod_split hj, h] at hz; simp at hz
    · exact h
  have hi : Inv n size (fun _ => levels) z (fun _ => 0) := by
    refine ⟨hpos, fun _ _ => Nat.dvd_zero _, ?_⟩
    rw [prod_congr (g := size)]
    · exact hz
    · intro j hj; have := hs j hj; simp only [ext]; omega
  obtain ⟨z', r', e, i', -⟩ := (refines_loop n size levels).run z _ hi
  exact ⟨r', by simp [general, e, bind, Except.bind], i'.lt⟩

/-- Different numbers below the volume go to different points. -/
theorem general_inj {n levels : Nat} {size : Nat → Nat} (hs : ∀ j, j < n → size j ≤ 2 ^ levels)
    {z₁ z₂ : Nat} (h1 : z₁ < prod size n) (h2 : z₂ < prod size n) {r₁ r₂ : Nat → Nat}
    (e1 : general .ideal n levels z₁ size = .ok r₁)
    (e2 : general .ideal n levels z₂ size = .ok r₂) (h : ∀ j, j < n → r₁ j = r₂ j) : z₁ = z₂ := by
  have hpos : ∀ j, j < n → 0 < size j := by
    intro j hj
    rcases Nat.eq_zero_or_pos (size j) with h | h
    · rw [prod_split hj, h] at h1; simp at h1
    · exact h
  have hi : ∀ z, z < prod size n → Inv n size (fun _ => levels) z (fun _ => 0) := by
    intro z hz
    refine ⟨hpos, fun _ _ => Nat.dvd_zero _, ?_⟩
    rw [prod_congr (g := size)]
    · exact hz
    · intro j hj; have := hs j hj; simp only [ext]; omega
  obtain ⟨z₁', r₁', f1, i1, -⟩ := (refines_loop n size levels).run z₁ _ (hi _ h1)
  obtain ⟨z₂', r₂', f2, i2, -⟩ := (refines_loop n size levels).run z₂ _ (hi _ h2)
  simp only [general, f1, bind, Except.bind, Except.ok.injEq] at e1
  simp only [general, f2, bind, Except.bind, Except.ok.injEq] at e2
  subst e1 e2
  have hz : ∀ z r, Inv n size (fun _ => 0) z r → z = 0 := by
    intro z r hI
    have : prod (ext size (fun _ => 0) r) n = 1 := by
      rw [prod_congr (g := fun _ => 1)]
      · have : ∀ m, prod (fun _ => 1) m = 1 := by
          intro m; induction m with
          | zero => rfl
          | succ m ih => simp [prod, ih]
        exact this n
      · intro j hj; have := hI.lt j hj; simp only [ext]; omega
    have := hI.z
    omega
  exact ((refines_loop n size levels).inj _ z₁ z₂ z₁' z₂' r₁' r₂' r₁' (hi _ h1) (hi _ h2) f1 f2
    ((inBox_zero i1.lt).2 fun _ _ => rfl) ((inBox_zero i2.lt).2 h)).2
    (by rw [hz _ _ i1, hz _ _ i2])

/-- Every point of the box is reached. -/
theorem general_surj {n levels : Nat} {size : Nat → Nat} (hs : ∀ j, j < n → size j ≤ 2 ^ levels)
    {t : Nat → Nat} (ht : ∀ j, j < n → t j < size j) :
    ∃ z r, z < prod size n ∧ general .ideal n levels z size = .ok r ∧ ∀ j, j < n → r j = t j := by
  have he : prod (ext size (fun _ => levels) (fun _ => 0)) n = prod size n :=
    prod_congr fun j hj => by have := hs j hj; simp only [ext]; omega
  obtain ⟨r', b, l, -, s⟩ := (refines_loop n size levels).surj (fun _ => 0) t
    (fun j hj => by have := ht j hj; omega) (fun _ _ => Nat.dvd_zero _)
    (fun j hj => by have := ht j hj; have := hs j hj; simp only [ext]; omega)
  obtain ⟨z, hz, e⟩ := s 0 (by
    have : ∀ m, m ≤ n → 0 < prod (ext size (fun _ => 0) r') m := by
      intro m hm
      induction m with
      | zero => simp [prod]
      | succ m ih =>
        have := l m (by omega)
        exact Nat.mul_pos (ih (by omega)) (by simp only [ext]; omega)
    exact this n (Nat.le_refl _))
  rw [he] at hz
  exact ⟨z, r', hz, by simp [general, e, bind, Except.bind],
    fun j hj => ((inBox_zero l).1 b j hj).symm⟩

end Noarr.ZC
