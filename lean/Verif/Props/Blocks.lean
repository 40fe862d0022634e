import Verif.Lemmas

/-
C21 - C24: into_blocks, into_blocks_dynamic, into_blocks_static, merge_blocks.
-/

set_option linter.unusedSimpArgs false

namespace Noarr

/-- `f` numbers the elements of `P` by the numbers below `n`, each exactly once. -/
def Numbers {α : Type} (P : α → Prop) (f : α → Nat) (n : Nat) : Prop :=
  (∀ x, P x → f x < n) ∧ (∀ k, k < n → ∃ x, P x ∧ f x = k) ∧
  (∀ x y, P x → P y → f x = f y → x = y)

/-- Row-major numbering of pairs. -/
theorem numbers_pairs (m n : Nat) :
    Numbers (fun p : Nat × Nat => p.1 < m ∧ p.2 < n) (fun p => p.1 * n + p.2) (m * n) := by
  refine ⟨?_, ?_, ?_⟩
  · rintro ⟨i, j⟩ ⟨hi, hj⟩
    calc i * n + j < i * n + n := by simpa using hj
      _ = (i + 1) * n := by rw [Nat.succ_mul]
      _ ≤ m * n := Nat.mul_le_mul_right n hi
  · intro k hk
    have hn : 0 < n := by
      rcases Nat.eq_zero_or_pos n with rfl | h
      · simp at hk
      · exact h
    refine ⟨(k / n, k % n), ⟨(Nat.div_lt_iff_lt_mul hn).2 hk, Nat.mod_lt _ hn⟩, ?_⟩
    have := Nat.div_add_mod k n
    rw [Nat.mul_comm] at this
    exact this
  · rintro ⟨i, j⟩ ⟨i', j'⟩ ⟨-, hj⟩ ⟨-, hj'⟩ h
    simp only at hj hj' h
    have hn : 0 < n := by omega
    have h1 : (i * n + j) / n = (i' * n + j') / n := by rw [h]
    have h2 : (i * n + j) % n = (i' * n + j') % n := by rw [h]
    rw [Nat.mul_comm i, Nat.mul_comm i', Nat.mul_add_div hn, Nat.mul_add_div hn,
      Nat.div_eq_of_lt hj, Nat.div_eq_of_lt hj'] at h1
    rw [Nat.mul_comm i, Nat.mul_comm i', Nat.mul_add_mod, Nat.mul_add_mod,
      Nat.mod_eq_of_lt hj, Nat.mod_eq_of_lt hj'] at h2
    simp at h1
    simp [h1, h2]

private theorem dyn_mul (i B : Nat) : (Val.dyn i).mul .ideal (.dyn B) = .dyn (i * B) := by
  simp [Val.mul, Val.ofDyn, Arith.ideal]

private theorem dyn_add' (i B : Nat) : (Val.dyn i).add .ideal (.dyn B) = .dyn (i + B) := by
  simp [Val.add, Val.ofDyn, Arith.ideal]

private theorem num_div {l : Val} {L B : Nat} (h : l.Num L) (hB : 0 < B) :
    l.div .ideal (.dyn B) = .dyn (L / B) ∨ (l.div .ideal (.dyn B) = .lit (L / B)) := by
  have hB' : B ≠ 0 := by omega
  rcases h.cases with rfl | rfl
  · by_cases hL : L = 0
    · right; simp [Val.div, hL]
    · left; simp [Val.div, Val.ofDyn, Arith.ideal, hL, hB']
  · left; simp [Val.div, Val.ofDyn, Arith.ideal, hB']

/-! ### C21 -/

/-- C21: blocks of a given length `B`. The lengths are `L / B` and `B`; index `(i, j)` addresses
index `i * B + j` of the original dimension. -/
theorem C21_into_blocks (s : Struct) (d maj min : Dim) (hne : maj ≠ min) (B L : Nat) (hB : 0 < B)
    (st : State) (hd : st.Without d) (hM : st.Without maj) (hm : st.Without min)
    (hL : (s.sem .ideal).HasLength d st L) :
    let F := (Struct.view (.intoBlocks d maj min) s).sem .ideal
    let stB := st.set (.len min) (.dyn B)
    F.HasLength maj stB (L / B) ∧ F.HasLength min stB B ∧
    ∀ i j, SameAt F ((stB.at maj i).at min j) (s.sem .ideal) (st.at d (i * B + j)) ∧
      ∀ q, q ≠ d → q ≠ maj → q ≠ min →
        F.len q ((stB.at maj i).at min j) = (s.sem .ideal).len q (st.at d (i * B + j)) := by
  intro F stB
  obtain ⟨l, hl, hln⟩ := hL
  have hhl := Struct.hasLen_of_len hl
  have hc0 : blocksClean d maj min stB = st := by state_eq
  have e1 : stB (.len min) = some (.dyn B) := by simp [stB]
  have e2 : stB (.len maj) = none := by state_val
  have e3 : stB (.idx maj) = none := by state_val
  have e4 : stB (.idx min) = none := by state_val
  have hsub : ∀ i j, intoBlocksSub .ideal d maj min (s.sem .ideal) ((stB.at maj i).at min j)
      = some (st.at d (i * B + j)) := by
    intro i j
    have hc : blocksClean d maj min ((stB.at maj i).at min j) = st := by state_eq
    have f1 : ((stB.at maj i).at min j) (.len min) = some (.dyn B) := by state_val
    have f2 : ((stB.at maj i).at min j) (.len maj) = none := by state_val
    have f3 : ((stB.at maj i).at min j) (.idx maj) = some (.dyn i) := by state_val
    have f4 : ((stB.at maj i).at min j) (.idx min) = some (.dyn j) := by state_val
    simp only [intoBlocksSub, hc, f1, f2, f3, f4, dyn_mul, dyn_add']
  have hsub0 : intoBlocksSub .ideal d maj min (s.sem .ideal) stB = some st := by
    simp only [intoBlocksSub, hc0, e1, e2, e3]
  refine ⟨?_, ⟨.dyn B, ?_, rfl⟩, fun i j => ⟨?_, fun q h1 h2 h3 => ?_⟩⟩
  · refine ⟨l.div .ideal (.dyn B), ?_, ?_⟩
    · simp [F, Struct.sem, ViewSem.toSem, View.sem, intoBlocksSem, hsub0, hc0, e1, e2, e3,
        State.has, hne, hhl, hl, guardLen]
    · rcases num_div hln hB with h | h <;> rw [h] <;> rfl
  · simp [F, Struct.sem, ViewSem.toSem, View.sem, intoBlocksSem, e1, e2, e4,
        State.has, guardLen]
  · constructor <;> intros <;>
      simp [F, Struct.sem, ViewSem.toSem, View.sem, intoBlocksSem, hsub]
  · simp only [F, Struct.sem, ViewSem.toSem, View.sem, intoBlocksSem, hsub, h1, h2, h3, ↓reduceIte,
      Option.bind_some]
    exact Struct.len_guard _ s q _

/-- C21: a given number `M` of blocks. The lengths are `M` and `L / M`; index `(i, j)` addresses
index `i * (L / M) + j` of the original dimension. -/
theorem C21_into_n_blocks (s : Struct) (d maj min : Dim) (hne : maj ≠ min) (M L : Nat) (hpM : 0 < M)
    (st : State) (hd : st.Without d) (hM : st.Without maj) (hm : st.Without min)
    (hL : (s.sem .ideal).HasLength d st L) :
    let F := (Struct.view (.intoBlocks d maj min) s).sem .ideal
    let stM := st.set (.len maj) (.dyn M)
    F.HasLength maj stM M ∧ F.HasLength min stM (L / M) ∧
    ∀ i j, SameAt F ((stM.at maj i).at min j) (s.sem .ideal) (st.at d (i * (L / M) + j)) := by
  intro F stM
  obtain ⟨l, hl, hln⟩ := hL
  have hhl := Struct.hasLen_of_len hl
  have hc0 : blocksClean d maj min stM = st := by state_eq
  have e1 : stM (.len maj) = some (.dyn M) := by simp [stM]
  have e2 : stM (.len min) = none := by state_val
  have e3 : stM (.idx maj) = none := by state_val
  have e4 : stM (.idx min) = none := by state_val
  have hval : ∀ i j, ((Val.dyn i).mul .ideal (l.div .ideal (.dyn M))).add .ideal (.dyn j)
      = .dyn (i * (L / M) + j) := by
    intro i j
    rcases num_div hln hpM with h | h
    · rw [h, dyn_mul, dyn_add']
    · rw [h]
      by_cases h0 : L / M = 0 <;> simp [Val.mul, Val.add, Val.ofDyn, Arith.ideal, h0]
  have hsub : ∀ i j, intoBlocksSub .ideal d maj min (s.sem .ideal) ((stM.at maj i).at min j)
      = some (st.at d (i * (L / M) + j)) := by
    intro i j
    have hc : blocksClean d maj min ((stM.at maj i).at min j) = st := by state_eq
    have f1 : ((stM.at maj i).at min j) (.len maj) = some (.dyn M) := by state_val
    have f2 : ((stM.at maj i).at min j) (.len min) = none := by state_val
    have f3 : ((stM.at maj i).at min j) (.idx maj) = some (.dyn i) := by state_val
    have f4 : ((stM.at maj i).at min j) (.idx min) = some (.dyn j) := by state_val
    simp only [intoBlocksSub, hc, f1, f2, f3, f4, hhl, hl, bind, Option.bind, hval]
  have hsub0 : intoBlocksSub .ideal d maj min (s.sem .ideal) stM = some st := by
    simp only [intoBlocksSub, hc0, e1, e2, e3, hhl]
  refine ⟨⟨.dyn M, ?_, rfl⟩, ?_, fun i j => ?_⟩
  · simp [F, Struct.sem, ViewSem.toSem, View.sem, intoBlocksSem, e1, e2, e3, hne,
        State.has, guardLen]
  · refine ⟨l.div .ideal (.dyn M), ?_, ?_⟩
    · simp [F, Struct.sem, ViewSem.toSem, View.sem, intoBlocksSem, hsub0, hc0, e1, e2, e4,
        State.has, hhl, hl, guardLen]
    · rcases num_div hln hpM with h | h <;> rw [h] <;> rfl
  · constructor <;> intros <;>
      simp [F, Struct.sem, ViewSem.toSem, View.sem, intoBlocksSem, hsub]

/-- C21: both the number and the length of the blocks are given, for a dimension whose length is
not set: the dimension gets their product as its length. -/
theorem C21_into_blocks_sets_length (s : Struct) (d maj min : Dim) (hne : maj ≠ min) (M B : Nat)
    (st : State) (hd : st.Without d) (hM : st.Without maj) (hm : st.Without min)
    (hL : (s.sem .ideal).hasLen d st = some false) :
    let F := (Struct.view (.intoBlocks d maj min) s).sem .ideal
    let stMB := (st.set (.len maj) (.dyn M)).set (.len min) (.dyn B)
    F.HasLength maj stMB M ∧ F.HasLength min stMB B ∧
    ∀ i j, SameAt F ((stMB.at maj i).at min j) (s.sem .ideal)
      ((st.set (.len d) (.dyn (M * B))).at d (i * B + j)) := by
  intro F stMB
  have hc0 : blocksClean d maj min stMB = st := by state_eq
  have e1 : stMB (.len maj) = some (.dyn M) := by state_val
  have e2 : stMB (.len min) = some (.dyn B) := by state_val
  have e3 : stMB (.idx maj) = none := by state_val
  have e4 : stMB (.idx min) = none := by state_val
  refine ⟨⟨.dyn M, ?_, rfl⟩, ⟨.dyn B, ?_, rfl⟩, fun i j => ?_⟩
  · simp [F, Struct.sem, ViewSem.toSem, View.sem, intoBlocksSem, e1, e2, e3, hne, hc0, hL,
        State.has, guardLen]
  · simp [F, Struct.sem, ViewSem.toSem, View.sem, intoBlocksSem, e1, e2, e4, hc0, hL,
        State.has, guardLen]
  · have hc : blocksClean d maj min ((stMB.at maj i).at min j) = st := by state_eq
    have f1 : ((stMB.at maj i).at min j) (.len maj) = some (.dyn M) := by state_val
    have f2 : ((stMB.at maj i).at min j) (.len min) = some (.dyn B) := by state_val
    have f3 : ((stMB.at maj i).at min j) (.idx maj) = some (.dyn i) := by state_val
    have f4 : ((stMB.at maj i).at min j) (.idx min) = some (.dyn j) := by state_val
    have hsub : intoBlocksSub .ideal d maj min (s.sem .ideal) ((stMB.at maj i).at min j)
        = some ((st.set (.len d) (.dyn (M * B))).at d (i * B + j)) := by
      simp only [intoBlocksSub, hc, f1, f2, f3, f4, dyn_mul, dyn_add']
    constructor <;> intros <;>
      simp [F, Struct.sem, ViewSem.toSem, View.sem, intoBlocksSem, hsub]

/-- C21: the pairs of block indices are numbered one to one by the first `L / B * B` original
indices, which are all of them iff `B` divides `L`. The same holds for `M` blocks of length
`L / M`. -/
theorem C21_coverage (L B M : Nat) :
    Numbers (fun p : Nat × Nat => p.1 < L / B ∧ p.2 < B) (fun p => p.1 * B + p.2) (L / B * B) ∧
    Numbers (fun p : Nat × Nat => p.1 < M ∧ p.2 < L / M) (fun p => p.1 * (L / M) + p.2)
      (M * (L / M)) ∧
    L / B * B ≤ L ∧ M * (L / M) ≤ L ∧ (L / B * B = L ↔ B ∣ L) ∧ (M * (L / M) = L ↔ M ∣ L) := by
  refine ⟨numbers_pairs _ _, numbers_pairs _ _, Nat.div_mul_le_self L B, Nat.mul_div_le L M,
    ⟨fun h => ⟨L / B, by rw [Nat.mul_comm]; exact h.symm⟩, fun h => Nat.div_mul_cancel h⟩,
    ⟨fun h => ⟨L / M, h.symm⟩, fun h => Nat.mul_div_cancel' h⟩⟩

/-- The theorems apply to a vector of length 12 cut into blocks of 4, and into 5 blocks (of length
2, with a tail of 2). -/
example := C21_into_blocks (.view (.setLength 0 (.dyn 12)) (.vector 0 (.scalar 4 4))) 0 1 2
  (by decide) 4 12 (by decide) State.empty ⟨rfl, rfl⟩ ⟨rfl, rfl⟩ ⟨rfl, rfl⟩ ⟨_, rfl, rfl⟩
example := C21_into_n_blocks (.view (.setLength 0 (.dyn 12)) (.vector 0 (.scalar 4 4))) 0 1 2
  (by decide) 5 12 (by decide) State.empty ⟨rfl, rfl⟩ ⟨rfl, rfl⟩ ⟨rfl, rfl⟩ ⟨_, rfl, rfl⟩
example := C21_into_blocks_sets_length (.vector 0 (.scalar 4 4)) 0 1 2
  (by decide) 5 12 State.empty ⟨rfl, rfl⟩ ⟨rfl, rfl⟩ ⟨rfl, rfl⟩ rfl

/-- A vector of length 12, in blocks of 4. -/
example : ((Struct.apply (.vector 0 (.scalar 4 4)) [.setLength 0 (.dyn 12), .intoBlocks 0 1 2,
    .setLength 2 (.dyn 4)]).sem .ideal).off ((State.empty.at 1 2).at 2 3) (.lit 0)
    = some (.dyn 44) := by decide

/-! ### C22 -/

private theorem ceil_num {l : Val} {L B : Nat} (h : l.Num L) (hB : 0 < B) :
    ceilDiv .ideal l (.dyn B) = .dyn ((L + B - 1) / B) := by
  have hB' : B ≠ 0 := by omega
  have h1 : 1 ≤ L + B := by omega
  rcases h.cases with rfl | rfl <;>
    simp [ceilDiv, Val.add, Val.sub, Val.div, Val.ofDyn, Arith.ideal, h1, hB']

/-- C22: blocks of a given length `B > 0`. The lengths are `L / B` rounded up, `B`, and 1 or 0 for
the presence; index `(i, j, _)` addresses index `i * B + j` of the original dimension. -/
theorem C22_into_blocks_dynamic (s : Struct) (d maj min pres : Dim) (hne : maj ≠ min)
    (hne1 : min ≠ pres) (hne2 : pres ≠ maj) (B L : Nat) (hB : 0 < B)
    (st : State) (hd : st.Without d) (hM : st.Without maj) (hm : st.Without min)
    (hp : st.Without pres) (hL : (s.sem .ideal).HasLength d st L) :
    let F := (Struct.view (.intoBlocksDyn d maj min pres) s).sem .ideal
    let stB := st.set (.len min) (.dyn B)
    F.HasLength maj stB ((L + B - 1) / B) ∧ F.HasLength min stB B ∧
    ∀ i j, F.HasLength pres ((stB.at maj i).at min j) (if i * B + j < L then 1 else 0) ∧
      ∀ p, SameAt F (((stB.at maj i).at min j).at pres p) (s.sem .ideal)
        (st.at d (i * B + j)) := by
  intro F stB
  obtain ⟨l, hl, hln⟩ := hL
  have hhl := Struct.hasLen_of_len hl
  have hc0 : blocksDynClean d maj min pres stB = some st := by
    have : stB.has (.len pres) = false := by state_val
    simp only [blocksDynClean, this, Bool.false_eq_true, ↓reduceIte, Option.some.injEq]
    state_eq
  have e1 : stB (.len min) = some (.dyn B) := by simp [stB]
  have e2 : stB (.len maj) = none := by state_val
  have e3 : stB (.idx maj) = none := by state_val
  have e4 : stB (.idx min) = none := by state_val
  have hsub0 : intoBlocksDynSub .ideal d maj min pres (s.sem .ideal) stB = some st := by
    simp only [intoBlocksDynSub, hc0, e1, e2, e3, bind, Option.bind]
  refine ⟨⟨_, ?_, (congrArg Val.nat? (ceil_num hln hB)).trans rfl⟩, ⟨.dyn B, ?_, rfl⟩,
    fun i j => ⟨?_, fun p => ?_⟩⟩
  · simp [F, Struct.sem, ViewSem.toSem, View.sem, intoBlocksDynSem, hsub0, e1, e2, e3,
        State.has, hne, hne2.symm, hhl, hl, guardLen]
  · simp [F, Struct.sem, ViewSem.toSem, View.sem, intoBlocksDynSem, e1, e2, e4, hne1,
        State.has, guardLen]
  · have hc : blocksDynClean d maj min pres ((stB.at maj i).at min j) = some st := by
      have : ((stB.at maj i).at min j).has (.len pres) = false := by state_val
      simp only [blocksDynClean, this, Bool.false_eq_true, ↓reduceIte, Option.some.injEq]
      state_eq
    have f1 : ((stB.at maj i).at min j) (.len min) = some (.dyn B) := by state_val
    have f2 : ((stB.at maj i).at min j) (.len maj) = none := by state_val
    have f3 : ((stB.at maj i).at min j) (.idx maj) = some (.dyn i) := by state_val
    have f4 : ((stB.at maj i).at min j) (.idx min) = some (.dyn j) := by state_val
    refine ⟨((Val.dyn (i * B + j)).ltVal l), ?_, ?_⟩
    · simp [F, Struct.sem, ViewSem.toSem, View.sem, intoBlocksDynSem, f1, f2, f3, f4, hc,
        State.has, guardLen, hhl, hl, dyn_mul, dyn_add']
    · rcases hln.cases with rfl | rfl <;> simp [Val.ltVal, Val.Num]
  · have hc : blocksDynClean d maj min pres (((stB.at maj i).at min j).at pres p) = some st := by
      have : (((stB.at maj i).at min j).at pres p).has (.len pres) = false := by state_val
      simp only [blocksDynClean, this, Bool.false_eq_true, ↓reduceIte, Option.some.injEq]
      state_eq
    have f1 : (((stB.at maj i).at min j).at pres p) (.len min) = some (.dyn B) := by state_val
    have f2 : (((stB.at maj i).at min j).at pres p) (.len maj) = none := by state_val
    have f3 : (((stB.at maj i).at min j).at pres p) (.idx maj) = some (.dyn i) := by state_val
    have f4 : (((stB.at maj i).at min j).at pres p) (.idx min) = some (.dyn j) := by state_val
    have f5 : (((stB.at maj i).at min j).at pres p) (.idx pres) = some (.dyn p) := by state_val
    have hsub : intoBlocksDynSub .ideal d maj min pres (s.sem .ideal)
        (((stB.at maj i).at min j).at pres p) = some (st.at d (i * B + j)) := by
      simp only [intoBlocksDynSub, hc, f1, f2, f3, f4, bind, Option.bind, dyn_mul, dyn_add']
    constructor <;> intros <;>
      simp [F, Struct.sem, ViewSem.toSem, View.sem, intoBlocksDynSem, hsub, State.has, f3, f4, f5]

/-- C22: a given number `M > 0` of blocks, of length `b = L / M` rounded up. -/
theorem C22_into_n_blocks_dynamic (s : Struct) (d maj min pres : Dim) (hne : maj ≠ min)
    (hne1 : min ≠ pres) (hne2 : pres ≠ maj) (M L : Nat) (hpM : 0 < M)
    (st : State) (hd : st.Without d) (hM : st.Without maj) (hm : st.Without min)
    (hp : st.Without pres) (hL : (s.sem .ideal).HasLength d st L) :
    let F := (Struct.view (.intoBlocksDyn d maj min pres) s).sem .ideal
    let stM := st.set (.len maj) (.dyn M)
    let b := (L + M - 1) / M
    F.HasLength maj stM M ∧ F.HasLength min stM b ∧
    ∀ i j, F.HasLength pres ((stM.at maj i).at min j) (if i * b + j < L then 1 else 0) ∧
      ∀ p, SameAt F (((stM.at maj i).at min j).at pres p) (s.sem .ideal)
        (st.at d (i * b + j)) := by
  intro F stM b
  obtain ⟨l, hl, hln⟩ := hL
  have hhl := Struct.hasLen_of_len hl
  have hc0 : blocksDynClean d maj min pres stM = some st := by
    have : stM.has (.len pres) = false := by state_val
    simp only [blocksDynClean, this, Bool.false_eq_true, ↓reduceIte, Option.some.injEq]
    state_eq
  have e1 : stM (.len maj) = some (.dyn M) := by simp [stM]
  have e2 : stM (.len min) = none := by state_val
  have e3 : stM (.idx maj) = none := by state_val
  have e4 : stM (.idx min) = none := by state_val
  have hsub0 : intoBlocksDynSub .ideal d maj min pres (s.sem .ideal) stM = some st := by
    simp only [intoBlocksDynSub, hc0, e1, e2, e3, bind, Option.bind]
  refine ⟨⟨.dyn M, ?_, rfl⟩, ⟨_, ?_, (congrArg Val.nat? (ceil_num hln hpM)).trans rfl⟩,
    fun i j => ⟨?_, fun p => ?_⟩⟩
  · simp [F, Struct.sem, ViewSem.toSem, View.sem, intoBlocksDynSem, e1, e2, e3, hne, hne2.symm,
        State.has, guardLen]
  · simp [F, Struct.sem, ViewSem.toSem, View.sem, intoBlocksDynSem, hsub0, hc0, e1, e2, e4,
        State.has, hne1, hhl, hl, guardLen]
  · have hc : blocksDynClean d maj min pres ((stM.at maj i).at min j) = some st := by
      have : ((stM.at maj i).at min j).has (.len pres) = false := by state_val
      simp only [blocksDynClean, this, Bool.false_eq_true, ↓reduceIte, Option.some.injEq]
      state_eq
    have f1 : ((stM.at maj i).at min j) (.len maj) = some (.dyn M) := by state_val
    have f2 : ((stM.at maj i).at min j) (.len min) = none := by state_val
    have f3 : ((stM.at maj i).at min j) (.idx maj) = some (.dyn i) := by state_val
    have f4 : ((stM.at maj i).at min j) (.idx min) = some (.dyn j) := by state_val
    refine ⟨((Val.dyn (i * b + j)).ltVal l), ?_, ?_⟩
    · simp [F, Struct.sem, ViewSem.toSem, View.sem, intoBlocksDynSem, f1, f2, f3, f4, hc,
        State.has, guardLen, hhl, hl, ceil_num hln hpM, dyn_mul, dyn_add', b]
    · rcases hln.cases with rfl | rfl <;> simp [Val.ltVal, Val.Num]
  · have hc : blocksDynClean d maj min pres (((stM.at maj i).at min j).at pres p) = some st := by
      have : (((stM.at maj i).at min j).at pres p).has (.len pres) = false := by state_val
      simp only [blocksDynClean, this, Bool.false_eq_true, ↓reduceIte, Option.some.injEq]
      state_eq
    have f1 : (((stM.at maj i).at min j).at pres p) (.len maj) = some (.dyn M) := by state_val
    have f2 : (((stM.at maj i).at min j).at pres p) (.len min) = none := by state_val
    have f3 : (((stM.at maj i).at min j).at pres p) (.idx maj) = some (.dyn i) := by state_val
    have f4 : (((stM.at maj i).at min j).at pres p) (.idx min) = some (.dyn j) := by state_val
    have f5 : (((stM.at maj i).at min j).at pres p) (.idx pres) = some (.dyn p) := by state_val
    have hsub : intoBlocksDynSub .ideal d maj min pres (s.sem .ideal)
        (((stM.at maj i).at min j).at pres p) = some (st.at d (i * b + j)) := by
      simp only [intoBlocksDynSub, hc, f1, f2, f3, f4, bind, Option.bind, hl, ceil_num hln hpM,
        dyn_mul, dyn_add', b]
    constructor <;> intros <;>
      simp [F, Struct.sem, ViewSem.toSem, View.sem, intoBlocksDynSem, hsub, State.has, f3, f4, f5]

/-- C22: with these lengths, the triples of valid indices are numbered one to one by the original
indices, for every block length and for every number of blocks. -/
theorem C22_coverage (L K : Nat) (hK : 0 < K) :
    let c := (L + K - 1) / K
    Numbers (fun t : Nat × Nat × Nat => t.1 < c ∧ t.2.1 < K ∧
      t.2.2 < if t.1 * K + t.2.1 < L then 1 else 0) (fun t => t.1 * K + t.2.1) L ∧
    Numbers (fun t : Nat × Nat × Nat => t.1 < K ∧ t.2.1 < c ∧
      t.2.2 < if t.1 * c + t.2.1 < L then 1 else 0) (fun t => t.1 * c + t.2.1) L := by
  intro c
  have key : ∀ m n : Nat, L ≤ m * n →
      Numbers (fun t : Nat × Nat × Nat => t.1 < m ∧ t.2.1 < n ∧
        t.2.2 < if t.1 * n + t.2.1 < L then 1 else 0) (fun t => t.1 * n + t.2.1) L := by
    intro m n hmn
    obtain ⟨-, h2, h3⟩ := numbers_pairs m n
    refine ⟨?_, ?_, ?_⟩
    · rintro ⟨i, j, p⟩ ⟨-, -, hp⟩
      simp only at hp ⊢
      split at hp
      · assumption
      · omega
    · intro k hk
      obtain ⟨⟨i, j⟩, ⟨hi, hj⟩, hij⟩ := h2 k (by omega)
      simp only at hij hi hj
      exact ⟨(i, j, 0), ⟨hi, hj, by simp [hij, hk]⟩, hij⟩
    · rintro ⟨i, j, p⟩ ⟨i', j', p'⟩ ⟨hi, hj, hp⟩ ⟨hi', hj', hp'⟩ h
      simp only at hp hp' hi hj hi' hj' h
      have := h3 (i, j) (i', j') ⟨hi, hj⟩ ⟨hi', hj'⟩ h
      simp only [Prod.mk.injEq] at this
      obtain ⟨rfl, rfl⟩ := this
      have h0 : p = 0 := by split at hp <;> omega
      have h0' : p' = 0 := by split at hp' <;> omega
      simp [h0, h0']
  have hc : L ≤ c * K := by
    have h1 := Nat.div_add_mod (L + K - 1) K
    have h2 := Nat.mod_lt (L + K - 1) hK
    rw [Nat.mul_comm] at h1
    simp only [c]
    omega
  exact ⟨key c K hc, key K c (by rw [Nat.mul_comm]; exact hc)⟩

/-- The theorems apply to a vector of length 10 cut into blocks of 4, and into 4 blocks. -/
example := C22_into_blocks_dynamic (.view (.setLength 0 (.dyn 10)) (.vector 0 (.scalar 4 4)))
  0 1 2 3 (by decide) (by decide) (by decide) 4 10 (by decide) State.empty ⟨rfl, rfl⟩ ⟨rfl, rfl⟩
  ⟨rfl, rfl⟩ ⟨rfl, rfl⟩ ⟨_, rfl, rfl⟩
example := C22_into_n_blocks_dynamic (.view (.setLength 0 (.dyn 10)) (.vector 0 (.scalar 4 4)))
  0 1 2 3 (by decide) (by decide) (by decide) 4 10 (by decide) State.empty ⟨rfl, rfl⟩ ⟨rfl, rfl⟩
  ⟨rfl, rfl⟩ ⟨rfl, rfl⟩ ⟨_, rfl, rfl⟩
example := C22_coverage 10 4 (by decide)

/-- A vector of length 10 in blocks of 4: the last block has two elements. -/
example : ((Struct.apply (.vector 0 (.scalar 4 4)) [.setLength 0 (.dyn 10), .intoBlocksDyn 0 1 2 3,
    .setLength 2 (.dyn 4)]).sem .ideal).len 3 ((State.empty.at 1 2).at 2 2)
    = some (.dyn 0) := by decide

/-! ### C23 -/

/-- C23: blocks of a given length `B > 0` with a border. The body has `L / B` blocks of length `B`,
the border one block of length `L % B`; index `(0, i, j)` addresses `i * B + j`, and `(1, _, j)`
addresses `L / B * B + j`. -/
theorem C23_into_blocks_static (s : Struct) (d border maj min : Dim) (h1 : border ≠ maj)
    (h2 : border ≠ min) (h3 : maj ≠ min) (B L : Nat) (hB : 0 < B) (nl : Val) (hnl : nl.Num B)
    (st : State) (hd : st.Without d) (hM : st.Without maj) (hm : st.Without min)
    (hb : st.Without border) (hL : (s.sem .ideal).HasLength d st L) :
    let F := (Struct.view (.intoBlocksStat d border maj min nl) s).sem .ideal
    let st0 := st.set (.idx border) (.lit 0)
    let st1 := st.set (.idx border) (.lit 1)
    F.HasLength border st 2 ∧
    F.HasLength maj st0 (L / B) ∧ F.HasLength min st0 B ∧
    F.HasLength maj st1 1 ∧ F.HasLength min st1 (L % B) ∧
    (∀ i j, SameAt F ((st0.at maj i).at min j) (s.sem .ideal) (st.at d (i * B + j))) ∧
    (∀ i j, SameAt F ((st1.at maj i).at min j) (s.sem .ideal) (st.at d (L / B * B + j))) := by
  intro F st0 st1
  obtain ⟨l, hl, hln⟩ := hL
  have hhl := Struct.hasLen_of_len hl
  have hB' : B ≠ 0 := by omega
  have hvb : ∀ v : Nat, ∀ i j : Nat, ∀ x, (x = (st.set (.idx border) (.lit v)) ∨
      x = ((st.set (.idx border) (.lit v)).at maj i).at min j) →
      blocksStatClean d border maj min x = some st := by
    intro v i j x hx
    have : (x.has (.len border) || x.has (.len maj) || x.has (.len min)) = false := by
      rcases hx with rfl | rfl <;> state_val
    simp only [blocksStatClean, this, Bool.false_eq_true, ↓reduceIte, Option.some.injEq]
    rcases hx with rfl | rfl <;> state_eq
  have hdiv : (l.div .ideal nl).Num (L / B) := Val.nat?_div.2 ⟨L, B, hln, hnl, Or.inl hB', rfl⟩
  have hmod : (l.mod .ideal nl).Num (L % B) := Val.nat?_mod.2 ⟨L, B, hln, hnl, Or.inl hB', rfl⟩
  have hsub : ∀ v : Nat, intoBlocksStatSub .ideal d border maj min nl (s.sem .ideal)
      (st.set (.idx border) (.lit v)) = some st := by
    intro v
    have g1 : (st.set (.idx border) (.lit v)) (.idx maj) = none := by state_val
    have g2 : (st.set (.idx border) (.lit v)).has (.idx border) = true := by state_val
    simp only [intoBlocksStatSub, hvb v 0 0 _ (Or.inl rfl), bind, Option.bind, g1, g2, ↓reduceIte]
  have g1 : ∀ v : Nat, (st.set (.idx border) (.lit v)).has (.idx maj) = false := by
    intro v; state_val
  have g2 : ∀ v : Nat, (st.set (.idx border) (.lit v)).has (.idx min) = false := by
    intro v; state_val
  have ib0 : isBody border st0 = some true := by simp [isBody, st0]
  have ib1 : isBody border st1 = some false := by simp [isBody, st1]
  refine ⟨⟨.lit 2, ?_, rfl⟩, ⟨_, ?_, hdiv⟩, ⟨nl, ?_, hnl⟩, ⟨.lit 1, ?_, rfl⟩, ⟨_, ?_, hmod⟩, ?_, ?_⟩
  · have g3 : st.has (.idx border) = false := by state_val
    have g4 : st.has (.len border) = false := by state_val
    simp [F, Struct.sem, ViewSem.toSem, View.sem, intoBlocksStatSem, g3, g4, h1, h2, guardLen]
  · simp [F, Struct.sem, ViewSem.toSem, View.sem, intoBlocksStatSem, g1, h1.symm, h3, guardLen,
      ib0, hsub, hhl, hl, st0]
    all_goals simp [isBody, hl]
  · simp [F, Struct.sem, ViewSem.toSem, View.sem, intoBlocksStatSem, g2, h2.symm, h3.symm, guardLen,
      hsub, hhl, hl, st0, isBody]
  · simp [F, Struct.sem, ViewSem.toSem, View.sem, intoBlocksStatSem, g1, h1.symm, h3, guardLen,
      hsub, hhl, hl, st1, isBody]
  · simp [F, Struct.sem, ViewSem.toSem, View.sem, intoBlocksStatSem, g2, h2.symm, h3.symm, guardLen,
      hsub, hhl, hl, st1]
    all_goals simp [isBody, hl]
  · intro i j
    have f1 : ((st0.at maj i).at min j) (.idx maj) = some (.dyn i) := by state_val
    have f2 : ((st0.at maj i).at min j) (.idx min) = some (.dyn j) := by state_val
    have f3 : ((st0.at maj i).at min j) (.idx border) = some (.lit 0) := by state_val
    have hv : ((Val.dyn i).mul .ideal nl).add .ideal (.dyn j) = .dyn (i * B + j) := by
      rcases hnl.cases with rfl | rfl <;>
        simp [Val.mul, Val.add, Val.ofDyn, Arith.ideal, hB']
    have hs : intoBlocksStatSub .ideal d border maj min nl (s.sem .ideal)
        ((st0.at maj i).at min j) = some (st.at d (i * B + j)) := by
      have f4 : ((st0.at maj i).at min j).has (.idx border) = true := by simp [State.has, f3]
      have hcl : blocksStatClean d border maj min ((st0.at maj i).at min j) = some st :=
        hvb 0 i j _ (Or.inr rfl)
      simp only [intoBlocksStatSub, hcl, bind, Option.bind, f1, f2, f3, f4,
        ↓reduceIte, isBody, hv]
    constructor <;> intros <;>
      simp [F, Struct.sem, ViewSem.toSem, View.sem, intoBlocksStatSem, hs]
  · intro i j
    have f1 : ((st1.at maj i).at min j) (.idx maj) = some (.dyn i) := by state_val
    have f2 : ((st1.at maj i).at min j) (.idx min) = some (.dyn j) := by state_val
    have f3 : ((st1.at maj i).at min j) (.idx border) = some (.lit 1) := by state_val
    have hv : ((l.div .ideal nl).mul .ideal nl).add .ideal (.dyn j) = .dyn (L / B * B + j) := by
      have hx : ((l.div .ideal nl).mul .ideal nl).Num (L / B * B) :=
        Val.nat?_mul.2 ⟨_, _, hdiv, hnl, rfl⟩
      rcases hx.cases with h | h <;> rw [h] <;> simp [Val.add, Val.ofDyn, Arith.ideal]
    have hs : intoBlocksStatSub .ideal d border maj min nl (s.sem .ideal)
        ((st1.at maj i).at min j) = some (st.at d (L / B * B + j)) := by
      have f4 : ((st1.at maj i).at min j).has (.idx border) = true := by simp [State.has, f3]
      have hcl : blocksStatClean d border maj min ((st1.at maj i).at min j) = some st :=
        hvb 1 i j _ (Or.inr rfl)
      simp [intoBlocksStatSub, hcl, bind, Option.bind, f1, f2, f3, f4,
        isBody, hl, hv]
    constructor <;> intros <;>
      simp [F, Struct.sem, ViewSem.toSem, View.sem, intoBlocksStatSem, hs]

/-- C23: with these lengths, the valid combinations of body and border together are numbered one to
one by the original indices. -/
theorem C23_coverage (L B : Nat) (_hB : 0 < B) :
    Numbers (fun t : Nat × Nat × Nat => t.1 < 2 ∧
        (t.1 = 0 → t.2.1 < L / B ∧ t.2.2 < B) ∧ (t.1 = 1 → t.2.1 < 1 ∧ t.2.2 < L % B))
      (fun t => if t.1 = 0 then t.2.1 * B + t.2.2 else L / B * B + t.2.2) L := by
  obtain ⟨p1, p2, p3⟩ := numbers_pairs (L / B) B
  have hL : L / B * B + L % B = L := by
    have := Nat.div_add_mod L B
    rw [Nat.mul_comm] at this
    exact this
  have cases2 : ∀ b : Nat, b < 2 → b = 0 ∨ b = 1 := by omega
  refine ⟨?_, ?_, ?_⟩
  · rintro ⟨b, i, j⟩ ⟨hb, h0, h1⟩
    simp only at hb h0 h1 ⊢
    rcases cases2 b hb with rfl | rfl
    · have := p1 (i, j) (h0 rfl)
      simp only [↓reduceIte] at *
      omega
    · have := (h1 rfl).2
      simp
      omega
  · intro k hk
    by_cases h : k < L / B * B
    · obtain ⟨⟨i, j⟩, hij, he⟩ := p2 k h
      exact ⟨(0, i, j), ⟨by simp, fun _ => hij, by simp⟩, by simpa using he⟩
    · exact ⟨(1, 0, k - L / B * B), ⟨by simp, by simp, fun _ => ⟨by simp, by simp; omega⟩⟩, by
        simp; omega⟩
  · rintro ⟨b, i, j⟩ ⟨b', i', j'⟩ ⟨hb, h0, h1⟩ ⟨hb', h0', h1'⟩ h
    simp only at hb h0 h1 hb' h0' h1' h
    rcases cases2 b hb with rfl | rfl <;> rcases cases2 b' hb' with rfl | rfl
    · have := p3 (i, j) (i', j') (h0 rfl) (h0' rfl) (by simpa using h)
      simpa using this
    · have := p1 (i, j) (h0 rfl)
      simp only [↓reduceIte, Nat.one_ne_zero] at *
      omega
    · have := p1 (i', j') (h0' rfl)
      simp only [↓reduceIte, Nat.one_ne_zero] at *
      omega
    · have e1 := h1 rfl
      have e2 := h1' rfl
      simp only [↓reduceIte, Nat.one_ne_zero] at h
      simp only [Prod.mk.injEq, true_and]
      omega

/-- The theorems apply to a vector of length 10 cut into blocks of 4. -/
example := C23_into_blocks_static (.view (.setLength 0 (.dyn 10)) (.vector 0 (.scalar 4 4)))
  0 3 1 2 (by decide) (by decide) (by decide) 4 10 (by decide) (.lit 4) rfl State.empty ⟨rfl, rfl⟩
  ⟨rfl, rfl⟩ ⟨rfl, rfl⟩ ⟨rfl, rfl⟩ ⟨_, rfl, rfl⟩
example := C23_coverage 10 4 (by decide)

/-- A vector of length 10 in blocks of 4: the border starts at index 8. -/
example : ((Struct.apply (.vector 0 (.scalar 4 4)) [.setLength 0 (.dyn 10),
    .intoBlocksStat 0 3 1 2 (.lit 4)]).sem .ideal).off
    (((State.empty.set (.idx 3) (.lit 1)).at 1 0).at 2 1) (.lit 0) = some (.dyn 36) := by decide

/-! ### C24 -/

/-- C24: merging dimensions of lengths `M` and `B` gives a dimension of length `M * B`, whose index
`k` addresses index `k / B`, `k % B`. -/
theorem C24_merge_blocks (s : Struct) (maj min d : Dim) (M B : Nat)
    (st : State) (hd : st.Without d) (hM : st.Without maj) (hm : st.Without min)
    (hLM : (s.sem .ideal).HasLength maj st M) (hLB : (s.sem .ideal).HasLength min st B) :
    let F := (Struct.view (.mergeBlocks maj min d) s).sem .ideal
    F.HasLength d st (M * B) ∧
    ∀ k, k < M * B → k / B < M ∧ k % B < B ∧
      SameAt F (st.at d k) (s.sem .ideal) ((st.at maj (k / B)).at min (k % B)) ∧
      ∀ q, q ≠ d → q ≠ maj → q ≠ min →
        st (.idx q) = none →
        F.len q (st.at d k) = (s.sem .ideal).len q ((st.at maj (k / B)).at min (k % B)) := by
  intro F
  obtain ⟨lM, hlM, hnM⟩ := hLM
  obtain ⟨lB, hlB, hnB⟩ := hLB
  have hhM := Struct.hasLen_of_len hlM
  have hhB := Struct.hasLen_of_len hlB
  have hc0 : blocksClean d maj min st = st := by state_eq
  have hsub0 : mergeBlocksSub .ideal maj min d (s.sem .ideal) st = some st := by
    simp [mergeBlocksSub, hc0, hhM, hhB, hlB, hd.1]
  refine ⟨⟨lM.mul .ideal lB, ?_, Val.nat?_mul.2 ⟨M, B, hnM, hnB, rfl⟩⟩, fun k hk => ?_⟩
  · simp [F, Struct.sem, ViewSem.toSem, View.sem, mergeBlocksSem, hsub0, State.has, hd.1, hd.2,
      hhM, hhB, hlM, hlB, guardLen]
  · have hB : 0 < B := by
      rcases Nat.eq_zero_or_pos B with rfl | h
      · simp at hk
      · exact h
    have hB' : B ≠ 0 := by omega
    have hc : blocksClean d maj min (st.at d k) = st := by state_eq
    have e1 : (st.at d k) (.idx d) = some (.dyn k) := by simp
    have hv : (Val.dyn k).div .ideal lB = .dyn (k / B) ∧
        (Val.dyn k).mod .ideal lB = .dyn (k % B) := by
      rcases hnB.cases with rfl | rfl <;> simp [Val.div, Val.mod, Val.ofDyn, Arith.ideal, hB']
    have hsub : mergeBlocksSub .ideal maj min d (s.sem .ideal) (st.at d k)
        = some ((st.at maj (k / B)).at min (k % B)) := by
      simp only [mergeBlocksSub, hc, hhM, hhB, bind, Option.bind, ↓reduceIte, hlB, e1, hv]
    refine ⟨(Nat.div_lt_iff_lt_mul hB).2 hk, Nat.mod_lt _ hB, ?_, fun q h1 h2 h3 hq => ?_⟩
    · constructor <;> intros <;>
        simp [F, Struct.sem, ViewSem.toSem, View.sem, mergeBlocksSem, hsub]
    · have hi : (st.at d k).has (.idx q) = false := by state_val
      simp only [F, Struct.sem, ViewSem.toSem, View.sem, mergeBlocksSem, hsub, hi, h1, h2, h3,
        ↓reduceIte, Option.bind_some, or_self, Bool.false_eq_true]
      exact Struct.len_guard _ s q _

/-- C24: the merged index is one to one with the pairs. -/
theorem C24_one_to_one (M B : Nat) :
    Numbers (fun p : Nat × Nat => p.1 < M ∧ p.2 < B) (fun p => p.1 * B + p.2) (M * B) ∧
    ∀ k, k < M * B → k / B * B + k % B = k := by
  refine ⟨numbers_pairs M B, fun k _ => ?_⟩
  have := Nat.div_add_mod k B
  rw [Nat.mul_comm] at this
  exact this

/-- C24: merging the blocks made by `into_blocks` with a block length `B` that divides the length
gives back the original length and addressing. -/
theorem C24_merge_undoes_into_blocks (s : Struct) (d maj min : Dim) (hne : maj ≠ min)
    (B L : Nat) (hB : 0 < B) (hdvd : B ∣ L)
    (st : State) (hd : st.Without d) (hM : st.Without maj) (hm : st.Without min)
    (hL : (s.sem .ideal).HasLength d st L) :
    let F := (s.apply [.intoBlocks d maj min, .setLength min (.dyn B),
      .mergeBlocks maj min d]).sem .ideal
    F.HasLength d st L ∧ ∀ k, k < L → SameAt F (st.at d k) (s.sem .ideal) (st.at d k) := by
  intro F
  let s' : Struct := .view (.setLength min (.dyn B)) (.view (.intoBlocks d maj min) s)
  obtain ⟨b1, b2, b3⟩ := C21_into_blocks s d maj min hne B L hB st hd hM hm hL
  have hlen : ∀ q, (s'.sem .ideal).len q st =
      ((Struct.view (.intoBlocks d maj min) s).sem .ideal).len q (st.set (.len min) (.dyn B)) :=
    fun q => Struct.len_guard _ (.view (.intoBlocks d maj min) s) q _
  have hb1 : (s'.sem .ideal).HasLength maj st (L / B) := by
    unfold Sem.HasLength; rw [hlen]; exact b1
  have hb2 : (s'.sem .ideal).HasLength min st B := by
    unfold Sem.HasLength; rw [hlen]; exact b2
  obtain ⟨m1, m2⟩ := C24_merge_blocks s' maj min d (L / B) B st hd hM hm hb1 hb2
  have hLB : L / B * B = L := Nat.div_mul_cancel hdvd
  rw [hLB] at m1 m2
  refine ⟨m1, fun k hk => ?_⟩
  obtain ⟨-, -, m3, -⟩ := m2 k hk
  have hk' : k / B * B + k % B = k := by
    have := Nat.div_add_mod k B
    rw [Nat.mul_comm] at this
    exact this
  obtain ⟨b4, -⟩ := b3 (k / B) (k % B)
  rw [hk'] at b4
  have hst : ((st.at maj (k / B)).at min (k % B)).set (.len min) (.dyn B)
      = (((st.set (.len min) (.dyn B)).at maj (k / B)).at min (k % B)) := by state_eq
  have hs' : SameAt (s'.sem .ideal) ((st.at maj (k / B)).at min (k % B))
      ((Struct.view (.intoBlocks d maj min) s).sem .ideal)
      (((st.set (.len min) (.dyn B)).at maj (k / B)).at min (k % B)) := by
    rw [← hst]
    exact ⟨rfl, rfl, fun _ => rfl, rfl⟩
  exact ⟨m3.size.trans (hs'.size.trans b4.size), m3.align.trans (hs'.align.trans b4.align),
    fun x => (m3.off x).trans ((hs'.off x).trans (b4.off x)), m3.elem.trans (hs'.elem.trans b4.elem)⟩

/-- The theorems apply to a 3 by 4 matrix, and to a vector of length 12 in blocks of 4. -/
example := C24_merge_blocks (Struct.apply (.vector 1 (.vector 2 (.scalar 4 4)))
  [.setLength 1 (.dyn 3), .setLength 2 (.dyn 4)]) 1 2 0 3 4 State.empty ⟨rfl, rfl⟩ ⟨rfl, rfl⟩
  ⟨rfl, rfl⟩ ⟨_, rfl, rfl⟩ ⟨_, rfl, rfl⟩
example := C24_merge_undoes_into_blocks
  (.view (.setLength 0 (.dyn 12)) (.vector 0 (.scalar 4 4))) 0 1 2 (by decide) 4 12
  (by decide) ⟨3, rfl⟩ State.empty ⟨rfl, rfl⟩ ⟨rfl, rfl⟩ ⟨rfl, rfl⟩ ⟨_, rfl, rfl⟩

example : ((Struct.apply (.vector 0 (.scalar 4 4)) [.setLength 0 (.dyn 12), .intoBlocks 0 1 2,
    .setLength 2 (.dyn 4), .mergeBlocks 1 2 0]).sem .ideal).off (State.empty.at 0 7) (.lit 0)
    = some (.dyn 28) := by decide

end Noarr
