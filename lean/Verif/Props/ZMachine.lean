import Verif.ZMain
import Verif.ZMachine
import Verif.ZProto

/-
C64: the Z-curve in 64-bit arithmetic, for the maximum lengths that the documentation allows.
-/

namespace Noarr

theorem mulFold_machine {W : Nat} (hW : 0 < W) : ∀ (vs : List Val) {v : Val} {L : Nat → Nat} {a : Nat}, v.Num (a % W) →
    (∀ j (hj : j < vs.length), (vs[j]'hj).Num (L j)) → (mulFold (.machine W) v vs).Num (a * ZC.prod L vs.length % W)
  | [], v, L, a, h0, _ => by simpa [mulFold, ZC.prod] using h0
  | w :: vs, v, L, a, h0, h => by
    simp only [mulFold, List.length_cons]
    have h1 := h 0 (by simp)
    simp only [List.getElem_cons_zero] at h1
    have hm : (v.toDyn.mul (.machine W) w.toDyn).Num ((a * L 0) % W) := by
      cases v <;> cases w <;> simp_all [Val.Num, Val.nat?, Val.toDyn, Val.mul, Val.ofDyn, Arith.machine]
    have := mulFold_machine hW vs (L := fun j => L (j + 1)) hm (fun j hj => h (j + 1) (by simpa using hj))
    rw [ZC.prod_succ', ← Nat.mul_assoc]
    exact this

/-- C64 (the claim is that it holds for all lengths up to the maximum length `2^gl`, if the merged length is below `2^64`,
which is false, see `C64_unbounded_length_violates`): `s ^ merge_zcurve<ds..., d>::maxlen_alignment<2^gl, 2^sl>()` in
64-bit arithmetic, where the products of half the maximum length and the lengths of all dimensions but one (in units of
the alignment) are below `2^64`: the merged length is the product of the lengths, and the indices correspond one-to-one
with the index tuples, at which the queries are those of `s`. -/
theorem C64_zcurve_partial (s : Struct) (sl gl : Nat) (ds : List Dim) (d : Dim) (L : Nat → Nat)
    (st : State) (h2 : 2 ≤ ds.length) (hnd : ds.Nodup) (hsl : sl * ds.length < 32) (hsg : sl ≤ gl)
    (hd : st (.idx d) = none) (hds : ∀ q ∈ ds, st.Without q)
    (hL : ∀ j (hj : j < ds.length), (s.sem (.machine (2 ^ 64))).HasLength ds[j] st (L j))
    (hal : ∀ j, j < ds.length → 2 ^ sl ∣ L j) (hmax : ∀ j, j < ds.length → L j ≤ 2 ^ gl)
    (hfit : ∀ j, j < ds.length → L j < 2 ^ 64) (hP : ZC.prod L ds.length < 2 ^ 64)
    (hslab : ∀ i, i < ds.length →
      ZC.prod (fun j => if j = i then 1 else L j / 2 ^ sl) ds.length * 2 ^ (gl - sl - 1) < 2 ^ 64) :
    let F := (Struct.view (.mergeZ sl gl ds d) s).sem (.machine (2 ^ 64))
    let n := ds.length
    let P := ZC.prod L n
    F.HasLength d st P ∧
    ∃ t : Nat → Nat → Nat,
      (∀ z, z < P → ∀ j, j < n → t z j < L j) ∧
      (∀ z z', z < P → z' < P → (∀ j, j < n → t z j = t z' j) → z = z') ∧
      (∀ u : Nat → Nat, (∀ j, j < n → u j < L j) → ∃ z, z < P ∧ ∀ j, j < n → t z j = u j) ∧
      (∀ z, z < P → ∀ j, j < n → ∀ k, k < sl →
        (t z j).testBit k = z.testBit (n * k + (n - 1 - j))) ∧
      ∀ z, z < P → SameAt F (st.at d z) (s.sem (.machine (2 ^ 64))) (st.atAll ds (t z)) ∧
        ∀ q, q ≠ d → st (.idx q) = none →
          F.len q (st.at d z) = (s.sem (.machine (2 ^ 64))).len q (st.atAll ds (t z)) :=
  mergeZ_main (.machine (2 ^ 64)) s sl gl ds d L st h2 hnd hsl hsg hd hds hL hal hmax
    (fun z j hz hj => ZC.index_machine (by decide) h2 hsl hsg hal hmax hfit hslab hz (Nat.lt_trans hz hP) hj)
    fun v vs hn h0 h => by
      have h0' : v.Num (L 0 % 2 ^ 64) := by
        rw [Nat.mod_eq_of_lt (hfit 0 (by omega))]; exact h0
      have := mulFold_machine (W := 2 ^ 64) (by decide) vs (L := fun j => L (j + 1)) h0' h
      rw [hn, ZC.prod_succ'] at hP ⊢
      rwa [Nat.mod_eq_of_lt hP] at this

theorem ZC.prod_pow_le {f : Nat → Nat} {a : Nat} (n i : Nat) (h : ∀ j, j < n → f j ≤ a) (hi : i < n) :
    ZC.prod (fun j => if j = i then 1 else f j) n ≤ a ^ (n - 1) := by
  have key : ∀ n, (∀ j, j < n → f j ≤ a) → ZC.prod (fun j => if j = i then 1 else f j) n ≤
      if i < n then a ^ (n - 1) else a ^ n := by
    intro n
    induction n with
    | zero => intro _; simp [ZC.prod]
    | succ n ih =>
      intro h
      have ih := ih fun j hj => h j (by omega)
      simp only [ZC.prod]
      by_cases h1 : i < n
      · rw [if_pos h1] at ih
        rw [if_neg (show ¬ n = i by omega), if_pos (show i < n + 1 by omega), Nat.add_sub_cancel]
        obtain ⟨m, rfl⟩ : ∃ m, n = m + 1 := ⟨n - 1, by omega⟩
        rw [Nat.pow_succ]
        exact Nat.mul_le_mul (by simpa using ih) (h _ (by omega))
      · rw [if_neg h1] at ih
        by_cases h2 : i = n
        · subst h2
          simpa using ih
        · rw [if_neg (show ¬ n = i by omega), if_neg (show ¬ i < n + 1 by omega), Nat.pow_succ]
          exact Nat.mul_le_mul ih (h _ (by omega))
  simpa [hi] using key n h

/-- C64: the condition is met if the maximum length raised to the number of dimensions is at most `2^64`. -/
theorem C64_condition (sl gl n : Nat) (L : Nat → Nat) (hmax : ∀ j, j < n → L j ≤ 2 ^ gl) (hsg : sl ≤ gl) (hn : gl * n ≤ 64)
    (hg : 0 < gl) (i : Nat) (hi : i < n) :
    ZC.prod (fun j => if j = i then 1 else L j / 2 ^ sl) n * 2 ^ (gl - sl - 1) < 2 ^ 64 := by
  have h1 := ZC.prod_pow_le (f := fun j => L j / 2 ^ sl) n i (fun j hj => Nat.le_trans (Nat.div_le_self _ _) (hmax j hj)) hi
  refine Nat.lt_of_le_of_lt (Nat.mul_le_mul_right _ h1) ?_
  rw [← Nat.pow_mul, ← Nat.pow_add]
  refine Nat.pow_lt_pow_right (by decide) ?_
  obtain ⟨m, rfl⟩ : ∃ m, n = m + 1 := ⟨n - 1, by omega⟩
  rw [Nat.mul_succ] at hn
  simp only [Nat.add_sub_cancel]
  omega

/-- C64: the documentation's "cannot promise any bound", `maxlen_alignment<1 + (~std::size_t(0) >> 1), 1>`, on a matrix of
8 x 12 elements of 4 bytes, as in the documentation: the merged length is 96, but the element at index 0 is not the first
one; it is outside of the matrix. -/
theorem C64_unbounded_length_violates :
    let s := Struct.apply (.vector 1 (.vector 0 (.scalar 4 4))) [.setLength 0 (.dyn 12), .setLength 1 (.dyn 8)]
    let F := (Struct.view (.mergeZ 0 63 [1, 0] 2) s).sem (.machine (2 ^ 64))
    F.len 2 .empty = some (.dyn 96) ∧ F.size .empty = some (.dyn 384) ∧
    ∃ k, F.off (State.empty.at 2 0) (.lit 0) = some (.dyn k) ∧ 384 ≤ k := by
  refine ⟨by decide +kernel, by decide +kernel, _, rfl, by decide +kernel⟩

/-- C64: lengths that are known to be powers of two, up to 65536, where the documentation says to give the same maximum
length and alignment: with two dimensions, the indices are computed by an oversized 32-bit shift, which is undefined. -/
theorem C64_large_alignment_violates :
    let s := Struct.apply (.vector 1 (.vector 0 (.scalar 4 4))) [.setLength 0 (.dyn 16), .setLength 1 (.dyn 8)]
    let F := (Struct.view (.mergeZ 16 16 [1, 0] 2) s).sem (.machine (2 ^ 64))
    F.len 2 .empty = some (.dyn 128) ∧ F.off (State.empty.at 2 0) (.lit 0) = some (.bad .ub) := by
  refine ⟨by decide +kernel, by decide +kernel⟩

/-- C64: the same advice with smaller lengths: 16 x 8 elements of 4 bytes, maximum length and alignment 16. The indices 2 and
64, below the merged length 128, address the same element (and others are not visited). -/
theorem C64_powers_of_two_violates :
    let s := Struct.apply (.vector 0 (.vector 1 (.scalar 4 4))) [.setLength 0 (.dyn 16), .setLength 1 (.dyn 8)]
    let F := (Struct.view (.mergeZ 4 4 [0, 1] 2) s).sem (.machine (2 ^ 64))
    F.len 2 .empty = some (.dyn 128) ∧ F.off (State.empty.at 2 2) (.lit 0) = some (.dyn 32) ∧
    F.off (State.empty.at 2 64) (.lit 0) = some (.dyn 32) := by
  refine ⟨by decide +kernel, by decide +kernel, by decide +kernel⟩

theorem popcount_eq_one {n : Nat} (hn : n < 2 ^ 64) : popcount n = 1 ↔ ∃ k, k < 64 ∧ n = 2 ^ k := by
  constructor
  · intro h
    unfold popcount at h
    rw [List.countP_eq_length_filter, List.length_eq_one_iff] at h
    obtain ⟨k, hk⟩ := h
    have hb : ∀ j, j < 64 → (n.testBit j = true ↔ j = k) := by
      intro j hj
      have : j ∈ (List.range 64).filter n.testBit ↔ j = k := by rw [hk]; simp
      simpa [hj] using this
    have hk64 : k < 64 := by
      have : k ∈ (List.range 64).filter n.testBit := by rw [hk]; simp
      simp at this; exact this.1
    refine ⟨k, hk64, Nat.eq_of_testBit_eq fun j => ?_⟩
    rw [Nat.testBit_two_pow]
    by_cases hj : j < 64
    · have := hb j hj
      rcases Nat.decEq j k with e | e
      · cases hb : n.testBit j
        · simp [Ne.symm e]
        · exact absurd (this.1 hb) e
      · rw [this.2 e]; simp [e]
    · rw [Nat.testBit_lt_two_pow (Nat.lt_of_lt_of_le hn (Nat.pow_le_pow_right (by decide) (by omega)))]
      simp; omega
  · rintro ⟨k, hk, rfl⟩
    have : ∀ k : Fin 64, popcount (2 ^ k.val) = 1 := by decide
    exact this ⟨k, hk⟩

theorem countrZero_two_pow {k : Nat} (hk : k < 64) : countrZero (2 ^ k) = k := by
  have : ∀ k : Fin 64, countrZero (2 ^ k.val) = k := by decide
  exact this ⟨k, hk⟩

/-- C64: `merge_zcurve<ds..., d>::maxlen_alignment<M, A>()` compiles exactly if both numbers are powers of two, and gives
the view with these levels. -/
theorem C64_maxlen_alignment (ds : List Dim) (d : Dim) (M A : Nat) (hM : M < 2 ^ 64) (hA : A < 2 ^ 64) (p : Proto) :
    maxlenAlignment (ds ++ [d]) M A = some p ↔
      ∃ gl sl, gl < 64 ∧ sl < 64 ∧ M = 2 ^ gl ∧ A = 2 ^ sl ∧ p = .view (.mergeZ sl gl ds d) := by
  simp only [maxlenAlignment, List.reverse_append, List.reverse_cons, List.reverse_nil, List.nil_append,
    List.singleton_append, List.reverse_reverse, popcount_eq_one hM, popcount_eq_one hA]
  constructor
  · intro h
    split at h
    · next hp =>
      obtain ⟨⟨gl, hgl, rfl⟩, sl, hsl, rfl⟩ := hp
      rw [countrZero_two_pow hgl, countrZero_two_pow hsl] at h
      exact ⟨gl, sl, hgl, hsl, rfl, rfl, (Option.some.inj h).symm⟩
    · cases h
  · rintro ⟨gl, sl, hgl, hsl, rfl, rfl, rfl⟩
    rw [if_pos ⟨⟨gl, hgl, rfl⟩, sl, hsl, rfl⟩, countrZero_two_pow hgl, countrZero_two_pow hsl]

/-- C64: an alignment above the maximum length does not compile. -/
theorem C64_alignment_above_maxlen (s : Struct) (gl sl : Nat) (ds : List Dim) (d : Dim) (h : gl < sl) (A : Arith) :
    ((Struct.view (.mergeZ sl gl ds d) s).sem A).sig = .ill := by
  simp only [Struct.sem, View.sem, ViewSem.toSem, mergeZSem]
  rw [if_pos (.inl (by omega))]

/-! ### Examples -/

/-- The second example of the documentation (12 x 8, maximum length 16, alignment 4), in 64-bit arithmetic. -/
example := C64_zcurve_partial
  (.view (.setLength 0 (.dyn 12)) (.view (.setLength 1 (.dyn 8)) (.vector 1 (.vector 0 (.scalar 4 4))))) 2 4 [1, 0] 3
  (fun j => if j = 0 then 8 else 12) State.empty
  (by decide) (by decide) (by decide) (by decide) rfl (fun q _ => ⟨rfl, rfl⟩)
  (by
    intro j hj
    match j, hj with
    | 0, _ => exact ⟨_, rfl, rfl⟩
    | 1, _ => exact ⟨_, rfl, rfl⟩)
  (by decide) (by decide) (by decide) (by decide)
  (fun i hi => C64_condition 2 4 2 (fun j => if j = 0 then 8 else 12) (by decide) (by decide) (by decide) (by decide) i hi)

example : maxlenAlignment [1, 0, 3] 16 4 = some (.view (.mergeZ 2 4 [1, 0] 3)) ∧
    (maxlenAlignment [1, 0, 3] 12 4).isNone = true := by
  refine ⟨(C64_maxlen_alignment [1, 0] 3 16 4 (by decide) (by decide) _).2 ⟨4, 2, by decide, by decide, rfl, rfl, rfl⟩, ?_⟩
  decide

end Noarr
