import Verif.ZMain

/-
C25: merge_zcurve.
-/

namespace Noarr

/-- **C25**: `s ^ merge_zcurve<ds..., d>::maxlen_alignment<2^gl, 2^sl>()`. The structure `s` has the
lengths `L 0, L 1, ...` in the merged dimensions `ds`. The merged dimension has the length
`L 0 * L 1 * ...`, and its indices correspond one-to-one with the index tuples of the box
(`t z j` is the index in the `j`-th merged dimension). All the queries at index `z` are those of `s`
at the tuple. -/
theorem C25_merge_zcurve (s : Struct) (sl gl : Nat) (ds : List Dim) (d : Dim) (L : Nat → Nat)
    (st : State) (h2 : 2 ≤ ds.length) (hnd : ds.Nodup) (hsl : sl * ds.length < 32) (hsg : sl ≤ gl)
    (hd : st (.idx d) = none) (hds : ∀ q ∈ ds, st.Without q)
    (hL : ∀ j (hj : j < ds.length), (s.sem .ideal).HasLength ds[j] st (L j))
    (hal : ∀ j, j < ds.length → 2 ^ sl ∣ L j) (hmax : ∀ j, j < ds.length → L j ≤ 2 ^ gl) :
    let F := (Struct.view (.mergeZ sl gl ds d) s).sem .ideal
    let n := ds.length
    let P := ZC.prod L n
    F.HasLength d st P ∧
    ∃ t : Nat → Nat → Nat,
      (∀ z, z < P → ∀ j, j < n → t z j < L j) ∧
      (∀ z z', z < P → z' < P → (∀ j, j < n → t z j = t z' j) → z = z') ∧
      (∀ u : Nat → Nat, (∀ j, j < n → u j < L j) → ∃ z, z < P ∧ ∀ j, j < n → t z j = u j) ∧
      (∀ z, z < P → ∀ j, j < n → ∀ k, k < sl →
        (t z j).testBit k = z.testBit (n * k + (n - 1 - j))) ∧
      ∀ z, z < P → SameAt F (st.at d z) (s.sem .ideal) (st.atAll ds (t z)) ∧
        ∀ q, q ≠ d → st (.idx q) = none →
          F.len q (st.at d z) = (s.sem .ideal).len q (st.atAll ds (t z)) :=
  mergeZ_main .ideal s sl gl ds d L st h2 hnd hsl hsg hd hds hL hal hmax (fun _ _ _ _ => rfl)
    fun v vs hn h0 h => by
      rw [hn, ZC.prod_succ']
      exact mulFold_num rfl h0 h

/-- The theorem applies to a 12 x 4 x 8 box with maximum length 16 and alignment 4. -/
example := C25_merge_zcurve
  (.view (.setLength 0 (.dyn 12)) (.view (.setLength 1 (.dyn 4)) (.view (.setLength 2 (.dyn 8))
    (.vector 0 (.vector 1 (.vector 2 (.scalar 4 4))))))) 2 4 [0, 1, 2] 3
  (fun j => if j = 0 then 12 else if j = 1 then 4 else 8) State.empty
  (by decide) (by decide) (by decide) (by decide) rfl (fun q _ => ⟨rfl, rfl⟩)
  (by
    intro j hj
    match j, hj with
    | 0, _ => exact ⟨_, rfl, rfl⟩
    | 1, _ => exact ⟨_, rfl, rfl⟩
    | 2, _ => exact ⟨_, rfl, rfl⟩)
  (by decide) (by decide)

/-- Undefined behaviour instead of an index: whenever a single dimension is "merged", every index
goes through an oversized shift, whatever the lengths. -/
theorem C25_single_dimension_is_undefined (sl gl : Nat) (L : Nat → Nat) (z i : Nat) :
    ZC.index .ideal 1 sl gl L z i = .error .ub ∨
      ∃ f, ZC.general .ideal 1 (gl - sl) (z / 2 ^ (sl * 1)) (fun j => L j / 2 ^ sl) = .error f := by
  simp only [ZC.index]
  split
  · exact .inl rfl
  · cases h : ZC.general .ideal 1 (gl - sl) (z / 2 ^ (sl * 1)) (fun j => L j / 2 ^ sl) with
    | error f => exact .inr ⟨f, rfl⟩
    | ok g => left; simp only [ZC.special_one, bind, Except.bind]

/-- The condition on the alignment cannot be dropped: with 3 x 3 elements and alignment 2, the index 6
is below the reported length 9, but it addresses byte 9 of a structure of 9 bytes. -/
theorem C25_needs_alignment :
    let s := Struct.view (.setLength 0 (.dyn 3)) (.view (.setLength 1 (.dyn 3))
      (.vector 0 (.vector 1 (.scalar 1 1))))
    let F := (Struct.view (.mergeZ 1 2 [0, 1] 3) s).sem .ideal
    F.len 3 State.empty = some (.dyn 9) ∧ F.size State.empty = some (.dyn 9) ∧
    F.off (State.empty.at 3 6) (.lit 0) = some (.dyn 9) := by
  refine ⟨by decide +kernel, by decide +kernel, by decide +kernel⟩

end Noarr
