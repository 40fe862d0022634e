import Verif.ZSub

/-
C25 for every arithmetic in which the index function of the curve and the length are exact.
-/

namespace Noarr

/-- The state with the run-time index `t j` in the `j`-th of the given dimensions. -/
def State.atAll (st : State) (ds : List Dim) (t : Nat → Nat) : State
  | .idx q => if q ∈ ds then some (.dyn (t (ds.idxOf q))) else st (.idx q)
  | .len q => st (.len q)

/-- `C25_merge_zcurve` and `C64_zcurve_partial`. -/
theorem mergeZ_main (A : Arith) (s : Struct) (sl gl : Nat) (ds : List Dim) (d : Dim) (L : Nat → Nat)
    (st : State) (h2 : 2 ≤ ds.length) (hnd : ds.Nodup) (hsl : sl * ds.length < 32) (hsg : sl ≤ gl)
    (hd : st (.idx d) = none) (hds : ∀ q ∈ ds, st.Without q)
    (hL : ∀ j (hj : j < ds.length), (s.sem A).HasLength ds[j] st (L j))
    (hal : ∀ j, j < ds.length → 2 ^ sl ∣ L j) (hmax : ∀ j, j < ds.length → L j ≤ 2 ^ gl)
    (hA : ∀ z j, z < ZC.prod L ds.length → j < ds.length →
      ZC.index A ds.length sl gl L z j = ZC.index .ideal ds.length sl gl L z j)
    (hP : ∀ v vs, ds.length = vs.length + 1 → v.Num (L 0) → (∀ j (hj : j < vs.length), (vs[j]'hj).Num (L (j + 1))) →
      (mulFold A v vs).Num (ZC.prod L ds.length)) :
    let F := (Struct.view (.mergeZ sl gl ds d) s).sem A
    let n := ds.length
    let P := ZC.prod L n
    F.HasLength d st P ∧
    ∃ t : Nat → Nat → Nat,
      (∀ z, z < P → ∀ j, j < n → t z j < L j) ∧
      (∀ z z', z < P → z' < P → (∀ j, j < n → t z j = t z' j) → z = z') ∧
      (∀ u : Nat → Nat, (∀ j, j < n → u j < L j) → ∃ z, z < P ∧ ∀ j, j < n → t z j = u j) ∧
      (∀ z, z < P → ∀ j, j < n → ∀ k, k < sl →
        (t z j).testBit k = z.testBit (n * k + (n - 1 - j))) ∧
      ∀ z, z < P → SameAt F (st.at d z) (s.sem A) (st.atAll ds (t z)) ∧
        ∀ q, q ≠ d → st (.idx q) = none →
          F.len q (st.at d z) = (s.sem A).len q (st.atAll ds (t z)) := by
  intro F n P
  have hc : ∀ z, zClean ds d (st.at d z) = st := by
    intro z
    funext tag
    cases tag with
    | idx q =>
      have := hds q
      simp only [zClean_idx, State.at, State.set, Tag.idx.injEq]
      by_cases hq : q = d
      · simp [hq, hd]
      · by_cases hq' : q ∈ ds
        · simp [hq', (this hq').1]
        · simp [hq, hq']
    | len q =>
      have := hds q
      simp only [zClean_len, State.at, State.set]
      by_cases hq' : q ∈ ds
      · simp [hq', (this hq').2]
      · simp [hq']
  have hc0 : zClean ds d st = st := by
    funext tag
    cases tag with
    | idx q =>
      have := hds q
      simp only [zClean_idx]
      by_cases hq : q = d
      · simp [hq, hd]
      · by_cases hq' : q ∈ ds
        · simp [hq', (this hq').1]
        · simp [hq, hq']
    | len q =>
      have := hds q
      simp only [zClean_len]
      by_cases hq' : q ∈ ds
      · simp [hq', (this hq').2]
      · simp [hq']
  refine ⟨mergeZ_len' (fun h => by simp [h] at h2) hd (fun q u v h => Struct.hasLen_of_len h)
    (by rw [hc0]; exact hL) hP, ?_⟩
  have hex : ∀ z, ∃ r : Nat → Nat, z < P → ∀ j, j < n →
      ZC.index .ideal n sl gl L z j = .ok (r j) ∧ r j < L j := by
    intro z
    by_cases hz : z < P
    · obtain ⟨r, hr⟩ := ZC.index_ok h2 hsl hsg hal hmax hz
      exact ⟨r, fun _ => hr⟩
    · exact ⟨fun _ => 0, fun h => absurd h hz⟩
  obtain ⟨t, ht⟩ := Classical.axiomOfChoice hex
  refine ⟨t, fun z hz j hj => (ht z hz j hj).2, ?_, ?_, ?_, ?_⟩
  · intro z z' hz hz' h
    apply ZC.index_inj h2 hsl hsg hal hmax hz hz'
    intro j hj
    rw [(ht z hz j hj).1, (ht z' hz' j hj).1, h j hj]
  · intro u hu
    obtain ⟨z, hz, h⟩ := ZC.index_surj h2 hsl hsg hal hmax hu
    refine ⟨z, hz, fun j hj => ?_⟩
    have := (ht z hz j hj).1
    rw [h j hj] at this
    injection this with this
    exact this.symm
  · intro z hz j hj k hk
    obtain ⟨g, sp, -, -, hs, hi⟩ := ZC.index_parts h2 hsl hsg hal hmax hz
    have h1 := (ht z hz j hj).1
    rw [hi j hj] at h1
    injection h1 with h1
    obtain ⟨r, hr, hb⟩ := ZC.special_bits n j (z % 2 ^ (sl * n)) h2 hj
      (ZC.lt64 h2 hsl (Nat.mod_lt _ (Nat.two_pow_pos _)))
    have h3 := (hs j hj).1
    rw [hr] at h3
    injection h3 with h3
    have hlt : n * k + (n - 1 - j) < sl * n := by
      have := Nat.mul_le_mul_left n hk
      rw [Nat.mul_comm n sl, Nat.mul_succ] at this
      omega
    rw [← h1, Nat.mul_comm, Nat.testBit_two_pow_mul_add _ (hs j hj).2]
    simp only [hk, ↓reduceIte]
    rw [← h3, hb k, Nat.testBit_mod_two_pow]
    simp [hlt]
  · intro z hz
    obtain ⟨u, hu, hul, hui, hud⟩ := mergeZSub_eq (A := A) (S := s.sem A) (sl := sl)
      (gl := gl) (ds := ds) (d := d) (st := st.at d z) (z := .dyn z) (k := z) (L := L) (T := t z)
      hnd (by simp [State.at, State.set]) rfl (by rw [hc]; exact hL) (fun j hj => by rw [hA z j hz hj]; exact (ht z hz j hj).1)
    have hue : u = st.atAll ds (t z) := by
      funext tag
      cases tag with
      | len q => rw [hul, hc]; rfl
      | idx q =>
        simp only [State.atAll]
        by_cases hq : q ∈ ds
        · simp only [hq, ↓reduceIte]
          have hlt := List.idxOf_lt_length_iff.2 hq
          have := hud (ds.idxOf q) hlt
          rw [List.getElem_idxOf hlt] at this
          exact this
        · simp only [hq, ↓reduceIte]
          rw [hui q hq, hc]
    subst hue
    have hu' : (mergeZSem A sl gl ds d (s.sem A)).sub (st.at d z) =
      some (st.atAll ds (t z)) := hu
    refine ⟨⟨?_, ?_, fun x => ?_, ?_⟩, fun q hq hqi => ?_⟩
    · simp only [F, Struct.sem, View.sem, ViewSem.toSem, hu', Option.bind_some]; rfl
    · simp only [F, Struct.sem, View.sem, ViewSem.toSem, hu', Option.bind_some]; rfl
    · simp only [F, Struct.sem, View.sem, ViewSem.toSem, hu', Option.bind_some]; rfl
    · simp only [F, Struct.sem, View.sem, ViewSem.toSem, hu', Option.bind_some]
    · have hq1 : (st.at d z).has (.idx q) = false := by
        simp [State.has, State.at, State.set, hq, hqi]
      simp only [F, Struct.sem, View.sem, ViewSem.toSem, mergeZSem, hu, hq1, hq, ↓reduceIte,
        Bool.false_eq_true, Option.bind_some]
      exact Struct.len_guard _ _ _ _

end Noarr
