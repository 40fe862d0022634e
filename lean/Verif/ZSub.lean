import Verif.ZIndex
import Verif.DependLemmas
import Verif.LenDefined

/-
The state handed down by `merge_zcurve`, in terms of the index function of the curve.
-/

namespace Noarr

theorem setIdxs_zip {st : State} {ds : List Dim} {vs : List Val} (hn : ds.Nodup)
    (hl : vs.length = ds.length) (j : Nat) (hj : j < ds.length) :
    setIdxs st (ds.zip vs) (.idx ds[j]) = vs[j]? := by
  induction ds generalizing st vs j with
  | nil => simp at hj
  | cons e ds ih =>
    cases vs with
    | nil => simp at hl
    | cons v vs =>
      simp only [List.zip_cons_cons, setIdxs]
      rw [List.nodup_cons] at hn
      cases j with
      | zero =>
        simp only [List.getElem_cons_zero, List.getElem?_cons_zero]
        rw [setIdxs_idx_not_mem]
        · simp [State.set]
        · intro hm
          simp only [List.mem_map] at hm
          obtain ⟨p, hp, rfl⟩ := hm
          have := List.of_mem_zip hp
          exact hn.1 this.1
      | succ j =>
        simp only [List.getElem_cons_succ, List.getElem?_cons_succ]
        exact ih hn.2 (by simpa using hl) j (by simpa using hj)

theorem allSome_getElem {α : Type} {os : List (Option α)} {xs : List α} (h : allSome os = some xs)
    (j : Nat) (hj : j < os.length) : os[j] = xs[j]? := by
  induction os generalizing xs j with
  | nil => simp at hj
  | cons o os ih =>
    simp only [allSome, bind, Option.bind_eq_some_iff] at h
    obtain ⟨a, ha, as, has, he⟩ := h
    cases he
    cases j with
    | zero => simp [ha]
    | succ j =>
      simp only [List.getElem_cons_succ, List.getElem?_cons_succ]
      exact ih has j (by simpa using hj)

theorem allSome_exists {α : Type} {os : List (Option α)}
    (h : ∀ (j : Nat) (hj : j < os.length), ∃ a, os[j] = some a) : ∃ xs, allSome os = some xs := by
  induction os with
  | nil => exact ⟨[], rfl⟩
  | cons o os ih =>
    obtain ⟨a, ha⟩ := h 0 (by simp)
    obtain ⟨as, has⟩ := ih (fun j hj => h (j + 1) (by simpa using hj))
    simp only [List.getElem_cons_zero] at ha
    exact ⟨a :: as, by simp [allSome, ha, has]⟩

/-- `zcIndices` on numbers. -/
theorem zcIndices_num {A : Arith} {sl gl : Nat} {lens : List Val} {z : Val} {L : Nat → Nat} {k n : Nat}
    (hn : lens.length = n) (hl : ∀ j (hj : j < n), (lens[j]'(by omega)).Num (L j)) (hz : z.Num k) :
    ∃ ls : List Nat, ls.length = n ∧ (∀ j, j < n → ls.getD j 0 = L j) ∧
      zcIndices A sl gl lens z = (List.range n).map fun i =>
        Val.ofDyn (ZC.index A n sl gl (fun j => ls.getD j 0) k i) := by
  obtain ⟨ls, hls⟩ := allSome_exists (os := lens.map Val.nat?) (fun j hj => by
    simp only [List.length_map] at hj
    exact ⟨L j, by simpa [Val.Num] using hl j (by omega)⟩)
  have hlen : ls.length = n := by rw [allSome_length hls]; simpa using hn
  refine ⟨ls, hlen, fun j hj => ?_, ?_⟩
  · have h1 := allSome_getElem hls j (by simpa [hn] using hj)
    have h2 := hl j hj
    simp only [List.getElem_map] at h1
    rw [Val.Num, h1] at h2
    simp [List.getD, h2]
  · have hz' : z.nat? = some k := hz
    simp only [zcIndices, hz', hls, hlen]

theorem ZC.facet_congr {A : Arith} {s s' r : Nat → Nat} {lvl i n : Nat} (h : ∀ j, j < n → s j = s' j) :
    ZC.facet A s r lvl i n = ZC.facet A s' r lvl i n := by
  induction n with
  | zero => rfl
  | succ n ih =>
    simp only [ZC.facet, ZC.facetFactor]
    rw [ih (fun j hj => h j (by omega)), h n (by omega)]

theorem ZC.level_congr {A : Arith} {s s' : Nat → Nat} {lvl n : Nat} (h : ∀ j, j < n → s j = s' j) (i zr) :
    ZC.level A n s lvl i zr = ZC.level A n s' lvl i zr := by
  induction i with
  | zero => rfl
  | succ i ih =>
    simp only [ZC.level, ih, ZC.step, ZC.facet_congr h]

theorem ZC.loop_congr {A : Arith} {s s' : Nat → Nat} {n : Nat} (h : ∀ j, j < n → s j = s' j) (lvl zr) :
    ZC.loop A n s lvl zr = ZC.loop A n s' lvl zr := by
  induction lvl generalizing zr with
  | zero => rfl
  | succ lvl ih => simp only [ZC.loop, ih, ZC.level_congr h]

/-- Only the lengths of the merged dimensions matter. -/
theorem ZC.index_congr {A : Arith} {s s' : Nat → Nat} {n sl gl z i : Nat}
    (h : ∀ j, j < n → s j = s' j) : ZC.index A n sl gl s z i = ZC.index A n sl gl s' z i := by
  unfold ZC.index ZC.general
  rw [ZC.loop_congr (s' := fun j => s' j / 2 ^ sl) (fun j hj => by rw [h j hj])]

/-- The state below a z-curve: `T` the indices computed. -/
theorem mergeZSub_eq {A : Arith} {S : Sem} {sl gl : Nat} {ds : List Dim} {d : Dim} {st : State} {z : Val}
    {k : Nat} {L T : Nat → Nat} (hnd : ds.Nodup) (hz : st (.idx d) = some z) (hk : z.Num k)
    (hL : ∀ j (hj : j < ds.length), ∃ v, S.len ds[j] (zClean ds d st) = some v ∧ v.Num (L j))
    (hT : ∀ j, j < ds.length → ZC.index A ds.length sl gl L k j = .ok (T j)) :
    ∃ u, mergeZSub A sl gl ds d S st = some u ∧
      (∀ e, u (.len e) = zClean ds d st (.len e)) ∧
      (∀ e, e ∉ ds → u (.idx e) = zClean ds d st (.idx e)) ∧
      ∀ j (hj : j < ds.length), u (.idx ds[j]) = some (.dyn (T j)) := by
  obtain ⟨lens, hlens⟩ := allSome_exists (os := ds.map (S.len · (zClean ds d st))) (fun j hj => by
    simp only [List.length_map] at hj
    obtain ⟨v, hv, -⟩ := hL j hj
    exact ⟨v, by simpa using hv⟩)
  have hlen : lens.length = ds.length := by rw [allSome_length hlens]; simp
  have hnum : ∀ j (hj : j < ds.length), (lens[j]'(by omega)).Num (L j) := by
    intro j hj
    obtain ⟨v, hv, hn⟩ := hL j hj
    have h1 := allSome_getElem hlens j (by simpa using hj)
    simp only [List.getElem_map, hv] at h1
    rw [List.getElem?_eq_getElem (by omega)] at h1
    injection h1 with h1
    rw [← h1]; exact hn
  obtain ⟨ls, hls, hlj, hzc⟩ := zcIndices_num (A := A) (sl := sl) (gl := gl) hlen hnum hk
  have hfst : (ds.zip (zcIndices A sl gl lens z)).map Prod.fst = ds := by
    rw [List.map_fst_zip]
    rw [zcIndices_length]; omega
  refine ⟨setIdxs (zClean ds d st) (ds.zip (zcIndices A sl gl lens z)), ?_, ?_, ?_, ?_⟩
  · simp only [mergeZSub, hz]
    change (do let lens ← allSome (ds.map (S.len · (zClean ds d st))); _) = _
    simp only [hlens, bind, Option.bind_some]
    rfl
  · intro e; rw [setIdxs_len]
  · intro e he
    exact setIdxs_idx_not_mem (by rw [hfst]; exact he)
  · intro j hj
    rw [setIdxs_zip hnd (by rw [zcIndices_length]; omega) j hj, hzc]
    rw [List.getElem?_map, List.getElem?_range hj]
    simp only [Option.map_some]
    rw [ZC.index_congr hlj, hT j hj]
    rfl

theorem ZC.prod_succ' {L : Nat → Nat} : ∀ n, ZC.prod L (n + 1) = L 0 * ZC.prod (fun j => L (j + 1)) n := by
  intro n
  induction n with
  | zero => simp [ZC.prod]
  | succ n ih => rw [ZC.prod, ih, ZC.prod, Nat.mul_assoc]

theorem mulFold_num {n : Nat} {v : Val} {vs : List Val} {L : Nat → Nat} {a : Nat} (hn : vs.length = n)
    (h0 : v.Num a) (h : ∀ j (hj : j < n), (vs[j]'(by omega)).Num (L j)) :
    (mulFold .ideal v vs).Num (a * ZC.prod L n) := by
  induction vs generalizing n v L a with
  | nil => subst hn; simpa [mulFold, ZC.prod] using h0
  | cons w vs ih =>
    cases n with
    | zero => simp at hn
    | succ n =>
      simp only [mulFold]
      have h1 := h 0 (by omega)
      simp only [List.getElem_cons_zero] at h1
      have hm : (v.toDyn.mul .ideal w.toDyn).Num (a * L 0) := by
        cases v <;> cases w <;> simp_all [Val.Num, Val.nat?, Val.toDyn, Val.mul, Val.ofDyn, Arith.ideal]
      have := ih (n := n) (L := fun j => L (j + 1)) (by simpa using hn) hm (fun j hj => by
        simpa using h (j + 1) (by omega))
      rw [ZC.prod_succ', ← Nat.mul_assoc]
      exact this

/-- The length of the merged dimension. -/
theorem mergeZ_len' {A : Arith} {S : Sem} {sl gl : Nat} {ds : List Dim} {d : Dim} {st : State} {L : Nat → Nat}
    (hds : ds ≠ []) (hz : st (.idx d) = none)
    (hlg : ∀ q u v, S.len q u = some v → S.hasLen q u = some true)
    (hL : ∀ j (hj : j < ds.length), ∃ v, S.len ds[j] (zClean ds d st) = some v ∧ v.Num (L j))
    (hP : ∀ v vs, ds.length = vs.length + 1 → v.Num (L 0) → (∀ j (hj : j < vs.length), (vs[j]'hj).Num (L (j + 1))) →
      (mulFold A v vs).Num (ZC.prod L ds.length)) :
    ∃ v, (mergeZSem A sl gl ds d S).len d st = some v ∧ v.Num (ZC.prod L ds.length) := by
  have hsub : mergeZSub A sl gl ds d S st = some (zClean ds d st) := by
    simp [mergeZSub, hz, zClean]
  obtain ⟨lens, hlens⟩ := allSome_exists (os := ds.map (S.len · (zClean ds d st))) (fun j hj => by
    simp only [List.length_map] at hj
    obtain ⟨v, hv, -⟩ := hL j hj
    exact ⟨v, by simpa using hv⟩)
  have hlen : lens.length = ds.length := by rw [allSome_length hlens]; simp
  have hnum : ∀ j (hj : j < ds.length), (lens[j]'(by omega)).Num (L j) := by
    intro j hj
    obtain ⟨v, hv, hn⟩ := hL j hj
    have h1 := allSome_getElem hlens j (by simpa using hj)
    simp only [List.getElem_map, hv] at h1
    rw [List.getElem?_eq_getElem (by omega)] at h1
    injection h1 with h1
    rw [← h1]; exact hn
  obtain ⟨bs, hbs⟩ := allSome_exists (os := ds.map (S.hasLen · (zClean ds d st))) (fun j hj => by
    simp only [List.length_map] at hj
    obtain ⟨v, hv, -⟩ := hL j hj
    exact ⟨true, by simpa using hlg _ _ _ hv⟩)
  have hall : bs.all id = true := by
    rw [List.all_eq_true]
    intro b hb
    obtain ⟨j, hj, rfl⟩ := List.getElem_of_mem hb
    have hjl : j < ds.length := by rw [allSome_length hbs] at hj; simpa using hj
    obtain ⟨v, hv, -⟩ := hL j hjl
    have h1 := allSome_getElem hbs j (by simpa using hjl)
    simp only [List.getElem_map, hlg _ _ _ hv] at h1
    rw [List.getElem?_eq_getElem hj] at h1
    injection h1 with h1
    simp [← h1]
  cases lens with
  | nil => exact absurd (List.eq_nil_of_length_eq_zero hlen.symm) hds
  | cons l ls =>
    refine ⟨mulFold A l ls, ?_, ?_⟩
    · have hg : ∀ x, guardLen (some true) x = x := fun _ => rfl
      simp only [mergeZSem, hsub, State.has, hz, Option.isSome_none, Bool.false_eq_true, ↓reduceIte,
        bind, Option.bind_some, hbs, hall, hg, hlens]
    · have h0 := hnum 0 (by rw [← hlen]; simp)
      simp only [List.getElem_cons_zero] at h0
      refine hP l ls (by simpa using hlen.symm) h0 (fun j hj => ?_)
      have := hnum (j + 1) (by simp at hlen; omega)
      simpa using this

theorem mergeZ_len {S : Sem} {sl gl : Nat} {ds : List Dim} {d : Dim} {st : State} {L : Nat → Nat}
    (hds : ds ≠ []) (hz : st (.idx d) = none)
    (hlg : ∀ q u v, S.len q u = some v → S.hasLen q u = some true)
    (hL : ∀ j (hj : j < ds.length), ∃ v, S.len ds[j] (zClean ds d st) = some v ∧ v.Num (L j)) :
    ∃ v, (mergeZSem .ideal sl gl ds d S).len d st = some v ∧ v.Num (ZC.prod L ds.length) :=
  mergeZ_len' hds hz hlg hL fun v vs hn h0 h => by
    rw [hn, ZC.prod_succ']
    exact mulFold_num rfl h0 h

end Noarr
