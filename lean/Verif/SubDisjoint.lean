import Verif.SubLemmas
import Verif.AliasMain
import Verif.Layout

/-
Sub-structures do not overlap partially, and are aligned: proofs for C57.
-/

set_option linter.unusedVariables false
set_option linter.unusedSimpArgs false

namespace Noarr
namespace Struct

variable {is : Struct → Bool}

/-- The item of a vector a sub-structure lies in. -/
theorem offOf_item {d : Dim} {s : Struct} {st : State} {start v o : Val} {a N : Nat} (hi : is (.vector d s) = false)
    (hV : ValidR .ideal (.vector d s) st) (hsz : ((Struct.vector d s).sem .ideal).size st = some v) (hN : v.Num N)
    (ha : start.Num a) (ho : (Struct.vector d s).offOf .ideal is st start = some o) :
    ∃ x sz Z start', (s.sem .ideal).size (st.removeAll [.idx d, .len d]) = some sz ∧ sz.Num Z ∧
      start'.Num (x * Z + a) ∧ s.offOf .ideal is (st.removeAll [.idx d, .len d]) start' = some o := by
  obtain ⟨i, l, hx, hl, ho⟩ := (offOf_vector hi).1 ho
  simp only [Struct.sem, vectorSem, bind, Option.bind_eq_some_iff, Option.some.injEq] at hsz
  obtain ⟨l', hl', sz, hsz, rfl⟩ := hsz
  rw [hl] at hl'
  obtain rfl := Option.some.inj hl'
  obtain ⟨L, Z, hL, hZ, rfl⟩ := Val.nat?_mul.1 hN
  have hidx : LtVal i l := by
    refine hV d i l (fun h => h.1 rfl) hx ?_
    have e1 : (st.remove (.idx d)) (.len d) = st (.len d) := by state_val
    have e2 : (st.remove (.idx d)) (.idx d) = none := by state_val
    simp [Struct.sem, vectorSem, State.has, e1, e2, hl, guardTrue]
  obtain ⟨x, y, hxn, hy, hlt⟩ := hidx
  have := Val.Num.eq hL hy
  subst this
  split at ho
  · have h1 : L = 1 := by simpa [Val.nat?, eq_comm] using hL
    subst h1
    have : x = 0 := by omega
    subst this
    exact ⟨0, sz, Z, start, hsz, hZ, by simpa using ha, ho⟩
  · simp [Val.nat?] at hL
  · obtain ⟨sz', hsz', ho⟩ := ho
    rw [hsz] at hsz'
    obtain rfl := Option.some.inj hsz'
    exact ⟨x, sz, Z, _, hsz, hZ, Val.num_add (Val.num_mul hxn hZ) ha, ho⟩

/-- Two sub-structures coincide or are disjoint. -/
theorem sub_disjoint (s : Struct) {st st' : State} {start start' v v' o o' : Val} {a N N' : Nat} (ht : s.tame)
    (hs : s.sane .ideal) (hl : SameLens st st') (hV : ValidR .ideal s st) (hV' : ValidR .ideal s st')
    (hp : s.Pre .ideal st) (hp' : s.Pre .ideal st') (hr : s.rigid .ideal st) (hr' : s.rigid .ideal st')
    (hsz : (s.sem .ideal).size st = some v) (hN : v.Num N)
    (hsz' : (s.sem .ideal).size st' = some v') (hN' : v'.Num N') (ha : start.Num a) (ha' : start'.Num a)
    (ho : s.offOf .ideal is st start = some o) (ho' : s.offOf .ideal is st' start' = some o') :
    ∃ t u t' u' z z' k k' Z Z', s.locate .ideal is st = some (t, u) ∧ s.locate .ideal is st' = some (t', u') ∧
      (t.sem .ideal).size u = some z ∧ (t'.sem .ideal).size u' = some z' ∧ o.Num k ∧ o'.Num k' ∧ z.Num Z ∧
      z'.Num Z' ∧ (t = t' ∧ k = k' ∧ Z = Z' ∨ k + Z ≤ k' ∨ k' + Z' ≤ k) := by
  -- the structure itself
  have self : ∀ {s : Struct} {st st' : State} {start start' v v' o o' : Val} {a N N' : Nat}, is s = true →
      SameLens st st' → s.rigid .ideal st → (s.sem .ideal).size st = some v → v.Num N →
      (s.sem .ideal).size st' = some v' → v'.Num N' → start.Num a → start'.Num a →
      s.offOf .ideal is st start = some o → s.offOf .ideal is st' start' = some o' →
      s.locate .ideal is st = some (s, st) → s.locate .ideal is st' = some (s, st') →
      ∃ t u t' u' z z' k k' Z Z', s.locate .ideal is st = some (t, u) ∧ s.locate .ideal is st' = some (t', u') ∧
        (t.sem .ideal).size u = some z ∧ (t'.sem .ideal).size u' = some z' ∧ o.Num k ∧ o'.Num k' ∧ z.Num Z ∧
        z'.Num Z' ∧ (t = t' ∧ k = k' ∧ Z = Z' ∨ k + Z ≤ k' ∨ k' + Z' ≤ k) := by
    intro s st st' start start' v v' o o' a N N' hi hl hr hsz hN hsz' hN' ha ha' ho ho' h1 h2
    rw [offOf_self hi] at ho ho'
    obtain rfl := Option.some.inj ho
    obtain rfl := Option.some.inj ho'
    cases Struct.size_det .ideal s hr hl hsz hsz'
    have := Val.Num.eq hN hN'
    subst this
    exact ⟨s, st, s, st', v, v, a, a, N, N, h1, h2, hsz, hsz', ha, ha', hN, hN, .inl ⟨rfl, rfl, rfl⟩⟩
  induction s generalizing st st' start start' v v' o o' a N N' with
  | scalar z al =>
    cases hi : is (.scalar z al) with
    | true => exact self hi hl hr hsz hN hsz' hN' ha ha' ho ho' (by simp [locate, hi]) (by simp [locate, hi])
    | false => simp [offOf, hi] at ho
  | tuple t n fs ih =>
    cases hi : is (.tuple t n fs) with
    | true => exact self hi hl hr hsz hN hsz' hN' ha ha' ho ho' (by simp [locate, hi]) (by simp [locate, hi])
    | false =>
      obtain ⟨j, hj, hx, before, hb, ho⟩ := (offOf_tuple hi).1 ho
      obtain ⟨j', hj', hx', before', hb', ho'⟩ := (offOf_tuple hi).1 ho'
      have hl2 : SameLens (st.remove (.idx t)) (st'.remove (.idx t)) := by
        intro e; simp [State.remove, hl e]
      have hl2' : SameLens (st'.remove (.idx t)) (st.remove (.idx t)) := fun e => (hl2 e).symm
      have hk : constIdx (st (.idx t)) = some j := by simp [hx, constIdx]
      have hk' : constIdx (st' (.idx t)) = some j' := by simp [hx', constIdx]
      obtain ⟨sz, b, z, hz, hbn, hzn, hle⟩ := tuple_field hj hsz hN hb
      obtain ⟨sz', b', z', hz', hbn', hzn', hle'⟩ := tuple_field hj' hsz' hN' hb'
      by_cases hjj : j = j'
      · subst hjj
        have hmap : (List.ofFn fun i => (fs i).sem .ideal) = (List.ofFn fs).map (·.sem .ideal) := by
          rw [List.map_ofFn]; rfl
        rw [hmap, ← List.map_take] at hb hb'
        have hbb := sizeAcc_det hl2 (l := (List.ofFn fs).take j) (fun s hs => by
          obtain ⟨i, rfl⟩ := List.mem_ofFn.1 (List.mem_of_mem_take hs); exact hr i) hb hb'
        subst hbb
        obtain ⟨t1, u1, t2, u2, z1, z2, k1, k2, Z1, Z2, h1, h2, h3⟩ := ih ⟨j, hj⟩ (ht _) (hs.1 _) hl2
          (validR_field hj hs hk hV) (validR_field hj hs hk' hV') (hp _) (hp' _) (hr _) (hr' _) hz hzn hz' hzn'
          (Val.num_add hbn ha) (Val.num_add hbn ha') ho ho'
        exact ⟨t1, u1, t2, u2, z1, z2, k1, k2, Z1, Z2, by simp [locate, hi, hx, hj, h1],
          by simp [locate, hi, hx', hj, h2], h3⟩
      · obtain ⟨t1, u1, z1, k1, Z1, h1, h2, h3, h4, h5, h6⟩ := sub_inside _ (ht ⟨j, hj⟩) (hs.1 _)
          (validR_field hj hs hk hV) (hp _) hz hzn (Val.num_add hbn ha) ho
        obtain ⟨t2, u2, z2, k2, Z2, g1, g2, g3, g4, g5, g6⟩ := sub_inside _ (ht ⟨j', hj'⟩) (hs.1 _)
          (validR_field hj' hs hk' hV') (hp' _) hz' hzn' (Val.num_add hbn' ha') ho'
        refine ⟨t1, u1, t2, u2, z1, z2, k1, k2, Z1, Z2, by simp [locate, hi, hx, hj, h1],
          by simp [locate, hi, hx', hj', g1], h3, g3, h2, g2, h4, g4, .inr ?_⟩
        rcases Nat.lt_or_gt_of_ne hjj with h | h
        · obtain ⟨x, y, e1, e2, hle⟩ := field_order hl2 hj h hr hb hb' hbn' hz
          have := Val.Num.eq e1 hbn
          have := Val.Num.eq e2 hzn
          omega
        · obtain ⟨x, y, e1, e2, hle⟩ := field_order hl2' hj' h hr' hb' hb hbn hz'
          have := Val.Num.eq e1 hbn'
          have := Val.Num.eq e2 hzn'
          omega
  | vector d s ih =>
    cases hi : is (.vector d s) with
    | true => exact self hi hl hr hsz hN hsz' hN' ha ha' ho ho' (by simp [locate, hi]) (by simp [locate, hi])
    | false =>
      obtain ⟨x, sz, Z, st1, hz, hZ, hs1, ho⟩ := offOf_item hi hV hsz hN ha ho
      obtain ⟨x', sz', Z', st2, hz', hZ', hs2, ho'⟩ := offOf_item hi hV' hsz' hN' ha' ho'
      have hl2 : SameLens (st.removeAll [.idx d, .len d]) (st'.removeAll [.idx d, .len d]) := by
        intro e; simp [State.removeAll, hl e]
      cases Struct.size_det .ideal s hr hl2 hz hz'
      have := Val.Num.eq hZ hZ'
      subst this
      by_cases hxx : x = x'
      · subst hxx
        obtain ⟨t1, u1, t2, u2, z1, z2, k1, k2, Z1, Z2, h1, h2, h3⟩ := ih ht hs hl2
          (validR_vector hV) (validR_vector hV') hp hp' hr hr' hz hZ hz' hZ hs1 hs2 ho ho'
        exact ⟨t1, u1, t2, u2, z1, z2, k1, k2, Z1, Z2, by simp [locate, hi, h1], by simp [locate, hi, h2], h3⟩
      · obtain ⟨t1, u1, z1, k1, Z1, h1, h2, h3, h4, h5, h6⟩ := sub_inside s ht hs (validR_vector hV) hp hz hZ hs1 ho
        obtain ⟨t2, u2, z2, k2, Z2, g1, g2, g3, g4, g5, g6⟩ :=
          sub_inside s ht hs (validR_vector hV') hp' hz' hZ hs2 ho'
        refine ⟨t1, u1, t2, u2, z1, z2, k1, k2, Z1, Z2, by simp [locate, hi, h1],
          by simp [locate, hi, g1], h3, g3, h2, g2, h4, g4, .inr ?_⟩
        rcases Nat.lt_or_gt_of_ne hxx with h | h
        · have := Nat.mul_le_mul_right Z h
          rw [Nat.succ_mul] at this
          omega
        · have := Nat.mul_le_mul_right Z h
          rw [Nat.succ_mul] at this
          omega
  | union n ss => simp [Struct.sem, unionSem] at hsz
  | view w s ih =>
    cases hi : is (.view w s) with
    | true => exact self hi hl hr hsz hN hsz' hN' ha ha' ho ho' (by simp [locate, hi]) (by simp [locate, hi])
    | false =>
      obtain ⟨hoff, u, hu, ho⟩ := (offOf_view hi).1 ho
      obtain ⟨hoff', u', hu', ho'⟩ := (offOf_view hi).1 ho'
      simp only [Struct.sem, ViewSem.toSem] at hsz hsz'
      split at hsz
      · next hk =>
        simp only [hk, if_true, hu, hu', Option.bind_some] at hsz hsz'
        obtain ⟨hp1, hp2⟩ := hp u hu
        obtain ⟨hp1', hp2'⟩ := hp' u' hu'
        obtain ⟨t1, u1, t2, u2, z1, z2, k1, k2, Z1, Z2, h1, h2, h3⟩ := ih ht.1 hs.1 (sameLens_sub hl hr hu hu')
          (validR_sub ht hs hV hp1 hoff hu) (validR_sub ht hs hV' hp1' hoff' hu') hp2 hp2' (hr.2 u hu) (hr'.2 u' hu')
          hsz hN hsz' hN' ha ha' ho ho'
        exact ⟨t1, u1, t2, u2, z1, z2, k1, k2, Z1, Z2, by simp [locate, hi, hu, h1],
          by simp [locate, hi, hu', h2], h3⟩
      · simp at hsz

/-- An offset is computed from the offset at which the structure starts. -/
theorem offOf_start {s : Struct} {st : State} {start o : Val} {k : Nat}
    (ho : s.offOf .ideal is st start = some o) (hk : o.Num k) : ∃ a, start.Num a := by
  induction s generalizing st start with
  | scalar z b =>
    simp only [offOf] at ho
    split at ho
    · cases ho; exact ⟨k, hk⟩
    · cases ho
  | tuple t n fs ih =>
    cases hi : is (.tuple t n fs) with
    | true => rw [offOf_self hi] at ho; cases ho; exact ⟨k, hk⟩
    | false =>
      obtain ⟨j, hj, hx, b, hb, ho⟩ := (offOf_tuple hi).1 ho
      obtain ⟨a, ha⟩ := ih _ ho
      obtain ⟨x, y, hx, hy, rfl⟩ := Val.nat?_add.1 ha
      exact ⟨y, hy⟩
  | vector d s ih =>
    cases hi : is (.vector d s) with
    | true => rw [offOf_self hi] at ho; cases ho; exact ⟨k, hk⟩
    | false =>
      obtain ⟨i, l, hx, hl, ho⟩ := (offOf_vector hi).1 ho
      split at ho
      · exact ih ho
      · obtain ⟨-, rfl⟩ := ho
        simp [Val.Num, Val.nat?] at hk
      · obtain ⟨z, hz, ho⟩ := ho
        obtain ⟨a, ha⟩ := ih ho
        obtain ⟨x, y, hx, hy, rfl⟩ := Val.nat?_add.1 ha
        exact ⟨y, hy⟩
  | union n ss =>
    simp only [offOf] at ho
    split at ho
    · cases ho; exact ⟨k, hk⟩
    · cases ho
  | view v s ih =>
    cases hi : is (.view v s) with
    | true => rw [offOf_self hi] at ho; cases ho; exact ⟨k, hk⟩
    | false =>
      obtain ⟨-, u, hu, ho⟩ := (offOf_view hi).1 ho
      exact ih ho

/-- Sub-structures are aligned. -/
theorem offOf_dvd {s : Struct} {al : Nat} {st : State} {start o : Val} {a k : Nat} (h : s.allAligned al)
    (hn : s.natural) (ha : start.Num a) (hd : al ∣ a)
    (ho : s.offOf .ideal is st start = some o) (hk : o.Num k) : al ∣ k := by
  induction s generalizing st start a with
  | scalar z b =>
    simp only [offOf] at ho
    split at ho
    · cases ho
      have := Val.Num.eq ha hk
      subst this; exact hd
    · cases ho
  | tuple t n fs ih =>
    cases hi : is (.tuple t n fs) with
    | true =>
      rw [offOf_self hi] at ho; cases ho
      have := Val.Num.eq ha hk
      subst this; exact hd
    | false =>
      obtain ⟨j, hj, hx, b, hb, ho⟩ := (offOf_tuple hi).1 ho
      obtain ⟨c, hc⟩ := offOf_start ho hk
      obtain ⟨x, y, hx, hy, rfl⟩ := Val.nat?_add.1 hc
      have := Val.Num.eq hy ha
      subst this
      refine ih _ (h _) (hn _) hc ?_ ho
      refine Nat.dvd_add (sizeAcc_dvd ?_ ?_ hb hx) hd
      · intro S hS a v m ha hv hm
        obtain ⟨i, rfl⟩ := List.mem_ofFn.1 (List.mem_of_mem_take hS)
        exact ⟨align_eq_of_all (h i) ha, size_dvd (h i) (hn i) hv hm⟩
      · intro a ha
        have : 0 = a := by simpa [Val.Num, Val.nat?] using ha
        subst this; exact Nat.dvd_zero _
  | vector d s ih =>
    cases hi : is (.vector d s) with
    | true =>
      rw [offOf_self hi] at ho; cases ho
      have := Val.Num.eq ha hk
      subst this; exact hd
    | false =>
      obtain ⟨i, l, hx, hl, ho⟩ := (offOf_vector hi).1 ho
      split at ho
      · exact ih h hn ha hd ho
      · obtain ⟨-, rfl⟩ := ho
        simp [Val.Num, Val.nat?] at hk
      · obtain ⟨sz, hsz, ho⟩ := ho
        obtain ⟨c, hc⟩ := offOf_start ho hk
        obtain ⟨x, y, hx, hy, rfl⟩ := Val.nat?_add.1 hc
        obtain ⟨I, Z, hI, hZ, rfl⟩ := Val.nat?_mul.1 hx
        have := Val.Num.eq hy ha
        subst this
        exact ih h hn hc (Nat.dvd_add (Nat.dvd_mul_left_of_dvd (size_dvd (s := s) h hn hsz hZ) I) hd) ho
  | union n ss =>
    simp only [offOf] at ho
    split at ho
    · cases ho
      have := Val.Num.eq ha hk
      subst this; exact hd
    · cases ho
  | view v s ih =>
    cases hi : is (.view v s) with
    | true =>
      rw [offOf_self hi] at ho; cases ho
      have := Val.Num.eq ha hk
      subst this; exact hd
    | false =>
      obtain ⟨-, u, hu, ho⟩ := (offOf_view hi).1 ho
      exact ih h hn ha hd ho

end Struct
end Noarr
