import Verif.Lemmas
import Verif.Spec

/-
C13 - C16: shift, slice, span, step and reverse.
-/

namespace Noarr

private theorem num_cases {v : Val} {n : Nat} (h : v.Num n) : v = .lit n ∨ v = .dyn n :=
  h.cases

private theorem dyn_add {v : Val} {a : Nat} (h : v.Num a) (i : Nat) :
    (Val.dyn i).add .ideal v = .dyn (i + a) := by
  rcases num_cases h with rfl | rfl <;> simp [Val.add, Val.ofDyn, Arith.ideal]

private theorem mapAt_at (st : State) (d : Dim) (v : Val) (f : Val → Val) :
    (st.set (.idx d) v).mapAt (.idx d) f = st.set (.idx d) (f v) := by
  funext t
  by_cases h : t = .idx d <;> simp [State.mapAt, State.set, h]

private theorem mapAt_len_absent (st : State) (d : Dim) (v : Val) (f : Val → Val)
    (h : st (.len d) = none) :
    (st.set (.idx d) v).mapAt (.len d) f = st.set (.idx d) v := by
  rw [State.mapAt_absent]
  simp [State.set, h]

/-! ### C13 -/

/-- C13: shift by `a` shortens the dimension by `a` and renumbers its indices; nothing else
changes. -/
theorem C13_shift (s : Struct) (d : Dim) (a L : Nat) (start : Val) (ha : start.Num a) (st : State)
    (hst : st.Without d) (hL : (s.sem .ideal).HasLength d st L) (haL : a ≤ L) :
    let F := (Struct.view (.shift d start) s).sem .ideal
    F.HasLength d st (L - a) ∧
    ∀ i, (i < L - a ↔ i + a < L) ∧ SameAt F (st.at d i) (s.sem .ideal) (st.at d (i + a)) ∧
      ∀ q, q ≠ d → F.len q (st.at d i) = (s.sem .ideal).len q (st.at d (i + a)) := by
  intro F
  obtain ⟨l, hl, hln⟩ := hL
  have hsub0 : (st.mapAt (.idx d) (·.add .ideal start)).mapAt (.len d) (·.add .ideal start) = st := by
    rw [State.mapAt_absent st _ _ hst.1, State.mapAt_absent st _ _ hst.2]
  have hsub : ∀ i, ((st.at d i).mapAt (.idx d) (·.add .ideal start)).mapAt (.len d)
      (·.add .ideal start) = st.at d (i + a) := by
    intro i
    rw [State.at, mapAt_at, dyn_add ha, mapAt_len_absent _ _ _ _ hst.2]
  refine ⟨⟨l.sub .ideal start, ?_, Val.nat?_sub.2 ⟨L, a, hln, ha, haL, rfl⟩⟩, fun i => ⟨by omega,
    ⟨?_, ?_, fun x => ?_, ?_⟩, fun q hq => ?_⟩⟩
  · simp [F, Struct.sem, ViewSem.toSem, View.sem, shiftSem, State.has, hst.2, hsub0,
      Struct.hasLen_of_len hl, hl, guardLen]
  · simp [F, Struct.sem, ViewSem.toSem, View.sem, shiftSem, hsub]
  · simp [F, Struct.sem, ViewSem.toSem, View.sem, shiftSem, hsub]
  · simp [F, Struct.sem, ViewSem.toSem, View.sem, shiftSem, hsub]
  · simp [F, Struct.sem, ViewSem.toSem, View.sem, shiftSem, hsub]
  · simp only [F, Struct.sem, ViewSem.toSem, View.sem, shiftSem, hsub, hq, ↓reduceIte]
    exact Struct.len_guard _ s q _

example : ((Struct.apply (.vector 0 (.scalar 4 4)) [.setLength 0 (.dyn 5),
    .shift 0 (.lit 2)]).sem .ideal).off (State.empty.at 0 1) (.lit 0) = some (.dyn 12) := by decide

/-- C13: shifting by zero changes nothing. -/
theorem C13_shift_zero (s : Struct) (d : Dim) (st : State) :
    let F := (Struct.view (.shift d (.lit 0)) s).sem .ideal
    SameAt F st (s.sem .ideal) st ∧
    (∀ q, q ≠ d ∨ st (.len d) = none → F.len q st = (s.sem .ideal).len q st) := by
  intro F
  have hsub : ∀ st : State, (st.mapAt (.idx d) (·.add .ideal (.lit 0))).mapAt (.len d)
      (·.add .ideal (.lit 0)) = st := by
    intro st
    funext t
    simp only [State.mapAt, Val.add_ideal_lit_zero]
    by_cases h1 : t = .len d <;> by_cases h2 : t = .idx d <;> simp_all
  refine ⟨⟨?_, ?_, fun x => ?_, ?_⟩, fun q hq => ?_⟩
  · simp [F, Struct.sem, ViewSem.toSem, View.sem, shiftSem, hsub, -Val.add_ideal_lit_zero]
  · simp [F, Struct.sem, ViewSem.toSem, View.sem, shiftSem, hsub, -Val.add_ideal_lit_zero]
  · simp [F, Struct.sem, ViewSem.toSem, View.sem, shiftSem, hsub, -Val.add_ideal_lit_zero]
  · simp [F, Struct.sem, ViewSem.toSem, View.sem, shiftSem, hsub, -Val.add_ideal_lit_zero]
  · simp only [F, Struct.sem, ViewSem.toSem, View.sem, shiftSem, hsub]
    by_cases h : q = d
    · subst h
      have hn : st (.len q) = none := by simpa using hq
      have hz : ∀ l : Val, l.sub .ideal (.lit 0) = l := by
        intro l; cases l <;> simp [Val.sub, Val.ofLit, Val.ofDyn, Arith.ideal]
      simp only [State.has, hn, ↓reduceIte, Option.isSome_none, Bool.false_eq_true, hz]
      rw [← Struct.len_guard .ideal s q st]
      cases (s.sem .ideal).hasLen q st with
      | none => rfl
      | some b => cases b <;> cases (s.sem .ideal).len q st <;> rfl
    · simp only [h, ↓reduceIte]
      exact Struct.len_guard _ s q st

/-- C13: shifting by `a` and then by `b` is the same as shifting by `a + b`. -/
theorem C13_shift_shift (s : Struct) (d : Dim) (a b : Nat) (va vb : Val) (ha : va.Num a)
    (hb : vb.Num b) (st : State) :
    let F := (s.apply [.shift d va, .shift d vb]).sem .ideal
    let G := (s.apply [.shift d (va.add .ideal vb)]).sem .ideal
    SameAt F st G st ∧
    (∀ q, q ≠ d ∨ st (.len d) = none → F.len q st = G.len q st) := by
  intro F G
  have hadd : ∀ i : Val, (i.add .ideal vb).add .ideal va = i.add .ideal (va.add .ideal vb) := by
    intro i
    rw [Val.add_assoc_ideal]
    congr 1
    rcases num_cases ha with rfl | rfl <;> rcases num_cases hb with rfl | rfl <;>
      simp [Val.add, Val.ofLit, Val.ofDyn, Arith.ideal, Nat.add_comm]
  have hsub : ∀ st : State, (((((st.mapAt (.idx d) (·.add .ideal vb)).mapAt (.len d)
      (·.add .ideal vb)).mapAt (.idx d) (·.add .ideal va)).mapAt (.len d) (·.add .ideal va))) =
      ((st.mapAt (.idx d) (·.add .ideal (va.add .ideal vb))).mapAt (.len d)
        (·.add .ideal (va.add .ideal vb))) := by
    intro st
    funext t
    by_cases h1 : t = .idx d
    · subst h1
      cases h : st (.idx d) <;> simp [State.mapAt, h, hadd]
    · by_cases h2 : t = .len d
      · subst h2
        cases h : st (.len d) <;> simp [State.mapAt, h, hadd]
      · simp [State.mapAt, h1, h2]
  refine ⟨⟨?_, ?_, fun x => ?_, ?_⟩, fun q hq => ?_⟩
  · simp [F, G, Struct.apply, Struct.sem, ViewSem.toSem, View.sem, shiftSem, hsub]
  · simp [F, G, Struct.apply, Struct.sem, ViewSem.toSem, View.sem, shiftSem, hsub]
  · simp [F, G, Struct.apply, Struct.sem, ViewSem.toSem, View.sem, shiftSem, hsub]
  · simp [F, G, Struct.apply, Struct.sem, ViewSem.toSem, View.sem, shiftSem, hsub]
  · simp only [F, G, Struct.apply, Struct.sem, ViewSem.toSem, View.sem, shiftSem, hsub]
    by_cases h : q = d
    · subst h
      have hn : st (.len q) = none := by simpa using hq
      have hn' : ((st.mapAt (.idx q) (·.add .ideal vb)).mapAt (.len q) (·.add .ideal vb)) (.len q)
          = none := by simp [State.mapAt, hn]
      simp only [State.has, hn, hn', ↓reduceIte, Option.isSome_none, Bool.false_eq_true]
      generalize ((st.mapAt (.idx q) (·.add .ideal (va.add .ideal vb))).mapAt (.len q)
        (·.add .ideal (va.add .ideal vb))) = u
      cases hh : (s.sem .ideal).hasLen q u with
      | none => rfl
      | some bb =>
        cases bb
        · rfl
        · cases (s.sem .ideal).len q u with
          | none => rfl
          | some l =>
            simp [guardLen, Val.sub_sub_ideal l va vb (by rw [ha]; simp) (by rw [hb]; simp)]
    · simp only [h, ↓reduceIte, guardLen_idem]

/-! ### C14 -/

/-- C14: a slice has exactly the given length, and its indices address exactly the window of the
original dimension, one to one; the window is in range iff its end is. -/
theorem C14_slice (s : Struct) (d : Dim) (a n L : Nat) (start len : Val) (ha : start.Num a)
    (hn : len.Num n) (st : State) (hst : st (.idx d) = none)
    (hL : (s.sem .ideal).HasLength d st L) :
    let F := (Struct.view (.slice d start len) s).sem .ideal
    F.HasLength d st n ∧
    (∀ i, SameAt F (st.at d i) (s.sem .ideal) (st.at d (i + a)) ∧
      ∀ q, q ≠ d → F.len q (st.at d i) = (s.sem .ideal).len q (st.at d (i + a))) ∧
    (∀ k, (a ≤ k ∧ k < a + n) ↔ ∃ i, i < n ∧ i + a = k) ∧
    (a + n ≤ L → ∀ i, i < n → i + a < L) := by
  intro F
  obtain ⟨l, hl, hln⟩ := hL
  have hsub0 : st.mapAt (.idx d) (·.add .ideal start) = st := State.mapAt_absent st _ _ hst
  have hsub : ∀ i, (st.at d i).mapAt (.idx d) (·.add .ideal start) = st.at d (i + a) := by
    intro i
    rw [State.at, mapAt_at, dyn_add ha]
  refine ⟨⟨len, ?_, hn⟩, fun i => ⟨⟨?_, ?_, fun x => ?_, ?_⟩, fun q hq => ?_⟩, fun k => ⟨fun h =>
    ⟨k - a, by omega, by omega⟩, fun ⟨i, h1, h2⟩ => by omega⟩, fun h i hi => by omega⟩
  · simp [F, Struct.sem, ViewSem.toSem, View.sem, sliceSem, hsub0, Struct.hasLen_of_len hl,
      guardLen]
  · simp [F, Struct.sem, ViewSem.toSem, View.sem, sliceSem, hsub]
  · simp [F, Struct.sem, ViewSem.toSem, View.sem, sliceSem, hsub]
  · simp [F, Struct.sem, ViewSem.toSem, View.sem, sliceSem, hsub]
  · simp [F, Struct.sem, ViewSem.toSem, View.sem, sliceSem, hsub]
  · simp only [F, Struct.sem, ViewSem.toSem, View.sem, sliceSem, hsub, hq, ↓reduceIte]
    exact Struct.len_guard _ s q _

example : ((Struct.apply (.vector 0 (.scalar 4 4)) [.setLength 0 (.dyn 9),
    .slice 0 (.dyn 2) (.dyn 3)]).sem .ideal).off (State.empty.at 0 2) (.lit 0)
    = some (.dyn 16) := by decide

/-- C14: `span(a, e)` is `slice(a, e - a)`. -/
theorem C14_span_is_slice (s : Struct) (d : Dim) (a e : Nat) (h : a ≤ e) :
    Same ((Struct.view (.span d (.dyn a) (.dyn e)) s).sem .ideal)
      ((Struct.view (.slice d (.dyn a) (.dyn (e - a))) s).sem .ideal) ∧
    Same ((Struct.view (.span d (.lit a) (.lit e)) s).sem .ideal)
      ((Struct.view (.slice d (.lit a) (.lit (e - a))) s).sem .ideal) := by
  constructor <;> constructor <;> intros <;>
    simp [Struct.sem, ViewSem.toSem, View.sem, sliceSem, spanSem, Val.sub, Arith.ideal, h,
      Val.ofDyn, Val.ofLit]

/-- C14: a slice of a slice is a slice, with the starts added. -/
theorem C14_slice_slice (s : Struct) (d : Dim) (a b : Nat) (va vb n m : Val) (ha : va.Num a)
    (hb : vb.Num b) :
    Same ((s.apply [.slice d va n, .slice d vb m]).sem .ideal)
      ((s.apply [.slice d (va.add .ideal vb) m]).sem .ideal) := by
  have hadd : ∀ i : Val, (i.add .ideal vb).add .ideal va = i.add .ideal (va.add .ideal vb) := by
    intro i
    rw [Val.add_assoc_ideal]
    congr 1
    rcases num_cases ha with rfl | rfl <;> rcases num_cases hb with rfl | rfl <;>
      simp [Val.add, Val.ofLit, Val.ofDyn, Arith.ideal, Nat.add_comm]
  have hsub : ∀ st : State, ((st.mapAt (.idx d) (·.add .ideal vb)).mapAt (.idx d)
      (·.add .ideal va)) = (st.mapAt (.idx d) (·.add .ideal (va.add .ideal vb))) := by
    intro st
    funext t
    by_cases h1 : t = .idx d
    · subst h1
      cases h : st (.idx d) <;> simp [State.mapAt, h, hadd]
    · simp [State.mapAt, h1]
  constructor <;> intros <;>
    simp only [Struct.apply, Struct.sem, ViewSem.toSem, View.sem, sliceSem, Option.bind_some,
      hsub, ↓reduceIte]
  rename_i q st
  by_cases h : q = d
  · simp [h]
  · simp [h]

/-! ### C15 -/

/-- C15: the `k` views `step(0, k), ..., step(k-1, k)` of a dimension of any length share its
indices: each index is addressed by exactly one of them, at exactly one of its valid indices. -/
theorem C15_step_partition (s : Struct) (d : Dim) (k L : Nat) (hk : 0 < k) (stride : Val)
    (hstride : stride.Num k) (st : State)
    (hst : st (.idx d) = none) (hL : (s.sem .ideal).HasLength d st L) :
    ∃ m : Nat → Nat,
      (∀ r start, start.Num r → r < k →
        let F := (Struct.view (.step d start stride) s).sem .ideal
        F.HasLength d st (m r) ∧
        ∀ i, SameAt F (st.at d i) (s.sem .ideal) (st.at d (i * k + r)) ∧
          ∀ q, q ≠ d → F.len q (st.at d i) = (s.sem .ideal).len q (st.at d (i * k + r))) ∧
      (∀ r i, r < k → i < m r → i * k + r < L) ∧
      (∀ j, j < L → ∃ r i, (r < k ∧ i < m r ∧ i * k + r = j) ∧
        ∀ r' i', r' < k → i' * k + r' = j → r' = r ∧ i' = i) := by
  obtain ⟨l, hl, hln⟩ := hL
  refine ⟨fun r => (L + k - r - 1) / k, fun r start hr hrk => ?_, fun r i hr hi => ?_,
    fun j hj => ⟨j % k, j / k, ⟨Nat.mod_lt _ hk, ?_, ?_⟩, fun r' i' hr' h => ?_⟩⟩
  · intro F
    have hsub0 : st.mapAt (.idx d) (fun i => (i.mul .ideal stride).add .ideal start) = st :=
      State.mapAt_absent st _ _ hst
    have hsub : ∀ i, (st.at d i).mapAt (.idx d)
        (fun i => (i.mul .ideal stride).add .ideal start) = st.at d (i * k + r) := by
      intro i
      rw [State.at, mapAt_at]
      congr 1
      have : (Val.dyn i).mul .ideal stride = .dyn (i * k) := by
        rcases num_cases hstride with rfl | rfl
        · have : k ≠ 0 := by omega
          simp [Val.mul, Val.ofDyn, Arith.ideal, this]
        · simp [Val.mul, Val.ofDyn, Arith.ideal]
      rw [this, dyn_add hr]
    refine ⟨⟨(((l.add .ideal stride).sub .ideal start).sub .ideal (.lit 1)).div .ideal stride, ?_,
      Val.nat?_div.2 ⟨L + k - r - 1, k, ?_, hstride, Or.inl (by omega), rfl⟩⟩, fun i => ⟨⟨?_, ?_,
        fun x => ?_, ?_⟩, fun q hq => ?_⟩⟩
    · simp [F, Struct.sem, ViewSem.toSem, View.sem, stepSem, hsub0, Struct.hasLen_of_len hl, hl,
        guardLen]
    · exact Val.nat?_sub.2 ⟨L + k - r, 1, Val.nat?_sub.2 ⟨L + k, r, Val.nat?_add.2
        ⟨L, k, hln, hstride, rfl⟩, hr, by omega, rfl⟩, rfl, by omega, rfl⟩
    · simp [F, Struct.sem, ViewSem.toSem, View.sem, stepSem, hsub]
    · simp [F, Struct.sem, ViewSem.toSem, View.sem, stepSem, hsub]
    · simp [F, Struct.sem, ViewSem.toSem, View.sem, stepSem, hsub]
    · simp [F, Struct.sem, ViewSem.toSem, View.sem, stepSem, hsub]
    · simp only [F, Struct.sem, ViewSem.toSem, View.sem, stepSem, hsub, hq, ↓reduceIte]
      exact Struct.len_guard _ s q _
  · have := (Nat.le_div_iff_mul_le hk).1 (Nat.succ_le_of_lt hi)
    rw [Nat.succ_mul] at this
    omega
  · show j / k < (L + k - j % k - 1) / k
    rw [Nat.lt_iff_add_one_le, Nat.le_div_iff_mul_le hk, Nat.succ_mul]
    have := Nat.div_add_mod j k
    rw [Nat.mul_comm] at this
    have := Nat.mod_lt j hk
    omega
  · have := Nat.div_add_mod j k
    rw [Nat.mul_comm] at this
    omega
  · subst h
    constructor
    · rw [Nat.mul_comm, Nat.mul_add_mod, Nat.mod_eq_of_lt hr']
    · rw [Nat.mul_comm, Nat.mul_add_div hk, Nat.div_eq_of_lt hr', Nat.add_zero]

example : ((Struct.apply (.vector 0 (.scalar 4 4)) [.setLength 0 (.dyn 10),
    .step 0 (.dyn 2) (.dyn 4)]).sem .ideal).len 0 State.empty = some (.dyn 2) := by decide

/-! ### C16 -/

/-- C16: reverse keeps the length, maps every valid index `i` to `length - 1 - i`, which is valid,
and reversing twice addresses what the original structure addresses. -/
theorem C16_reverse (s : Struct) (d : Dim) (L : Nat) (st : State) (hst : st (.idx d) = none)
    (hL : (s.sem .ideal).HasLength d st L) :
    let F := (Struct.view (.reverse d) s).sem .ideal
    let FF := (s.apply [.reverse d, .reverse d]).sem .ideal
    F.HasLength d st L ∧ FF.HasLength d st L ∧
    ∀ i, i < L → L - 1 - i < L ∧ SameAt F (st.at d i) (s.sem .ideal) (st.at d (L - 1 - i)) ∧
      SameAt FF (st.at d i) (s.sem .ideal) (st.at d i) := by
  intro F FF
  obtain ⟨l, hl, hln⟩ := hL
  have hrem : ∀ v : Val, (st.set (.idx d) v).remove (.idx d) = st := by
    intro v
    rw [State.remove_set_self, State.remove_absent _ _ hst]
  have hrl := Struct.hasLen_of_len hl
  have hval : ∀ i, i < L → (l.sub .ideal (.lit 1)).sub .ideal (.dyn i) = .dyn (L - 1 - i) := by
    intro i hi
    have h1 : 1 ≤ L := by omega
    have h2 : i ≤ L - 1 := by omega
    rcases num_cases hln with rfl | rfl <;>
      simp [Val.sub, Val.ofDyn, Val.ofLit, Arith.ideal, h1, h2]
  have hFlen : F.len d st = some l ∧ F.hasLen d st = some true := by
    constructor <;> simp [F, Struct.sem, ViewSem.toSem, View.sem, reverseSem, hst, hrl, hl, guardLen]
  have hF : ∀ i, i < L → SameAt F (st.at d i) (s.sem .ideal) (st.at d (L - 1 - i)) := by
    intro i hi
    refine ⟨?_, ?_, fun x => ?_, ?_⟩ <;>
      simp [F, Struct.sem, ViewSem.toSem, View.sem, reverseSem, hrem, hrl, hl, hval i hi]
  refine ⟨⟨l, hFlen.1, hln⟩, ⟨l, ?_, hln⟩, fun i hi => ⟨by omega, hF i hi, ?_⟩⟩
  · have : FF.len d st = F.len d st := by
      have h1 : FF.len d st = guardLen (F.hasLen d st) (F.len d st) := by
        simp only [FF, Struct.apply]
        conv => lhs; rw [Struct.sem]
        simp [View.sem, reverseSem, ViewSem.toSem, hst, F]
      rw [h1, hFlen.1, hFlen.2]; rfl
    rw [this, hFlen.1]
  · have hi' : L - 1 - i < L := by omega
    have h2 : L - 1 - (L - 1 - i) = i := by omega
    have h3 := hF _ hi'
    rw [h2] at h3
    have hsub : ((View.reverse d).sem .ideal F).sub (st.at d i) = some (st.at d (L - 1 - i)) := by
      simp [View.sem, reverseSem, hrem, hFlen.1, hFlen.2, hval i hi]
    have hFF : FF = (((View.reverse d).sem .ideal F).toSem F) := by
      simp only [FF, F, Struct.apply, Struct.sem]
    rw [hFF]
    refine ⟨?_, ?_, fun x => ?_, ?_⟩
    · rw [← h3.size]; simp [ViewSem.toSem, hsub]; intro h; simp [View.sem, reverseSem] at h
    · rw [← h3.align]; simp [ViewSem.toSem, hsub]; intro h; simp [View.sem, reverseSem] at h
    · rw [← h3.off]; simp [ViewSem.toSem, hsub]; intro h; simp [View.sem, reverseSem] at h
    · rw [← h3.elem]; simp [ViewSem.toSem, hsub]

example : ((Struct.apply (.vector 0 (.scalar 4 4)) [.setLength 0 (.dyn 10),
    .reverse 0]).sem .ideal).off (State.empty.at 0 2) (.lit 0) = some (.dyn 28) := by decide

/-- A tuple of two vectors of lengths 2 and 3 in dimension 0, reversed in the tuple dimension 9. -/
private def revTuple : Struct :=
  .view (.reverse 9) (.tuple 9 2 fun i =>
    .view (.setLength 0 (.lit (if i = 0 then 2 else 3))) (.vector 0 (.scalar 4 4)))

/-- A defect next to C16: in a reversed tuple, `length` of the other dimensions is taken from the
wrong field. Field 0 of the reversed tuple addresses the vector of length 3 (its last element is at
offset 8 + 8, behind the vector of length 2), but its reported length is 2. -/
theorem C16_reversed_tuple_reports_wrong_length :
    (revTuple.sem .ideal).len 0 (State.empty.set (.idx 9) (.lit 0)) = some (.lit 2) ∧
    (revTuple.sem .ideal).off ((State.empty.set (.idx 9) (.lit 0)).at 0 2) (.lit 0)
      = some (.dyn 16) ∧
    (revTuple.sem .ideal).size State.empty = some (.lit 20) := by decide

end Noarr
