import Verif.MatrixLemmas
import Verif.Props.Bounds

/-
C70: the programs of the matrix example do what they should, whatever the layouts are.
-/

namespace Noarr

/-- the sum of the first `k` values of `f` -/
def sumUpTo {R : Type} [Add R] [Zero R] (f : Nat → R) : Nat → R
  | 0 => 0
  | k + 1 => sumUpTo f k + f k

section
variable {R : Type} [Add R] [Mul R] [Zero R] {E : ElemType R} {n m : Dim}

omit [Mul R] in
theorem forRange_sum {f : Nat → R} {K : Nat} {g : Nat → R → Except Fail R}
    (hg : ∀ k x, k < K → g k x = .ok (x + f k)) : forRange 0 K g 0 = .ok (sumUpTo f K) := by
  obtain ⟨y, hy, rfl⟩ := forRange_inv (lo := 0) (hi := K) (body := g) (fun k x => x = sumUpTo f k) (Nat.zero_le _)
    (fun k x _ hk hx => ⟨_, hg k x hk, by rw [hx]; rfl⟩) (x := 0) rfl
  exact hy

/-- C70: the product of two matrices, in any three layouts. The element in column `i` and row `j` of
the product is the sum of the products of the elements of row `j` of the first matrix and column `i` of the
second one. -/
theorem C70_multiply (hnm : n ≠ m) (s1 s2 s3 : Struct) (X1 Y1 X2 : Nat)
    (h1 : MatrixLayout s1 n m X1 Y1 E.size) (h2 : MatrixLayout s2 n m X2 X1 E.size)
    (h3 : MatrixLayout s3 n m X2 Y1 E.size) (b1 b2 : Bag) (hb1 : b1.structure_ = s1) (hb2 : b2.structure_ = s2)
    (M1 M2 : Nat → Nat → R) (hM1 : b1.Contains E n m X1 Y1 M1) (hM2 : b2.Contains E n m X2 X1 M2) :
    ∃ b, noarrMultiply .ideal E n m b1 b2 s3 = .ok b ∧ BagFor s3 b ∧
      b.Contains E n m X2 Y1 fun i j => sumUpTo (fun k => M1 k j * M2 i k) X1 := by
  obtain ⟨b0, hb0, hB⟩ := h3.make
  obtain ⟨b, hb, hB', hC⟩ := h3.update hnm hB (E := E) (M := fun i j => sumUpTo (fun k => M1 k j * M2 i k) X1)
    (f := fun i j _ => forRange 0 X1 (fun k sum => do
        let value1 ← b1.value .ideal E n m k j
        let value2 ← b2.value .ideal E n m i k
        .ok (sum + value1 * value2)) 0)
    (fun i j _ hi hj _ => forRange_sum fun k x hk => by
      rw [hM1 k j hk hj, hM2 i k hi hk]; rfl)
  refine ⟨b, ?_, hB', hC⟩
  simp only [noarrMultiply, hb0, (h1.lengths hb1).1, (h1.lengths hb1).2, (h2.lengths hb2).1, (h2.lengths hb2).2,
    Except.bind_ok, beq_self_eq_true, assertThat, if_true]
  exact hb

/-- C70: matrices whose shapes do not fit are not multiplied: the assertion fails. -/
theorem C70_multiply_asserts_the_shapes (s1 s2 s3 : Struct) (X1 Y1 X2 Y2 : Nat) (hne : X1 ≠ Y2)
    (h1 : MatrixLayout s1 n m X1 Y1 E.size) (h2 : MatrixLayout s2 n m X2 Y2 E.size)
    (h3 : MatrixLayout s3 n m X2 Y1 E.size) (b1 b2 : Bag) (hb1 : b1.structure_ = s1) (hb2 : b2.structure_ = s2) :
    noarrMultiply .ideal E n m b1 b2 s3 = .error .ub := by
  obtain ⟨b0, hb0, hB⟩ := h3.make
  simp [noarrMultiply, hb0, (h1.lengths hb1).1, (h1.lengths hb1).2, (h2.lengths hb2).1, (h2.lengths hb2).2,
    Except.bind_ok, assertThat, hne]
  rfl

omit [Add R] [Mul R] [Zero R] in
/-- C70: a matrix that is not a square is not transposed: the assertion fails. -/
theorem C70_transpose_asserts_a_square (s : Struct) (X Y : Nat) (hne : X ≠ Y) (h : MatrixLayout s n m X Y E.size)
    (b : Bag) (hb : b.structure_ = s) : noarrTranspose .ideal E n m b = .error .ub := by
  simp [noarrTranspose, (h.lengths hb).1, (h.lengths hb).2, Except.bind_ok, assertThat, hne]
  rfl

omit [Add R] [Mul R] [Zero R] in
/-- C70: a copy of a matrix, possibly in another layout. -/
theorem C70_copy (hnm : n ≠ m) (s1 s2 : Struct) (X Y : Nat) (h1 : MatrixLayout s1 n m X Y E.size)
    (h2 : MatrixLayout s2 n m X Y E.size) (b1 : Bag) (hb1 : b1.structure_ = s1) (M : Nat → Nat → R)
    (hM : b1.Contains E n m X Y M) :
    ∃ b, noarrCopy .ideal E n m b1 s2 = .ok b ∧ BagFor s2 b ∧ b.Contains E n m X Y M := by
  obtain ⟨b0, hb0, hB⟩ := h2.make
  obtain ⟨b, hb, hB', hC⟩ := h2.update hnm hB (E := E) (M := M)
    (f := fun i j _ => b1.value .ideal E n m i j) (fun i j _ hi hj _ => hM i j hi hj)
  refine ⟨b, ?_, hB', hC⟩
  simp only [noarrCopy, hb0, (h1.lengths hb1).1, (h1.lengths hb1).2, Except.bind_ok]
  exact hb

omit [Add R] [Zero R] in
/-- C70: multiplying a matrix by a scalar, in place. -/
theorem C70_scale (hnm : n ≠ m) (s : Struct) (X Y : Nat) (h : MatrixLayout s n m X Y E.size)
    (b : Bag) (hb : BagFor s b) (M : Nat → Nat → R) (hM : b.Contains E n m X Y M) (c : R) :
    ∃ b', noarrScale .ideal E n m b c = .ok b' ∧ BagFor s b' ∧ b'.Contains E n m X Y fun i j => M i j * c := by
  obtain ⟨b', hb', hB', hC⟩ := h.update hnm hb (E := E) (M := fun i j => M i j * c)
    (f := fun i j b => do .ok ((← b.value .ideal E n m i j) * c))
    (fun i j d hi hj hd => by rw [hd, hM i j hi hj]; rfl)
  refine ⟨b', ?_, hB', hC⟩
  simp only [noarrScale, (h.lengths hb.structure_eq).1, (h.lengths hb.structure_eq).2, Except.bind_ok]
  rw [← hb']
  congr 1; funext i b; congr 1; funext j b
  cases b.value .ideal E n m i j <;> rfl

omit [Add R] [Mul R] [Zero R] in
/-- C70: transposing a square matrix, in place. -/
theorem C70_transpose (hnm : n ≠ m) (s : Struct) (X : Nat) (h : MatrixLayout s n m X X E.size)
    (b : Bag) (hb : BagFor s b) (M : Nat → Nat → R) (hM : b.Contains E n m X X M) :
    ∃ b', noarrTranspose .ideal E n m b = .ok b' ∧ BagFor s b' ∧ b'.Contains E n m X X fun i j => M j i := by
  have hinner : ∀ i b, i < X →
      (BagFor s b ∧ b.Contains E n m X X fun a c => if a < i ∨ c < i then M c a else M a c) →
      ∃ b', forRange i X (fun j b => do
        let value1 ← b.value .ideal E n m i j
        let value2 ← b.value .ideal E n m j i
        let b ← b.assign .ideal E n m i j value2
        b.assign .ideal E n m j i value1) b = .ok b' ∧
      (BagFor s b' ∧ b'.Contains E n m X X fun a c => if a < i + 1 ∨ c < i + 1 then M c a else M a c) := by
    intro i b hi hb
    obtain ⟨b', h1, h2, h3⟩ := forRange_inv (lo := i) (hi := X) (body := fun j b => do
        let value1 ← b.value .ideal E n m i j
        let value2 ← b.value .ideal E n m j i
        let b ← b.assign .ideal E n m i j value2
        b.assign .ideal E n m j i value1)
      (fun j b => BagFor s b ∧ b.Contains E n m X X fun a c =>
        if (a < i ∨ c < i) ∨ (a = i ∧ c < j) ∨ (c = i ∧ a < j) then M c a else M a c) (Nat.le_of_lt hi)
      (fun j b hj hjX ⟨hb, hM⟩ => by
        obtain ⟨b', h1, h2, h3⟩ := h.swap hnm hb hi hjX hM
        refine ⟨b', h1, h2, h3.congr fun a c ha hc => ?_⟩
        grind)
      (x := b) ⟨hb.1, hb.2.congr fun a c ha hc => by grind⟩
    exact ⟨b', h1, h2, h3.congr fun a c ha hc => by grind⟩
  obtain ⟨b', h1, h2, h3⟩ := forRange_inv (lo := 0) (hi := X) (body := fun i b =>
      forRange i X (fun j b => do
        let value1 ← b.value .ideal E n m i j
        let value2 ← b.value .ideal E n m j i
        let b ← b.assign .ideal E n m i j value2
        b.assign .ideal E n m j i value1) b)
    (fun i b => BagFor s b ∧ b.Contains E n m X X fun a c => if a < i ∨ c < i then M c a else M a c)
    (Nat.zero_le _) (fun i b _ hi hb => hinner i b hi hb) (x := b)
    ⟨hb, hM.congr fun a c _ _ => by simp⟩
  refine ⟨b', ?_, h2, h3.congr fun a c ha hc => by simp [ha]⟩
  simp only [noarrTranspose, (h.lengths hb.structure_eq).1, (h.lengths hb.structure_eq).2, Except.bind_ok,
    beq_self_eq_true, assertThat, if_true]
  exact h1

/-- The classic matrix contains the matrix `M`: it has `X` columns and `Y` rows, and `X * Y` elements. -/
structure Classic.Contains (c : Classic R) (X Y : Nat) (M : Nat → Nat → R) : Prop where
  n_eq : c.n = X
  m_eq : c.m = Y
  length : c.ary.length = X * Y
  value : ∀ i j, i < X → j < Y → c.ary[i + j * X]? = some (M i j)

theorem flat_lt {X Y i j : Nat} (hi : i < X) (hj : j < Y) : i + j * X < X * Y := by
  have : (j + 1) * X ≤ Y * X := Nat.mul_le_mul_right _ hj
  rw [Nat.succ_mul] at this
  rw [Nat.mul_comm X Y]; omega

theorem flat_inj {X i j i' j' : Nat} (hi : i < X) (hi' : i' < X) (h : i + j * X = i' + j' * X) :
    i = i' ∧ j = j' := by
  have hX : 0 < X := by omega
  have h1 : (i + j * X) % X = i := by rw [Nat.add_mul_mod_self_right, Nat.mod_eq_of_lt hi]
  have h2 : (i' + j' * X) % X = i' := by rw [Nat.add_mul_mod_self_right, Nat.mod_eq_of_lt hi']
  have h3 : (i + j * X) / X = j := by rw [Nat.add_mul_div_right _ _ hX, Nat.div_eq_of_lt hi]; omega
  have h4 : (i' + j' * X) / X = j' := by rw [Nat.add_mul_div_right _ _ hX, Nat.div_eq_of_lt hi']; omega
  rw [h] at h1 h3
  exact ⟨h1.symm.trans h2, h3.symm.trans h4⟩

omit [Add R] [Mul R] [Zero R] in
theorem Classic.Contains.get {c : Classic R} {X Y : Nat} {M : Nat → Nat → R} (h : c.Contains X Y M) {i j : Nat}
    (hi : i < X) (hj : j < Y) : c.value i j = .ok (M i j) := by
  rw [Classic.value, h.n_eq, h.value i j hi hj]

omit [Add R] [Mul R] [Zero R] in
/-- A loop that writes every element of a classic matrix once. -/
theorem Classic.fill {X Y : Nat} {c : Classic R} (hn : c.n = X) (hm : c.m = Y) (hl : c.ary.length = X * Y)
    {f : Nat → Nat → Except Fail R} {M : Nat → Nat → R} (hf : ∀ i j, i < X → j < Y → f i j = .ok (M i j)) :
    ∃ c', forRange 0 X (fun i c => forRange 0 Y (fun j (c : Classic R) => do c.assign i j (← f i j)) c) c = .ok c' ∧
      c'.Contains X Y M := by
  obtain ⟨y, hy, h1, h2, h3, h4⟩ := forRange₂_inv (X := X) (Y := Y)
    (body := fun i j (c : Classic R) => do c.assign i j (← f i j))
    (fun D c => c.n = X ∧ c.m = Y ∧ c.ary.length = X * Y ∧
      ∀ i j, i < X → j < Y → D i j → c.ary[i + j * X]? = some (M i j))
    (fun D i j c hi hj hn ⟨h1, h2, h3, h4⟩ => by
      refine ⟨{ c with ary := c.ary.set (i + j * X) (M i j) }, ?_, h1, h2, by simpa using h3, ?_⟩
      · rw [hf i j hi hj, Except.bind_ok, Classic.assign, h1, if_pos (by rw [h3]; exact flat_lt hi hj)]
      · intro a b ha hb hD
        rw [List.getElem?_set]
        by_cases hab : a = i ∧ b = j
        · obtain ⟨rfl, rfl⟩ := hab
          rw [if_pos rfl, if_pos (by rw [h3]; exact flat_lt hi hj)]
        · rw [if_neg fun h => hab ?_]
          · exact h4 a b ha hb (hD.resolve_right hab)
          · obtain ⟨h5, h6⟩ := flat_inj hi ha h
            exact ⟨h5.symm, h6.symm⟩)
    (fun D D' b hD ⟨h1, h2, h3, h4⟩ =>
      ⟨h1, h2, h3, fun i j hi hj hd => h4 i j hi hj ((hD i j hi hj).1 hd)⟩)
    (x := c) ⟨hn, hm, hl, fun _ _ _ _ h => h.elim⟩
  exact ⟨y, hy, h1, h2, h3, fun i j hi hj => h4 i j hi hj trivial⟩

omit [Add R] [Mul R] [Zero R] in
/-- C70: putting a classic matrix into a bag. -/
theorem C70_to_noarr (hnm : n ≠ m) (s : Struct) (X Y : Nat) (h : MatrixLayout s n m X Y E.size) (c : Classic R)
    (M : Nat → Nat → R) (hc : c.Contains X Y M) :
    ∃ b, classicToNoarr .ideal E n m c s = .ok b ∧ BagFor s b ∧ b.Contains E n m X Y M := by
  obtain ⟨b0, hb0, hB⟩ := h.make
  obtain ⟨b, hb, hB', hC⟩ := h.update hnm hB (E := E) (M := M)
    (f := fun i j _ => c.value i j) (fun i j _ hi hj _ => hc.get hi hj)
  refine ⟨b, ?_, hB', hC⟩
  simp only [classicToNoarr, hb0, hc.n_eq, hc.m_eq, Except.bind_ok]
  exact hb

omit [Add R] [Mul R] [Zero R] in
/-- C70: taking a matrix out of a bag. -/
theorem C70_to_classic (s : Struct) (X Y : Nat) (h : MatrixLayout s n m X Y E.size) (b : Bag)
    (hb : b.structure_ = s) (M : Nat → Nat → R) (hM : b.Contains E n m X Y M) (fresh : Nat → R) :
    ∃ c, noarrToClassic .ideal E n m b fresh = .ok c ∧ c.Contains X Y M := by
  obtain ⟨c, hc, hC⟩ := Classic.fill (c := ⟨X, Y, (List.range (X * Y)).map fresh⟩) rfl rfl (by simp)
    (f := fun i j => b.value .ideal E n m i j) (fun i j hi hj => hM i j hi hj)
  refine ⟨c, ?_, hC⟩
  simp only [noarrToClassic, (h.lengths hb).1, (h.lengths hb).2, Except.bind_ok]
  exact hc

/-- C70: the product of two classic matrices. -/
theorem C70_classic_multiply (X1 Y1 X2 : Nat) (c1 c2 : Classic R) (M1 M2 : Nat → Nat → R)
    (h1 : c1.Contains X1 Y1 M1) (h2 : c2.Contains X2 X1 M2) (fresh : Nat → R) :
    ∃ c, classicMultiply c1 c2 fresh = .ok c ∧
      c.Contains X2 Y1 fun i j => sumUpTo (fun k => M1 k j * M2 i k) X1 := by
  obtain ⟨c, hc, hC⟩ := Classic.fill (c := ⟨X2, Y1, (List.range (X2 * Y1)).map fresh⟩) rfl rfl (by simp)
    (M := fun i j => sumUpTo (fun k => M1 k j * M2 i k) X1)
    (f := fun i j => forRange 0 X1 (fun k sum => do
        let value1 ← c1.value k j
        let value2 ← c2.value i k
        .ok (sum + value1 * value2)) 0)
    (fun i j hi hj => forRange_sum fun k x hk => by
      rw [h1.get hk hj, h2.get hi hk]; rfl)
  refine ⟨c, ?_, hC⟩
  simp only [classicMultiply, h1.n_eq, h1.m_eq, h2.n_eq, h2.m_eq, beq_self_eq_true, assertThat, if_true, Except.bind_ok]
  exact hc

omit [Add R] [Mul R] [Zero R] in
/-- C70: the comparison of two classic matrices says whether all the elements are equal. -/
theorem C70_classic_equal [DecidableEq R] (X Y : Nat) (c1 c2 : Classic R) (M1 M2 : Nat → Nat → R)
    (h1 : c1.Contains X Y M1) (h2 : c2.Contains X Y M2) :
    ∃ r, classicEqual c1 c2 = .ok r ∧ (r = true ↔ ∀ i j, i < X → j < Y → M1 i j = M2 i j) := by
  obtain ⟨r, hr, hI⟩ := forRange_inv (lo := 0) (hi := X * Y) (body := fun i eq =>
      if !eq then .ok false else
      match c1.ary[i]?, c2.ary[i]? with
      | some x, some y => .ok (x == y)
      | _, _ => .error .ub)
    (fun k r => r = true ↔ ∀ i, i < k → c1.ary[i]? = c2.ary[i]?) (Nat.zero_le _)
    (fun k r _ hk hr => by
      have e1 : c1.ary[k]? = some (c1.ary[k]'(by rw [h1.length]; exact hk)) := List.getElem?_eq_getElem _
      have e2 : c2.ary[k]? = some (c2.ary[k]'(by rw [h2.length]; exact hk)) := List.getElem?_eq_getElem _
      cases r with
      | false =>
        refine ⟨false, rfl, ?_⟩
        simp only [Bool.false_eq_true, false_iff] at hr ⊢
        exact fun h => hr fun i hi => h i (by omega)
      | true =>
        have hr := hr.1 rfl
        refine ⟨c1.ary[k]'(by rw [h1.length]; exact hk) == c2.ary[k]'(by rw [h2.length]; exact hk),
          by simp [e1, e2], ?_⟩
        simp only [beq_iff_eq]
        constructor
        · intro h i hi
          rcases Nat.lt_succ_iff_lt_or_eq.1 hi with hi | rfl
          · exact hr i hi
          · rw [e1, e2, h]
        · intro h
          have := h k (by omega)
          rw [e1, e2] at this
          exact Option.some.inj this)
    (x := true) (by simp)
  refine ⟨r, ?_, hI.trans ⟨fun h i j hi hj => ?_, fun h k hk => ?_⟩⟩
  · simp only [classicEqual, h1.n_eq, h1.m_eq, h2.n_eq, h2.m_eq, ne_eq, not_true, if_false]
    exact hr
  · have := h (i + j * X) (flat_lt hi hj)
    rw [h1.value i j hi hj, h2.value i j hi hj] at this
    exact Option.some.inj this
  · have hX : 0 < X := Nat.pos_of_ne_zero fun h => by simp [h] at hk
    have hi : k % X < X := Nat.mod_lt _ hX
    have hj : k / X < Y := Nat.div_lt_of_lt_mul hk
    have hk' : k = k % X + k / X * X := by rw [Nat.mul_comm]; exact (Nat.mod_add_div k X).symm
    rw [hk', h1.value _ _ hi hj, h2.value _ _ hi hj, h _ _ hi hj]

/-- C70: the assertion at the end of the demo program holds, whatever the layout and the contents of the two
matrices: multiplying the matrices in bags gives the same as multiplying them without the library. -/
theorem C70_demo [DecidableEq R] (hnm : n ≠ m) (s : Struct) (X : Nat) (h : MatrixLayout s n m X X E.size)
    (c1 c2 : Classic R) (h1 : c1.n = X ∧ c1.m = X ∧ c1.ary.length = X * X)
    (h2 : c2.n = X ∧ c2.m = X ∧ c2.ary.length = X * X) (fresh fresh' : Nat → R) :
    matrixDemo .ideal E n m s c1 c2 fresh fresh' = .ok true := by
  have hc : ∀ c : Classic R, c.n = X ∧ c.m = X ∧ c.ary.length = X * X →
      c.Contains X X fun i j => (c.ary[i + j * X]?).getD 0 := by
    intro c hc
    refine ⟨hc.1, hc.2.1, hc.2.2, fun i j hi hj => ?_⟩
    rw [List.getElem?_eq_getElem (by rw [hc.2.2]; exact flat_lt hi hj)]
    rfl
  obtain ⟨b1, e1, hb1, hB1⟩ := C70_to_noarr hnm s X X h c1 _ (hc c1 h1)
  obtain ⟨b2, e2, hb2, hB2⟩ := C70_to_noarr hnm s X X h c2 _ (hc c2 h2)
  obtain ⟨c3, e3, h3⟩ := C70_classic_multiply X X X c1 c2 _ _ (hc c1 h1) (hc c2 h2) fresh
  obtain ⟨b3, e4, hb3, hB3⟩ := C70_multiply hnm s s s X X X h h h b1 b2 hb1.structure_eq hb2.structure_eq _ _ hB1 hB2
  obtain ⟨c4, e5, h4⟩ := C70_to_classic s X X h b3 hb3.structure_eq _ hB3 fresh'
  obtain ⟨r, e6, hr⟩ := C70_classic_equal X X c3 c4 _ _ h3 h4
  simp only [matrixDemo, e1, e2, e3, e4, e5, e6, Except.bind_ok]
  rw [hr.2 fun _ _ _ _ => rfl]

end

local macro "mat_simp" ts:Lean.Parser.Tactic.simpLemma,* : tactic => `(tactic| simp [Struct.apply, Struct.sem, View.sem, ViewSem.toSem, setLengthSem, vectorSem, scalarSem, guardLen, 
      State.set, State.has, State.removeAll, State.remove, State.empty, Sig.replace, Sig.setLengthRepl, Sig.anyAccept, Sig.needs,  Sig.wf, Val.mul, Val.Num, Val.nat?, Val.ofDyn, Arith.ideal, $ts,*])
/-- C70: the layout by rows, of any size, is one of those which C70 is about. -/
theorem C70_rows (n m : Dim) (h : n ≠ m) (X Y : Nat) : MatrixLayout (matrixRows n m X Y) n m X Y 4 := by
  have h' := h.symm
  refine ⟨⟨?_, ?_, ?_, ?_, ?_⟩, ?_, ?_, ?_, ?_, ?_, ?_⟩
  · mat_simp matrixRows, Struct.wf,  h, h'
  · simp [matrixRows, Struct.apply, Struct.noAlias]
  · simp [matrixRows, Struct.apply, Struct.tame, View.tame]
  · simp [matrixRows, Struct.apply, Struct.sane]
  · simp [matrixRows, Struct.apply, Struct.exact, View.exact]
  · mat_simp matrixRows, h, h'
  · mat_simp matrixRows, h, h'
  · mat_simp matrixRows, h, h'
  · intro i j hi hj
    refine ⟨?_, ?_, ?_, ?_, ?_, ?_, ?_⟩
    · intro q k l _ hk hl
      have hq : q = n ∨ q = m := by
        refine Classical.byContradiction fun hq => ?_
        rw [atNM_other i j (fun h => hq (.inl h)) (fun h => hq (.inr h))] at hk
        cases hk
      rcases hq with rfl | rfl
      · rw [(atNM_idx h i j).1] at hk
        cases hk
        revert hl
        mat_simp matrixRows, h, h', atNM, State.withAll
        rintro rfl
        exact ⟨i, X, rfl, rfl, hi⟩
      · rw [(atNM_idx h i j).2] at hk
        cases hk
        revert hl
        mat_simp matrixRows, h, h', atNM, State.withAll
        rintro rfl
        exact ⟨j, Y, rfl, rfl, hj⟩
    · mat_simp matrixRows, Struct.Pre, View.pre
    · mat_simp matrixRows, Struct.rigid
    · intro q hq
      simp [matrixRows, Struct.apply, Struct.hard, View.hard] at hq
    · intro d
      simp [atNM, State.withAll, State.set, State.empty]
    · mat_simp matrixRows, h, h', atNM, State.withAll
    · mat_simp matrixRows, h, h', atNM, State.withAll
  · intro i j _ _
    mat_simp matrixRows, h, h'
  · intro i j _ _
    mat_simp matrixRows
/-- C70: so is the layout by columns. -/
theorem C70_columns (n m : Dim) (h : n ≠ m) (X Y : Nat) : MatrixLayout (matrixColumns n m X Y) n m X Y 4 := by
  have h' := h.symm
  refine ⟨⟨?_, ?_, ?_, ?_, ?_⟩, ?_, ?_, ?_, ?_, ?_, ?_⟩
  · mat_simp matrixColumns, Struct.wf,  h, h'
  · simp [matrixColumns, Struct.apply, Struct.noAlias]
  · simp [matrixColumns, Struct.apply, Struct.tame, View.tame]
  · simp [matrixColumns, Struct.apply, Struct.sane]
  · simp [matrixColumns, Struct.apply, Struct.exact, View.exact]
  · mat_simp matrixColumns, h, h'
  · mat_simp matrixColumns, h, h'
  · mat_simp matrixColumns, h, h'
  · intro i j hi hj
    refine ⟨?_, ?_, ?_, ?_, ?_, ?_, ?_⟩
    · intro q k l _ hk hl
      have hq : q = n ∨ q = m := by
        refine Classical.byContradiction fun hq => ?_
        rw [atNM_other i j (fun h => hq (.inl h)) (fun h => hq (.inr h))] at hk
        cases hk
      rcases hq with rfl | rfl
      · rw [(atNM_idx h i j).1] at hk
        cases hk
        revert hl
        mat_simp matrixColumns, h, h', atNM, State.withAll
        rintro rfl
        exact ⟨i, X, rfl, rfl, hi⟩
      · rw [(atNM_idx h i j).2] at hk
        cases hk
        revert hl
        mat_simp matrixColumns, h, h', atNM, State.withAll
        rintro rfl
        exact ⟨j, Y, rfl, rfl, hj⟩
    · mat_simp matrixColumns, Struct.Pre, View.pre
    · mat_simp matrixColumns, Struct.rigid
    · intro q hq
      simp [matrixColumns, Struct.apply, Struct.hard, View.hard] at hq
    · intro d
      simp [atNM, State.withAll, State.set, State.empty]
    · mat_simp matrixColumns, h, h', atNM, State.withAll
    · mat_simp matrixColumns, h, h', atNM, State.withAll
  · intro i j _ _
    mat_simp matrixColumns, h, h'
  · intro i j _ _
    mat_simp matrixColumns

/-- Tiles of `p` times `q` elements, by rows both inside and outside: `vector<'M', vector<'N', vector<'m',
vector<'n', scalar<int>>>>>` with lengths, `merge_blocks<'N', 'n', 'n'>` and `merge_blocks<'M', 'm', 'm'>`. -/
def matrixTiles (n m N M : Dim) (x y p q : Nat) : Struct :=
  (Struct.vector M (.vector N (.vector m (.vector n (.scalar 4 4))))).apply [.setLength n (.dyn p), .setLength m (.dyn q),
    .setLength N (.dyn x), .setLength M (.dyn y), .mergeBlocks N n n, .mergeBlocks M m m]

/-- C70: so are tiles of any size. -/
theorem C70_tiles (X Y p q : Nat) : MatrixLayout (matrixTiles 0 1 2 3 X Y p q) 0 1 (X * p) (Y * q) 4 := by
  have h : (0 : Nat) ≠ 1 := by decide
  refine ⟨⟨?_, ?_, ?_, ?_, ?_⟩, ?_, ?_, ?_, ?_, ?_, ?_⟩
  · exact ⟨rfl, rfl, rfl, rfl, rfl, rfl, rfl, rfl, rfl, rfl, trivial⟩
  · simp [matrixTiles, Struct.apply, Struct.noAlias]
  · simp [matrixTiles, Struct.apply, Struct.tame, View.tame, Struct.hard, View.hard,Struct.plain, Struct.soft, View.soft, Struct.stale, View.stale]
  · simp [matrixTiles, Struct.apply, Struct.sane, Struct.hard, View.hard]
  · simp [matrixTiles, Struct.apply, Struct.exact, View.exact]
  · exact ⟨_, _, rfl, rfl⟩
  · exact ⟨_, rfl, rfl⟩
  · exact ⟨_, rfl, rfl⟩
  · intro i j hi hj
    refine ⟨?_, ?_, ?_, ?_, ?_, rfl, rfl⟩
    · intro q k l _ hk hl
      have hq : q = 0 ∨ q = 1 := by
        refine Classical.byContradiction fun hq => ?_
        rw [atNM_other i j (fun h => hq (.inl h)) (fun h => hq (.inr h))] at hk
        cases hk
      rcases hq with rfl | rfl
      · cases hk; cases hl
        exact ⟨i, _, rfl, rfl, hi⟩
      · cases hk; cases hl
        exact ⟨j, _, rfl, rfl, hj⟩
    · refine .below ?_ (.below ?_ (.below trivial (.below trivial (.below trivial (.below trivial trivial)))))
      · intro i hi
        exact ⟨⟨_, rfl⟩, fun l hl => nomatch hl⟩
      · intro i hi
        exact ⟨⟨_, rfl⟩, fun l hl => nomatch hl⟩
    · refine ⟨.inl rfl, ?_⟩
      intro u hu; cases hu
      refine ⟨.inl rfl, ?_⟩
      intro u hu; cases hu
      simp [Struct.rigid]
    · intro q hq
      simp [matrixTiles, Struct.apply, Struct.hard, View.hard] at hq
    · intro d
      simp [atNM, State.withAll, State.set, State.empty]
  · intro i j _ _
    exact ⟨.inr (.inl rfl), .inl rfl⟩
  · intro i j _ _
    rfl

/-! ## Example

32-bit integers, little-endian. -/

def c70Int : ElemType (BitVec 32) where
  size := 4
  enc x := [⟨x.extractLsb' 0 8⟩, ⟨x.extractLsb' 8 8⟩, ⟨x.extractLsb' 16 8⟩, ⟨x.extractLsb' 24 8⟩]
  dec
    | [a, b, c, d] => d.toBitVec ++ c.toBitVec ++ b.toBitVec ++ a.toBitVec
    | _ => 0
  enc_length _ := rfl
  dec_enc x := by
    apply BitVec.eq_of_getLsbD_eq
    intro i hi
    simp only [BitVec.getLsbD_append, BitVec.getLsbD_extractLsb']
    grind

/-- The demo with a matrix by columns, and with tiles, of any contents. -/
example (c1 c2 : Classic (BitVec 32)) (h1 : c1.n = 6 ∧ c1.m = 6 ∧ c1.ary.length = 36)
    (h2 : c2.n = 6 ∧ c2.m = 6 ∧ c2.ary.length = 36) :
    matrixDemo .ideal c70Int 0 1 (matrixColumns 0 1 6 6) c1 c2 (fun _ => 0) (fun _ => 0) = .ok true ∧
    matrixDemo .ideal c70Int 0 1 (matrixTiles 0 1 2 3 2 3 3 2) c1 c2 (fun _ => 0) (fun _ => 0) = .ok true :=
  ⟨C70_demo (by decide) _ 6 (C70_columns 0 1 (by decide) 6 6) c1 c2 h1 h2 _ _,
   C70_demo (by decide) _ 6 (C70_tiles 2 3 3 2) c1 c2 h1 h2 _ _⟩

/-- A matrix by rows, multiplied with one by columns, into tiles. -/
example (c1 c2 : Classic (BitVec 32)) (M1 M2 : Nat → Nat → BitVec 32) (h1 : c1.Contains 2 6 M1)
    (h2 : c2.Contains 6 2 M2) : ∃ b1 b2 b, classicToNoarr .ideal c70Int 0 1 c1 (matrixRows 0 1 2 6) = .ok b1 ∧
      classicToNoarr .ideal c70Int 0 1 c2 (matrixColumns 0 1 6 2) = .ok b2 ∧
      noarrMultiply .ideal c70Int 0 1 b1 b2 (matrixTiles 0 1 2 3 2 3 3 2) = .ok b ∧
      b.Contains c70Int 0 1 6 6 fun i j => 0 + M1 0 j * M2 i 0 + M1 1 j * M2 i 1 := by
  have l1 := C70_rows 0 1 (by decide) 2 6
  have l2 := C70_columns 0 1 (by decide) 6 2
  obtain ⟨b1, e1, hb1, H1⟩ := C70_to_noarr (E := c70Int) (by decide) _ 2 6 l1 c1 M1 h1
  obtain ⟨b2, e2, hb2, H2⟩ := C70_to_noarr (E := c70Int) (by decide) _ 6 2 l2 c2 M2 h2
  obtain ⟨b, e3, hb, H3⟩ := C70_multiply (E := c70Int) (by decide) _ _ _ 2 6 6 l1 l2 (C70_tiles 2 3 3 2) b1 b2
    hb1.structure_eq hb2.structure_eq M1 M2 H1 H2
  exact ⟨b1, b2, b, e1, e2, e3, H3⟩

/-- A matrix in tiles: copied to another layout, scaled, transposed, taken out and compared. -/
example (c : Classic (BitVec 32)) (M : Nat → Nat → BitVec 32) (h : c.Contains 6 6 M) :
    ∃ b b1 b2 b3 c', classicToNoarr .ideal c70Int 0 1 c (matrixTiles 0 1 2 3 2 3 3 2) = .ok b ∧
      noarrCopy .ideal c70Int 0 1 b (matrixColumns 0 1 6 6) = .ok b1 ∧ noarrScale .ideal c70Int 0 1 b1 5 = .ok b2 ∧
      noarrTranspose .ideal c70Int 0 1 b2 = .ok b3 ∧ noarrToClassic .ideal c70Int 0 1 b3 (fun _ => 7) = .ok c' ∧
      c'.Contains 6 6 fun i j => M j i * 5 := by
  have l1 := C70_tiles 2 3 3 2
  have l2 := C70_columns 0 1 (by decide) 6 6
  obtain ⟨b, e, hb, H⟩ := C70_to_noarr (E := c70Int) (by decide) _ 6 6 l1 c M h
  obtain ⟨b1, e1, hb1, H1⟩ := C70_copy (E := c70Int) (by decide) _ _ 6 6 l1 l2 b hb.structure_eq M H
  obtain ⟨b2, e2, hb2, H2⟩ := C70_scale (E := c70Int) (by decide) _ 6 6 l2 b1 hb1 M H1 5
  obtain ⟨b3, e3, hb3, H3⟩ := C70_transpose (E := c70Int) (by decide) _ 6 l2 b2 hb2 _ H2
  obtain ⟨c', e4, H4⟩ := C70_to_classic (E := c70Int) _ 6 6 l2 b3 hb3.structure_eq _ H3 fun _ => 7
  exact ⟨b, b1, b2, b3, c', e, e1, e2, e3, e4, H4⟩

/-- Shapes that do not fit. -/
example (b1 b2 : Bag) (h1 : b1.structure_ = matrixRows 0 1 2 6) (h2 : b2.structure_ = matrixColumns 0 1 6 3) :
    noarrMultiply .ideal c70Int 0 1 b1 b2 (matrixRows 0 1 6 6) = .error .ub ∧
    noarrTranspose .ideal c70Int 0 1 b1 = .error .ub :=
  ⟨C70_multiply_asserts_the_shapes (E := c70Int) _ _ _ 2 6 6 3 (by decide) (C70_rows 0 1 (by decide) 2 6)
    (C70_columns 0 1 (by decide) 6 3) (C70_rows 0 1 (by decide) 6 6) b1 b2 h1 h2,
   C70_transpose_asserts_a_square (E := c70Int) _ 2 6 (by decide) (C70_rows 0 1 (by decide) 2 6) b1 h1⟩

/-- The comparison notices a difference. -/
example : classicEqual (⟨1, 2, [3, 4]⟩ : Classic Nat) ⟨1, 2, [3, 5]⟩ = .ok false := rfl

end Noarr
