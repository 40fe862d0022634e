import Verif.Props.CudaStepBags

/-
C79: the sums of docs/Traverser.md, "Parallel reduction".
-/

namespace Noarr
variable {I : Nat → Space}

/-- The functions of the row sums and column sums (docs/Traverser.md:473-490): `out[state] = 0`,
`out[state] += matrix[state]` and `out_left[state] += out_right[state]`. The bag 0 is `matrix`. -/
def sums {R : Type} [Add R] (E : ElemType R) (zero : R) : BagReducer :=
  bagReducer (fun st => .get 0 st fun a => .done (st, E.dec a)) (fun w v => E.enc (E.dec w + v)) (E.enc zero)
    fun w w' => E.enc (E.dec w + E.dec w')

theorem sums_reduces {R : Type} [Add R] (E : ElemType R) (zero : R) (h0 : ∀ a : R, a + zero = a)
    (hassoc : ∀ a b c : R, a + (b + c) = a + b + c) (hadd : ∀ a b c : R, a + b + c = a + c + b) (ds : List Dim)
    (N : Dim → Nat) : Reduces (.box ds N E.size) (fun w => ∃ x, w = E.enc x) (fun w v => E.enc (E.dec w + v)) (E.enc zero)
      fun w w' => E.enc (E.dec w + E.dec w') where
  size := by rintro _ u ⟨x, rfl⟩ -; exact E.enc_length x
  op_size _ _ _ _ _ := E.enc_length _
  join_size _ _ _ _ _ := E.enc_length _
  good_zero := ⟨_, rfl⟩
  good_op _ _ _ := ⟨_, rfl⟩
  good_join _ _ _ _ := ⟨_, rfl⟩
  comm _ _ _ _ := by simp only [E.dec_enc, hadd]
  join_zero := by rintro _ ⟨x, rfl⟩; simp only [E.dec_enc, h0]
  join_op _ _ _ _ _ := by simp only [E.dec_enc, hassoc]

/-- C79: `tbb_reduce` with these functions sums up the elements of an array with the dimensions `ds` over the dimensions
that the output (with the dimensions `os`) does not have, and adds the sums to the output. The array is traversed in any
order; whether the output is shared by the threads or copied, every execution ends without undefined behaviour. -/
theorem C79_sums {R : Type} [Add R] (E : ElemType R) (zero : R) (h0 : ∀ a : R, a + zero = a)
    (hassoc : ∀ a b c : R, a + (b + c) = a + b + c) (hadd : ∀ a b c : R, a + b + c = a + c + b) (ds os : List Dim)
    (hos : ∀ q ∈ os, q ∈ ds) (N : Dim → Nat) (hI0 : I 0 = .box ds N E.size) (hI1 : ∀ x, x ≠ 0 → I x = .box os N E.size)
    (t : Traverser) (sts : List State) (hs : t.forEach .ideal [] = some sts) (huniq : (t.top.sem .ideal).sig.uniq)
    (hv : ∀ r, t.range .ideal = some r → r.dim ∈ os → ∀ v ∈ t.views, v.spreads r.dim)
    (hsts : ∀ u, u ∈ sts ↔ OnBox (· ∈ ds) N u) (V : Arrays) (B : Bags) (hB : BagsHold I B V)
    (henc : ∀ u, OnBox (· ∈ os) N u → ∃ a, V 1 u = E.enc a)
    (hacc : ∀ q, ((B 1).structure_.sem .ideal).sig.allAccept q = true → q ∈ os) (outs : List State)
    (houts : (Traverser.mk (B 1).structure_ []).forEach .ideal [] = some outs) (hn : outs.Nodup)
    (hbox : ∀ u, u ∈ outs ↔ OnBox (· ∈ os) N u) (res : Except Fail Bags)
    (h : TbbReduceBags .ideal t (sums E zero) 2 1 B res) :
    ∃ C, res = .ok C ∧ (∀ u, OnBox (· ∈ ds) N u → (C 0).get .ideal u = .ok (V 0 u)) ∧
      ∀ u, OnBox (· ∈ os) N u → (C 1).get .ideal u = .ok (E.enc (open Classical in
        (sts.filter fun st => (st.only fun q => decide (q ∈ os)) = u).foldl (fun r st => r + E.dec (V 0 st))
          (E.dec (V 1 u)))) := by
  have hI1' := hI1 1 (by decide)
  obtain ⟨C, h1, -, h3⟩ := C75_reduction_into_a_bag (I := I) (K := 2) (out := 1)
    (good := fun w => ∃ x, w = E.enc x) (op := fun w v => E.enc (E.dec w + v)) (zero := E.enc zero)
    (join := fun w w' => E.enc (E.dec w + E.dec w')) (e := fun st => .get 0 st fun a => .done (st, E.dec a))
    (key := fun st => st.only fun q => decide (q ∈ os)) (val := fun st => E.dec (V 0 st)) t sts hs huniq V B hB (by decide)
    (fun x hx => by rw [hI1 x (by omega), hI1']) (by rw [hI1']; exact sums_reduces E zero h0 hassoc hadd os N)
    (fun u hu => henc u (by rw [hI1'] at hu; exact hu)) outs houts hn
    (fun u hu => (hbox u).2 (by rw [hI1'] at hu; exact hu))
    (fun u hu => by rw [hI1']; exact Space.box_self ((hbox u).1 hu))
    (fun st hst => by
      refine ⟨st, [(0, st, false)], by rw [hI1']; exact Space.box_at ((hsts st).1 hst) hos,
        .get st (by rw [hI0]; exact Space.box_self ((hsts st).1 hst)) .done, fun y w b hm => ?_⟩
      cases List.mem_singleton.1 hm
      exact ⟨by decide, by decide, rfl⟩)
    (fun r hr ha => by
      have hin := hacc _ ha
      refine ⟨C34_top_dimension_splits t r hr huniq (hv r hr hin), fun st hst st' hst' hk => ?_⟩
      have := congrFun hk (.idx r.dim)
      simp only [State.only, hin, decide_true, if_true] at this
      obtain ⟨x, -, hx⟩ := ((hsts st).1 hst).ok r.dim (hos _ hin)
      rw [hx] at this ⊢
      rw [← this]
      exact ⟨_, _, x, rfl, rfl, rfl, rfl⟩) res h
  refine ⟨C, h1, fun u hu => ?_, fun u hu => ?_⟩
  · rw [h3 0 u (by decide) (by rw [hI0]; exact hu)]
    simp [Arrays.accumulated]
  · rw [h3 1 u (by decide) (by rw [hI1']; exact hu)]
    simp only [Arrays.accumulated, if_true]
    congr 1
    obtain ⟨a, ha⟩ := henc u hu
    have henc' : ∀ (l : List State) (a : R), ∃ b, foldAt (fun w v => E.enc (E.dec w + v))
        (fun st => st.only fun q => decide (q ∈ os)) (fun st => E.dec (V 0 st)) u (E.enc a) l = E.enc b := by
      intro l
      induction l with
      | nil => exact fun a => ⟨a, rfl⟩
      | cons st l ih =>
        intro a
        simp only [foldAt, List.foldl_cons] at ih ⊢
        split
        · exact ih _
        · exact ih a
    obtain ⟨b, hb⟩ := henc' sts a
    rw [← dec_foldAt, ha, hb, E.dec_enc]

theorem atNM_box {o j : Dim} (hoj : o ≠ j) {ds : List Dim} (hds : ∀ q, q ∈ ds ↔ q = o ∨ q = j) {N : Dim → Nat} {u : State} :
    OnBox (· ∈ ds) N u ↔ ∃ x y, x < N o ∧ y < N j ∧ u = atNM o j x y := by
  constructor
  · intro hu
    obtain ⟨x, hx, hx'⟩ := hu.ok o ((hds o).2 (.inl rfl))
    obtain ⟨y, hy, hy'⟩ := hu.ok j ((hds j).2 (.inr rfl))
    refine ⟨x, y, hx, hy, ?_⟩
    funext t
    cases t with
    | len q => rw [hu.noLen]; simp [atNM, State.withAll, State.set, State.empty]
    | idx q =>
      by_cases h2 : q = j
      · subst h2; simp [hy', atNM, State.withAll, State.set]
      by_cases h1 : q = o
      · subst h1; simp [hx', atNM, State.withAll, State.set, h2]
      rw [hu.only q (by simp [hds, h1, h2]), atNM_other x y h1 h2]
  · rintro ⟨x, y, hx, hy, rfl⟩
    obtain ⟨h1, h2⟩ := atNM_idx hoj x y
    refine ⟨fun q hq => ?_, fun q hq => ?_, fun q => by simp [atNM, State.withAll, State.set, State.empty]⟩
    · rcases (hds q).1 hq with rfl | rfl
      · exact ⟨x, hx, h1⟩
      · exact ⟨y, hy, h2⟩
    · rw [hds, not_or] at hq
      exact atNM_other x y hq.1 hq.2

theorem atNM_only {o j : Dim} (hoj : o ≠ j) (x y : Nat) : (atNM o j x y).only (fun q => decide (q ∈ [o])) = atV o x := by
  funext g
  cases g <;> simp [State.only, atNM, State.withAll, atV, State.set, State.empty] <;> grind

/-- C79: sums along a dimension `j` of a matrix. With the dimension of the rows for `o`, these are the row sums, with the
dimension of the columns, the column sums. -/
theorem C79_sums_along_a_dimension {R : Type} [Add R] (E : ElemType R) (zero : R) (h0 : ∀ a : R, a + zero = a)
    (hassoc : ∀ a b c : R, a + (b + c) = a + b + c) (hadd : ∀ a b c : R, a + b + c = a + c + b) {o j : Dim} (hoj : o ≠ j)
    (ds : List Dim) (hds : ∀ q, q ∈ ds ↔ q = o ∨ q = j) (N : Dim → Nat) (hI0 : I 0 = .box ds N E.size)
    (hI1 : ∀ x, x ≠ 0 → I x = .box [o] N E.size) (t : Traverser) (sts : List State) (hs : t.forEach .ideal [] = some sts)
    (huniq : (t.top.sem .ideal).sig.uniq) (hnd : sts.Nodup)
    (hv : ∀ r, t.range .ideal = some r → r.dim = o → ∀ v ∈ t.views, v.spreads r.dim)
    (hsts : ∀ u, u ∈ sts ↔ OnBox (· ∈ ds) N u) (V : Arrays) (B : Bags) (hB : BagsHold I B V)
    (henc : ∀ x, x < N o → ∃ a, V 1 (atV o x) = E.enc a)
    (hacc : ∀ q, ((B 1).structure_.sem .ideal).sig.allAccept q = true → q = o) (outs : List State)
    (houts : (Traverser.mk (B 1).structure_ []).forEach .ideal [] = some outs) (hn : outs.Nodup)
    (hbox : ∀ u, u ∈ outs ↔ OnBox (· ∈ [o]) N u) (res : Except Fail Bags)
    (h : TbbReduceBags .ideal t (sums E zero) 2 1 B res) :
    ∃ C, res = .ok C ∧ (∀ u, OnBox (· ∈ ds) N u → (C 0).get .ideal u = .ok (V 0 u)) ∧
      ∀ x, x < N o → (C 1).get .ideal (atV o x) = .ok (E.enc ((List.range (N j)).foldl
        (fun r y => r + E.dec (V 0 (atNM o j x y))) (E.dec (V 1 (atV o x))))) := by
  obtain ⟨C, h1, h2, h3⟩ := C79_sums E zero h0 hassoc hadd ds [o] (fun q hq => (hds q).2 (.inl (by simpa using hq))) N hI0
    hI1 t sts hs huniq (fun r hr hd => hv r hr (by simpa using hd)) hsts V B hB (fun u hu => by
      obtain ⟨x, hx, rfl⟩ := onBox_atV hu
      exact henc x hx) (fun q hq => by simpa using hacc q hq) outs houts hn hbox res h
  refine ⟨C, h1, h2, fun x hx => ?_⟩
  rw [h3 _ (atV_box hx)]
  classical
  have hperm : (sts.filter fun st => decide ((st.only fun q => decide (q ∈ [o])) = atV o x)).Perm
      ((List.range (N j)).map fun y => atNM o j x y) := by
    refine (List.perm_ext_iff_of_nodup (hnd.filter _) ?_).2 fun u => ?_
    · exact List.pairwise_map.2 (List.nodup_range.imp fun h e => h (atNM_inj hoj e).2)
    · simp only [List.mem_filter, decide_eq_true_eq, List.mem_map, List.mem_range, hsts, atNM_box hoj hds]
      constructor
      · rintro ⟨⟨x', y, -, hy, rfl⟩, he⟩
        rw [atNM_only hoj] at he
        cases atV_inj he
        exact ⟨y, hy, rfl⟩
      · rintro ⟨y, hy, rfl⟩
        exact ⟨⟨x, y, hx, hy, rfl⟩, atNM_only hoj x y⟩
  have e := hperm.foldl_eq' (f := fun r st => r + E.dec (V 0 st)) (fun a _ b _ c => hadd ..) (E.dec (V 1 (atV o x)))
  rw [List.foldl_map] at e
  rw [← e]

/-- C79: the sums for a matrix in a bag with any layout, whose dimensions are `o` and `j` in some order, and for the output
`make_bag(scalar<T>() ^ vector<'o'>() ^ set_length<'o'>(n))`. -/
theorem C79_sums_of_a_matrix {R : Type} [Add R] (E : ElemType R) (zero : R) (h0 : ∀ a : R, a + zero = a)
    (hassoc : ∀ a b c : R, a + (b + c) = a + b + c) (hadd : ∀ a b c : R, a + b + c = a + c + b) {o j : Dim} (hoj : o ≠ j)
    (ds : List Dim) (hds : ∀ q, q ∈ ds ↔ q = o ∨ q = j) (N : Dim → Nat) (M : Bag)
    (hM : (Space.box ds N E.size).LaidOut M.structure_) (hbag : BagFor M.structure_ M)
    (hflat : (M.structure_.sem .ideal).sig.flat) (huniq : (M.structure_.sem .ideal).sig.uniq)
    (hdim : ∀ q, (M.structure_.sem .ideal).sig.anyAccept q = true ↔ q ∈ ds) (hlen : HasLengths (M.structure_.sem .ideal) N)
    (old : List R) (hold : old.length = N o) (res : Except Fail Bags)
    (h : TbbReduceBags .ideal ⟨M.structure_, []⟩ (sums E zero) 2 1
      (fun x => if x = 0 then M else ⟨vectorOf o (N o) E.size, old.flatMap E.enc⟩) res) :
    ∃ (as : Nat → Nat → List UInt8) (C : Bags), res = .ok C ∧
      (∀ x y, x < N o → y < N j → M.get .ideal (atNM o j x y) = .ok (as x y) ∧
        (C 0).get .ideal (atNM o j x y) = .ok (as x y)) ∧
      ∀ x (hx : x < N o), (C 1).get .ideal (atV o x) = .ok (E.enc ((List.range (N j)).foldl
        (fun r y => r + E.dec (as x y)) (old[x]'(hold ▸ hx)))) := by
  let I : Nat → Space := fun x => if x = 0 then .box ds N E.size else .box [o] N E.size
  let V : Arrays := fun x u => if x = 0 then (match M.get .ideal u with
    | .ok v => v
    | .error _ => []) else vectorArrays E o (fun _ => old) x u
  have hV : ∀ x k (hk : k < N o), x ≠ 0 → V x (atV o k) = E.enc (old[k]'(hold ▸ hk)) := by
    intro x k hk hx
    simp only [V, hx, if_false]
    exact vectorArrays_at E o (fun _ => old) x k (by rw [hold]; exact hk)
  have hM' : ∀ u, OnBox (· ∈ ds) N u → M.get .ideal u = .ok (V 0 u) := by
    intro u hu
    obtain ⟨⟨v, hv, -⟩, -⟩ := hM.access hbag hu
    simp only [V, if_true, hv]
  have hB : BagsHold I (fun x => if x = 0 then M else ⟨vectorOf o (N o) E.size, old.flatMap E.enc⟩) V := by
    refine ⟨fun x => ?_, fun x => ?_, fun x u hu => ?_⟩
    · by_cases hx : x = 0
      · simp only [I, hx, if_true]; exact hM
      · simp only [I, hx, if_false]; exact vectorOf_laidOut o N E.size
    · by_cases hx : x = 0
      · simp only [hx, if_true]; exact hbag
      · simp only [hx, if_false]
        refine ⟨rfl, fun w m hw hm => ?_⟩
        obtain ⟨w', h1, h2⟩ := vectorOf_size o (N o) E.size
        cases h1.symm.trans hw
        have : N o * E.size = m := by simpa [Val.Num] using (h2.symm.trans hm)
        rw [← this, flat_length, hold]
        exact Nat.le_refl _
    · by_cases hx : x = 0
      · subst hx
        exact hM' u hu
      · simp only [I, hx, if_false] at hu ⊢
        obtain ⟨k, hk, rfl⟩ := onBox_atV hu
        rw [hV x k hk hx, vectorOf_get _ _ _ _ _ (by rw [flat_length, hold]) hk,
          flat_get E old k (by rw [hold]; exact hk)]
  obtain ⟨sts, h1, h2, -, h4⟩ := forEach_flat hflat huniq hlen
  obtain ⟨C, g1, g2, g3⟩ := C79_sums_along_a_dimension (I := I) E zero h0 hassoc hadd hoj ds hds N rfl
    (fun x hx => if_neg hx) ⟨M.structure_, []⟩ sts h1 huniq h2 (fun _ _ _ v hv => absurd hv List.not_mem_nil)
    (fun u => by rw [h4]; simp only [hdim]) V _ hB (fun x hx => ⟨_, hV 1 x hx (by decide)⟩)
    (fun q hq => by
      simp only [Nat.one_ne_zero, if_false, vectorOf_sig, Sig.allAccept] at hq
      simp at hq
      exact hq.symm) _ (vectorOf_forEach o (N o) E.size) (vector_nodup _ _) (fun u => mem_vector) res h
  refine ⟨fun x y => V 0 (atNM o j x y), C, g1, fun x y hx hy => ?_, fun x hx => ?_⟩
  · have hu := (atNM_box hoj hds (N := N)).2 ⟨x, y, hx, hy, rfl⟩
    exact ⟨hM' _ hu, g2 _ hu⟩
  · rw [g3 x hx, hV 1 x hx (by decide), E.dec_enc]

/-! ### Examples -/

/-- `scalar<int>() ^ vector<'j'>() ^ vector<'i'>() ^ set_length<'j'>(3) ^ set_length<'i'>(2)`, where 'i' is 0 and 'j' is 1,
with the rows 1, 2, 3 and 10, 20, 30. -/
def c79Matrix : Bag :=
  ⟨matrixRows 1 0 3 2, ([1, 2, 3, 10, 20, 30] : List (BitVec 32)).flatMap c70Int.enc⟩

def c79Len : Dim → Nat := fun q => if q = 0 then 2 else 3

theorem c79Matrix_sig : (c79Matrix.structure_.sem .ideal).sig = .fn 0 .dynamic (.fn 1 .dynamic (.scalar 4)) := rfl

theorem c79Matrix_lengths : HasLengths (c79Matrix.structure_.sem .ideal) c79Len := by
  intro q hq st h1 h2
  rw [c79Matrix_sig] at hq
  have : q = 0 ∨ q = 1 := by
    simp [Sig.anyAccept] at hq
    exact hq.imp Eq.symm Eq.symm
  rcases this with rfl | rfl <;>
    simp [c79Matrix, matrixRows, c79Len, Struct.apply, Struct.sem, View.sem, ViewSem.toSem, setLengthSem, vectorSem, guardLen,
      State.has, State.set, State.removeAll, h2, Val.Num, Val.nat?]

theorem c79Matrix_laidOut : (Space.box [1, 0] c79Len 4).LaidOut c79Matrix.structure_ := by
  refine Space.box_of_matrix (by decide) (C72_matrix_layouts (by decide) (C70_rows 1 0 (by decide) 3 2) ?_ fun q hq => ?_)
  · simp [c79Matrix, matrixRows, Struct.apply, Struct.tidy]
  · simp only [c79Matrix, matrixRows, Struct.apply, Struct.names, View.names, or_false] at hq; exact hq.symm

/-- The row sums: the output is shared. It contained 100 and 200, and these are added to. -/
example : ∃ res, TbbReduceBags .ideal ⟨c79Matrix.structure_, []⟩ (sums c70Int 0) 2 1
      (fun x => if x = 0 then c79Matrix else ⟨vectorOf 0 2 4, ([100, 200] : List (BitVec 32)).flatMap c70Int.enc⟩) res ∧
    ∃ C, res = .ok C ∧ (C 1).get .ideal (atV 0 0) = .ok [106, 0, 0, 0] ∧ (C 1).get .ideal (atV 0 1) = .ok [4, 1, 0, 0] := by
  let r : Range := ⟨0, c79Matrix.structure_, [], 0, 2⟩
  obtain ⟨res, hres⟩ := ParallelFor.single (A := .ideal) (Prog.each ((sums c70Int 0).acc · 1) ((threadStates .ideal [r]).getD []))
    (fun x => if x = 0 then c79Matrix else ⟨vectorOf 0 2 4, ([100, 200] : List (BitVec 32)).flatMap c70Int.enc⟩)
  have h : TbbReduceBags .ideal ⟨c79Matrix.structure_, []⟩ (sums c70Int 0) 2 1
      (fun x => if x = 0 then c79Matrix else ⟨vectorOf 0 2 4, ([100, 200] : List (BitVec 32)).flatMap c70Int.enc⟩) res :=
    .shared (r := r) (tree := .leaf) (leaves := [r]) (threads := [[r]]) (xss := [(threadStates .ideal [r]).getD []])
      rfl rfl rfl (.refl _) rfl hres
  refine ⟨_, h, ?_⟩
  obtain ⟨as, C, h1, h2, h3⟩ := C79_sums_of_a_matrix c70Int 0 (by simp) (fun a b c => (BitVec.add_assoc a b c).symm)
    (fun a b c => by ac_rfl) (o := 0) (j := 1) (by decide) [1, 0] (by simp [or_comm]) c79Len c79Matrix c79Matrix_laidOut
    ⟨rfl, fun v k hv hk => by cases hv; cases hk; exact Nat.le_refl _⟩ trivial ⟨rfl, rfl, trivial⟩
    (by rw [c79Matrix_sig]; simp [Sig.anyAccept]; grind) c79Matrix_lengths [100, 200] rfl _ h
  have e : ∀ x y, x < 2 → y < 3 → Except.ok (as x y) = c79Matrix.get .ideal (atNM 0 1 x y) := fun x y hx hy =>
    (h2 x y hx hy).1.symm
  refine ⟨C, h1, ?_, ?_⟩
  · rw [h3 0 (by decide)]
    simp [c79Len, List.range_succ, Except.ok.inj ((e 0 0 (by decide) (by decide)).trans rfl),
      Except.ok.inj ((e 0 1 (by decide) (by decide)).trans rfl), Except.ok.inj ((e 0 2 (by decide) (by decide)).trans rfl)]
    rfl
  · rw [h3 1 (by decide)]
    simp [c79Len, List.range_succ, Except.ok.inj ((e 1 0 (by decide) (by decide)).trans rfl),
      Except.ok.inj ((e 1 1 (by decide) (by decide)).trans rfl), Except.ok.inj ((e 1 2 (by decide) (by decide)).trans rfl)]
    rfl

/-- The column sums: each thread has a copy of the output, here one thread. -/
example : ∃ res, TbbReduceBags .ideal ⟨c79Matrix.structure_, []⟩ (sums c70Int 0) 2 1
      (fun x => if x = 0 then c79Matrix else ⟨vectorOf 1 3 4, ([0, 0, 100] : List (BitVec 32)).flatMap c70Int.enc⟩) res ∧
    ∃ C, res = .ok C ∧ (C 1).get .ideal (atV 1 0) = .ok [11, 0, 0, 0] ∧ (C 1).get .ideal (atV 1 2) = .ok [133, 0, 0, 0] := by
  let r : Range := ⟨0, c79Matrix.structure_, [], 0, 2⟩
  obtain ⟨mid, hmid⟩ := ParallelFor.single (A := .ideal)
    ((sums c70Int 0).thread ((List.range 3).map (atV 1)) 2 ((threadStates .ideal [r]).getD []))
    (Bags.withCopies (fun x => if x = 0 then c79Matrix else
      ⟨vectorOf 1 3 4, ([0, 0, 100] : List (BitVec 32)).flatMap c70Int.enc⟩) 2 1 [List.replicate 12 7])
  have h : TbbReduceBags .ideal ⟨c79Matrix.structure_, []⟩ (sums c70Int 0) 2 1
      (fun x => if x = 0 then c79Matrix else ⟨vectorOf 1 3 4, ([0, 0, 100] : List (BitVec 32)).flatMap c70Int.enc⟩) _ :=
    .copies (r := r) (tree := .leaf) (leaves := [r]) (threads := [[r]]) (xss := [(threadStates .ideal [r]).getD []])
      (outs := (List.range 3).map (atV 1)) (size := .dyn 12) (n := 12) (fresh := [List.replicate 12 7])
      rfl rfl rfl (.refl _) rfl (vectorOf_forEach 1 3 4) rfl rfl rfl
      (fun f hf => by cases List.mem_singleton.1 hf; exact List.length_replicate) hmid
  refine ⟨_, h, ?_⟩
  obtain ⟨as, C, h1, h2, h3⟩ := C79_sums_of_a_matrix c70Int 0 (by simp) (fun a b c => (BitVec.add_assoc a b c).symm)
    (fun a b c => by ac_rfl) (o := 1) (j := 0) (by decide) [1, 0] (by simp) c79Len c79Matrix c79Matrix_laidOut
    ⟨rfl, fun v k hv hk => by cases hv; cases hk; exact Nat.le_refl _⟩ trivial ⟨rfl, rfl, trivial⟩
    (by rw [c79Matrix_sig]; simp [Sig.anyAccept]; grind) c79Matrix_lengths [0, 0, 100] rfl _ h
  have e : ∀ x y, x < 3 → y < 2 → Except.ok (as x y) = c79Matrix.get .ideal (atNM 1 0 x y) := fun x y hx hy =>
    (h2 x y hx hy).1.symm
  refine ⟨C, h1, ?_, ?_⟩
  · rw [h3 0 (by decide)]
    simp [c79Len, List.range_succ, Except.ok.inj ((e 0 0 (by decide) (by decide)).trans rfl),
      Except.ok.inj ((e 0 1 (by decide) (by decide)).trans rfl)]
    rfl
  · rw [h3 2 (by decide)]
    simp [c79Len, List.range_succ, Except.ok.inj ((e 2 0 (by decide) (by decide)).trans rfl),
      Except.ok.inj ((e 2 1 (by decide) (by decide)).trans rfl)]
    rfl

end Noarr
