import Verif.Props.Program

/-
C83: the matrices of docs/structs/merge_blocks.md, for all numbers of rows and columns and all sizes of blocks.
-/

namespace Noarr

/-- `s ^ vector<d>(n)` (structs/layouts.hpp, `vector<Dim>(length)`): a vector whose length is set. -/
def Struct.vec (s : Struct) (d : Dim) (n : Nat) : Struct := .view (.setLength d (.dyn n)) (.vector d s)

/-- `(n + block - 1) / block`, as in docs/structs/merge_blocks.md -/
def blockCount (n block : Nat) : Nat := (n + block - 1) / block

/-- `matrix` in docs/structs/merge_blocks.md, "Incomplete blocks". The dimensions are `'i'` (0), `'j'` (1), `'b'` (2) and
`'e'` (3). -/
def paddedBlocks (rows cols block e : Nat) : Struct :=
  ((((Struct.scalar e e).vec 3 block).vec 0 rows).vec 2 (blockCount cols block)).apply
    [.mergeBlocks 2 3 1, .slice 1 (.dyn 0) (.dyn cols)]

/-- `tiled_matrix` in docs/structs/merge_blocks.md, with the trick for incomplete blocks in both dimensions. The
dimensions are `'i'` (0), `'j'` (1), `'I'` (2) and `'J'` (3). -/
def paddedTiles (rows cols tr tc e : Nat) : Struct :=
  (((((Struct.scalar e e).vec 1 tc).vec 0 tr).vec 3 (blockCount cols tc)).vec 2 (blockCount rows tr)).apply
    [.mergeBlocks 3 1 1, .mergeBlocks 2 0 0, .slice 1 (.dyn 0) (.dyn cols), .slice 0 (.dyn 0) (.dyn rows)]

/-- `final_matrix` in docs/structs/merge_blocks.md: only whole blocks. -/
def wholeBlocks (rows cols block e : Nat) : Struct :=
  ((((Struct.scalar e e).vec 3 block).vec 0 rows).vec 2 (cols / block)).apply [.mergeBlocks 2 3 1]

/-- `tiled_matrix` with the two merges in the other order. -/
def paddedTiles' (rows cols tr tc e : Nat) : Struct :=
  (((((Struct.scalar e e).vec 1 tc).vec 0 tr).vec 3 (blockCount cols tc)).vec 2 (blockCount rows tr)).apply
    [.mergeBlocks 2 0 0, .mergeBlocks 3 1 1, .slice 1 (.dyn 0) (.dyn cols), .slice 0 (.dyn 0) (.dyn rows)]

/-- `simple_matrix` in docs/structs/merge_blocks.md -/
def simpleMatrix (rows cols e : Nat) : Struct := ((Struct.scalar e e).vec 1 cols).vec 0 rows

theorem le_blockCount {n B : Nat} (h : 0 < B) : n ≤ blockCount n B * B := by
  have h1 := Nat.div_add_mod (n + B - 1) B
  have h2 := Nat.mod_lt (n + B - 1) h
  unfold blockCount
  rw [Nat.mul_comm] at h1
  omega

/-- C83: the documented formula gives the least number of blocks that are enough. -/
theorem C83_least_number_of_blocks {n B k : Nat} (h : 0 < B) : n ≤ k * B ↔ blockCount n B ≤ k := by
  refine ⟨fun hn => ?_, fun hk => Nat.le_trans (le_blockCount h) (Nat.mul_le_mul_right B hk)⟩
  refine Nat.lt_succ_iff.1 ((Nat.div_lt_iff_lt_mul h).2 ?_)
  rw [Nat.succ_mul]
  omega

/-- C83: the size of the matrix with incomplete blocks is that of the whole blocks. -/
theorem C83_blocks_size (R C B e : Nat) :
    ∃ v, ((paddedBlocks R C B e).sem .ideal).size .empty = some v ∧ v.Num (blockCount C B * (R * (B * e))) :=
  ⟨_, rfl, Val.num_mul rfl (Val.num_mul rfl (Val.num_mul rfl rfl))⟩

/-- C83: the element in row `i` and column `j` is the element `j % B` in row `i` of the block `j / B`. -/
theorem C83_blocks_place (R C B e i j : Nat) (hB : 0 < B) :
    (paddedBlocks R C B e).place .ideal (atNM 0 1 i j) = .ok (j / B * (R * (B * e)) + (i * (B * e) + (j % B) * e), e) := by
  have hj : (Val.add .ideal (.dyn j) (.dyn 0)).Num j := rfl
  have h1 : (Val.mul .ideal (.dyn B) (.lit e)).Num (B * e) := Val.num_mul rfl rfl
  refine place_eq rfl rfl ?_
  have := Val.num_add (Val.num_mul (Val.num_mod hj (b := .dyn B) rfl hB) (b := .lit e) rfl)
    (Val.num_add (Val.num_mul (a := .dyn i) rfl h1)
      (Val.num_add (Val.num_mul (Val.num_div hj (b := .dyn B) rfl hB) (Val.num_mul (a := .dyn R) rfl h1)) (b := .lit 0) rfl))
  rw [show j / B * (R * (B * e)) + (i * (B * e) + j % B * e) =
    j % B * e + (i * (B * e) + (j / B * (R * (B * e)) + 0)) from by omega]
  exact this

/-- C83: the size of the matrix with incomplete tiles is that of the whole tiles. -/
theorem C83_tiles_size (R C p q e : Nat) : ∃ v, ((paddedTiles R C p q e).sem .ideal).size .empty = some v ∧
    v.Num (blockCount R p * (blockCount C q * (p * (q * e)))) :=
  ⟨_, rfl, Val.num_mul rfl (Val.num_mul rfl (Val.num_mul rfl (Val.num_mul rfl rfl)))⟩

/-- C83: the element in row `i` and column `j` is in row `i % p` and column `j % q` of the tile in row `i / p` and column
`j / q` of tiles. The tiles are stored row by row, as are their elements. -/
theorem C83_tiles_place (R C p q e i j : Nat) (hp : 0 < p) (hq : 0 < q) :
    (paddedTiles R C p q e).place .ideal (atNM 0 1 i j) = .ok (i / p * (blockCount C q * (p * (q * e))) +
      (j / q * (p * (q * e)) + (i % p * (q * e) + j % q * e)), e) := by
  have hi : (Val.add .ideal (.dyn i) (.dyn 0)).Num i := rfl
  have hj : (Val.add .ideal (.dyn j) (.dyn 0)).Num j := rfl
  have h1 : (Val.mul .ideal (.dyn q) (.lit e)).Num (q * e) := Val.num_mul rfl rfl
  have h2 := Val.num_mul (a := .dyn p) rfl h1
  refine place_eq rfl rfl ?_
  have := Val.num_add (Val.num_mul (Val.num_mod hj (b := .dyn q) rfl hq) (b := .lit e) rfl)
    (Val.num_add (Val.num_mul (Val.num_mod hi (b := .dyn p) rfl hp) h1)
      (Val.num_add (Val.num_mul (Val.num_div hj (b := .dyn q) rfl hq) h2)
        (Val.num_add (Val.num_mul (Val.num_div hi (b := .dyn p) rfl hp) (Val.num_mul (a := .dyn (blockCount C q)) rfl h2))
          (b := .lit 0) rfl)))
  rw [show ∀ a b c d : Nat, a + (b + (c + d)) = d + (c + (b + (a + 0))) from by omega]
  exact this

/-- C83: the order of the two merges is not significant. -/
theorem C83_order_of_merging (R C p q e i j : Nat) :
    (paddedTiles' R C p q e).place .ideal (atNM 0 1 i j) = (paddedTiles R C p q e).place .ideal (atNM 0 1 i j) := by
  rfl

/-- C83: `simple_matrix` is stored row by row. -/
theorem C83_simple_place (R C e i j : Nat) :
    (simpleMatrix R C e).place .ideal (atNM 0 1 i j) = .ok (i * (C * e) + j * e, e) := by
  refine place_eq rfl rfl ?_
  have := Val.num_add (Val.num_mul (a := .dyn j) (b := .lit e) rfl rfl)
    (Val.num_add (Val.num_mul (a := .dyn i) rfl (Val.num_mul (a := .dyn C) (b := .lit e) rfl rfl)) (b := .lit 0) rfl)
  rw [show ∀ a b : Nat, a + b = b + (a + 0) from by omega]
  exact this

/-- C83: `simple_matrix` is a layout for matrices. -/
theorem C83_simple (R C e : Nat) : MatrixLayout (simpleMatrix R C e) 0 1 R C e := by
  refine ⟨⟨?_, ?_, ?_, ?_, ?_⟩, ?_, ?_, ?_, ?_, ?_, ?_⟩
  · exact ⟨rfl, rfl, rfl, rfl, trivial⟩
  · simp [simpleMatrix, Struct.vec, Struct.noAlias]
  · simp [simpleMatrix, Struct.vec, Struct.tame, View.tame]
  · simp [simpleMatrix, Struct.vec, Struct.sane]
  · simp [simpleMatrix, Struct.vec, Struct.exact, View.exact]
  · exact ⟨_, _, rfl, Val.num_mul rfl (Val.num_mul rfl rfl)⟩
  · exact ⟨_, rfl, rfl⟩
  · exact ⟨_, rfl, rfl⟩
  · intro i j hi hj
    refine ⟨?_, ?_, ?_, ?_, ?_, rfl, rfl⟩
    · intro q k l _ hk hl
      have hq : q = 0 ∨ q = 1 := by
        refine Classical.byContradiction fun hq => ?_
        rw [atNM_other i j (fun h => hq (.inl h)) (fun h => hq (.inr h))] at hk
        cases hk
      rcases hq with rfl | rfl
      · cases hk; cases hl
        exact ⟨i, _, rfl, rfl, hi⟩
      · cases hk; cases hl
        exact ⟨j, _, rfl, rfl, hj⟩
    · exact .below trivial (.below trivial trivial)
    · simp [simpleMatrix, Struct.vec, Struct.rigid]
    · intro q hq
      simp [simpleMatrix, Struct.vec, Struct.hard, View.hard] at hq
    · intro d
      simp [atNM, State.withAll, State.set, State.empty]
  · intro i j _ _
    exact ⟨.inl rfl, .inr (.inl rfl)⟩
  · intro i j _ _
    rfl

/-- C83: the matrix with incomplete blocks is a layout for matrices of `R` rows and `C` columns: these are its lengths,
and all of its elements can be accessed. -/
theorem C83_incomplete_blocks (R C B e : Nat) (hB : 0 < B) : MatrixLayout (paddedBlocks R C B e) 0 1 R C e := by
  refine ⟨⟨?_, ?_, ?_, ?_, ?_⟩, ?_, ?_, ?_, ?_, ?_, ?_⟩
  · exact ⟨rfl, rfl, rfl, rfl, rfl, rfl, rfl, rfl, trivial⟩
  · simp [paddedBlocks, Struct.vec, Struct.apply, Struct.noAlias]
  · simp [paddedBlocks, Struct.vec, Struct.apply, Struct.tame, View.tame, Struct.hard, View.hard,Struct.plain, Struct.soft, View.soft, Struct.stale, View.stale]
  · simp [paddedBlocks, Struct.vec, Struct.apply, Struct.sane, Struct.hard, View.hard]
  · simp [paddedBlocks, Struct.vec, Struct.apply, Struct.exact, View.exact, Struct.hard, View.hard]
  · obtain ⟨v, h1, h2⟩ := C83_blocks_size R C B e
    exact ⟨v, _, h1, h2⟩
  · exact ⟨_, rfl, rfl⟩
  · exact ⟨_, rfl, rfl⟩
  · intro i j hi hj
    refine ⟨?_, ?_, ?_, ?_, ?_, rfl, rfl⟩
    · intro q k l _ hk hl
      have hq : q = 0 ∨ q = 1 := by
        refine Classical.byContradiction fun hq => ?_
        rw [atNM_other i j (fun h => hq (.inl h)) (fun h => hq (.inr h))] at hk
        cases hk
      rcases hq with rfl | rfl
      · cases hk; cases hl
        exact ⟨i, _, rfl, rfl, hi⟩
      · cases hk; cases hl
        exact ⟨j, _, rfl, rfl, hj⟩
    · refine .below ?_ (.below ?_ (.below trivial (.below trivial (.below trivial trivial))))
      · intro l hl
        cases hl
        exact ⟨0 + C, blockCount C B * B, rfl, rfl, by have := le_blockCount (n := C) hB; omega⟩
      · intro i hi
        exact ⟨⟨_, rfl⟩, fun l hl => nomatch hl⟩
    · refine ⟨trivial, ?_⟩
      intro u hu; cases hu
      refine ⟨.inl rfl, ?_⟩
      intro u hu; cases hu
      simp [Struct.vec, Struct.rigid]
    · intro q hq
      simp [paddedBlocks, Struct.vec, Struct.apply, Struct.hard, View.hard] at hq
    · intro d
      simp [atNM, State.withAll, State.set, State.empty]
  · intro i j _ _
    exact ⟨.inl rfl, .inr (.inl rfl)⟩
  · intro i j _ _
    rfl

set_option maxHeartbeats 2000000 in
/-- C83: so is the matrix with incomplete tiles. -/
theorem C83_incomplete_tiles (R C p q e : Nat) (hp : 0 < p) (hq : 0 < q) : MatrixLayout (paddedTiles R C p q e) 0 1 R C e := by
  refine ⟨⟨?_, ?_, ?_, ?_, ?_⟩, ?_, ?_, ?_, ?_, ?_, ?_⟩
  · exact ⟨rfl, rfl, rfl, rfl, rfl, rfl, rfl, rfl, rfl, rfl, rfl, rfl, trivial⟩
  · simp [paddedTiles, Struct.vec, Struct.apply, Struct.noAlias]
  · simp [paddedTiles, Struct.vec, Struct.apply, Struct.tame, View.tame, Struct.hard, View.hard,Struct.plain, Struct.soft, View.soft, Struct.stale, View.stale]
  · simp [paddedTiles, Struct.vec, Struct.apply, Struct.sane, Struct.hard, View.hard]
  · simp [paddedTiles, Struct.vec, Struct.apply, Struct.exact, View.exact, Struct.hard, View.hard]
  · obtain ⟨v, h1, h2⟩ := C83_tiles_size R C p q e
    exact ⟨v, _, h1, h2⟩
  · exact ⟨_, rfl, rfl⟩
  · exact ⟨_, rfl, rfl⟩
  · intro i j hi hj
    refine ⟨?_, ?_, ?_, ?_, ?_, rfl, rfl⟩
    · intro q k l _ hk hl
      have hq : q = 0 ∨ q = 1 := by
        refine Classical.byContradiction fun hq => ?_
        rw [atNM_other i j (fun h => hq (.inl h)) (fun h => hq (.inr h))] at hk
        cases hk
      rcases hq with rfl | rfl
      · cases hk; cases hl
        exact ⟨i, _, rfl, rfl, hi⟩
      · cases hk; cases hl
        exact ⟨j, _, rfl, rfl, hj⟩
    · refine .below ?_ (.below ?_ (.below ?_ (.below ?_ (.below trivial (.below trivial (.below trivial (.below trivial trivial)))))))
      · intro l hl
        cases hl
        exact ⟨0 + R, blockCount R p * p, rfl, rfl, by have := le_blockCount (n := R) hp; omega⟩
      · intro l hl
        cases hl
        exact ⟨0 + C, blockCount C q * q, rfl, rfl, by have := le_blockCount (n := C) hq; omega⟩
      · intro i hi
        exact ⟨⟨_, rfl⟩, fun l hl => nomatch hl⟩
      · intro i hi
        exact ⟨⟨_, rfl⟩, fun l hl => nomatch hl⟩
    · refine ⟨trivial, ?_⟩
      intro u hu; cases hu
      refine ⟨trivial, ?_⟩
      intro u hu; cases hu
      refine ⟨.inl rfl, ?_⟩
      intro u hu; cases hu
      refine ⟨.inl rfl, ?_⟩
      intro u hu; cases hu
      simp [Struct.vec, Struct.rigid]
    · intro q hq
      simp [paddedTiles, Struct.vec, Struct.apply, Struct.hard, View.hard] at hq
    · intro d
      simp [atNM, State.withAll, State.set, State.empty]
  · intro i j _ _
    exact ⟨.inl rfl, .inr (.inl rfl)⟩
  · intro i j _ _
    rfl

theorem simpleMatrix_laidOut (R C e : Nat) : (Space.matrix 0 1 R C e).LaidOut (simpleMatrix R C e) := by
  refine C72_matrix_layouts (by decide) (C83_simple R C e) ?_ fun q hq => ?_
  · simp [simpleMatrix, Struct.vec, Struct.tidy]
  · simp only [simpleMatrix, Struct.vec, Struct.names, View.names] at hq
    grind

theorem paddedBlocks_laidOut (R C B e : Nat) (hB : 0 < B) : (Space.matrix 0 1 R C e).LaidOut (paddedBlocks R C B e) := by
  refine C72_matrix_layouts (by decide) (C83_incomplete_blocks R C B e hB) ?_ fun q hq => ?_
  · simp [paddedBlocks, Struct.vec, Struct.apply, Struct.tidy]
  · simp only [paddedBlocks, Struct.vec, Struct.apply, Struct.names, View.names, List.mem_cons, List.not_mem_nil, or_false] at hq
    grind

theorem paddedTiles_laidOut (R C p q e : Nat) (hp : 0 < p) (hq : 0 < q) :
    (Space.matrix 0 1 R C e).LaidOut (paddedTiles R C p q e) := by
  refine C72_matrix_layouts (by decide) (C83_incomplete_tiles R C p q e hp hq) ?_ fun q hq => ?_
  · simp [paddedTiles, Struct.vec, Struct.apply, Struct.tidy]
  · simp only [paddedTiles, Struct.vec, Struct.apply, Struct.names, View.names, List.mem_cons, List.not_mem_nil, or_false] at hq
    grind

/-- C83: without the trick, the matrix has the wanted number of columns if and only if it is a multiple of the size of the
blocks. -/
theorem C83_whole_blocks (R C B e : Nat) : (∃ v, ((wholeBlocks R C B e).sem .ideal).len 0 .empty = some v ∧ v.Num R) ∧
    ∃ v k, ((wholeBlocks R C B e).sem .ideal).len 1 .empty = some v ∧ v.Num k ∧ (k = C ↔ B ∣ C) := by
  refine ⟨⟨_, rfl, rfl⟩, _, C / B * B, rfl, rfl, fun h => ⟨C / B, by rw [Nat.mul_comm]; exact h.symm⟩, Nat.div_mul_cancel⟩

/-- C83: these matrices "can be used in the same way as `simple_matrix`". A program that uses matrices of any sizes gives
the same result, and leaves the same elements, when some of the matrices are stored in blocks or tiles, whether the blocks
and tiles are complete or not. -/
theorem C83_programs {α : Type} (R C e : Nat → Nat) (p : Prog α) (hp : p.Within fun x => .matrix 0 1 (R x) (C x) (e x))
    (S T : Bags) (hS : ∀ x, BagFor (simpleMatrix (R x) (C x) (e x)) (S x))
    (hT : ∀ x, BagFor (simpleMatrix (R x) (C x) (e x)) (T x) ∨
      (∃ B, 0 < B ∧ BagFor (paddedBlocks (R x) (C x) B (e x)) (T x)) ∨
      ∃ tr tc, 0 < tr ∧ 0 < tc ∧ BagFor (paddedTiles (R x) (C x) tr tc (e x)) (T x))
    (hv : ∀ x i j, i < R x → j < C x → (S x).get .ideal (atNM 0 1 i j) = (T x).get .ideal (atNM 0 1 i j)) :
    ∃ a S' T', p.run .ideal S = .ok (a, S') ∧ p.run .ideal T = .ok (a, T') ∧
      ∀ x i j, i < R x → j < C x →
        ∃ v, (S' x).get .ideal (atNM 0 1 i j) = .ok v ∧ (T' x).get .ideal (atNM 0 1 i j) = .ok v := by
  obtain ⟨a, S', T', h1, h2, -, -, h3⟩ := C72_layouts_do_not_matter (fun x => .matrix 0 1 (R x) (C x) (e x)) p hp S T
    (fun x => by
      have h := hS x
      exact ⟨h.structure_eq ▸ simpleMatrix_laidOut _ _ _, h.structure_eq ▸ h⟩)
    (fun x => by
      rcases hT x with h | ⟨B, hB, h⟩ | ⟨tr, tc, h1, h2, h⟩
      · exact ⟨h.structure_eq ▸ simpleMatrix_laidOut _ _ _, h.structure_eq ▸ h⟩
      · exact ⟨h.structure_eq ▸ paddedBlocks_laidOut _ _ _ _ hB, h.structure_eq ▸ h⟩
      · exact ⟨h.structure_eq ▸ paddedTiles_laidOut _ _ _ _ _ h1 h2, h.structure_eq ▸ h⟩)
    (fun x u hu => by
      obtain ⟨i, j, hi, hj, rfl⟩ := hu
      exact hv x i j hi hj)
  exact ⟨a, S', T', h1, h2, fun x i j hi hj => h3 x _ ⟨i, j, hi, hj, rfl⟩⟩

/-! ## Examples

Eight rows and ten columns, in blocks of four columns: the last block is incomplete. -/

example : MatrixLayout (paddedBlocks 8 10 4 4) 0 1 8 10 4 := C83_incomplete_blocks 8 10 4 4 (by decide)

/-- The element in row 2 and column 9 is the one at 1 in row 2 of the third block. -/
example : (paddedBlocks 8 10 4 4).place .ideal (atNM 0 1 2 9) = .ok (2 * 128 + (2 * 16 + 1 * 4), 4) :=
  C83_blocks_place 8 10 4 4 2 9 (by decide)

/-- Three blocks are enough for ten columns, two are not. -/
example : 10 ≤ 3 * 4 ∧ ¬ 10 ≤ 2 * 4 ∧ blockCount 10 4 = 3 := by decide

/-- There is room for twelve columns. -/
example : ∃ v, ((paddedBlocks 8 10 4 4).sem .ideal).size .empty = some v ∧ v.Num (3 * (8 * (4 * 4))) :=
  C83_blocks_size 8 10 4 4

/-- Tiles of three rows and four columns; those on two sides are incomplete. -/
example : (paddedTiles 8 10 3 4 4).place .ideal (atNM 0 1 7 9) = .ok (2 * 144 + (2 * 48 + (1 * 16 + 1 * 4)), 4) :=
  C83_tiles_place 8 10 3 4 4 7 9 (by decide) (by decide)

/-- With whole blocks there would be eight columns. -/
example : ¬ 4 ∣ 10 ∧ ((wholeBlocks 8 10 4 4).sem .ideal).len 1 .empty = some (.dyn 8) := ⟨by decide, rfl⟩

/-- The demo of the matrix example, with incomplete blocks and with incomplete tiles. -/
example (c1 c2 : Classic (BitVec 32)) (h1 : c1.n = 7 ∧ c1.m = 7 ∧ c1.ary.length = 49)
    (h2 : c2.n = 7 ∧ c2.m = 7 ∧ c2.ary.length = 49) :
    matrixDemo .ideal c70Int 0 1 (paddedBlocks 7 7 4 4) c1 c2 (fun _ => 0) (fun _ => 0) = .ok true ∧
    matrixDemo .ideal c70Int 0 1 (paddedTiles 7 7 2 3 4) c1 c2 (fun _ => 0) (fun _ => 0) = .ok true :=
  ⟨C70_demo (by decide) _ 7 (C83_incomplete_blocks 7 7 4 4 (by decide)) c1 c2 h1 h2 _ _,
   C70_demo (by decide) _ 7 (C83_incomplete_tiles 7 7 2 3 4 (by decide) (by decide)) c1 c2 h1 h2 _ _⟩

/-- A program that depends on what it reads (C72), with a matrix by rows and one in incomplete tiles. -/
example : ∃ a S' T', (c72Search 6 0).run .ideal (fun _ => ⟨simpleMatrix 4 6 4, List.replicate 96 0⟩) = .ok (a, S') ∧
    (c72Search 6 0).run .ideal (fun _ => ⟨paddedTiles 4 6 3 4 4, List.replicate 192 0⟩) = .ok (a, T') ∧
    ∀ (x : Nat) i j, i < 4 → j < 6 →
      ∃ v, (S' x).get .ideal (atNM 0 1 i j) = .ok v ∧ (T' x).get .ideal (atNM 0 1 i j) = .ok v := by
  refine C83_programs (fun _ => 4) (fun _ => 6) (fun _ => 4) _ (c72Search_within 6 0 (by omega)) _ _
    (fun _ => ⟨rfl, fun v N h1 h2 => ?_⟩) (fun _ => .inr (.inr ⟨3, 4, by decide, by decide, rfl, fun v N h1 h2 => ?_⟩)) ?_
  · cases h1; cases h2; rw [List.length_replicate]; decide
  · cases h1; cases h2; rw [List.length_replicate]; decide
  · intro x i j hi hj
    simp only [Bag.get, Struct.getAt, C83_simple_place, C83_tiles_place 4 6 3 4 4 i j (by decide) (by decide), Except.bind_ok]
    rw [show blockCount 6 4 = 2 from rfl, List.length_replicate, List.length_replicate, if_pos (by omega), if_pos (by omega)]
    simp only [List.drop_replicate, List.take_replicate]
    congr 2
    omega

end Noarr
