import Verif.ProgramLemmas
import Verif.Props.Matrix
import Verif.Props.Memory
import Verif.Props.Machine
import Verif.BagsLemmas

/-
C72: what a program does with bags does not depend on their layouts.
-/

namespace Noarr

/-- C72: a program does with bags what it does with arrays that have no layout at all. It neither fails nor has
undefined behaviour, it comes to the result that it has on arrays, and afterwards the bags contain the arrays that it
comes to. -/
theorem C72_bags_behave_like_arrays {α : Type} (I : Nat → Space) (p : Prog α) (V V' : Arrays) (a : α)
    (hp : p.Yields I V a V') (B : Bags) (hB : BagsHold I B V) :
    ∃ B', p.run .ideal B = .ok (a, B') ∧ (∀ x, (B' x).structure_ = (B x).structure_) ∧ BagsHold I B' V' :=
  hp.run hB

/-- C72: a program that stays within the index spaces of its bags gives the same result with any layouts of these index
spaces, and leaves the same values in the bags. -/
theorem C72_layouts_do_not_matter {α : Type} (I : Nat → Space) (p : Prog α) (hp : p.Within I) (B C : Bags)
    (hB : ∀ x, (I x).LaidOut (B x).structure_ ∧ BagFor (B x).structure_ (B x))
    (hC : ∀ x, (I x).LaidOut (C x).structure_ ∧ BagFor (C x).structure_ (C x))
    (hv : ∀ x u, (I x).has u → (B x).get .ideal u = (C x).get .ideal u) :
    ∃ a B' C', p.run .ideal B = .ok (a, B') ∧ p.run .ideal C = .ok (a, C') ∧
      (∀ x, (B' x).structure_ = (B x).structure_) ∧ (∀ x, (C' x).structure_ = (C x).structure_) ∧
      ∀ x u, (I x).has u → ∃ v, (B' x).get .ideal u = .ok v ∧ (C' x).get .ideal u = .ok v := by
  have hbv : ∀ x u, (I x).has u → ∃ v, (B x).get .ideal u = .ok v := fun x u hu => by
    obtain ⟨⟨v, h, -⟩, -⟩ := (hB x).1.access (hB x).2 hu
    exact ⟨v, h⟩
  let V : Arrays := fun x u => ((B x).get .ideal u).toOption.getD []
  have hB' : BagsHold I B V := ⟨fun x => (hB x).1, fun x => (hB x).2, fun x u hu => by
    obtain ⟨v, h⟩ := hbv x u hu
    simp only [V, h]; rfl⟩
  have hC' : BagsHold I C V := ⟨fun x => (hC x).1, fun x => (hC x).2, fun x u hu => by
    rw [← hv x u hu]; exact hB'.value x u hu⟩
  obtain ⟨a, V', h⟩ := hp.yields (V := V) fun x u hu => hB'.length_eq hu
  obtain ⟨B1, h1, h2, h3⟩ := h.run hB'
  obtain ⟨C1, g1, g2, g3⟩ := h.run hC'
  exact ⟨a, B1, C1, h1, g1, h2, g2, fun x u hu => ⟨V' x u, h3.value x u hu, g3.value x u hu⟩⟩

/-- C72: so a program that makes its own bags (all of whose bytes are zero) gives the same result with any layouts. -/
theorem C72_new_bags {α : Type} (I : Nat → Space) (p : Prog α) (hp : p.Within I) (s s' : Nat → Struct) (B C : Bags)
    (hs : ∀ x, (I x).LaidOut (s x)) (hs' : ∀ x, (I x).LaidOut (s' x)) (hB : ∀ x, makeBag .ideal (s x) = .ok (B x))
    (hC : ∀ x, makeBag .ideal (s' x) = .ok (C x)) :
    ∃ a B' C', p.run .ideal B = .ok (a, B') ∧ p.run .ideal C = .ok (a, C') ∧
      ∀ x u, (I x).has u → ∃ v, (B' x).get .ideal u = .ok v ∧ (C' x).get .ideal u = .ok v := by
  have key : ∀ (s : Struct) (b : Bag), makeBag .ideal s = .ok b → b.structure_ = s ∧ BagFor b.structure_ b := by
    intro s b h
    unfold makeBag at h
    split at h
    · next v hv =>
      split at h
      · next n hn =>
        cases h
        refine ⟨rfl, rfl, fun v' N h1 h2 => ?_⟩
        rw [hv] at h1; cases h1
        have h2 : v.nat? = some N := h2
        rw [hn] at h2; cases h2
        simp
      · cases h
    · cases h
  have zero : ∀ (I : Space) (s : Struct) (b : Bag), I.LaidOut s → makeBag .ideal s = .ok b → ∀ u, I.has u →
      b.get .ideal u = .ok (List.replicate (I.size u) 0) := by
    intro I s b h hb u hu
    obtain ⟨e, -, h1, h2, -⟩ := C36_new_bag s h.sound b hb u (h.accessible u hu)
    rw [h.elem u hu] at h1; cases h1
    exact h2
  obtain ⟨a, B', C', h1, h2, -, -, h3⟩ := C72_layouts_do_not_matter I p hp B C
    (fun x => ⟨by rw [(key _ _ (hB x)).1]; exact hs x, (key _ _ (hB x)).2⟩)
    (fun x => ⟨by rw [(key _ _ (hC x)).1]; exact hs' x, (key _ _ (hC x)).2⟩)
    (fun x u hu => by rw [zero _ _ _ (hs x) (hB x) u hu, zero _ _ _ (hs' x) (hC x) u hu])
  exact ⟨a, B', C', h1, h2, h3⟩

/-- C72: the indices that `for_each` visits are an index space, and every structure of which `for_each` visits them is a
layout for it. -/
theorem C72_traversed_structures_are_layouts (sts : List State) (own : Dim → Bool) (size : State → Nat) (s : Struct)
    (hs : s.Sound) (ht : s.tidy) (hn : ∀ q, s.names q → own q = true) (v : Val) (N : Nat)
    (hv : (s.sem .ideal).size .empty = some v) (hN : v.Num N) (sts' : List State) (h : Traversed s sts')
    (hp : sts.Perm sts') (he : ∀ u ∈ sts, (s.sem .ideal).elem u = some (size u)) :
    (Space.ofTraversal own sts size).LaidOut s := by
  obtain ⟨h1, h2⟩ := h.accessible hs
  have hsym : ∀ {u u'}, Agree s u u' → Agree s u' u := fun h q hq h1 h2 => (h q hq h2 h1).symm
  refine ⟨hs, ht, hn, ⟨v, N, hv, hN⟩, fun u hu => h1 u (hp.mem_iff.1 hu), fun u u' hu hu' hne => ?_, he,
    fun _ _ _ h => h.elim⟩
  obtain ⟨i, hi, rfl⟩ := List.getElem_of_mem (hp.mem_iff.1 hu)
  obtain ⟨j, hj, rfl⟩ := List.getElem_of_mem (hp.mem_iff.1 hu')
  rw [List.pairwise_iff_getElem] at h2
  rcases Nat.lt_trichotomy i j with hij | rfl | hij
  · obtain ⟨g1, q, g2, g3⟩ := h2 i j hi hj hij
    exact ⟨g1, q, .inl g2, g3⟩
  · exact absurd rfl hne
  · obtain ⟨g1, q, g2, g3⟩ := h2 j i hj hi hij
    exact ⟨hsym g1, q, .inr g2, fun h => g3 h.symm⟩

/-- The indices and lengths that the program uses are below `W`, whatever it reads. -/
def Prog.Small {α : Type} (W : Nat) : Prog α → Prop
  | .done _ => True
  | .get _ st k => st.fits W ∧ ∀ v, (k v).Small W
  | .set _ st _ k => st.fits W ∧ k.Small W
  | .length _ _ st k => st.fits W ∧ ∀ n, (k n).Small W

theorem place_agrees {W : Nat} {A : Arith} (h : Arith.Agrees W (.checked W) A) (hW : 2 < W) {s : Struct} (hs : s.fits W)
    {st : State} (hst : st.fits W) {r : Nat × Nat} (hr : s.place (.checked W) st = .ok r) : s.place A st = .ok r := by
  have R := Struct.rel h hW s hs
  have hR : st.Rel W st := .of_fits hst
  unfold Struct.place at hr
  split at hr
  · next e o he ho =>
    split at hr
    · next k hk =>
      cases hr
      obtain ⟨_, h1, rfl⟩ := R.elem hR e he
      obtain ⟨h2, -⟩ := R.off hR (.lit (by omega)) o k ho hk
      exact place_eq h1 h2 hk
    · cases hr
  · cases hr

theorem run_agrees {W : Nat} {A : Arith} (h : Arith.Agrees W (.checked W) A) (hW : 2 < W) {α : Type} {p : Prog α}
    (hp : p.Small W) {B : Bags} (hB : ∀ x, (B x).structure_.fits W) {r : α × Bags}
    (hr : p.run (.checked W) B = .ok r) : p.run A B = .ok r := by
  induction p generalizing B with
  | done a => exact hr
  | get x st k ih =>
    obtain ⟨v, h1, h2⟩ := bind_ok hr
    have : (B x).get A st = .ok v := by
      obtain ⟨r, g1, g2⟩ := bind_ok h1
      simp only [Bag.get, Struct.getAt, place_agrees h hW (hB x) hp.1 g1, Except.bind_ok]
      exact g2
    simp only [Prog.run, this, Except.bind_ok]
    exact ih v (hp.2 v) hB h2
  | set x st v k ih =>
    obtain ⟨b, h1, h2⟩ := bind_ok hr
    obtain ⟨m, g0, g1⟩ := bind_ok h1
    obtain ⟨r, g2, g3⟩ := bind_ok g0
    have : (B x).set A st v = .ok b := by
      simp only [Bag.set, Struct.setAt, place_agrees h hW (hB x) hp.1 g2, Except.bind_ok]
      dsimp only at g3
      rw [g3]; exact g1
    simp only [Prog.run, this, Except.bind_ok]
    refine ih hp.2 (fun y => ?_) h2
    cases g1
    simp only [Bags.put]
    split
    · exact hB x
    · exact hB y
  | length x d st k ih =>
    obtain ⟨n, h1, h2⟩ := bind_ok hr
    have : (B x).lengthAt A d st = .ok n := by
      unfold Bag.lengthAt at h1 ⊢
      split at h1
      · next v hv =>
        split at h1
        · next m hm =>
          cases h1
          obtain ⟨w, hw, hrel⟩ := (Struct.rel h hW _ (hB x)).len d (.of_fits hp.1) v hv
          rcases hrel with hrel | ⟨rfl, -⟩
          · rw [hm] at hrel; cases hrel
          · simp only [hw, hm]
        · cases h1
      · cases h1
    simp only [Prog.run, this, Except.bind_ok]
    exact ih n (hp.2 n) hB h2

/-- C72: the 64-bit arithmetic of the code. If the arguments are below `W` and nothing overflows when offsets and
lengths are computed, then a program does the same with arithmetic modulo `W` as with exact arithmetic. -/
theorem C72_size_t {α : Type} (W : Nat) (hW : 2 < W) (p : Prog α) (hp : p.Small W) (B : Bags)
    (hB : ∀ x, (B x).structure_.fits W) (a : α) (B' : Bags) (h : p.run (.checked W) B = .ok (a, B')) :
    p.run (.machine W) B = .ok (a, B') ∧ p.run .ideal B = .ok (a, B') :=
  ⟨run_agrees (Arith.agrees_machine W) hW hp hB h, run_agrees (Arith.agrees_ideal W) hW hp hB h⟩

/-! ### Examples

The index space of a matrix, and three layouts for it. -/

/-- The index space of a matrix of `X` columns (in dimension `n`) and `Y` rows (in dimension `m`). -/
def Space.matrix (n m : Dim) (X Y e : Nat) : Space where
  own q := q == n || q == m
  has u := ∃ i j, i < X ∧ j < Y ∧ u = atNM n m i j
  size _ := e
  length d st k := st = .empty ∧ (d = n ∧ k = X ∨ d = m ∧ k = Y)

theorem Space.matrix_at {n m : Dim} {X Y e i j : Nat} (hi : i < X) (hj : j < Y) :
    (Space.matrix n m X Y e).At (atNM n m i j) (atNM n m i j) := by
  refine ⟨?_, ⟨i, j, hi, hj, rfl⟩, fun q => by simp [atNM, State.withAll, State.set, State.empty]⟩
  funext t
  cases t with
  | idx q =>
    simp only [State.only, Space.matrix, Bool.or_eq_true, beq_iff_eq]
    split
    · rfl
    · next h => exact atNM_other i j (fun e => h (.inl e)) (fun e => h (.inr e))
  | len q => simp [State.only, atNM, State.withAll, State.set, State.empty]

/-- C72: the layouts of the matrix example (C70) are layouts for this index space. -/
theorem C72_matrix_layouts {n m : Dim} (hnm : n ≠ m) {s : Struct} {X Y e : Nat} (h : MatrixLayout s n m X Y e)
    (ht : s.tidy) (hn : ∀ q, s.names q → q = n ∨ q = m) : (Space.matrix n m X Y e).LaidOut s := by
  have hdyn : ∀ x y, SameNum (some (Val.dyn x)) (some (Val.dyn y)) → x = y := by
    rintro x y ⟨a, c, k, h1, h2, h3, h4⟩
    cases h1; cases h2; cases h3; cases h4; rfl
  refine ⟨h.sound, ht, fun q hq => by simpa [Space.matrix] using hn q hq, h.size, ?_, ?_, ?_, ?_⟩
  · rintro u ⟨i, j, hi, hj, rfl⟩
    exact h.accessible i j hi hj
  · rintro u u' ⟨i, j, hi, hj, rfl⟩ ⟨i', j', hi', hj', rfl⟩ hne
    refine ⟨h.agree hi hj, ?_⟩
    by_cases hii : i = i'
    · refine ⟨m, .inl (h.needs i j hi hj).2, fun hs => hne ?_⟩
      rw [(atNM_idx hnm i j).2, (atNM_idx hnm i' j').2] at hs
      rw [hii, hdyn _ _ hs]
    · refine ⟨n, .inl (h.needs i j hi hj).1, fun hs => hii ?_⟩
      rw [(atNM_idx hnm i j).1, (atNM_idx hnm i' j').1] at hs
      exact hdyn _ _ hs
  · rintro u ⟨i, j, hi, hj, rfl⟩
    exact h.elem i j hi hj
  · rintro d st k ⟨rfl, ⟨rfl, rfl⟩ | ⟨rfl, rfl⟩⟩
    · exact h.lenN
    · exact h.lenM

theorem c72Rows (X Y : Nat) : (Space.matrix 0 1 X Y 4).LaidOut (matrixRows 0 1 X Y) := by
  refine C72_matrix_layouts (by decide) (C70_rows 0 1 (by decide) X Y) ?_ fun q hq => ?_
  · simp [matrixRows, Struct.apply, Struct.tidy]
  · simp only [matrixRows, Struct.apply, Struct.names, View.names, or_false] at hq; exact hq.symm

theorem c72Columns (X Y : Nat) : (Space.matrix 0 1 X Y 4).LaidOut (matrixColumns 0 1 X Y) := by
  refine C72_matrix_layouts (by decide) (C70_columns 0 1 (by decide) X Y) ?_ fun q hq => ?_
  · simp [matrixColumns, Struct.apply, Struct.tidy]
  · simp only [matrixColumns, Struct.apply, Struct.names, View.names, or_false] at hq; exact hq

theorem c72Tiles (x y p q : Nat) : (Space.matrix 0 1 (x * p) (y * q) 4).LaidOut (matrixTiles 0 1 2 3 x y p q) := by
  refine C72_matrix_layouts (by decide) (C70_tiles x y p q) ?_ fun q hq => ?_
  · simp [matrixTiles, Struct.apply, Struct.tidy]
  · simp only [matrixTiles, Struct.apply, Struct.names, View.names, List.mem_cons, List.not_mem_nil, or_false] at hq
    grind

/-- A program that depends on what it reads: it follows the first column down as long as the bytes are zero, writes a
one there, and returns the number of rows. -/
def c72Search : Nat → Nat → Prog Nat
  | 0, _ => .length 0 1 .empty fun n => .done n
  | k + 1, j => .get 0 (atNM 0 1 0 j) fun v =>
      if v = [0, 0, 0, 0] then .set 0 (atNM 0 1 0 j) [1, 0, 0, 0] (c72Search k (j + 1))
      else .length 0 1 .empty fun n => .done (n + j)

theorem c72Search_within : ∀ k j, k + j ≤ 6 → (c72Search k j).Within fun _ => Space.matrix 0 1 4 6 4
  | 0, _, _ => ⟨6, ⟨rfl, .inr ⟨rfl, rfl⟩⟩, trivial⟩
  | k + 1, j, h => by
    refine ⟨_, Space.matrix_at (by omega) (by omega), fun v _ => ?_⟩
    dsimp only
    split
    · exact ⟨_, Space.matrix_at (by omega) (by omega), rfl, c72Search_within k (j + 1) (by omega)⟩
    · exact ⟨6, ⟨rfl, .inr ⟨rfl, rfl⟩⟩, trivial⟩

/-- It has the same result in three layouts, although the places that it reads and writes are different. -/
example : ∃ a B C, (c72Search 6 0).run .ideal (fun _ => ⟨matrixRows 0 1 4 6, List.replicate 96 0⟩) = .ok (a, B) ∧
    (c72Search 6 0).run .ideal (fun _ => ⟨matrixTiles 0 1 2 3 2 2 2 3, List.replicate 96 0⟩) = .ok (a, C) ∧
    ∀ x u, (Space.matrix 0 1 4 6 4).has u → ∃ v, (B x).get .ideal u = .ok v ∧ (C x).get .ideal u = .ok v :=
  C72_new_bags (fun _ => Space.matrix 0 1 4 6 4) (c72Search 6 0) (c72Search_within 6 0 (by omega)) (fun _ => matrixRows 0 1 4 6)
    (fun _ => matrixTiles 0 1 2 3 2 2 2 3) _ _ (fun _ => c72Rows 4 6) (fun _ => c72Tiles 2 2 2 3) (fun _ => rfl) (fun _ => rfl)

example : ∃ B, (c72Search 6 0).run .ideal (fun _ => ⟨matrixColumns 0 1 4 6, List.replicate 96 0⟩) = .ok (6, B) := ⟨_, rfl⟩

theorem c72Search_small : ∀ k j, k + j ≤ 6 → (c72Search k j).Small (2 ^ 64)
  | 0, _, _ => ⟨fun _ _ h => (nomatch h), fun _ => trivial⟩
  | k + 1, j, h => by
    have hst : (atNM 0 1 0 j).fits (2 ^ 64) := by
      intro t v hv n hn
      simp only [atNM, State.withAll, List.foldl, State.set, State.empty] at hv
      split at hv
      · cases hv; cases hn; omega
      · split at hv
        · cases hv; cases hn; omega
        · cases hv
    refine ⟨hst, fun v => ?_⟩
    dsimp only
    split
    · exact ⟨hst, c72Search_small k (j + 1) (by omega)⟩
    · exact ⟨fun _ _ h => (nomatch h), fun _ => trivial⟩

/-- Nothing overflows. -/
example : ∃ B, (c72Search 6 0).run (.checked (2 ^ 64)) (fun _ => ⟨matrixTiles 0 1 2 3 2 2 2 3, List.replicate 96 0⟩) =
    .ok (6, B) := ⟨_, rfl⟩

end Noarr
