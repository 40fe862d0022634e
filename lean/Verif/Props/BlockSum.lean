import Verif.BlockSum
import Verif.Props.ReduceBags
import Verif.CudaLemmas

/-
C77: the vectorised sum of the documentation.
-/

namespace Noarr

/-- The index of an element of `input_blocks`: `k` is 0 in the body and 1 in the border. The dimensions `'i'`, `'I'` and
`'!'` of the documentation are 0, 1 and 2. -/
def partIndex (k x y : Nat) : State := State.empty.withAll [(2, .lit k), (1, .dyn x), (0, .dyn y)]

/-- The index of `input_blocks` for the element `x` of `input`, which has `n` elements in blocks of `B`. -/
def blockIndex (n B x : Nat) : State :=
  if x < n / B * B then partIndex 0 (x / B) (x % B) else partIndex 1 0 (x % B)

/-- `input ^ into_blocks_static<'i', '!', 'I', 'i'>(block_size)` -/
def inBlocks (n B e : Nat) : Struct := (vectorOf 0 n e).apply [.intoBlocksStat 0 2 1 0 (.dyn B)]

/-- `scalar<T>() ^ array<'i', n>()` -/
def arrayOf (d : Dim) (n e : Nat) : Struct := .apply (.vector d (.scalar e e)) [.setLength d (.lit n)]


theorem inBlocks_sig (n B e : Nat) : ((inBlocks n B e).sem .ideal).sig = .dep 2 2 fun i =>
    if i = 0 then .fn 1 .dynamic (.fn 0 .dynamic (.scalar e)) else .fn 1 (.static 1) (.fn 0 .dynamic (.scalar e)) := by
  simp [inBlocks, vectorOf, Struct.apply, Struct.sem, View.sem, ViewSem.toSem, intoBlocksStatSem, setLengthSem, vectorSem,
    scalarSem, Sig.replace, Sig.setLengthRepl, Sig.anyAccept, Sig.intoBlocksStatRepl, ArgLen.ofVal]

local macro "blk_simp" ts:Lean.Parser.Tactic.simpLemma,* : tactic => `(tactic| simp [inBlocks, vectorOf, Struct.apply, Struct.sem, View.sem, ViewSem.toSem, intoBlocksStatSem, intoBlocksStatSub, blocksStatClean, isBody, setLengthSem, vectorSem, scalarSem, guardLen,
      State.set, State.has, State.removeAll, State.remove, State.empty, Sig.replace, Sig.setLengthRepl, Sig.anyAccept, Sig.needs, Sig.wf, Val.mul, Val.Num, Val.nat?, Val.ofDyn, Arith.ideal, $ts,*])

theorem inBlocks_len (n B e k x : Nat) (hB : B ≠ 0) (hk : k = 0 ∨ k = 1) :
    ((inBlocks n B e).sem .ideal).len 1 (State.empty.set (.idx 2) (.lit k)) =
      some (if k = 0 then .dyn (n / B) else .lit 1) ∧
    ((inBlocks n B e).sem .ideal).len 0 ((State.empty.set (.idx 2) (.lit k)).set (.idx 1) (.dyn x)) =
      some (.dyn (if k = 0 then B else n % B)) := by
  rcases hk with rfl | rfl
  · blk_simp Val.div, hB
  · blk_simp Val.mod, hB

theorem inBlocks_walk (n B e : Nat) (hB : B ≠ 0) :
    walk ((inBlocks n B e).sem .ideal) ((inBlocks n B e).sem .ideal).sig.tree .empty =
      some (((List.range (n / B)).flatMap fun x => (List.range B).map fun y => [(2, .lit 0), (1, .dyn x), (0, .dyn y)]) ++
        (List.range (n % B)).map fun y => [(2, .lit 1), (1, .dyn 0), (0, .dyn y)]) := by
  have hsig := inBlocks_sig n B e
  have hlen := inBlocks_len n B e
  generalize (inBlocks n B e).sem .ideal = S at hsig hlen
  obtain ⟨a1, -⟩ := hlen 0 0 hB (.inl rfl)
  obtain ⟨b1, -⟩ := hlen 1 0 hB (.inr rfl)
  have a2 := fun x => (hlen 0 x hB (.inl rfl)).2
  have b2 := fun x => (hlen 1 x hB (.inr rfl)).2
  simp only [if_true, Nat.one_ne_zero, if_false] at a1 a2 b1 b2
  have inner : ∀ (st : State) (y : Nat), S.len 0 st = some (.dyn y) → (∃ l r, S.sig.find 0 st = .fn 0 l r) →
      walk S (.node 0 1 fun _ => .leaf) st = some ((List.range y).map fun v => [(0, .dyn v)]) := by
    rintro st y h1 ⟨l, r, h2⟩
    rw [walk, h2]
    simp only [h1, Val.nat?, walk, dite_true, Option.map_some, List.map_cons, List.map_nil, bind, Option.bind]
    exact seqAll_single _ _
  have outer : ∀ (st : State) (l : Val) (x y : Nat), S.len 1 st = some l → l.nat? = some x →
      (∃ l r, S.sig.find 1 st = .fn 1 l r) →
      (∀ v, S.len 0 (st.set (.idx 1) (.dyn v)) = some (.dyn y)) →
      (∀ v, ∃ l r, S.sig.find 0 (st.set (.idx 1) (.dyn v)) = .fn 0 l r) →
      walk S (.node 1 1 fun _ => .node 0 1 fun _ => .leaf) st =
        some ((List.range x).flatMap fun u => (List.range y).map fun v => [(1, .dyn u), (0, .dyn v)]) := by
    rintro st l x y h1 hl ⟨l', r, h2⟩ h3 h4
    rw [walk, h2]
    simp only [h1, hl, dite_true, bind, Option.bind]
    refine seqAll_some fun u _ => ?_
    rw [inner _ y (h3 u) (h4 u)]
    simp
  have t : S.sig.tree = .node 2 2 fun _ => .node 1 1 fun _ => .node 0 1 fun _ => .leaf := by
    rw [hsig]
    simp only [Sig.tree]
    congr 1
    funext i
    split <;> simp [Sig.tree]
  rw [t, walk]
  have f0 : ∃ rs, S.sig.find 2 .empty = .dep 2 2 rs := by
    rw [hsig]; exact ⟨_, rfl⟩
  obtain ⟨rs, f0⟩ := f0
  rw [f0]
  have e0 := outer (State.empty.set (.idx 2) (.lit 0)) _ (n / B) B a1 rfl
    (by rw [hsig]; exact ⟨_, _, rfl⟩) a2 (fun v => by rw [hsig]; exact ⟨_, _, rfl⟩)
  have e1 := outer (State.empty.set (.idx 2) (.lit 1)) _ 1 (n % B) b1 rfl
    (by rw [hsig]; exact ⟨_, _, rfl⟩) b2 (fun v => by rw [hsig]; exact ⟨_, _, rfl⟩)
  have fr : List.finRange 2 = [0, 1] := rfl
  simp only [fr, List.map_cons, List.map_nil, seqAll, bind, Option.bind]
  simp only [Fin.isValue, Fin.val_zero, Fin.val_one, e0, e1, Option.map_some]
  simp [List.map_flatMap, List.range_one]
  rfl

theorem inBlocks_visit (n B e k x y : Nat) :
    ((Traverser.mk (inBlocks n B e) []).visit [(2, .lit k), (1, .dyn x), (0, .dyn y)]).state .ideal =
      some (partIndex k x y) := by
  simp only [Traverser.visit, Traverser.order, Traverser.state, stateAt, View.sem, fixSem, List.map_cons,
    List.map_nil, List.nil_append, bind, Option.bind]
  congr 1
  funext g
  cases g <;> simp [partIndex, State.withAll, State.set, State.remove, State.empty] <;> grind

theorem range_blocks (m B : Nat) {α : Type} (f : Nat → Nat → α) :
    ((List.range m).flatMap fun x => (List.range B).map fun y => f x y) =
      (List.range (m * B)).map fun x => f (x / B) (x % B) := by
  induction m with
  | zero => simp
  | succ m ih =>
    rw [List.range_succ, List.flatMap_append, ih, Nat.succ_mul, List.range_add, List.map_append]
    congr 1
    simp only [List.flatMap_cons, List.flatMap_nil, List.append_nil, List.map_map]
    refine List.map_congr_left fun y hy => ?_
    have hy := List.mem_range.1 hy
    simp only [Function.comp_apply]
    rw [Nat.mul_comm m B, Nat.mul_add_div (by omega), Nat.mul_add_mod, Nat.div_eq_of_lt hy, Nat.mod_eq_of_lt hy, Nat.add_zero]

theorem inBlocks_forEach (n B e : Nat) (hB : B ≠ 0) :
    (Traverser.mk (inBlocks n B e) []).forEach .ideal [] = some ((List.range n).map (blockIndex n B)) := by
  have hn : n / B * B + n % B = n := by rw [Nat.mul_comm]; exact Nat.div_add_mod n B
  simp only [Traverser.forEach, Traverser.forSections, Traverser.run, Traverser.top, Struct.apply, inBlocks_walk n B e hB]
  simp only [Option.map_some, bind, Option.bind]
  rw [range_blocks _ _ fun x y => [((2 : Dim), Val.lit 0), ((1 : Dim), Val.dyn x), ((0 : Dim), Val.dyn y)]]
  have h1 : (List.range n).map (fun x => (if x < n / B * B then [((2 : Dim), Val.lit 0), ((1 : Dim), Val.dyn (x / B)), ((0 : Dim), Val.dyn (x % B))]
      else [(2, .lit 1), (1, .dyn 0), (0, .dyn (x % B))])) = (List.range (n / B * B)).map (fun x =>
        [((2 : Dim), Val.lit 0), ((1 : Dim), Val.dyn (x / B)), ((0 : Dim), Val.dyn (x % B))]) ++
      (List.range (n % B)).map fun y => [(2, .lit 1), (1, .dyn 0), (0, .dyn y)] := by
    conv => lhs; rw [← hn, List.range_add, List.map_append, List.map_map]
    congr 1
    · refine List.map_congr_left fun x hx => ?_
      rw [if_pos (by rw [hn]; exact List.mem_range.1 hx)]
    · refine List.map_congr_left fun y hy => ?_
      have hy := List.mem_range.1 hy
      have := Nat.mod_lt n (Nat.pos_of_ne_zero hB)
      simp only [Function.comp_apply]
      rw [hn, if_neg (by omega), Nat.mul_comm (n / B) B, Nat.mul_add_mod, Nat.mod_eq_of_lt (by omega)]
  rw [← h1, List.map_map]
  rw [List.mapM_map, mapM_map (g := blockIndex n B)]
  intro x _
  simp only [Function.comp_apply, blockIndex]
  split <;> exact inBlocks_visit ..

theorem blockIndex_only (n B x : Nat) : ((blockIndex n B x).only fun q => decide (q ∈ [(0 : Dim)])) = atV 0 (x % B) := by
  unfold blockIndex
  split <;> funext g <;> cases g <;>
    simp [partIndex, atV, State.only, State.withAll, State.set, State.empty] <;> grind

theorem blockIndex_inj {n B x y : Nat} (hB : 0 < B) (hx : x < n) (hy : y < n) (h : blockIndex n B x = blockIndex n B y) : x = y := by
  have h0 := congrFun h (.idx 0)
  have h1 := congrFun h (.idx 1)
  have h2 := congrFun h (.idx 2)
  have ex := Nat.div_add_mod x B
  have ey := Nat.div_add_mod y B
  unfold blockIndex at h0 h1 h2
  by_cases hxb : x < n / B * B <;> by_cases hyb : y < n / B * B <;>
    simp [hxb, hyb, partIndex, State.withAll, State.set] at h0 h1 h2
  · rw [h0, h1] at ex; omega
  · have d1 : ∀ z, z < n → ¬ z < n / B * B → z / B = n / B := by
      intro z hz hz'
      refine Nat.le_antisymm (Nat.div_le_div_right (by omega)) ?_
      exact (Nat.le_div_iff_mul_le hB).2 (by omega)
    rw [d1 x hx hxb, h0] at ex
    rw [d1 y hy hyb] at ey
    omega

theorem inBlocks_sound (n B e : Nat) : (inBlocks n B e).Sound := by
  refine ⟨?_, ?_, ?_, ?_, ?_⟩
  · refine ⟨?_, (vectorOf_sound 0 n e).wf⟩
    have := inBlocks_sig n B e
    simp only [inBlocks, Struct.apply] at this
    rw [this]
    simp only [Sig.wf, decide_eq_true_eq]
    intro i
    split <;> simp [Sig.wf]
  all_goals simp [inBlocks, vectorOf, Struct.apply, Struct.noAlias, Struct.tame, View.tame, Struct.sane, Struct.exact, View.exact]
  simp [Struct.plain, Struct.hard, View.hard, Struct.soft, View.soft, Struct.stale, View.stale]

theorem inBlocks_traversed (n B e : Nat) (hB : B ≠ 0) :
    Traversed (inBlocks n B e) ((List.range n).map (blockIndex n B)) := by
  refine ⟨?_, ?_, inBlocks_forEach n B e hB, ?_, ?_, ?_⟩
  · simp [inBlocks, vectorOf, Struct.apply, Struct.firm]
  · intro q h1 hq
    rw [inBlocks_sig] at h1
    simp [inBlocks, vectorOf, Struct.apply, Struct.hard, View.hard] at hq
    subst hq
    obtain ⟨i, h1⟩ := h1
    simp only at h1
    split at h1 <;> simp [Sig.hasFn] at h1
  · intro st hst
    obtain ⟨x, hx, rfl⟩ := List.mem_map.1 hst
    refine fun u _ => ⟨fun _ => ⟨.dyn n, ?_⟩, fun u _ => ⟨trivial, trivial⟩⟩
    unfold blockIndex
    split <;> blk_simp partIndex, State.withAll
  · intro st hst
    obtain ⟨x, hx, rfl⟩ := List.mem_map.1 hst
    unfold blockIndex
    split <;> blk_simp partIndex, State.withAll, hB
  · intro st hst
    obtain ⟨x, hx, rfl⟩ := List.mem_map.1 hst
    unfold blockIndex
    split <;> blk_simp partIndex, State.withAll, hB

theorem inBlocks_size (n B e : Nat) :
    ∃ v, ((inBlocks n B e).sem .ideal).size .empty = some v ∧ v.Num (n * e) := by
  obtain ⟨v, h1, h2⟩ := vectorOf_size 0 n e
  refine ⟨v, ?_, h2⟩
  rw [← h1]
  have : (State.empty.removeAll [.idx 0, .len 0, .idx 2, .idx 1, .idx 0]) = State.empty := by
    funext g; simp [State.removeAll, State.empty]
  simp [inBlocks, Struct.apply, Struct.sem, View.sem, ViewSem.toSem, intoBlocksStatSem, intoBlocksStatSub, blocksStatClean,
    show ∀ t, State.empty.has t = false from fun _ => rfl, this]

/-- The index space of `input_blocks`. -/
def blockSpace (n B e : Nat) : Space :=
  .ofTraversal (fun q => decide (q ∈ [0, 1, 2])) ((List.range n).map (blockIndex n B)) fun _ => e

theorem inBlocks_laidOut (n B e : Nat) (hB : B ≠ 0) : (blockSpace n B e).LaidOut (inBlocks n B e) := by
  obtain ⟨v, h1, h2⟩ := inBlocks_size n B e
  refine C72_traversed_structures_are_layouts _ _ _ _ (inBlocks_sound n B e) ?_ ?_ v _ h1 h2 _ (inBlocks_traversed n B e hB)
    (.refl _) ?_
  · simp [inBlocks, vectorOf, Struct.apply, Struct.tidy]
  · simp [inBlocks, vectorOf, Struct.apply, Struct.names, View.names]
  · intro u hu
    obtain ⟨x, hx, rfl⟩ := List.mem_map.1 hu
    unfold blockIndex
    split <;> blk_simp partIndex, State.withAll, hB

/-- What is read at the index for `x` of `input_blocks` is the element `x` of `input`. -/
theorem inBlocks_get (n B e : Nat) (hB : 0 < B) (m : Mem) (x : Nat) (hx : x < n) :
    (Bag.mk (inBlocks n B e) m).get .ideal (blockIndex n B x) = (Bag.mk (vectorOf 0 n e) m).get .ideal (atV 0 x) := by
  refine (C36_views_of_a_bag .ideal ⟨vectorOf 0 n e, m⟩ [.intoBlocksStat 0 2 1 0 (.dyn B)] (blockIndex n B x) (atV 0 x)
    ?_ ?_).1
  · have e1 := Nat.div_add_mod x B
    unfold blockIndex
    split
    · next h =>
      have h1 : Val.add .ideal (Val.mul .ideal (.dyn (x / B)) (.dyn B)) (.dyn (x % B)) = .dyn x := by
        rw [Nat.mul_comm] at e1
        simp [Val.add, Val.mul, Val.ofDyn, Arith.ideal, e1]
      simp [stateAt, partIndex, State.withAll, View.sem, intoBlocksStatSem, intoBlocksStatSub, blocksStatClean, isBody,
        State.set, State.has, State.empty, h1]
      funext g
      cases g <;> simp [atV, State.set, State.removeAll, State.empty] <;> grind
    · next h =>
      have d1 : x / B = n / B :=
        Nat.le_antisymm (Nat.div_le_div_right (by omega)) ((Nat.le_div_iff_mul_le hB).2 (by omega))
      have h1 : Val.add .ideal (Val.mul .ideal (Val.div .ideal (.dyn n) (.dyn B)) (.dyn B)) (.dyn (x % B)) = .dyn x := by
        rw [d1, Nat.mul_comm] at e1
        simp [Val.add, Val.mul, Val.div, Val.ofDyn, Arith.ideal, e1, Nat.ne_of_gt hB]
      have hl : ((vectorOf 0 n e).sem .ideal).len 0 ((partIndex 1 0 (x % B)).removeAll
          [.idx 0, .len 0, .idx 2, .idx 1, .idx 0]) = some (.dyn n) := by
        blk_simp partIndex, State.withAll
      simp only [partIndex, State.withAll] at hl
      simp [stateAt, partIndex, State.withAll, View.sem, intoBlocksStatSem, intoBlocksStatSub, blocksStatClean, isBody]
      simp [State.set, State.has, State.empty] at hl ⊢
      rw [hl]
      simp only [Option.bind_some, h1, Option.some.injEq]
      funext g
      cases g <;> simp [atV, State.set, State.removeAll, State.empty] <;> grind
  · refine ⟨trivial, fun _ _ => rfl⟩

/-! ### The array of partial sums -/

local macro "arr_simp" ts:Lean.Parser.Tactic.simpLemma,* : tactic => `(tactic| simp [arrayOf, Struct.apply, Struct.sem, View.sem, ViewSem.toSem, setLengthSem, vectorSem, scalarSem, guardLen,
      State.set, State.has, State.removeAll, State.remove, State.empty, Sig.replace, Sig.setLengthRepl, Sig.anyAccept, Sig.needs, Sig.wf, Val.mul, Val.Num, Val.nat?, Val.ofDyn, Arith.ideal, $ts,*])

theorem arrayOf_sound (d : Dim) (n e : Nat) : (arrayOf d n e).Sound := by
  refine ⟨?_, ?_, ?_, ?_, ?_⟩
  · refine ⟨?_, ?_, trivial⟩
    · simp [Struct.sem, View.sem, ViewSem.toSem, vectorSem, setLengthSem, scalarSem, Sig.anyAccept, Sig.replace,
        Sig.setLengthRepl, Sig.wf]
    · simp [Struct.sem, vectorSem, scalarSem, Sig.anyAccept, Sig.wf]
  all_goals simp [arrayOf, Struct.apply, Struct.noAlias, Struct.tame, View.tame, Struct.sane, Struct.exact, View.exact]

theorem arrayOf_forEach (d : Dim) (n e : Nat) :
    (Traverser.mk (arrayOf d n e) []).forEach .ideal [] = some ((List.range n).map (atV d)) := by
  have h1 : walk ((arrayOf d n e).sem .ideal) ((arrayOf d n e).sem .ideal).sig.tree .empty =
      some ((List.range n).map fun i => [(d, .dyn i)]) := by
    have ht : ((arrayOf d n e).sem .ideal).sig.tree = .node d 1 fun _ => .leaf := by
      arr_simp Sig.tree
    have hf : ∃ l r, ((arrayOf d n e).sem .ideal).sig.find d .empty = .fn d l r := by
      arr_simp Sig.find
    have hl : ((arrayOf d n e).sem .ideal).len d .empty = some (.lit n) := by
      arr_simp Sig.find
    obtain ⟨l, r, hf⟩ := hf
    rw [ht, walk, hf]
    simp only [hl, Val.nat?, walk, dite_true, Option.map_some, List.map_cons, List.map_nil, bind, Option.bind]
    exact seqAll_single _ _
  simp only [Traverser.forEach, Traverser.forSections, Traverser.run, Traverser.top, Struct.apply, h1]
  simp only [Option.map_some, List.map_map, bind, Option.bind]
  rw [List.mapM_map, mapM_map (g := atV d)]
  intro x _
  simp only [Function.comp_apply, Traverser.visit, Traverser.order, Traverser.state, stateAt, View.sem, fixSem, atV,
    List.map_cons, List.map_nil, List.nil_append, bind, Option.bind]
  congr 1
  funext g
  cases g <;> simp [State.set, State.remove, State.empty]

theorem arrayOf_traversed (d : Dim) (n e : Nat) : Traversed (arrayOf d n e) ((List.range n).map (atV d)) := by
  refine ⟨trivial, ?_, arrayOf_forEach d n e, ?_, ?_, ?_⟩
  · intro q _ hq
    simp [arrayOf, Struct.apply, Struct.hard, View.hard] at hq
  · intro st _ u _
    exact ⟨trivial, trivial⟩
  · intro st hst
    obtain ⟨x, hx, rfl⟩ := List.mem_map.1 hst
    arr_simp atV
  · intro st hst
    obtain ⟨x, hx, rfl⟩ := List.mem_map.1 hst
    arr_simp atV
    split <;> rfl

theorem arrayOf_size (d : Dim) (n e : Nat) : ∃ v, ((arrayOf d n e).sem .ideal).size .empty = some v ∧ v.Num (n * e) := by
  arr_simp Val.ofLit

theorem arrayOf_laidOut (d : Dim) (N : Dim → Nat) (e : Nat) : (Space.box [d] N e).LaidOut (arrayOf d (N d) e) := by
  obtain ⟨v, hv, hN⟩ := arrayOf_size d (N d) e
  have h := C72_traversed_structures_are_layouts ((List.range (N d)).map (atV d)) (fun q => decide (q ∈ [d])) (fun _ => e)
    (arrayOf d (N d) e) (arrayOf_sound d (N d) e) (by simp [arrayOf, Struct.apply, Struct.tidy])
    (by simp [arrayOf, Struct.apply, Struct.names, View.names]) v _ hv hN _ (arrayOf_traversed d (N d) e) (.refl _)
    (fun u _ => by arr_simp atV)
  exact ⟨h.sound, h.tidy, h.names, h.total, fun u hu => h.accessible u (mem_vector.2 hu),
    fun u u' hu hu' => h.differ u u' (mem_vector.2 hu) (mem_vector.2 hu'), fun u hu => h.elem u (mem_vector.2 hu),
    fun _ _ _ h => h.elim⟩

/-! ### The sum -/

theorem clear_yields {I : Nat → Space} {c : List UInt8} (V : Arrays) (sts : List State)
    (h : ∀ st ∈ sts, (I 1).At st st ∧ c.length = (I 1).size st) :
    ∃ V', (Prog.each (fun si => .set 1 si c (.done ())) sts).Yields I V () V' ∧ (∀ y, y ≠ 1 → V' y = V y) ∧
      (∀ st ∈ sts, V' 1 st = c) ∧ ∀ st, st ∉ sts → V' 1 st = V 1 st := by
  induction sts generalizing V with
  | nil => exact ⟨V, .done, fun _ _ => rfl, by simp, fun _ _ => rfl⟩
  | cons st sts ih =>
    have h1 := h st (by simp)
    obtain ⟨V', g1, g2, g3, g4⟩ := ih (V.put 1 st c) fun s hs => h s (by simp [hs])
    refine ⟨V', .set st h1.1 h1.2 g1, fun y hy => ?_, fun s hs => ?_, fun s hs => ?_⟩
    · rw [g2 y hy]; funext u; simp [Arrays.put, hy]
    · by_cases hs' : s ∈ sts
      · exact g3 s hs'
      · rcases List.mem_cons.1 hs with rfl | h
        · rw [g4 s hs']; simp [Arrays.put]
        · exact absurd h hs'
    · simp only [List.mem_cons, not_or] at hs
      rw [g4 s hs.2]; simp [Arrays.put, hs.1]

theorem foldl_congr_mem {α β : Type} {f g : β → α → β} {l : List α} {b : β} (h : ∀ b, ∀ a ∈ l, f b a = g b a) :
    l.foldl f b = l.foldl g b := by
  induction l generalizing b with
  | nil => rfl
  | cons a l ih =>
    rw [List.foldl_cons, List.foldl_cons, h b a (by simp), ih fun b x hx => h b x (by simp [hx])]

theorem foldOver_yields {σ : Type} {I : Nat → Space} {bag : Nat} {op : σ → List UInt8 → σ} (V : Arrays) (sts : List State)
    (h : ∀ st ∈ sts, (I bag).At st st) (x : σ) :
    (Prog.foldOver bag op sts x).Yields I V (sts.foldl (fun x st => op x (V bag st)) x) V := by
  induction sts generalizing x with
  | nil => exact .done
  | cons st sts ih => exact .get st (h st (by simp)) (ih (fun s hs => h s (by simp [hs])) _)

/-- C77: the vectorised sum of docs/structs/into_blocks.md, for all bags that hold the elements of `input_blocks` and the
partial sums. The program returns the sum of the partial sums; the partial sum `j` is the sum of the elements `j`,
`j + B`, `j + 2 * B`, and so on, in this order. The array of partial sums may contain anything before. -/
theorem C77_block_sum {R : Type} [Add R] (E : ElemType R) (zero : R) (n B : Nat) (hB : 0 < B) (I : Nat → Space)
    (h0 : I 0 = blockSpace n B E.size) (h1 : I 1 = .box [0] (fun _ => B) E.size) (t0 t1 : Traverser)
    (ht0 : t0.forEach .ideal [] = some ((List.range n).map (blockIndex n B)))
    (ht1 : t1.forEach .ideal [] = some ((List.range B).map (atV 0))) (V : Arrays) (bags : Bags) (hb : BagsHold I bags V) :
    ∃ p bags', blockSum .ideal E zero t0 t1 = some p ∧
      p.run .ideal bags = .ok ((List.range B).foldl (fun sum j => sum +
        ((List.range n).filter fun x => x % B = j).foldl (fun r x => r + E.dec (V 0 (blockIndex n B x))) zero) zero, bags') ∧
      ∀ x, x < n → (bags' 0).get .ideal (blockIndex n B x) = (bags 0).get .ideal (blockIndex n B x) := by
  have at1 : ∀ st ∈ (List.range B).map (atV 0), (I 1).At st st := by
    intro st hst
    obtain ⟨j, hj, rfl⟩ := List.mem_map.1 hst
    rw [h1]
    have := Space.box_at (ds := [0]) (e := E.size) (atV_box (v := 0) (N := fun _ => B) (List.mem_range.1 hj)) (by simp)
    have e : ((atV 0 j).only fun q => decide (q ∈ [(0 : Dim)])) = atV 0 j := by
      funext g; cases g <;> simp [atV, State.only, State.set, State.empty] <;> grind
    rwa [e] at this
  have atB : ∀ x, x < n → (I 0).At (blockIndex n B x) (blockIndex n B x) ∧ (I 1).At (blockIndex n B x) (atV 0 (x % B)) := by
    intro x hx
    have hl : ∀ q, blockIndex n B x (.len q) = none := by
      intro q
      unfold blockIndex
      split <;> simp [partIndex, State.withAll, State.set, State.empty]
    refine ⟨⟨?_, ?_, hl⟩, ?_, ?_, hl⟩
    · rw [h0]
      unfold blockIndex
      split <;> funext g <;> cases g <;>
        simp [blockSpace, Space.ofTraversal, partIndex, State.only, State.withAll, State.set, State.empty] <;> grind
    · rw [h0]
      exact List.mem_map.2 ⟨x, List.mem_range.2 hx, rfl⟩
    · rw [h1]
      exact (blockIndex_only n B x).symm
    · rw [h1]
      exact atV_box (Nat.mod_lt _ hB)
  obtain ⟨V1, y1, v1, v11, -⟩ := clear_yields (c := E.enc zero) V _ fun st hst =>
    ⟨at1 st hst, by rw [E.enc_length, h1]; rfl⟩
  have v10 := v1 0 (by decide)
  replace v11 : ∀ j, j < B → V1 1 (atV 0 j) = E.enc zero := fun j hj =>
    v11 _ (List.mem_map.2 ⟨j, List.mem_range.2 hj, rfl⟩)
  have y2 := accumulate_yields (I := I) (out := 1) (e := fun st => .get 0 st fun v => .done (st, E.dec v))
    (op := fun w v => E.enc (E.dec w + v)) (key := fun st => st.only fun q => decide (q ∈ [(0 : Dim)]))
    (val := fun st => E.dec (V 0 st)) (V := V1) (sts := (List.range n).map (blockIndex n B))
    (fun st hst V' hV' => by
      obtain ⟨x, hx, rfl⟩ := List.mem_map.1 hst
      obtain ⟨a0, a1⟩ := atB x (List.mem_range.1 hx)
      refine ⟨blockIndex n B x, cast (congrArg _ (blockIndex_only n B x).symm) a1, .get _ a0 ?_⟩
      rw [hV' 0 (by decide), v10]
      exact .done)
    (fun st hst w _ => by rw [E.enc_length, h1]; rfl)
    (fun u hu => by
      rw [h1] at hu ⊢
      obtain ⟨j, hj, rfl⟩ := onBox_atV hu
      rw [v11 j hj, E.enc_length]
      rfl)
  generalize hV2 : V1.accumulated 1 (fun w v => E.enc (E.dec w + v)) (fun st => st.only fun q => decide (q ∈ [(0 : Dim)]))
    (fun st => E.dec (V 0 st)) ((List.range n).map (blockIndex n B)) = V2 at y2
  have y3 := foldOver_yields (I := I) (bag := 1) (op := fun sum v => sum + E.dec v) V2 _ at1 zero
  have res : ((List.range B).map (atV 0)).foldl (fun sum st => sum + E.dec (V2 1 st)) zero =
      (List.range B).foldl (fun sum j => sum +
        ((List.range n).filter fun x => x % B = j).foldl (fun r x => r + E.dec (V 0 (blockIndex n B x))) zero) zero := by
    rw [List.foldl_map]
    refine foldl_congr_mem fun r j hj => ?_
    rw [← hV2]
    simp only [Arrays.accumulated, if_true]
    rw [dec_foldAt, v11 j (List.mem_range.1 hj), E.dec_enc, List.filter_map, List.foldl_map]
    congr 3
    funext x
    simp only [Function.comp_apply]
    exact decide_eq_decide.2 ⟨fun h => atV_inj ((blockIndex_only n B x).symm.trans h),
      fun h => (blockIndex_only n B x).trans (by rw [h])⟩
  rw [res] at y3
  obtain ⟨bags', g1, -, g3⟩ := (y1.bind (f := fun _ => (Prog.each _ _).bind fun _ => _) (y2.bind (f := fun _ => Prog.foldOver _ _ _ _) y3)).run hb
  refine ⟨_, bags', ?_, g1, fun x hx => ?_⟩
  · simp only [blockSum, Traverser.forEachProg, ht0, ht1, Option.map_some, bind, Option.bind]
    rfl
  · have hx := (atB x hx).1.2.1
    rw [g3.value 0 _ hx, hb.value 0 _ hx, ← hV2]
    simp [Arrays.accumulated, v10]

theorem range_get {R : Type} (l : List R) (zero : R) : (List.range l.length).map (fun k => l.getD k zero) = l := by
  refine List.ext_getElem (by simp) fun k h1 h2 => ?_
  simp [h2]

theorem foldl_add_zero {R : Type} [Add R] {zero : R} (h0 : ∀ a : R, zero + a = a) (h0' : ∀ a : R, a + zero = a)
    (hassoc : ∀ a b c : R, a + b + c = a + (b + c)) {α : Type} (f : α → R) (l : List α) (r : R) :
    l.foldl (fun r x => r + f x) r = r + l.foldl (fun r x => r + f x) zero := by
  induction l generalizing r with
  | nil => exact (h0' r).symm
  | cons a l ih => rw [List.foldl_cons, List.foldl_cons, ih, ih (zero + f a), h0, hassoc]

/-- Adding up the residue classes one after another is adding up everything. -/
theorem sum_by_residue {R : Type} [Add R] {zero : R} (h0 : ∀ a : R, zero + a = a) (hassoc : ∀ a b c : R, a + b + c = a + (b + c))
    (hcomm : ∀ a b : R, a + b = b + a) (n B : Nat) (hB : 0 < B) (f : Nat → R) :
    (List.range B).foldl (fun sum j => sum + ((List.range n).filter fun x => x % B = j).foldl (fun r x => r + f x) zero)
      zero = (List.range n).foldl (fun r x => r + f x) zero := by
  have h0' : ∀ a : R, a + zero = a := fun a => (hcomm ..).trans (h0 a)
  have h1 : ∀ (m : Nat) (l : List Nat), (List.range m).foldl (fun sum j => sum + (l.filter fun x => x % B = j).foldl
      (fun r x => r + f x) zero) zero = (l.filter fun x => x % B < m).foldl (fun r x => r + f x) zero := by
    have hcons : ∀ (a : Nat) (l : List Nat), (a :: l).foldl (fun r x => r + f x) zero =
        f a + l.foldl (fun r x => r + f x) zero := by
      intro a l
      rw [List.foldl_cons, foldl_add_zero h0 h0' hassoc, h0]
    intro m l
    induction m with
    | zero => simp [List.filter_eq_nil_iff.2 fun a _ => Bool.false_ne_true]
    | succ m ih =>
      rw [List.range_succ, List.foldl_append, ih, List.foldl_cons, List.foldl_nil]
      clear ih
      induction l with
      | nil => exact h0' _
      | cons a l ihl =>
        rcases Nat.lt_trichotomy (a % B) m with h | h | h
        · simp only [List.filter_cons, decide_eq_true h, decide_eq_false (show ¬ a % B = m by omega),
            decide_eq_true (show a % B < m + 1 by omega), if_true, Bool.false_eq_true, if_false, hcons]
          rw [hassoc, ihl]
        · simp only [List.filter_cons, decide_eq_false (show ¬ a % B < m by omega), decide_eq_true h,
            decide_eq_true (show a % B < m + 1 by omega), if_true, Bool.false_eq_true, if_false, hcons]
          rw [← ihl, ← hassoc, hcomm _ (f a), hassoc]
        · simp only [List.filter_cons, decide_eq_false (show ¬ a % B < m by omega),
            decide_eq_false (show ¬ a % B = m by omega), decide_eq_false (show ¬ a % B < m + 1 by omega),
            Bool.false_eq_true, if_false]
          exact ihl
  rw [h1 B]
  congr 1
  exact List.filter_eq_self.2 fun x _ => by simpa using Nat.mod_lt x hB

/-- The bags of the program: `input_blocks` is a view of `input`, which has the given elements; `sums` is an array of `B`
elements, with any contents. -/
def blockSumBags {R : Type} (E : ElemType R) (data : List R) (B : Nat) (old : Mem) : Bags := fun x =>
  if x = 0 then (Bag.mk (vectorOf 0 data.length E.size) (data.flatMap E.enc)).apply [.intoBlocksStat 0 2 1 0 (.dyn B)]
  else ⟨arrayOf 0 B E.size, old⟩

/-- C77: the program of docs/structs/into_blocks.md, "Parallelization", for a vector with any elements and any block size
(not zero). It compiles and returns the sum of the partial sums, where the partial sum `j` is that of the elements `j`,
`j + B`, `j + 2 * B`, ... - whether or not the block size divides the length. -/
theorem C77_block_sum_of_vector {R : Type} [Add R] (E : ElemType R) (zero : R) (data : List R) (B : Nat) (hB : 0 < B)
    (old : Mem) (hold : old.length = B * E.size) :
    ∃ p bags', blockSum .ideal E zero ⟨inBlocks data.length B E.size, []⟩ ⟨arrayOf 0 B E.size, []⟩ = some p ∧
      p.run .ideal (blockSumBags E data B old) = .ok ((List.range B).foldl (fun sum j => sum +
        ((List.range data.length).filter fun x => x % B = j).foldl (fun r x => r + data.getD x zero) zero) zero, bags') := by
  have hB' : B ≠ 0 := by omega
  let I : Nat → Space := fun x => if x = 0 then blockSpace data.length B E.size else .box [0] (fun _ => B) E.size
  have hlay : ∀ x, (I x).LaidOut (blockSumBags E data B old x).structure_ := by
    intro x
    by_cases hx : x = 0
    · subst hx; exact inBlocks_laidOut _ _ _ hB'
    · simp only [I, blockSumBags, hx, if_false]; exact arrayOf_laidOut 0 (fun _ => B) E.size
  have hfor : ∀ x, BagFor (blockSumBags E data B old x).structure_ (blockSumBags E data B old x) := by
    intro x
    refine ⟨rfl, fun v N hv hN => ?_⟩
    by_cases hx : x = 0
    · subst hx
      obtain ⟨w, h1, h2⟩ := inBlocks_size data.length B E.size
      have : some v = some w := hv.symm.trans h1
      cases this
      have : some N = some (data.length * E.size) := hN.symm.trans h2
      cases this
      exact Nat.le_of_eq (flat_length E data).symm
    · simp only [blockSumBags, hx, if_false] at hv ⊢
      obtain ⟨w, h1, h2⟩ := arrayOf_size 0 B E.size
      have : some v = some w := hv.symm.trans h1
      cases this
      have : some N = some (B * E.size) := hN.symm.trans h2
      cases this
      exact Nat.le_of_eq hold.symm
  have hget : ∀ x, x < data.length → (blockSumBags E data B old 0).get .ideal (blockIndex data.length B x) =
      .ok (E.enc (data.getD x zero)) := by
    intro x hx
    refine (inBlocks_get data.length B E.size hB (data.flatMap E.enc) x hx).trans ?_
    rw [vectorOf_get 0 data.length E.size x _ (flat_length E data) hx, flat_get E data x hx]
    simp [hx]
  let V : Arrays := fun x u => match (blockSumBags E data B old x).get .ideal u with
    | .ok v => v
    | .error _ => []
  have hold : BagsHold I (blockSumBags E data B old) V := by
    refine ⟨hlay, hfor, fun x u hu => ?_⟩
    obtain ⟨⟨v, hv, -⟩, -⟩ := (hlay x).access (hfor x) hu
    simp only [V, hv]
  obtain ⟨p, bags', g1, g2, -⟩ := C77_block_sum E zero data.length B hB I rfl rfl ⟨inBlocks data.length B E.size, []⟩
    ⟨arrayOf 0 B E.size, []⟩ (inBlocks_forEach _ _ _ hB') (arrayOf_forEach ..) V _ hold
  refine ⟨p, bags', g1, g2.trans ?_⟩
  congr 2
  refine foldl_congr_mem fun r j _ => congrArg (r + ·) (foldl_congr_mem fun r x hx => ?_)
  have hx : x < data.length := List.mem_range.1 ((List.mem_filter.1 hx).1)
  simp only [V, hget x hx, E.dec_enc]

/-- C77: if the addition is associative and commutative, the program returns the sum of all the elements. -/
theorem C77_block_sum_is_the_sum {R : Type} [Add R] (E : ElemType R) (zero : R) (h0 : ∀ a : R, zero + a = a)
    (hassoc : ∀ a b c : R, a + b + c = a + (b + c)) (hcomm : ∀ a b : R, a + b = b + a) (data : List R) (B : Nat)
    (hB : 0 < B) (old : Mem) (hold : old.length = B * E.size) :
    ∃ p bags', blockSum .ideal E zero ⟨inBlocks data.length B E.size, []⟩ ⟨arrayOf 0 B E.size, []⟩ = some p ∧
      p.run .ideal (blockSumBags E data B old) = .ok (data.foldl (· + ·) zero, bags') := by
  obtain ⟨p, bags', g1, g2⟩ := C77_block_sum_of_vector E zero data B hB old hold
  refine ⟨p, bags', g1, g2.trans ?_⟩
  rw [sum_by_residue h0 hassoc hcomm _ _ hB]
  congr 2
  conv => rhs; rw [← range_get data zero, List.foldl_map]

/-- 100 numbers of 32 bits in blocks of 16, the size in the documentation; the last block has 4 elements. -/
example (data : List (BitVec 32)) (_ : data.length = 100) (old : Mem) (hold : old.length = 16 * 4) :
    ∃ p bags', blockSum .ideal c70Int 0 ⟨inBlocks data.length 16 4, []⟩ ⟨arrayOf 0 16 4, []⟩ = some p ∧
      p.run .ideal (blockSumBags c70Int data 16 old) = .ok (data.foldl (· + ·) 0, bags') :=
  C77_block_sum_is_the_sum c70Int 0 (by intros; grind) (by intros; grind) (by intros; grind) data 16 (by decide) old hold

end Noarr
