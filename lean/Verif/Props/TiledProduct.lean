import Verif.Props.TiledLoops
import Verif.Props.ForEach
import Verif.UnionLemmas

/-
C87: traversals of several arrays, in tiles (docs/Traverser.md, "Traversing multiple structures at once").
-/

namespace Noarr

/-! ### Specification -/

/-- The dimensions of several arrays together, from the outermost: those of the next array that are new are put in front. -/
def jointDims : List (List Dim) → List Dim
  | [] => []
  | ds :: l => l.foldl (fun acc ds => (ds.filter fun d => !acc.contains d) ++ acc) ds

/-! ### Unions -/

theorem loopSig_accept (e : Nat) (ps : List (Dim × ArgLen)) (d : Dim) :
    (loopSig e ps).anyAccept d = (ps.map Prod.fst).contains d := by
  by_cases h : d ∈ ps.map Prod.fst
  · obtain ⟨l, r, hf⟩ := loopSig_find e ps h .empty
    rw [List.contains_iff_mem.2 h]
    clear hf
    induction ps with
    | nil => cases h
    | cons p ps ih =>
      simp only [loopSig, Sig.anyAccept, Bool.or_eq_true, beq_iff_eq]
      rcases List.mem_cons.1 h with rfl | h
      · exact .inl rfl
      · exact .inr (ih h)
  · rw [loopSig_absent e ps h]
    simpa using h

theorem loopSig_union2 (e e' : Nat) (ps ps' : List (Dim × ArgLen)) :
    ∃ qs, (loopSig e ps).union2 (loopSig e' ps') = loopSig e qs ∧
      qs.map Prod.fst = ((ps'.map Prod.fst).filter fun d => !(ps.map Prod.fst).contains d) ++ ps.map Prod.fst := by
  induction ps' with
  | nil => exact ⟨ps, rfl, rfl⟩
  | cons p ps' ih =>
    obtain ⟨qs, h1, h2⟩ := ih
    simp only [loopSig, Sig.union2, loopSig_accept, h1, List.map_cons, List.filter_cons]
    cases h : (ps.map Prod.fst).contains p.1 with
    | true => exact ⟨qs, by simp, by simpa using h2⟩
    | false => exact ⟨p :: qs, by simp [loopSig], by simp [h2]⟩

theorem loopSig_unionAll (l : List (Sig × List Dim)) (h : ∀ p ∈ l, ∃ e ps, p.1 = loopSig e ps ∧ ps.map Prod.fst = p.2)
    (hl : l ≠ []) : ∃ e ps, Sig.unionAll (l.map Prod.fst) = loopSig e ps ∧ ps.map Prod.fst = jointDims (l.map Prod.snd) := by
  cases l with
  | nil => exact absurd rfl hl
  | cons p l =>
    simp only [List.map_cons, Sig.unionAll, jointDims]
    have h0 := h p (List.mem_cons_self ..)
    have h1 : ∀ p ∈ l, ∃ e ps, p.1 = loopSig e ps ∧ ps.map Prod.fst = p.2 := fun p hp => h p (List.mem_cons_of_mem _ hp)
    obtain ⟨S, ds⟩ := p
    clear hl h
    induction l generalizing S ds with
    | nil => exact h0
    | cons p l ih =>
      obtain ⟨e, ps, rfl, rfl⟩ := h0
      obtain ⟨e', ps', h2, h3⟩ := h1 p (List.mem_cons_self ..)
      obtain ⟨qs, h4, h5⟩ := loopSig_union2 e e' ps ps'
      simp only [List.map_cons, List.foldl_cons, h2, ← h3]
      exact ih (fun p hp => h1 p (List.mem_cons_of_mem _ hp)) _ _ ⟨e, qs, h4, h5⟩

theorem joint_nodup {dss : List (List Dim)} (h : ∀ ds ∈ dss, ds.Nodup) : (jointDims dss).Nodup := by
  cases dss with
  | nil => exact .nil
  | cons ds dss =>
    simp only [jointDims]
    have h0 := h ds (List.mem_cons_self ..)
    have h1 : ∀ ds ∈ dss, ds.Nodup := fun ds hd => h ds (List.mem_cons_of_mem _ hd)
    clear h
    induction dss generalizing ds with
    | nil => exact h0
    | cons d dss ih =>
      refine ih _ ?_ fun ds hd => h1 ds (List.mem_cons_of_mem _ hd)
      refine List.nodup_append.2 ⟨(h1 d (List.mem_cons_self ..)).filter _, h0, ?_⟩
      rintro a ha b hb rfl
      have := (List.mem_filter.1 ha).2
      simp [hb] at this

theorem mem_joint {dss : List (List Dim)} {q : Dim} : q ∈ jointDims dss ↔ ∃ ds ∈ dss, q ∈ ds := by
  cases dss with
  | nil => simp [jointDims]
  | cons ds dss =>
    simp only [jointDims]
    induction dss generalizing ds with
    | nil => simp
    | cons d dss ih =>
      rw [List.foldl_cons, ih]
      simp only [List.mem_cons, List.mem_append, List.mem_filter, exists_eq_or_imp, Bool.not_eq_true', List.contains_eq_mem, decide_eq_false_iff_not]
      by_cases q ∈ ds <;> simp_all

theorem union_box {A : Arith} {n : Nat} {ss : Fin (n + 1) → Struct} {N : Dim → Nat} {dss : Fin (n + 1) → List Dim}
    (h : ∀ i, IsBox ((ss i).sem A) N (dss i)) :
    IsBox ((Struct.union (n + 1) ss).sem A) N (jointDims (List.ofFn dss)) := by
  refine ⟨joint_nodup fun ds hd => ?_, ?_, fun d hd st hst hi => ?_⟩
  · obtain ⟨i, rfl⟩ := List.mem_ofFn.1 hd
    exact (h i).nodup
  · have hu := loopSig_unionAll (List.ofFn fun i => (((ss i).sem A).sig, dss i)) (fun p hp => by
      obtain ⟨i, rfl⟩ := List.mem_ofFn.1 hp
      exact (h i).sig) (by simp)
    rw [List.map_ofFn, List.map_ofFn] at hu
    exact hu
  · have ha : ∀ i q, ((ss i).sem A).sig.anyAccept q = (dss i).contains q := by
      intro i q
      obtain ⟨e, ps, h1, h2⟩ := (h i).sig
      rw [h1, loopSig_accept, h2]
    obtain ⟨ds, hds, hq⟩ := mem_joint.1 hd
    obtain ⟨i, rfl⟩ := List.mem_ofFn.1 hds
    obtain ⟨j, hj, hlt⟩ := exists_first (fun i => ((ss i).sem A).sig.anyAccept d) ⟨i, by rw [ha]; simpa using hq⟩
    rw [union_len ss hj hlt]
    exact (h j).len d (by rw [ha] at hj; simpa using hj) st hst hi

/-! ### The states -/

theorem mem_loops {N : Dim → Nat} {ds : List Dim} (hn : ds.Nodup) {st u : State} :
    u ∈ nestedLoops N ds st ↔ (∀ q ∈ ds, ∃ k, k < N q ∧ u (.idx q) = some (.dyn k)) ∧ (∀ t, (∀ q ∈ ds, t ≠ .idx q) → u t = st t) := by
  induction ds generalizing st with
  | nil =>
    simp only [nestedLoops, List.mem_singleton]
    exact ⟨fun h => ⟨fun _ h => (nomatch h), fun _ _ => by rw [h]⟩, fun h => funext fun t => h.2 t fun _ h => nomatch h⟩
  | cons d ds ih =>
    rw [List.nodup_cons] at hn
    simp only [nestedLoops, List.mem_flatMap, List.mem_range, ih hn.2]
    constructor
    · rintro ⟨i, hi, h1, h2⟩
      refine ⟨fun q hq => ?_, fun t ht => ?_⟩
      · rcases List.mem_cons.1 hq with rfl | hq
        · refine ⟨i, hi, ?_⟩
          rw [h2 _ fun x hx e => hn.1 (by cases e; exact hx)]
          simp [State.set]
        · exact h1 q hq
      · rw [h2 t fun q hq => ht q (List.mem_cons_of_mem _ hq), State.set, if_neg (ht d (List.mem_cons_self ..))]
    · rintro ⟨h1, h2⟩
      obtain ⟨i, hi, hu⟩ := h1 d (List.mem_cons_self ..)
      refine ⟨i, hi, fun q hq => h1 q (List.mem_cons_of_mem _ hq), fun t ht => ?_⟩
      by_cases htd : t = .idx d
      · rw [htd, hu]; simp [State.set]
      · rw [State.set, if_neg htd]
        exact h2 t fun q hq => (List.mem_cons.1 hq).elim (fun e => e ▸ htd) (ht q)

theorem loops_onBox {N : Dim → Nat} {ds : List Dim} (hn : ds.Nodup) (u : State) :
    u ∈ nestedLoops N ds .empty ↔ OnBox (· ∈ ds) N u := by
  rw [mem_loops hn]
  constructor
  · rintro ⟨h1, h2⟩
    exact ⟨h1, fun q hq => h2 _ fun x hx e => hq (by cases e; exact hx), fun q => h2 _ fun _ _ e => nomatch e⟩
  · rintro ⟨h1, h2, h3⟩
    refine ⟨h1, fun t ht => ?_⟩
    cases t with
    | idx q => exact h2 q fun hq => ht q hq rfl
    | len q => exact h3 q

theorem loops_nodup {N : Dim → Nat} {ds : List Dim} (hn : ds.Nodup) (st : State) : (nestedLoops N ds st).Nodup := by
  induction ds generalizing st with
  | nil => simp [nestedLoops]
  | cons d ds ih =>
    rw [List.nodup_cons] at hn
    simp only [nestedLoops]
    refine List.pairwise_flatMap.2 ⟨fun i _ => ih hn.2 _, List.nodup_range.imp fun {i k} hne u hu v hv e => hne ?_⟩
    subst e
    have h1 := ((mem_loops hn.2).1 hu).2 (.idx d) fun x hx e => hn.1 (by cases e; exact hx)
    have h2 := ((mem_loops hn.2).1 hv).2 (.idx d) fun x hx e => hn.1 (by cases e; exact hx)
    rw [h1] at h2
    simpa [State.set] using h2

/-! ### Theorems -/

/-- C87: `traverser(a1, a2, ...).order(...).for_each(f)` for arrays with the same lengths, with `into_blocks` and `hoist` in
any order, is nested loops over their dimensions, each once, with the blocks and hoists. -/
theorem C87_order {n : Nat} {N : Dim → Nat} (e : Fin (n + 1) → Nat) {dss : Fin (n + 1) → List Dim} (hn : ∀ i, (dss i).Nodup)
    {ts : List Tiling} (ht : Tiled (jointDims (List.ofFn dss)) ts) :
    (Traverser.mk (.union (n + 1) fun i => arrayOver N (e i) (dss i)) (ts.flatMap Tiling.views)).forEach .ideal [] =
      some ((nestedLoops (tiledLengths N ts) (tiledDims (jointDims (List.ofFn dss)) ts) .empty).map (tiledBack ts)) := by
  have hu := union_box (ss := fun i => arrayOver N (e i) (dss i)) fun i => arrayOver_box .ideal N (e i) (hn i)
  have hb := tiled_box hu ht
  obtain ⟨e', ps, h1, h2⟩ := hb.sig
  have hs : ((((Struct.union (n + 1) fun i => arrayOver N (e i) (dss i))).apply (ts.flatMap Tiling.views)).sem .ideal).sig.tree =
      chain (tiledDims (jointDims (List.ofFn dss)) ts) := by
    rw [h1, loopSig_tree, h2]
  have hr := run_box (hs := []) hb hb.nodup fun _ h => h
  have hf : (Traverser.mk ((Struct.union (n + 1) fun i => arrayOver N (e i) (dss i)).apply (ts.flatMap Tiling.views)) []).forEach
      .ideal [] = some (nestedLoops (tiledLengths N ts) (tiledDims (jointDims (List.ofFn dss)) ts) .empty) := by
    simpa only [Traverser.forEach, Traverser.forSections, Traverser.top, Struct.apply, List.map_nil, hs, bind] using hr
  rw [forEach_top]
  simp only [Traverser.top, hf, Option.bind_some]
  exact mapM_map (f := stateAt .ideal (.union (n + 1) fun i => arrayOver N (e i) (dss i)) (ts.flatMap Tiling.views))
    (g := tiledBack ts) fun u hu => (stateAt_tiled _ ht (nestedLoops_full (fun _ => rfl) hu).1).1

/-- C87: if the block sizes divide the lengths, then each combination of indices is visited exactly once. -/
theorem C87_each_once {n : Nat} {N : Dim → Nat} (e : Fin (n + 1) → Nat) {dss : Fin (n + 1) → List Dim} (hn : ∀ i, (dss i).Nodup)
    {ts : List Tiling} (ht : Tiled (jointDims (List.ofFn dss)) ts) (hd : DividesAll N ts) :
    ∃ sts, (Traverser.mk (.union (n + 1) fun i => arrayOver N (e i) (dss i)) (ts.flatMap Tiling.views)).forEach .ideal [] =
      some sts ∧ sts.Nodup ∧ ∀ u, u ∈ sts ↔ OnBox (fun q => ∃ i, q ∈ dss i) N u := by
  have hj : (jointDims (List.ofFn dss)).Nodup := joint_nodup fun ds hd => by
    obtain ⟨i, rfl⟩ := List.mem_ofFn.1 hd
    exact hn i
  have hp := tiled_loops_perm hj ht hd
  refine ⟨_, C87_order e hn ht, hp.nodup_iff.2 (loops_nodup hj _), fun u => ?_⟩
  rw [hp.mem_iff, loops_onBox hj]
  have : (fun q => q ∈ jointDims (List.ofFn dss)) = fun q => ∃ i, q ∈ dss i := by
    funext q
    simp only [mem_joint, List.mem_ofFn]
    exact propext ⟨fun ⟨_, ⟨i, h⟩, hq⟩ => ⟨i, h ▸ hq⟩, fun ⟨i, hq⟩ => ⟨_, ⟨i, rfl⟩, hq⟩⟩
  rw [this]

/-- C87: the product of matrices in tiles. With any blocks whose sizes divide the lengths, hoisted in any order,
`traverser(a, b, c).order(...).for_each([&](auto s) { c[s] += a[s] * b[s]; })` adds the product of `a` and `b` to `c`,
whatever the layouts of the three bags are. -/
theorem C87_tiled_product {R : Type} [Add R] [Mul R] (hadd : ∀ a b c : R, a + b + c = a + c + b) (E : ElemType R)
    {i j k : Dim} (hij : i ≠ j) (hik : i ≠ k) (hjk : j ≠ k) (N : Dim → Nat) (I : Nat → Space)
    (h0 : I 0 = .box [i, k] N E.size) (h1 : I 1 = .box [k, j] N E.size) (h2 : I 2 = .box [i, j] N E.size)
    (e : Fin 3 → Nat) {dss : Fin 3 → List Dim} (d0 : (dss 0).Perm [i, k]) (d1 : (dss 1).Perm [k, j]) (d2 : (dss 2).Perm [i, j])
    {ts : List Tiling} (ht : Tiled (jointDims (List.ofFn dss)) ts) (hd : DividesAll N ts)
    (V : Arrays) (B : Bags) (hB : BagsHold I B V) :
    ∃ p B' V', (Traverser.mk (.union 3 fun n => arrayOver N (e n) (dss n)) (ts.flatMap Tiling.views)).forEachProg .ideal
        (addProduct E) = some p ∧ p.run .ideal B = .ok ((), B') ∧ BagsHold I B' V' ∧ (∀ y u, y ≠ 2 → V' y u = V y u) ∧
      ∀ x y, x < N i → y < N j → E.dec (V' 2 (atNM i j x y)) = (List.range (N k)).foldl
        (fun r z => r + E.dec (V 0 (atNM i k x z)) * E.dec (V 1 (atNM k j z y))) (E.dec (V 2 (atNM i j x y))) := by
  have hn : ∀ n, (dss n).Nodup := by
    intro n
    match n with
    | 0 => exact d0.nodup_iff.2 (by simp [hik])
    | 1 => exact d1.nodup_iff.2 (by simp [Ne.symm hjk])
    | 2 => exact d2.nodup_iff.2 (by simp [hij])
  obtain ⟨sts, g1, g2, g3⟩ := C87_each_once e hn ht hd
  have hdims : (fun q => ∃ n, q ∈ dss n) = fun q => q ∈ [i, j, k] := by
    funext q
    have e0 := d0.mem_iff (a := q)
    have e1 := d1.mem_iff (a := q)
    have e2 := d2.mem_iff (a := q)
    simp only [List.mem_cons, List.not_mem_nil, or_false] at e0 e1 e2 ⊢
    refine propext ⟨?_, ?_⟩
    · rintro ⟨n, h⟩
      match n with
      | 0 => grind
      | 1 => grind
      | 2 => grind
    · rintro (h | h | h)
      · exact ⟨0, by grind⟩
      · exact ⟨1, by grind⟩
      · exact ⟨0, by grind⟩
  rw [hdims] at g3
  exact C73_matrix_product hadd E hij hik hjk N I h0 h1 h2 _ sts g1 g2 g3 V B hB

/-! ### Examples

The matrices of the documentation: `a` over 'i' and 'j' (300 and 400), `b` over 'j' and 'k' (400 and 500), `c` over 'i' and
'k'. Here the summed dimension is `2`, the dimensions of `c` are `0` and `1`, the names of the blocks are `3`, `4` and `5`. -/

/-- The lengths of the documentation. -/
def productLengths (d : Dim) : Nat := if d = 0 then 300 else if d = 1 then 500 else 400

/-- `array<'i', 300>() ^ array<'j', 400>()`, and so on: the last one is the outermost. -/
def productDims : Fin 3 → List Dim
  | 0 => [2, 0]
  | 1 => [1, 2]
  | 2 => [1, 0]

/-- Blocks of 10 by 20 by 50, hoisted. -/
def productTiles : List Tiling :=
  [.blocks 0 3 0 10, .blocks 1 4 1 20, .blocks 2 5 2 50, .hoist 5, .hoist 4, .hoist 3]

/-- Without an order the loops are over 'k', 'j' and 'i'; with tiles over blocks of 'i', 'k' and 'j' first. -/
example : jointDims (List.ofFn productDims) = [1, 2, 0] ∧
    tiledDims (jointDims (List.ofFn productDims)) productTiles = [3, 4, 5, 1, 2, 0] := by decide

theorem productTiles_fit : Tiled (jointDims (List.ofFn productDims)) productTiles := by
  have h : jointDims (List.ofFn productDims) = [1, 2, 0] := by decide
  rw [h]
  simp [Tiled, productTiles, Tiling.Fits, Tiling.dims]

theorem productTiles_divide : DividesAll productLengths productTiles := by
  simp only [DividesAll, productTiles, productLengths, Tiling.lengths]
  decide

/-- The loops with tiles. -/
example : (Traverser.mk (.union 3 fun i => arrayOver productLengths 4 (productDims i)) (productTiles.flatMap Tiling.views)).forEach
    .ideal [] = some ((nestedLoops (tiledLengths productLengths productTiles) [3, 4, 5, 1, 2, 0] .empty).map
      (tiledBack productTiles)) := by
  have h : tiledDims (jointDims (List.ofFn productDims)) productTiles = [3, 4, 5, 1, 2, 0] := by decide
  rw [← h]
  exact C87_order (fun _ => 4) (by decide) productTiles_fit

/-- The product of matrices of 32-bit integers, with tiles. -/
example (I : Nat → Space) (h0 : I 0 = .box [0, 2] productLengths 4) (h1 : I 1 = .box [2, 1] productLengths 4)
    (h2 : I 2 = .box [0, 1] productLengths 4) (V : Arrays) (B : Bags) (hB : BagsHold I B V) :
    ∃ p B' V', (Traverser.mk (.union 3 fun n => arrayOver productLengths 4 (productDims n))
        (productTiles.flatMap Tiling.views)).forEachProg .ideal (addProduct c70Int) = some p ∧
      p.run .ideal B = .ok ((), B') ∧ BagsHold I B' V' ∧ (∀ y u, y ≠ 2 → V' y u = V y u) ∧
      ∀ x y, x < 300 → y < 500 → c70Int.dec (V' 2 (atNM 0 1 x y)) = (List.range 400).foldl
        (fun r z => r + c70Int.dec (V 0 (atNM 0 2 x z)) * c70Int.dec (V 1 (atNM 2 1 z y)))
        (c70Int.dec (V 2 (atNM 0 1 x y))) :=
  C87_tiled_product (i := 0) (j := 1) (k := 2) (fun a b c => by grind) c70Int (by decide) (by decide) (by decide)
    productLengths I h0 h1 h2 (fun _ => 4) (by decide) (by decide) (by decide) productTiles_fit productTiles_divide V B hB

end Noarr
