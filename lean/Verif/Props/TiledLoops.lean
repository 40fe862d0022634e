import Verif.Props.LoopOrders
import Verif.ValidBlocks
import Verif.Shortcuts

/-
C86: the orders of traversals with blocks and tiles (docs/structs/into_blocks.md, "Usage examples").
-/

namespace Noarr

/-! ### Specification -/

/-- A part of the order of a traverser: `hoist<d>()` or `into_blocks<d, maj, min>(n)`. -/
inductive Tiling
  | hoist (d : Dim)
  | blocks (d maj min : Dim) (n : Nat)

/-- The views of the part. -/
def Tiling.views : Tiling → List View
  | .hoist d => [.hoist d]
  | .blocks d maj min n => intoBlocksBy d maj min (.dyn n)

/-- The dimensions after the part, from the outermost: `hoist` puts one first, `into_blocks` puts two in the place of one. -/
def Tiling.dims (ds : List Dim) : Tiling → List Dim
  | .hoist d => d :: ds.erase d
  | .blocks d maj min _ => ds.flatMap fun q => if q = d then [maj, min] else [q]

/-- The lengths after the part. -/
def Tiling.lengths (N : Dim → Nat) : Tiling → Dim → Nat
  | .hoist _ => N
  | .blocks d maj min n => fun q => if q = min then n else if q = maj then N d / n else N q

/-- The part can be applied to a structure with the dimensions: the dimension exists, names of new ones are not used yet. -/
def Tiling.Fits (ds : List Dim) : Tiling → Prop
  | .hoist d => d ∈ ds
  | .blocks d maj min n => d ∈ ds ∧ maj ≠ min ∧ (maj = d ∨ maj ∉ ds) ∧ (min = d ∨ min ∉ ds) ∧ 0 < n

/-- The index as a number. -/
def State.number (st : State) (d : Dim) : Nat := ((st (.idx d)).bind Val.nat?).getD 0

/-- The indices of the original dimensions: index of the block · block size + index in the block. -/
def Tiling.back : Tiling → State → State
  | .hoist _, st => st
  | .blocks d maj min n, st => ((st.remove (.idx maj)).remove (.idx min)).set (.idx d) (.dyn (st.number maj * n + st.number min))

/-- Dimensions after all the parts. -/
def tiledDims (ds : List Dim) : List Tiling → List Dim
  | [] => ds
  | t :: ts => tiledDims (t.dims ds) ts

/-- Lengths after all the parts. -/
def tiledLengths (N : Dim → Nat) : List Tiling → Dim → Nat
  | [] => N
  | t :: ts => tiledLengths (t.lengths N) ts

/-- Each of the parts fits. -/
def Tiled (ds : List Dim) : List Tiling → Prop
  | [] => True
  | t :: ts => t.Fits ds ∧ Tiled (t.dims ds) ts

/-- The block sizes divide the lengths. -/
def DividesAll (N : Dim → Nat) : List Tiling → Prop
  | [] => True
  | t :: ts => (match t with
    | .hoist _ => True
    | .blocks d _ _ n => n ∣ N d) ∧ DividesAll (t.lengths N) ts

/-- The original indices, through all the parts. -/
def tiledBack : List Tiling → State → State
  | [], st => st
  | t :: ts, st => t.back (tiledBack ts st)

/-! ### Blocks -/

theorem split_absent {ds : List Dim} {d maj min : Dim} (h : d ∉ ds) :
    (ds.flatMap fun q => if q = d then [maj, min] else [q]) = ds := by
  induction ds with
  | nil => rfl
  | cons q ds ih =>
    simp only [List.mem_cons, not_or] at h
    rw [List.flatMap_cons, ih h.2, if_neg fun e => h.1 e.symm]
    rfl

theorem mem_split {ds : List Dim} {d maj min x : Dim} :
    x ∈ (ds.flatMap fun q => if q = d then [maj, min] else [q]) ↔ (x ∈ ds ∧ x ≠ d) ∨ (d ∈ ds ∧ (x = maj ∨ x = min)) := by
  simp only [List.mem_flatMap]
  constructor
  · rintro ⟨q, hq, hx⟩
    split at hx
    · next e => subst e; exact .inr ⟨hq, by simpa using hx⟩
    · next e => rw [List.mem_singleton] at hx; subst hx; exact .inl ⟨hq, e⟩
  · rintro (⟨h1, h2⟩ | ⟨h1, h2⟩)
    · exact ⟨x, h1, by simp [h2]⟩
    · exact ⟨d, h1, by simpa using h2⟩

theorem split_nodup {ds : List Dim} {d maj min : Dim} (hn : ds.Nodup) (hne : maj ≠ min) (hj : maj = d ∨ maj ∉ ds)
    (hi : min = d ∨ min ∉ ds) : (ds.flatMap fun q => if q = d then [maj, min] else [q]).Nodup := by
  induction ds with
  | nil => exact .nil
  | cons q ds ih =>
    simp only [List.mem_cons, not_or, List.nodup_cons] at hn hj hi
    have ih := ih hn.2 (hj.imp_right And.right) (hi.imp_right And.right)
    rw [List.flatMap_cons]
    by_cases hq : q = d
    · subst hq
      rw [if_pos rfl, split_absent hn.1]
      grind
    · rw [if_neg hq, List.singleton_append, List.nodup_cons, mem_split]
      refine ⟨?_, ih⟩
      grind

theorem loopSig_blocks (e : Nat) (ps : List (Dim × ArgLen)) {d maj min : Dim} (l : Val) (hn : (ps.map Prod.fst).Nodup)
    (hd : d ∈ ps.map Prod.fst) (hne : maj ≠ min) (hi : ∀ q ∈ ps.map Prod.fst, q ≠ d → q ≠ min) :
    ∃ ps', ((loopSig e ps).replace (Sig.intoBlocksRepl maj min) [d]).replace (Sig.setLengthRepl l) [min] = loopSig e ps' ∧
      ps'.map Prod.fst = (ps.map Prod.fst).flatMap fun q => if q = d then [maj, min] else [q] := by
  induction ps with
  | nil => cases hd
  | cons p ps ih =>
    rw [List.map_cons, List.nodup_cons] at hn
    by_cases hp : p.1 = d
    · refine ⟨(maj, .dynamic) :: (min, .ofVal l) :: ps, ?_, ?_⟩
      · simp [loopSig, Sig.replace, hp, Sig.intoBlocksRepl, hne, Sig.setLengthRepl]
      · rw [List.map_cons (l := ps), List.flatMap_cons, split_absent (hp ▸ hn.1), if_pos hp]
        rfl
    · rcases List.mem_cons.1 hd with rfl | hd
      · exact absurd rfl hp
      · obtain ⟨ps', h1, h2⟩ := ih hn.2 hd fun q hq => hi q (List.mem_cons_of_mem _ hq)
        have := hi p.1 (List.mem_cons_self ..) hp
        refine ⟨p :: ps', ?_, ?_⟩
        · simp [loopSig, Sig.replace, hp, this, h1]
        · rw [List.map_cons, List.map_cons, List.flatMap_cons, if_neg hp, h2]
          rfl

theorem loopSig_unused (e : Nat) (ps : List (Dim × ArgLen)) {ds : List Dim} (hp : ps.map Prod.fst = ds) {d x : Dim}
    (h : x = d ∨ x ∉ ds) : ¬(x ≠ d ∧ (loopSig e ps).anyAccept x = true) := by
  rintro ⟨h1, h2⟩
  rw [loopSig_absent e ps (by rw [hp]; exact h.resolve_left h1)] at h2
  cases h2

theorem blocks_box {s : Struct} {N : Dim → Nat} {ds : List Dim} (h : IsBox (s.sem .ideal) N ds) {d maj min : Dim} {n : Nat}
    (hf : (Tiling.blocks d maj min n).Fits ds) :
    IsBox ((s.apply (intoBlocksBy d maj min (.dyn n))).sem .ideal) ((Tiling.blocks d maj min n).lengths N)
      ((Tiling.blocks d maj min n).dims ds) := by
  obtain ⟨hn, ⟨e, ps, h1, h2⟩, h3⟩ := h
  obtain ⟨hd, hne, hj, hi, h0⟩ := hf
  have hi' : ∀ q ∈ ds, q ≠ d → q ≠ min := by
    rintro q hq hqd rfl
    exact hi.elim hqd (fun h => h hq)
  have hj' : ∀ q ∈ ds, q ≠ d → q ≠ maj := by
    rintro q hq hqd rfl
    exact hj.elim hqd (fun h => h hq)
  obtain ⟨ps', g1, g2⟩ := loopSig_blocks e ps (d := d) (maj := maj) (min := min) (.dyn n) (h2 ▸ hn) (h2 ▸ hd) hne (h2 ▸ hi')
  have hill : ¬(maj = min ∨ (maj ≠ d ∧ (loopSig e ps).anyAccept maj = true) ∨ (min ≠ d ∧ (loopSig e ps).anyAccept min = true)) := by
    rintro (h | h | h)
    · exact hne h
    · exact loopSig_unused e ps h2 hj h
    · exact loopSig_unused e ps h2 hi h
  refine ⟨split_nodup hn hne hj hi, ⟨e, ps', ?_, by rw [g2, h2]; rfl⟩, fun q hq st hst hx => ?_⟩
  · simp only [intoBlocksBy, Struct.apply, Struct.sem, View.sem, ViewSem.toSem, setLengthSem, intoBlocksSem, h1]
    rw [if_neg hill]
    exact g1
  · have hsub : ∀ x ∈ ds, (x = d ∨ st (.idx x) = none) → (x = d → st (.idx maj) = none) →
        ∃ u l, intoBlocksSub .ideal d maj min (s.sem .ideal) (st.set (.len min) (.dyn n)) = some u ∧
          (s.sem .ideal).len x u = some l ∧ l.Num (N x) := by
      intro x hxd hxi hxm
      have hc : ∀ q, (blocksClean d maj min (st.set (.len min) (.dyn n))) (.len q) = none := by
        intro q
        simp only [blocksClean, State.removeAll, State.set, List.mem_cons, List.not_mem_nil, or_false]
        split
        · rfl
        · next h => rw [if_neg (by intro e; cases e; simp at h), hst]
      have hxn : (blocksClean d maj min (st.set (.len min) (.dyn n))) (.idx x) = none := by
        simp only [blocksClean, State.removeAll, State.set, List.mem_cons, List.not_mem_nil, or_false]
        split
        · rfl
        · next h =>
          rcases hxi with rfl | hxi
          · simp at h
          · simp [hxi]
      have hmaj : (st.set (.len min) (.dyn n)) (.len maj) = none := by simp [State.set, hne, hst]
      have hmin : (st.set (.len min) (.dyn n)) (.len min) = some (.dyn n) := by simp [State.set]
      have hia : (st.set (.len min) (.dyn n)) (.idx maj) = st (.idx maj) := by simp [State.set]
      have hib : (st.set (.len min) (.dyn n)) (.idx min) = st (.idx min) := by simp [State.set]
      by_cases hx : x = d
      · obtain ⟨l, k1, k2⟩ := h3 x hxd _ hc hxn
        exact ⟨_, l, by simp only [intoBlocksSub, hmin, hmaj, hia, hxm hx], k1, k2⟩
      · simp only [intoBlocksSub, hmin, hmaj, hia, hib]
        split
        · next i j _ _ =>
          obtain ⟨l, k1, k2⟩ := h3 x hxd ((blocksClean d maj min (st.set (.len min) (.dyn n))).set (.idx d)
            ((i.mul .ideal (.dyn n)).add .ideal j)) (fun q => by simp [State.set, hc])
            (by rw [State.set, if_neg (by simpa using hx)]; exact hxn)
          exact ⟨_, l, rfl, k1, k2⟩
        · obtain ⟨l, k1, k2⟩ := h3 x hxd _ hc hxn
          exact ⟨_, l, rfl, k1, k2⟩
    by_cases hqm : q = min
    · subst hqm
      refine ⟨.dyn n, ?_, by simp [Tiling.lengths]; rfl⟩
      simp [intoBlocksBy, Struct.apply, Struct.sem, View.sem, ViewSem.toSem, setLengthSem, intoBlocksSem, guardLen, State.has,
        State.set, hx, hst, hne]
    · by_cases hqj : q = maj
      · subst hqj
        obtain ⟨u, l, k0, k1, k2⟩ := hsub d hd (.inl rfl) fun _ => hx
        refine ⟨l.div .ideal (.dyn n), ?_, by simpa [Tiling.lengths, hqm] using Val.num_div k2 (show (Val.dyn n).Num n from rfl) h0⟩
        have hmaj : (st.set (.len min) (.dyn n)) (.len q) = none := by simp [State.set, hne, hst]
        have hia : (st.set (.len min) (.dyn n)) (.idx q) = none := by simp [State.set, hx]
        simp [intoBlocksBy, Struct.apply, Struct.sem, View.sem, ViewSem.toSem, setLengthSem, intoBlocksSem, guardLen, State.has,
          hmaj, hia, hqm, k0, k1, Struct.hasLen_of_len k1]
      · have hq' := (mem_split.1 hq).resolve_right (by simp [hqm, hqj])
        obtain ⟨u, l, k0, k1, k2⟩ := hsub q hq'.1 (.inr hx) fun h => absurd h hq'.2
        refine ⟨l, ?_, by simpa [Tiling.lengths, hqm, hqj] using k2⟩
        simp [intoBlocksBy, Struct.apply, Struct.sem, View.sem, ViewSem.toSem, setLengthSem, intoBlocksSem, guardLen,
          hqm, hqj, hq'.2, k0, k1, Struct.hasLen_of_len k1]

/-! ### States -/

/-- The state of an iteration: it has the indices of the dimensions and no lengths. -/
structure IterState (ds : List Dim) (st : State) : Prop where
  idx : ∀ q ∈ ds, ∃ k, st (.idx q) = some (.dyn k)
  len : ∀ q, st (.len q) = none

theorem nestedLoops_full {N : Dim → Nat} {ds : List Dim} {st u : State} (hn : ∀ q, st (.len q) = none)
    (h : u ∈ nestedLoops N ds st) : IterState ds u ∧ ∀ q, q ∉ ds → u (.idx q) = st (.idx q) := by
  induction ds generalizing st with
  | nil =>
    simp only [nestedLoops, List.mem_singleton] at h
    subst h
    exact ⟨⟨fun _ h => (nomatch h), hn⟩, fun _ _ => rfl⟩
  | cons d ds ih =>
    simp only [nestedLoops, List.mem_flatMap] at h
    obtain ⟨i, -, hu⟩ := h
    obtain ⟨h1, h2⟩ := ih (fun q => by simp [State.set, hn]) hu
    refine ⟨⟨fun q hq => ?_, h1.len⟩, fun q hq => ?_⟩
    · by_cases hqs : q ∈ ds
      · exact h1.idx q hqs
      · rcases List.mem_cons.1 hq with rfl | hq
        · exact ⟨i, by rw [h2 q hqs]; simp [State.set]⟩
        · exact absurd hq hqs
    · simp only [List.mem_cons, not_or] at hq
      rw [h2 q hq.2]
      simp [State.set, hq.1]

theorem back_full {ds : List Dim} {t : Tiling} (hf : t.Fits ds) {st : State} (h : IterState (t.dims ds) st) : IterState ds (t.back st) := by
  cases t with
  | hoist d => exact ⟨fun q hq => h.idx q ((List.perm_cons_erase hf).mem_iff.1 hq), h.len⟩
  | blocks d maj min n =>
    refine ⟨fun q hq => ?_, fun q => by simp [Tiling.back, State.set, State.remove, h.len]⟩
    obtain ⟨hd, hne, hj, hi, -⟩ := hf
    by_cases hqd : q = d
    · exact ⟨_, by simp [Tiling.back, State.set, hqd]; rfl⟩
    · obtain ⟨k, hk⟩ := h.idx q (mem_split.2 (.inl ⟨hq, hqd⟩))
      have h1 : q ≠ maj := by rintro rfl; exact hj.elim hqd fun h => h hq
      have h2 : q ≠ min := by rintro rfl; exact hi.elim hqd fun h => h hq
      exact ⟨k, by simp [Tiling.back, State.set, State.remove, hqd, h1, h2, hk]⟩

theorem stateAt_tiling (s : Struct) {ds : List Dim} {t : Tiling} (hf : t.Fits ds) {st : State} (h : IterState (t.dims ds) st) :
    stateAt .ideal s t.views st = some (t.back st) := by
  cases t with
  | hoist d => rfl
  | blocks d maj min n =>
    obtain ⟨hd, hne, hj, hi, -⟩ := hf
    obtain ⟨a, ha⟩ := h.idx maj (mem_split.2 (.inr ⟨hd, .inl rfl⟩))
    obtain ⟨b, hb⟩ := h.idx min (mem_split.2 (.inr ⟨hd, .inr rfl⟩))
    have hmaj : (st.set (.len min) (.dyn n)) (.len maj) = none := by simp [State.set, hne, h.len]
    have hmin : (st.set (.len min) (.dyn n)) (.len min) = some (.dyn n) := by simp [State.set]
    have hia : (st.set (.len min) (.dyn n)) (.idx maj) = some (.dyn a) := by simp [State.set, ha]
    have hib : (st.set (.len min) (.dyn n)) (.idx min) = some (.dyn b) := by simp [State.set, hb]
    have hv : (((Val.dyn a).mul .ideal (.dyn n)).add .ideal (.dyn b)) = .dyn (a * n + b) := rfl
    have hna : st.number maj = a := by simp [State.number, ha, Val.nat?]
    have hnb : st.number min = b := by simp [State.number, hb, Val.nat?]
    have hs : stateAt .ideal s (Tiling.blocks d maj min n).views st =
        intoBlocksSub .ideal d maj min (s.sem .ideal) (st.set (.len min) (.dyn n)) := by
      simp only [Tiling.views, intoBlocksBy, stateAt, View.sem, intoBlocksSem, setLengthSem, bind, Option.bind_some]
    rw [hs]
    simp only [intoBlocksSub, hmin, hmaj, hia, hib, hv, Tiling.back, hna, hnb]
    congr 1
    funext x
    simp only [State.set, State.remove, blocksClean, State.removeAll, List.mem_cons, List.not_mem_nil, or_false]
    cases x with
    | idx q => by_cases q = d <;> by_cases q = maj <;> by_cases q = min <;> simp_all
    | len q => by_cases q = d <;> by_cases q = maj <;> by_cases q = min <;> simp_all [h.len]

theorem tiled_box {s : Struct} {N : Dim → Nat} {ds : List Dim} (h : IsBox (s.sem .ideal) N ds) {ts : List Tiling} (ht : Tiled ds ts) :
    IsBox ((s.apply (ts.flatMap Tiling.views)).sem .ideal) (tiledLengths N ts) (tiledDims ds ts) := by
  induction ts generalizing s N ds with
  | nil => exact h
  | cons t ts ih =>
    rw [List.flatMap_cons, Struct.apply_append]
    refine ih ?_ ht.2
    cases t with
    | hoist d => exact hoist_box h ht.1
    | blocks d maj min n => exact blocks_box h ht.1

theorem stateAt_tiled {ds : List Dim} (s : Struct) {ts : List Tiling} (ht : Tiled ds ts) {st : State} (h : IterState (tiledDims ds ts) st) :
    stateAt .ideal s (ts.flatMap Tiling.views) st = some (tiledBack ts st) ∧ IterState ds (tiledBack ts st) := by
  induction ts generalizing s ds with
  | nil => exact ⟨rfl, h⟩
  | cons t ts ih =>
    obtain ⟨h1, h2⟩ := ih (s.apply t.views) ht.2 h
    rw [List.flatMap_cons, stateAt_append, h1]
    exact ⟨stateAt_tiling s ht.1 h2, back_full ht.1 h2⟩

theorem lengths_other {N : Dim → Nat} {d maj min q : Dim} {n : Nat} (h1 : q ≠ maj) (h2 : q ≠ min) :
    (Tiling.blocks d maj min n).lengths N q = N q := by
  simp [Tiling.lengths, h1, h2]

theorem back_loops {N : Dim → Nat} {d maj min : Dim} {n : Nat} {ds : List Dim} (h : ∀ q ∈ ds, q ≠ d ∧ q ≠ maj ∧ q ≠ min) (st : State) :
    (nestedLoops ((Tiling.blocks d maj min n).lengths N) ds st).map (Tiling.blocks d maj min n).back =
      nestedLoops N ds ((Tiling.blocks d maj min n).back st) := by
  induction ds generalizing st with
  | nil => rfl
  | cons q ds ih =>
    obtain ⟨h1, h2, h3⟩ := h q (List.mem_cons_self ..)
    simp only [nestedLoops, List.map_flatMap, lengths_other h2 h3]
    congr 1
    funext i
    rw [ih fun q hq => h q (List.mem_cons_of_mem _ hq)]
    congr 1
    funext x
    simp only [Tiling.back, State.set, State.remove, State.number]
    cases x with
    | idx x => grind
    | len x => simp

theorem range_in_blocks (m n : Nat) :
    (List.range (m * n)) = (List.range m).flatMap fun i => (List.range n).map fun j => i * n + j := by
  induction m with
  | zero => simp
  | succ m ih => rw [Nat.succ_mul, List.range_add, ih, List.range_succ, List.flatMap_append]; simp

theorem loops_in_blocks {N : Dim → Nat} {d maj min : Dim} {n : Nat} {ds : List Dim} (hn : ds.Nodup)
    (hf : (Tiling.blocks d maj min n).Fits ds) (hd : n ∣ N d) {st : State} (h1 : st (.idx d) = none) (h2 : st (.idx maj) = none)
    (h3 : st (.idx min) = none) :
    (nestedLoops ((Tiling.blocks d maj min n).lengths N) ((Tiling.blocks d maj min n).dims ds) st).map
      (Tiling.blocks d maj min n).back = nestedLoops N ds st := by
  obtain ⟨hm, hne, hj, hi, h0⟩ := hf
  induction ds generalizing st with
  | nil => cases hm
  | cons q ds ih =>
    rw [List.nodup_cons] at hn
    simp only [List.mem_cons, not_or] at hj hi
    by_cases hq : q = d
    · subst hq
      have hds : (Tiling.blocks q maj min n).dims (q :: ds) = maj :: min :: ds := by
        simp only [Tiling.dims, List.flatMap_cons, if_true, split_absent hn.1]
        rfl
      have hl1 : (Tiling.blocks q maj min n).lengths N maj = N q / n := by simp [Tiling.lengths, hne]
      have hl2 : (Tiling.blocks q maj min n).lengths N min = n := by simp [Tiling.lengths]
      obtain ⟨m, hmn⟩ := hd
      have hmn' : N q / n = m := by rw [hmn, Nat.mul_div_cancel_left _ h0]
      rw [hds]
      simp only [nestedLoops, hl1, hl2, hmn', List.map_flatMap]
      rw [hmn, Nat.mul_comm, range_in_blocks, List.flatMap_assoc]
      congr 1
      funext i
      rw [List.flatMap_map]
      congr 1
      funext j
      rw [back_loops fun x hx => ⟨by rintro rfl; exact hn.1 hx, by grind, by grind⟩]
      congr 1
      funext x
      simp only [Tiling.back, State.set, State.remove, State.number]
      cases x with
      | idx x => by_cases x = q <;> by_cases x = maj <;> by_cases x = min <;> simp_all [Val.nat?]
      | len x => simp
    · have hds : (Tiling.blocks d maj min n).dims (q :: ds) = q :: (Tiling.blocks d maj min n).dims ds := by
        simp only [Tiling.dims, List.flatMap_cons, if_neg hq]
        rfl
      have hqj : q ≠ maj := by grind
      have hqi : q ≠ min := by grind
      rw [hds]
      simp only [nestedLoops, lengths_other hqj hqi, List.map_flatMap]
      congr 1
      funext i
      exact ih hn.2 (by simp [State.set, Ne.symm hq, h1]) (by simp [State.set, Ne.symm hqj, h2])
        (by simp [State.set, Ne.symm hqi, h3]) ((List.mem_cons.1 hm).resolve_left fun e => hq e.symm)
        (hj.imp_right And.right) (hi.imp_right And.right)

/-! ### Theorems -/

variable {N : Dim → Nat} {e : Nat} {ds : List Dim} {ts : List Tiling}

/-- C86: `traverser(array ^ ...).for_each(f)`, with `into_blocks` and `hoist` in any order, is nested loops over the
dimensions that these make: `into_blocks` puts the two new dimensions in the place of the old one, `hoist` puts a dimension
first. -/
theorem C86_structure (hn : ds.Nodup) (ht : Tiled ds ts) :
    (Traverser.mk ((arrayOver N e ds).apply (ts.flatMap Tiling.views)) []).forEach .ideal [] =
      some (nestedLoops (tiledLengths N ts) (tiledDims ds ts) .empty) := by
  have hb := tiled_box (arrayOver_box .ideal N e hn) ht
  obtain ⟨e', ps, h1, h2⟩ := hb.sig
  have hs : (((arrayOver N e ds).apply (ts.flatMap Tiling.views)).sem .ideal).sig.tree = chain (tiledDims ds ts) := by
    rw [h1, loopSig_tree, h2]
  have := run_box (hs := []) hb hb.nodup fun _ h => h
  simpa only [Traverser.forEach, Traverser.forSections, Traverser.top, Struct.apply, List.map_nil, hs, bind] using this

/-- C86: `traverser(array).order(...).for_each(f)` is the same loops, and the states have the original indices. -/
theorem C86_for_each (hn : ds.Nodup) (ht : Tiled ds ts) :
    (Traverser.mk (arrayOver N e ds) (ts.flatMap Tiling.views)).forEach .ideal [] =
      some ((nestedLoops (tiledLengths N ts) (tiledDims ds ts) .empty).map (tiledBack ts)) := by
  rw [forEach_top]
  simp only [Traverser.top, C86_structure hn ht, Option.bind_some]
  have h := mapM_map (f := stateAt .ideal (arrayOver N e ds) (ts.flatMap Tiling.views)) (g := tiledBack ts)
    (l := nestedLoops (tiledLengths N ts) (tiledDims ds ts) .empty)
    fun u hu => (stateAt_tiled (arrayOver N e ds) ht (nestedLoops_full (fun _ => rfl) hu).1).1
  exact h

theorem tiled_loops_blocks {N : Dim → Nat} {ds : List Dim} {ts : List Tiling} (hn : ds.Nodup) (ht : Tiled ds ts)
    (hb : ∀ t ∈ ts, ∃ d maj min n, t = .blocks d maj min n) (hd : DividesAll N ts) :
    (nestedLoops (tiledLengths N ts) (tiledDims ds ts) .empty).map (tiledBack ts) = nestedLoops N ds .empty := by
  induction ts generalizing N ds with
  | nil => exact List.map_id _
  | cons t ts ih =>
    obtain ⟨d, maj, min, n, rfl⟩ := hb t (List.mem_cons_self ..)
    have hn' : ((Tiling.blocks d maj min n).dims ds).Nodup := split_nodup hn ht.1.2.1 ht.1.2.2.1 ht.1.2.2.2.1
    have h := congrArg (List.map (Tiling.blocks d maj min n).back)
      (ih hn' ht.2 (fun t h => hb t (List.mem_cons_of_mem _ h)) hd.2)
    rw [List.map_map] at h
    exact h.trans (loops_in_blocks hn ht.1 hd.1 rfl rfl rfl)

theorem tiled_loops_perm {N : Dim → Nat} {ds : List Dim} {ts : List Tiling} (hn : ds.Nodup) (ht : Tiled ds ts) (hd : DividesAll N ts) :
    ((nestedLoops (tiledLengths N ts) (tiledDims ds ts) .empty).map (tiledBack ts)).Perm (nestedLoops N ds .empty) := by
  induction ts generalizing N ds with
  | nil => exact .of_eq (List.map_id _)
  | cons t ts ih =>
    cases t with
    | hoist d =>
      have hp : (d :: ds.erase d).Perm ds := (List.perm_cons_erase ht.1).symm
      exact (ih (hp.nodup_iff.2 hn) ht.2 hd.2).trans (nestedLoops_perm hp (hp.nodup_iff.2 hn) .empty)
    | blocks d maj min n =>
      have hn' : ((Tiling.blocks d maj min n).dims ds).Nodup := split_nodup hn ht.1.2.1 ht.1.2.2.1 ht.1.2.2.2.1
      have h := (ih hn' ht.2 hd.2).map (Tiling.blocks d maj min n).back
      rw [List.map_map] at h
      exact h.trans (.of_eq (loops_in_blocks hn ht.1 hd.1 rfl rfl rfl))

/-- C86: "The traversal in any of the following will be the same": blocks that are not hoisted do not change the order, if
the lengths are multiples of the block sizes. -/
theorem C86_blocks_keep_the_order (hn : ds.Nodup) (ht : Tiled ds ts)
    (hb : ∀ t ∈ ts, ∃ d maj min n, t = .blocks d maj min n) (hd : DividesAll N ts) :
    (Traverser.mk (arrayOver N e ds) (ts.flatMap Tiling.views)).forEach .ideal [] =
      (Traverser.mk (arrayOver N e ds) []).forEach .ideal [] := by
  have h0 := C85_for_each (A := .ideal) (N := N) (e := e) (hs := []) hn fun _ h => nomatch h
  rw [C86_for_each hn ht]
  exact Eq.trans (congrArg some (tiled_loops_blocks hn ht hb hd)) h0.symm

/-- C86: blocks and hoists in any order have the same iterations as the default order, each as often, if the lengths are
multiples of the block sizes. -/
theorem C86_same_iterations (hn : ds.Nodup) (ht : Tiled ds ts) (hd : DividesAll N ts) :
    ∃ sts sts', (Traverser.mk (arrayOver N e ds) []).forEach .ideal [] = some sts ∧
      (Traverser.mk (arrayOver N e ds) (ts.flatMap Tiling.views)).forEach .ideal [] = some sts' ∧ sts'.Perm sts :=
  ⟨_, _, C85_for_each (hs := []) hn (fun _ h => nomatch h), C86_for_each hn ht, tiled_loops_perm hn ht hd⟩

/-! ### Examples

The matrix of the documentation: `scalar<float>() ^ vector<'j'>(12) ^ vector<'i'>(8)`, with `'i'`, `'j'`, `'I'`, `'J'` as
`0`, `1`, `2`, `3`. -/

/-- The lengths of the matrix of the documentation. -/
def tileLengths (d : Dim) : Nat := if d = 0 then 8 else 12

/-- `into_blocks<'j', 'J', 'j'>(4) ^ hoist<'J'>()` -/
def tileJ : List Tiling := [.blocks 1 3 1 4, .hoist 3]

/-- `into_blocks<'i', 'I', 'i'>(4) ^ hoist<'I'>()` -/
def tileI : List Tiling := [.blocks 0 2 0 4, .hoist 2]

example : arrayOver tileLengths 4 [0, 1] = ((Struct.scalar 4 4).vec 1 12).vec 0 8 := rfl

example : (tileJ ++ tileI).flatMap Tiling.views =
    [.intoBlocks 1 3 1, .setLength 1 (.dyn 4), .hoist 3, .intoBlocks 0 2 0, .setLength 0 (.dyn 4), .hoist 2] := rfl

/-- "`hoist` changed the order to 'J', 'i', 'j'", "the order to 'I', 'J', 'i', 'j'". -/
example : tiledDims [0, 1] tileJ = [3, 0, 1] ∧ tiledDims [0, 1] (tileJ ++ tileI) = [2, 3, 0, 1] := by decide

theorem tileJ_fits : Tiled [0, 1] tileJ := by simp [Tiled, tileJ, Tiling.Fits, Tiling.dims]

theorem tiles_fit : Tiled [0, 1] (tileJ ++ tileI) := by
  simp [Tiled, tileJ, tileI, Tiling.Fits, Tiling.dims]

/-- "Tiling in one dimension": vertical blocks of size 4, each row by row. -/
example : (Traverser.mk (arrayOver tileLengths 4 [0, 1]) (tileJ.flatMap Tiling.views)).forEach .ideal [] =
    some ((List.range 3).flatMap fun J => (List.range 8).flatMap fun i => (List.range 4).map fun j => atIJ i (J * 4 + j)) := by
  rw [C86_for_each (by decide) tileJ_fits]
  have hd : tiledDims [0, 1] tileJ = [3, 0, 1] := by decide
  have hl : tiledLengths tileLengths tileJ 3 = 3 ∧ tiledLengths tileLengths tileJ 0 = 8 ∧ tiledLengths tileLengths tileJ 1 = 4 := by
    decide
  rw [hd]
  have hs : ∀ J i j, tiledBack tileJ (((State.empty.set (.idx 3) (.dyn J)).set (.idx 0) (.dyn i)).set (.idx 1) (.dyn j)) =
      atIJ i (J * 4 + j) := by
    intro J i j
    funext x
    cases x with
    | idx x =>
      simp [tiledBack, tileJ, Tiling.back, State.number, State.set, State.remove, atIJ, Val.nat?, State.empty]
      grind
    | len x => rfl
  simp only [nestedLoops, hl.1, hl.2.1, hl.2.2, List.map_flatMap, List.map_cons, List.map_nil, hs]
  simp only [List.map_eq_flatMap]

/-- "Tiling in both dimensions": square tiles of size 4 by 4, each row by row. -/
example : (Traverser.mk (arrayOver tileLengths 4 [0, 1]) ((tileJ ++ tileI).flatMap Tiling.views)).forEach .ideal [] =
    some ((List.range 2).flatMap fun I => (List.range 3).flatMap fun J => (List.range 4).flatMap fun i => (List.range 4).map
      fun j => atIJ (I * 4 + i) (J * 4 + j)) := by
  rw [C86_for_each (by decide) tiles_fit]
  have hd : tiledDims [0, 1] (tileJ ++ tileI) = [2, 3, 0, 1] := by decide
  have hl : tiledLengths tileLengths (tileJ ++ tileI) 2 = 2 ∧ tiledLengths tileLengths (tileJ ++ tileI) 3 = 3 ∧
      tiledLengths tileLengths (tileJ ++ tileI) 0 = 4 ∧ tiledLengths tileLengths (tileJ ++ tileI) 1 = 4 := by
    decide
  rw [hd]
  have hs : ∀ I J i j, tiledBack (tileJ ++ tileI) ((((State.empty.set (.idx 2) (.dyn I)).set (.idx 3) (.dyn J)).set (.idx 0)
      (.dyn i)).set (.idx 1) (.dyn j)) = atIJ (I * 4 + i) (J * 4 + j) := by
    intro I J i j
    funext x
    cases x with
    | idx x =>
      simp [tiledBack, tileJ, tileI, Tiling.back, State.number, State.set, State.remove, atIJ, Val.nat?, State.empty]
      grind
    | len x => rfl
  simp only [nestedLoops, hl.1, hl.2.1, hl.2.2.1, hl.2.2.2, List.map_flatMap, List.map_cons, List.map_nil, hs]
  simp only [List.map_eq_flatMap]

/-- "Any combination of blocks" is the default traversal. -/
example : (Traverser.mk (arrayOver tileLengths 4 [0, 1]) ([Tiling.blocks 0 2 0 4, .blocks 1 3 1 4].flatMap Tiling.views)).forEach
    .ideal [] = (Traverser.mk (arrayOver tileLengths 4 [0, 1]) []).forEach .ideal [] :=
  C86_blocks_keep_the_order (by decide) (by simp [Tiled, Tiling.Fits, Tiling.dims]) (by simp)
    (by simp [DividesAll, tileLengths, Tiling.lengths])

/-- The tiles have the same iterations. -/
example : ∃ sts sts', (Traverser.mk (arrayOver tileLengths 4 [0, 1]) []).forEach .ideal [] = some sts ∧
    (Traverser.mk (arrayOver tileLengths 4 [0, 1]) ((tileJ ++ tileI).flatMap Tiling.views)).forEach .ideal [] = some sts' ∧
    sts'.Perm sts :=
  C86_same_iterations (by decide) tiles_fit (by simp [DividesAll, tileJ, tileI, tileLengths, Tiling.lengths])

end Noarr
