import Verif.DimSeq
import Verif.SectionTrees
import Verif.Like
import Mathlib.Data.List.Perm.Basic
import Mathlib.Data.List.Nodup

/-
C67: sequences and trees of dimensions.
-/

namespace Noarr

/-! ### Sequences -/

theorem dimSeqContains_iff (q : Dim) (ds : List Dim) : dimSeqContains q ds = true ↔ q ∈ ds := by
  induction ds with
  | nil => simp [dimSeqContains]
  | cons d ds ih => simp [dimSeqContains, ih]

theorem dimSeqConcat_pair (a b : List Dim) : dimSeqConcat [a, b] = some (a ++ b) := by
  rw [dimSeqConcat, dimSeqConcat]

/-- Concatenating sequences puts them one after another. -/
theorem C67_concat (a : List Dim) (l : List (List Dim)) : dimSeqConcat (a :: l) = some (a :: l).flatten := by
  induction l generalizing a with
  | nil => rw [dimSeqConcat]; simp
  | cons b l ih => rw [dimSeqConcat, ih]; simp

/-- Filtering a sequence keeps the accepted dimensions, in their order. -/
theorem C67_filter_sequence (keep : Dim → Bool) (ds : List Dim) : dimSeqFilter keep ds = some (ds.filter keep) := by
  induction ds with
  | nil => rfl
  | cons d ds ih =>
    simp only [dimSeqFilter, ih, Option.bind_eq_bind, Option.bind_some, dimSeqConcat_pair]
    by_cases h : keep d <;> simp [h]

example : dimSeqFilter (fun d => dimSeqContains d [3, 1]) [0, 1, 2, 3] = some [1, 3] := by
  rw [C67_filter_sequence]; rfl

/-! ### Trees without alternatives are sequences -/

namespace DimTree

/-- From a sequence to a tree and back. -/
theorem C67_round_trip (ds : List Dim) : (ofSeq ds).toSeq = some ds := by
  induction ds with
  | nil => rfl
  | cons d ds ih => simp [ofSeq, toSeq, ih, dimSeqConcat_pair]

/-- The trees that can be made into a sequence are those of sequences, and no two sequences have the same tree. -/
theorem C67_to_sequence_iff (t : DimTree) (ds : List Dim) : t.toSeq = some ds ↔ t = ofSeq ds := by
  refine ⟨fun h => ?_, fun h => h ▸ C67_round_trip ds⟩
  induction t generalizing ds with
  | leaf => simp only [toSeq, Option.some.injEq] at h; subst h; rfl
  | bad => simp [toSeq] at h
  | node d n bs ih =>
    simp only [toSeq] at h
    split at h
    · next hn =>
      subst hn
      simp only [Option.bind_eq_bind, dimSeqConcat_pair] at h
      obtain ⟨r, hr, h⟩ := Option.bind_eq_some_iff.1 h
      simp only [Option.some.injEq] at h
      subst h
      have : bs = fun _ => ofSeq r := by
        funext i
        rw [show i = ⟨0, by omega⟩ from Fin.ext (by omega)]
        exact ih _ r hr
      simp [ofSeq, this]
    · simp at h

theorem ofSeq_contains (q : Dim) (ds : List Dim) : (ofSeq ds).contains q = dimSeqContains q ds := by
  induction ds with
  | nil => rfl
  | cons d ds ih =>
    rw [Bool.eq_iff_iff]
    simp only [ofSeq, contains, ih, dimSeqContains, Bool.or_eq_true, beq_iff_eq, decide_eq_true_eq]
    exact or_congr eq_comm ⟨fun ⟨_, h⟩ => h, fun h => ⟨0, h⟩⟩

/-- A tree made of a sequence contains the dimensions of the sequence, and filtering the one is filtering the other. -/
theorem C67_filter_tree_of_sequence (keep : Dim → Bool) (ds : List Dim) :
    (∀ q, (ofSeq ds).contains q = true ↔ q ∈ ds) ∧ (ofSeq ds).filter keep = ofSeq (ds.filter keep) := by
  refine ⟨fun q => by rw [ofSeq_contains, dimSeqContains_iff], ?_⟩
  induction ds with
  | nil => rfl
  | cons d ds ih =>
    by_cases h : keep d <;> simp [ofSeq, filter, h, ih]

theorem ofSeq_branches {q : Dim} {ds : List Dim} (h : q ∈ ds) : (ofSeq ds).branches q = 1 := by
  induction ds with
  | nil => simp at h
  | cons d ds ih =>
    by_cases hd : d = q
    · simp [ofSeq, branches, hd]
    · have := ih (by simpa [Ne.symm hd] using h)
      simp [ofSeq, branches, hd, this, List.finRange_succ]

theorem ofSeq_fix {q : Dim} {ds : List Dim} : (ofSeq ds).fix q 0 = ofSeq (ds.erase q) := by
  induction ds with
  | nil => rfl
  | cons d ds ih =>
    by_cases hd : d = q
    · simp [ofSeq, fix, hd]
    · simp [ofSeq, fix, hd, ih]

/-- Reordering a tree made of a sequence: the given dimensions come first, in the given order, then the others in their
order. -/
theorem C67_reorder_sequence (ds vs : List Dim) (hd : ds.Nodup) (hv : vs.Nodup) (hs : vs ⊆ ds) :
    ((ofSeq ds).reorder vs).toSeq = some (vs ++ ds.filter fun d => !vs.contains d) := by
  rw [C67_to_sequence_iff]
  induction vs with
  | nil => simp [reorder]
  | cons v vs ih =>
    rw [List.nodup_cons] at hv
    rw [reorder, ih hv.2 fun x hx => hs (List.mem_cons_of_mem _ hx), hoist]
    have hm : v ∈ vs ++ ds.filter fun d => !vs.contains d := by
      refine List.mem_append_right _ (List.mem_filter.2 ⟨hs (by simp), by simp [hv.1]⟩)
    have hb := ofSeq_branches hm
    have key : ∀ (n : Nat) (hn : n = 1) (t : DimTree), node v n (fun i => t.fix v i.val) = node v 1 (fun _ => t.fix v 0) := by
      intro n hn t
      subst hn
      congr 1
      funext i
      rw [show (i : Nat) = 0 by omega]
    rw [key _ hb, ofSeq_fix]
    show _ = node v 1 fun _ => ofSeq _
    rw [List.erase_append_right _ hv.1, (hd.filter _).erase_eq_filter, List.filter_filter]
    rw [List.filter_congr (q := fun d => !(v :: vs).contains d)]
    · rfl
    · intro x _
      by_cases h1 : x = v <;> by_cases h2 : x ∈ vs <;> simp [h1, h2]

example : ((ofSeq [0, 1, 2, 3]).reorder [3, 1]).toSeq = some [3, 1, 0, 2] := by
  rw [C67_reorder_sequence _ _ (by decide) (by decide) (by decide)]; rfl

/-! ### Trees with alternatives (tuples) -/

theorem ways_contains {t : DimTree} {v : Dim} (h : t.contains v = false) {w : List (Dim × Nat)} (hw : w ∈ t.ways) :
    v ∉ w.map Prod.fst := by
  induction t generalizing w with
  | leaf => simp [ways] at hw; simp [hw]
  | bad => simp [ways] at hw
  | node d n bs ih =>
    simp only [contains, Bool.or_eq_false_iff, beq_eq_false_iff_ne, decide_eq_false_iff_not, not_exists,
      Bool.not_eq_true] at h
    simp only [ways, List.mem_flatMap, List.mem_map] at hw
    obtain ⟨i, -, x, hx, rfl⟩ := hw
    simp only [List.map_cons, List.mem_cons, not_or]
    exact ⟨Ne.symm h.1, ih i (h.2 i) hx⟩

/-- Filtering: where it compiles, the ways are those of the tree without the dimensions that are not kept. -/
theorem C67_filter_ways (keep : Dim → Bool) (t : DimTree) (h : (t.filter keep).sound) :
    (t.filter keep).ways = t.ways.map fun w => w.filter fun dk => keep dk.1 := by
  induction t with
  | leaf => rfl
  | bad => simp [filter, sound] at h
  | node d n bs ih =>
    simp only [filter] at h ⊢
    split at h
    · next hk =>
      simp only [hk, if_true, ways, List.map_flatMap]
      refine List.flatMap_congr fun i _ => ?_
      rw [ih i (h i)]
      simp [Function.comp_def, hk]
    · next hk =>
      split at h
      · next hn =>
        subst hn
        simp only [hk, ways, List.map_flatMap]
        have := ih _ h
        simp only [Fin.zero_eta] at this
        simp [List.finRange_succ, this, Function.comp_def, hk]
      · exact h.elim

/-- Filtering compiles if and only if the dimensions that are left out have one branch wherever filtering comes across
them. -/
def oneWay (keep : Dim → Bool) : DimTree → Prop
  | leaf => True
  | node d n bs => (keep d = false → n = 1) ∧ ∀ i, (bs i).oneWay keep
  | bad => False

theorem C67_filter_compiles (keep : Dim → Bool) (t : DimTree) : (t.filter keep).sound ↔ t.oneWay keep := by
  induction t with
  | leaf => simp [filter, sound, oneWay]
  | bad => simp [filter, sound, oneWay]
  | node d n bs ih =>
    simp only [filter, oneWay]
    split
    · next hk => simp [sound, hk, ih]
    · next hk =>
      split
      · next hn =>
        subst hn
        simp only [implies_true, true_and, ih]
        exact ⟨fun h i => by rwa [show i = ⟨0, by omega⟩ from Fin.ext (by omega)], fun h => h _⟩
      · next hn => simp [sound, hk, hn]

/-- On every way there is the dimension `v`, once, with `n` branches. -/
def Every (v : Dim) (n : Nat) : DimTree → Prop
  | leaf => False
  | node d m bs => if d = v then m = n ∧ ∀ i, (bs i).contains v = false else 0 < m ∧ ∀ i, (bs i).Every v n
  | bad => False

theorem Every.branches {v : Dim} {n : Nat} {t : DimTree} (h : t.Every v n) : t.branches v = n := by
  induction t with
  | leaf => exact h.elim
  | bad => exact h.elim
  | node d m bs ih =>
    simp only [Every] at h
    simp only [DimTree.branches]
    split at h
    · next hd => rw [if_pos hd, h.1]
    · next hd =>
      rw [if_neg hd]
      refine Nat.le_antisymm (foldr_max_le fun a ha => ?_) (le_foldr_max ?_)
      · obtain ⟨i, -, rfl⟩ := List.mem_map.1 ha
        exact Nat.le_of_eq (ih i (h.2 i))
      · exact List.mem_map.2 ⟨⟨0, h.1⟩, List.mem_finRange _, ih _ (h.2 _)⟩

theorem Every.fix {v w : Dim} {n m k : Nat} {t : DimTree} (h : t.Every v n) (hw : t.Every w m) (hne : w ≠ v)
    (hk : k < m) : (t.fix w k).Every v n := by
  induction t with
  | leaf => exact h.elim
  | bad => exact h.elim
  | node d j bs ih =>
    simp only [Every] at h hw
    simp only [DimTree.fix]
    by_cases h1 : d = w
    · subst h1
      simp only [if_true] at hw
      simp only [hne, if_false] at h
      obtain ⟨rfl, hw⟩ := hw
      simp only [if_true, hk, dite_true]
      exact h.2 _
    · simp only [h1, if_false] at hw ⊢
      by_cases h2 : d = v
      · simp only [h2, if_true, Every] at h ⊢
        refine ⟨h.1, fun i => ?_⟩
        cases hc : ((bs i).fix w k).contains v with
        | false => rfl
        | true => exact absurd (fix_contains hc) (by simp [h.2 i])
      · simp only [h2, if_false, Every] at h ⊢
        exact ⟨h.1, fun i => ih i (h.2 i) (hw.2 i)⟩

theorem Every.hoist {v w : Dim} {n m : Nat} {t : DimTree} (h : t.Every v n) (hw : t.Every w m) (hne : w ≠ v)
    (hm : 0 < m) : (t.hoist w).Every v n := by
  have hb := hw.branches
  simp only [DimTree.hoist, Every, hne, if_false]
  exact ⟨by omega, fun i => h.fix hw hne (by omega)⟩

theorem flatMap_one {α : Type} {m k : Nat} (hk : k < m) (f : Fin m → List α) :
    f ⟨k, hk⟩ = (List.finRange m).flatMap fun i => if i.val = k then f i else [] := by
  induction m generalizing k with
  | zero => omega
  | succ m ih =>
    rw [List.finRange_succ, List.flatMap_cons, List.flatMap_map]
    cases k with
    | zero => simp
    | succ k =>
      have := ih (k := k) (by omega) fun i => f i.succ
      simp only [Fin.succ_mk] at this
      simpa using this

/-- The ways of the tree with a branch taken are the ways through this branch. -/
theorem Every.ways_fix {v : Dim} {n : Nat} {t : DimTree} (h : t.Every v n) {k : Nat} (hk : k < n) :
    (t.fix v k).ways =
      (t.ways.filter fun w => decide ((v, k) ∈ w)).map fun w => w.filter fun dk => decide (dk.1 ≠ v) := by
  induction t with
  | leaf => exact h.elim
  | bad => exact h.elim
  | node d m bs ih =>
    simp only [Every] at h
    simp only [DimTree.fix]
    split at h
    · next hd =>
      subst hd
      obtain ⟨rfl, h⟩ := h
      have hid : ∀ i, ∀ w ∈ (bs i).ways, (w.filter fun dk => decide (dk.1 ≠ d)) = w := by
        intro i w hw
        refine List.filter_eq_self.2 fun dk hdk => ?_
        have := ways_contains (h i) hw
        simp only [decide_eq_true_eq]
        rintro rfl
        exact this (List.mem_map_of_mem hdk)
      have hno : ∀ i, ∀ w ∈ (bs i).ways, (d, k) ∉ w := fun i w hw hx => ways_contains (h i) hw (List.mem_map_of_mem hx)
      simp only [if_true, hk, dite_true, ways, List.filter_flatMap, List.map_flatMap]
      have : ∀ i : Fin m, (((bs i).ways.map ((d, i.val) :: ·)).filter fun w => decide ((d, k) ∈ w)).map
          (fun w => w.filter fun dk => decide (dk.1 ≠ d)) = if i.val = k then (bs i).ways else [] := by
        intro i
        rw [List.filter_map, List.map_map]
        split
        · next hi =>
          rw [List.filter_eq_self.2 (by intro w _; simp [hi])]
          conv_rhs => rw [← List.map_id (bs i).ways]
          refine List.map_congr_left fun w hw => ?_
          simpa using hid i w hw
        · next hi =>
          rw [List.filter_eq_nil_iff.2]
          · rfl
          · intro w hw
            simp [hno i w hw, Ne.symm hi]
      simp only [this]
      exact flatMap_one hk fun i => (bs i).ways
    · next hd =>
      simp only [hd, if_false, ways, List.filter_flatMap, List.map_flatMap]
      refine List.flatMap_congr fun i _ => ?_
      rw [ih i (h.2 i), List.filter_map, List.map_map, List.map_map]
      have : ((fun w => decide ((v, k) ∈ w)) ∘ fun x : List (Dim × Nat) => (d, i.val) :: x) =
          fun w => decide ((v, k) ∈ w) := by
        funext w
        simp [Ne.symm hd]
      rw [this]
      refine List.map_congr_left fun w _ => ?_
      simp [hd]

/-- Hoisting a dimension: the ways through its first branch, then those through the second and so on, with the dimension
in front. -/
theorem C67_hoist_ways {v : Dim} {n : Nat} {t : DimTree} (h : t.Every v n) :
    (t.hoist v).ways = (List.range n).flatMap fun k =>
      (t.ways.filter fun w => decide ((v, k) ∈ w)).map fun w => (v, k) :: w.filter fun dk => decide (dk.1 ≠ v) := by
  have hb := h.branches
  simp only [hoist, ways]
  rw [hb, ← List.map_coe_finRange_eq_range, List.flatMap_map]
  refine List.flatMap_congr fun i _ => ?_
  rw [h.ways_fix i.isLt, List.map_map]
  rfl

theorem Every.ways {v : Dim} {n : Nat} {t : DimTree} (h : t.Every v n) {w : List (Dim × Nat)} (hw : w ∈ t.ways) :
    ∃ k < n, w.find? (fun dk => decide (dk.1 = v)) = some (v, k) ∧ ∀ j, (v, j) ∈ w ↔ j = k := by
  induction t generalizing w with
  | leaf => exact h.elim
  | bad => exact h.elim
  | node d m bs ih =>
    simp only [DimTree.ways, List.mem_flatMap, List.mem_map] at hw
    obtain ⟨i, -, x, hx, rfl⟩ := hw
    simp only [Every] at h
    split at h
    · next hd =>
      subst hd
      have hno : ∀ j, (d, j) ∉ x := fun j hj => ways_contains (h.2 i) hx (List.mem_map_of_mem hj)
      exact ⟨i, h.1 ▸ i.isLt, by simp, fun j => by simp [hno]⟩
    · next hd =>
      obtain ⟨k, hk, hf, hj⟩ := ih i (h.2 i) hx
      exact ⟨k, hk, by simp [hd, hf], fun j => by simp [Ne.symm hd, hj]⟩

/-- The given dimensions first, then the others. -/
def first (vs : List Dim) (w : List (Dim × Nat)) : List (Dim × Nat) :=
  (vs.filterMap fun v => w.find? fun dk => decide (dk.1 = v)) ++ w.filter fun dk => decide (dk.1 ∉ vs)

theorem first_cons {v : Dim} {vs : List Dim} (hv : v ∉ vs) {w : List (Dim × Nat)} {k : Nat}
    (hk : w.find? (fun dk => decide (dk.1 = v)) = some (v, k)) :
    first (v :: vs) w = (v, k) :: (first vs w).filter fun dk => decide (dk.1 ≠ v) := by
  simp only [first, List.filterMap_cons, hk, List.filter_append, List.filter_filter, List.cons_append]
  congr 2
  · refine (List.filter_eq_self.2 fun dk hdk => ?_).symm
    obtain ⟨u, hu, hf⟩ := List.mem_filterMap.1 hdk
    have := List.find?_some hf
    simp only [decide_eq_true_eq] at this ⊢
    rintro rfl
    exact hv (this ▸ hu)
  · refine List.filter_congr fun dk _ => ?_
    simp [List.mem_cons, not_or]

theorem find_first {v : Dim} {vs : List Dim} (hv : v ∉ vs) (w : List (Dim × Nat)) :
    (first vs w).find? (fun dk => decide (dk.1 = v)) = w.find? fun dk => decide (dk.1 = v) := by
  have h1 : (vs.filterMap fun v => w.find? fun dk => decide (dk.1 = v)).find? (fun dk => decide (dk.1 = v)) = none := by
    refine List.find?_eq_none.2 fun dk hdk => ?_
    obtain ⟨u, hu, hf⟩ := List.mem_filterMap.1 hdk
    have := List.find?_some hf
    simp only [decide_eq_true_eq] at this ⊢
    rintro rfl
    exact hv (this ▸ hu)
  rw [first, List.find?_append, h1, Option.none_or]
  clear h1
  induction w with
  | nil => rfl
  | cons dk w ih =>
    by_cases h : dk.1 = v
    · subst h
      simp [hv]
    · by_cases h2 : dk.1 ∈ vs
      · simpa [h, h2] using ih
      · simpa [h, h2] using ih

theorem perm_by_branch {α β : Type} (n : Nat) (P : Nat → α → Bool) (g : Nat → α → β) (G : α → β) (L : List α)
    (h : ∀ w ∈ L, ∃ k < n, G w = g k w ∧ ∀ j, P j w = true ↔ j = k) :
    ((List.range n).flatMap fun k => (L.filter (P k)).map (g k)).Perm (L.map G) := by
  induction L with
  | nil => simp
  | cons w L ih =>
    obtain ⟨k, hk, hG, hP⟩ := h w (by simp)
    have ih := ih fun x hx => h x (by simp [hx])
    have : ((List.range n).flatMap fun k => ((w :: L).filter (P k)).map (g k)).Perm
        (g k w :: (List.range n).flatMap fun k => (L.filter (P k)).map (g k)) := by
      obtain ⟨a, b, hab⟩ := List.append_of_mem (List.mem_range.2 hk)
      have hn := List.nodup_range (n := n)
      rw [hab] at hn ⊢
      have hnk : ∀ j ∈ a ++ b, P j w = false := by
        intro j hj
        rw [Bool.eq_false_iff, ne_eq, hP]
        rintro rfl
        exact (List.nodup_middle.1 hn |> List.nodup_cons.1).1 hj
      have ha : (a.flatMap fun k => ((w :: L).filter (P k)).map (g k)) = a.flatMap fun k => (L.filter (P k)).map (g k) :=
        List.flatMap_congr fun j hj => by simp [hnk j (by simp [hj])]
      have hb : (b.flatMap fun k => ((w :: L).filter (P k)).map (g k)) = b.flatMap fun k => (L.filter (P k)).map (g k) :=
        List.flatMap_congr fun j hj => by simp [hnk j (by simp [hj])]
      have hw : (w :: L).filter (P k) = w :: L.filter (P k) := by simp [(hP k).2 rfl]
      simp only [List.flatMap_append, List.flatMap_cons, ha, hb, hw, List.map_cons]
      exact List.perm_middle
    rw [List.map_cons, hG]
    exact this.trans (List.Perm.cons _ ih)

/-- Reordering: the ways of the new tree are the ways of the old one with the given dimensions in front, each once. -/
theorem C67_reorder_ways (vs : List Dim) (t : DimTree) (hv : vs.Nodup)
    (h : ∀ v ∈ vs, ∃ n, 0 < n ∧ t.Every v n) : (t.reorder vs).ways.Perm (t.ways.map (first vs)) := by
  have main : (t.reorder vs).ways.Perm (t.ways.map (first vs)) ∧
      ∀ v n, v ∉ vs → t.Every v n → (t.reorder vs).Every v n := by
    induction vs with
    | nil =>
      refine ⟨?_, fun _ _ _ h => h⟩
      have : first [] = id := by funext w; simp [first]
      simp [reorder, this]
    | cons v vs ih =>
      rw [List.nodup_cons] at hv
      obtain ⟨ih1, ih2⟩ := ih hv.2 fun x hx => h x (by simp [hx])
      obtain ⟨n, hn, hvn⟩ := h v (by simp)
      have hE := ih2 v n hv.1 hvn
      refine ⟨?_, fun u m hu hm => ?_⟩
      · rw [reorder, C67_hoist_ways hE]
        have hG : t.ways.map (first (v :: vs)) = (t.ways.map (first vs)).map fun w =>
            (w.find? fun dk => decide (dk.1 = v)).toList ++ w.filter fun dk => decide (dk.1 ≠ v) := by
          rw [List.map_map]
          refine List.map_congr_left fun w hw => ?_
          obtain ⟨k, -, hf, -⟩ := hvn.ways hw
          rw [first_cons hv.1 hf, Function.comp_apply, find_first hv.1, hf]
          rfl
        rw [hG]
        refine (perm_by_branch n _ _ _ _ ?_).trans (ih1.map _)
        intro w hw
        obtain ⟨k, hk, hf, hj⟩ := hE.ways hw
        exact ⟨k, hk, by simp [hf], fun j => by simp [hj]⟩
      · simp only [List.mem_cons, not_or] at hu
        exact (ih2 u m hu.2 hm).hoist hE (Ne.symm hu.1) hn
  exact main.1

theorem Every.sound_fix {v : Dim} {n : Nat} {t : DimTree} (h : t.Every v n) (hs : t.sound) {k : Nat} (hk : k < n) :
    (t.fix v k).sound := by
  induction t with
  | leaf => exact h.elim
  | bad => exact h.elim
  | node d m bs ih =>
    simp only [Every] at h
    simp only [DimTree.fix]
    split at h
    · next hd =>
      obtain ⟨rfl, -⟩ := h
      simp only [hd, if_true, hk, dite_true]
      exact hs _
    · next hd =>
      simp only [hd, if_false]
      exact fun i => ih i (h.2 i) (hs i)

/-- Reordering by dimensions that are on every way, with the same number of branches everywhere, compiles. -/
theorem C67_reorder_compiles (vs : List Dim) (t : DimTree) (hv : vs.Nodup)
    (h : ∀ v ∈ vs, ∃ n, 0 < n ∧ t.Every v n) (hs : t.sound) : (t.reorder vs).sound := by
  have main : (t.reorder vs).sound ∧ ∀ v n, v ∉ vs → t.Every v n → (t.reorder vs).Every v n := by
    induction vs with
    | nil => exact ⟨hs, fun _ _ _ h => h⟩
    | cons v vs ih =>
      rw [List.nodup_cons] at hv
      obtain ⟨ih1, ih2⟩ := ih hv.2 fun x hx => h x (by simp [hx])
      obtain ⟨n, hn, hvn⟩ := h v (by simp)
      have hE := ih2 v n hv.1 hvn
      refine ⟨fun i => hE.sound_fix ih1 (by have := hE.branches; omega), fun u m hu hm => ?_⟩
      simp only [List.mem_cons, not_or] at hu
      exact (ih2 u m hu.2 hm).hoist hE (Ne.symm hu.1) hn
  exact main.1

/-- The hypotheses of `C67_reorder_ways` are necessary: a dimension that is not in the tree leaves no ways at all. -/
theorem C67_reorder_absent_violates (v : Dim) (t : DimTree) (h : t.contains v = false) : (t.hoist v).ways = [] := by
  have hb : t.branches v = 0 := by
    induction t with
    | leaf => rfl
    | bad => rfl
    | node d n bs ih =>
      simp only [contains, Bool.or_eq_false_iff, beq_eq_false_iff_ne, decide_eq_false_iff_not, not_exists,
        Bool.not_eq_true] at h
      simp only [branches, h.1, if_false]
      refine Nat.le_zero.1 (foldr_max_le fun a ha => ?_)
      obtain ⟨i, -, rfl⟩ := List.mem_map.1 ha
      exact Nat.le_of_eq (ih i (h.2 i))
  simp only [hoist, ways]
  rw [hb]
  rfl

/-- A tuple (dimension 0) with the fields: a scalar, and a tuple (dimension 1) of two scalars. -/
def c67Uneven : DimTree := .node 0 2 fun i => if i = 0 then .leaf else .node 1 2 fun _ => .leaf

/-- A dimension that some ways lack: these ways are repeated for each of its branches. -/
theorem C67_reorder_partly_absent_violates :
    c67Uneven.ways = [[(0, 0)], [(0, 1), (1, 0)], [(0, 1), (1, 1)]] ∧
    (c67Uneven.hoist 1).ways = [[(1, 0), (0, 0)], [(1, 0), (0, 1)], [(1, 1), (0, 0)], [(1, 1), (0, 1)]] := by
  constructor <;> simp +decide [c67Uneven, hoist, ways, branches, fix, List.finRange_succ]

/-- A dimension with different numbers of branches: it does not compile to put it in front. -/
theorem C67_reorder_unequal_violates :
    ¬ ((node 0 2 fun i => node 1 (i.val + 1) fun _ => leaf).hoist 1).sound := by
  intro h
  have := h ⟨1, by decide⟩ ⟨0, by decide⟩
  simp [fix, sound] at this

/-- A tuple (dimension 0) of an array over 1 and 2, and an array over 2 and 1. -/
def c67Tuple : DimTree := .node 0 2 fun i => if i = 0 then ofSeq [1, 2] else ofSeq [2, 1]

theorem c67Tuple_every (v : Dim) (h : v = 0 ∨ v = 1 ∨ v = 2) : ∃ n, 0 < n ∧ c67Tuple.Every v n := by
  rcases h with rfl | rfl | rfl
  · exact ⟨2, by decide, by simp [c67Tuple, Every, Fin.forall_fin_two, ofSeq, contains]⟩
  · exact ⟨1, by decide, by simp [c67Tuple, Every, Fin.forall_fin_two, ofSeq, contains]⟩
  · exact ⟨1, by decide, by simp [c67Tuple, Every, Fin.forall_fin_two, ofSeq, contains]⟩

example : (c67Tuple.reorder [2, 0]).ways.Perm [[(2, 0), (0, 0), (1, 0)], [(2, 0), (0, 1), (1, 0)]] := by
  refine (C67_reorder_ways [2, 0] c67Tuple (by decide) fun v hv => c67Tuple_every v (by simp at hv; grind)).trans ?_
  simp +decide [c67Tuple, ways, ofSeq, first, List.finRange_succ]

example : (c67Tuple.filter fun d => d != 2).ways = [[(0, 0), (1, 0)], [(0, 1), (1, 0)]] := by
  rw [C67_filter_ways _ _ ((C67_filter_compiles _ _).2 (by
    simp [c67Tuple, oneWay, Fin.forall_fin_two, ofSeq]))]
  simp +decide [c67Tuple, ways, ofSeq, List.finRange_succ]

end DimTree

/-! ### Signatures -/

/-- `sig_dim_tree` and `sig_dim_seq` of the same signature: the sequence is that of the tree, reversed. -/
theorem C67_signature (S : Sig) : S.seq = S.tree.toSeq.map List.reverse := by
  induction S with
  | scalar z => rfl
  | void => rfl
  | ill => rfl
  | fn d l r ih =>
    simp only [Sig.seq, Sig.tree, DimTree.toSeq, ih, dite_true, Option.bind_eq_bind, dimSeqConcat_pair]
    cases r.tree.toSeq <;> simp
  | dep d n rs ih =>
    simp only [Sig.seq, Sig.tree, DimTree.toSeq, ih, Option.bind_eq_bind, dimSeqConcat_pair]
    split
    · cases (rs _).tree.toSeq <;> simp
    · rfl

example : (Sig.fn 0 .dynamic (.fn 1 (.static 3) (.scalar 4))).seq = some [1, 0] := by
  rw [C67_signature]
  show (DimTree.ofSeq [0, 1]).toSeq.map List.reverse = _
  rw [DimTree.C67_round_trip]
  rfl

end Noarr
