import Verif.SectionLemmas
import Verif.SectionSpec

/-
The trees of dimensions made by `for_sections` and `for_dims` are trees for the signature. Used for
C29.
-/

set_option linter.unusedVariables false
set_option linter.unusedSimpArgs false

namespace Noarr

/-! ### The dimensions of a tree -/

namespace DimTree

theorem filter_contains {keep : Dim → Bool} {t : DimTree} {q : Dim} (h : (t.filter keep).contains q = true) :
    t.contains q = true ∧ keep q = true := by
  induction t with
  | leaf => simp [filter, contains] at h
  | bad => simp [filter, contains] at h
  | node d n bs ih =>
    have up : ∀ i, (bs i).contains q = true → (node d n bs).contains q = true := by
      intro i h; simp only [contains, Bool.or_eq_true, decide_eq_true_eq]; exact .inr ⟨i, h⟩
    simp only [filter] at h
    split at h
    · next hk =>
      simp only [contains, Bool.or_eq_true, beq_iff_eq, decide_eq_true_eq] at h
      rcases h with rfl | ⟨i, h⟩
      · exact ⟨by simp [contains], hk⟩
      · exact ⟨up i (ih i h).1, (ih i h).2⟩
    · split at h
      · exact ⟨up _ (ih _ h).1, (ih _ h).2⟩
      · simp [contains] at h

theorem fix_contains {t : DimTree} {d q : Dim} {k : Nat} (h : (t.fix d k).contains q = true) :
    t.contains q = true := by
  induction t with
  | leaf => simp [fix, contains] at h
  | bad => simp [fix, contains] at h
  | node e n bs ih =>
    simp only [fix] at h
    simp only [contains, Bool.or_eq_true, beq_iff_eq, decide_eq_true_eq]
    split at h
    · split at h
      · exact .inr ⟨_, h⟩
      · simp [contains] at h
    · simp only [contains, Bool.or_eq_true, beq_iff_eq, decide_eq_true_eq] at h
      rcases h with h | ⟨i, h⟩
      · exact .inl h
      · exact .inr ⟨i, ih i h⟩

/-- Two branches can be taken in either order. -/
theorem fix_comm {t : DimTree} {d e : Dim} (hne : d ≠ e) (j k : Nat) :
    (t.fix d j).fix e k = (t.fix e k).fix d j := by
  induction t with
  | leaf => rfl
  | bad => rfl
  | node x n bs ih =>
    by_cases h1 : x = d
    · subst h1
      simp only [fix, if_true, hne, if_false]
      split <;> rfl
    · by_cases h2 : x = e
      · subst h2
        simp only [fix, h1, if_false, if_true]
        split <;> rfl
      · simp only [fix, h1, h2, if_false, ih]

theorem le_foldr_max {l : List Nat} {a : Nat} (h : a ∈ l) : a ≤ l.foldr max 0 := by
  induction l with
  | nil => simp at h
  | cons b l ih =>
    simp only [List.foldr_cons]
    rcases List.mem_cons.1 h with rfl | h
    · omega
    · have := ih h; omega

theorem foldr_max_le {l : List Nat} {b : Nat} (h : ∀ a ∈ l, a ≤ b) : l.foldr max 0 ≤ b := by
  induction l with
  | nil => simp
  | cons a l ih =>
    simp only [List.foldr_cons]
    have h1 := h a (by simp)
    have h2 := ih fun x hx => h x (by simp [hx])
    omega

theorem branches_child {d q : Dim} {n : Nat} {bs : Fin n → DimTree} (hne : d ≠ q) (i : Fin n) :
    (bs i).branches q ≤ (node d n bs).branches q := by
  simp only [branches, hne, if_false]
  exact le_foldr_max (List.mem_map.2 ⟨i, List.mem_finRange i, rfl⟩)

theorem branches_fix {t : DimTree} {d q : Dim} (hne : d ≠ q) (k : Nat) :
    (t.fix d k).branches q ≤ t.branches q := by
  induction t with
  | leaf => simp [fix]
  | bad => simp [fix]
  | node e n bs ih =>
    by_cases he : e = d
    · subst he
      simp only [fix, if_true]
      split
      · exact branches_child hne _
      · simp [branches]
    · simp only [fix, he, if_false]
      by_cases hq : e = q
      · simp [branches, hq]
      · refine Nat.le_trans (m := (node e n bs).branches q) ?_ (Nat.le_refl _)
        have : (node e n fun i => (bs i).fix d k).branches q =
            ((List.finRange n).map fun i => ((bs i).fix d k).branches q).foldr max 0 := by
          simp [branches, hq]
        rw [this]
        refine foldr_max_le fun a ha => ?_
        obtain ⟨i, -, rfl⟩ := List.mem_map.1 ha
        exact Nat.le_trans (ih i) (branches_child hq i)

/-- The branches taken in several dimensions. -/
def fixAll (t : DimTree) (φ : List (Dim × Nat)) : DimTree := φ.foldl (fun t dk => t.fix dk.1 dk.2) t

theorem fixAll_comm {t : DimTree} {φ : List (Dim × Nat)} {e : Dim} (h : e ∉ φ.map Prod.fst) (j : Nat) :
    (t.fix e j).fixAll φ = (t.fixAll φ).fix e j := by
  induction φ generalizing t with
  | nil => rfl
  | cons dk φ ih =>
    rw [List.map_cons, List.mem_cons, not_or] at h
    show ((t.fix e j).fix dk.1 dk.2).fixAll φ = ((t.fix dk.1 dk.2).fixAll φ).fix e j
    rw [fix_comm h.1, ih h.2]

theorem fixAll_node {φ : List (Dim × Nat)} {d : Dim} {n : Nat} {bs : Fin n → DimTree}
    (h : d ∉ φ.map Prod.fst) : (node d n bs).fixAll φ = node d n fun i => (bs i).fixAll φ := by
  induction φ generalizing bs with
  | nil => rfl
  | cons dk φ ih =>
    rw [List.map_cons, List.mem_cons, not_or] at h
    show ((node d n bs).fix dk.1 dk.2).fixAll φ = _
    simp only [fix, h.1, if_false]
    exact ih h.2

theorem branches_fixAll {φ : List (Dim × Nat)} {t : DimTree} {q : Dim} (h : q ∉ φ.map Prod.fst) :
    (t.fixAll φ).branches q ≤ t.branches q := by
  induction φ generalizing t with
  | nil => exact Nat.le_refl _
  | cons dk φ ih =>
    rw [List.map_cons, List.mem_cons, not_or] at h
    exact Nat.le_trans (ih h.2) (branches_fix (Ne.symm h.1) _)

/-- The nested loops of `for_dims`, when some branches are taken. -/
theorem reorder_fixAll (t : DimTree) {e : Dim} {ds : List Dim} {φ : List (Dim × Nat)}
    (h : e ∉ φ.map Prod.fst) :
    (t.reorder (e :: ds)).fixAll φ =
      node e ((t.reorder ds).branches e) fun j => (t.reorder ds).fixAll ((e, j.val) :: φ) := by
  show (node e _ _).fixAll φ = _
  rw [fixAll_node h]
  rfl

/-- Below dimensions with one branch there is `e`, with `n` branches. -/
inductive Front (e : Dim) (n : Nat) : DimTree → Prop
  | here (bs) : Front e n (node e n bs)
  | skip {d bs} : d ≠ e → Front e n (bs 0) → Front e n (node d 1 bs)

theorem Front.branches {e : Dim} {n : Nat} {t : DimTree} (h : Front e n t) : t.branches e = n := by
  induction h with
  | here bs => simp [DimTree.branches]
  | skip hd h ih => simp [DimTree.branches, hd, List.finRange, ih]

theorem Front.fix {e : Dim} {n : Nat} {t : DimTree} (h : Front e n t) {d : Dim} (hd : d ≠ e) :
    Front e n (t.fix d 0) := by
  induction h with
  | here bs =>
    simp only [DimTree.fix, Ne.symm hd, if_false]
    exact .here _
  | @skip x bs hx h ih =>
    by_cases hxd : x = d
    · subst hxd
      simp only [DimTree.fix, if_true, Nat.zero_lt_one, dif_pos]
      exact h
    · simp only [DimTree.fix, hxd, if_false]
      exact .skip hx ih

/-- Below dimensions with one branch there is something that does not compile. -/
inductive Broken : DimTree → Prop
  | bad : Broken bad
  | skip {d bs} : Broken (bs 0) → Broken (node d 1 bs)

theorem Broken.fix {t : DimTree} (h : Broken t) (d : Dim) : Broken (t.fix d 0) := by
  induction h with
  | bad => exact .bad
  | @skip x bs h ih =>
    by_cases hxd : x = d
    · subst hxd
      simp only [DimTree.fix, if_true, Nat.zero_lt_one, dif_pos]
      exact h
    · simp only [DimTree.fix, hxd, if_false]
      exact .skip ih

theorem Front.fix_out {e : Dim} {n : Nat} {t : DimTree} (h : Front e n t) {k : Nat} (hk : n ≤ k) :
    Broken (t.fix e k) := by
  induction h with
  | here bs =>
    simp only [DimTree.fix, if_true]
    rw [dif_neg (by omega)]
    exact .bad
  | @skip x bs hx h ih =>
    simp only [DimTree.fix, hx, if_false]
    exact .skip ih

theorem Broken.not_compiles {t : DimTree} (h : Broken t) (S : Sig) : ¬ Compiles t S := by
  induction h generalizing S with
  | bad => exact id
  | @skip d bs h ih =>
    intro hc
    simp only [Compiles] at hc
    split at hc
    · exact ih _ (hc.2 0 0)
    · exact ih _ (hc.2 0)
    · exact hc

end DimTree

/-! ### The filtered tree -/

namespace Sig

def wrap : List (Dim × ArgLen) → Sig → Sig
  | [], S => S
  | (e, l) :: c, S => .fn e l (wrap c S)

theorem wrap_append (c : List (Dim × ArgLen)) (e : Dim) (l : ArgLen) (S : Sig) :
    wrap (c ++ [(e, l)]) S = wrap c (.fn e l S) := by
  induction c with
  | nil => rfl
  | cons x c ih => simp only [List.cons_append, wrap, ih]

theorem find_wrap {c : List (Dim × ArgLen)} {d : Dim} (h : d ∉ c.map Prod.fst) (S : Sig) (st : State) :
    (wrap c S).find d st = S.find d st := by
  induction c with
  | nil => rfl
  | cons x c ih =>
    rw [List.map_cons, List.mem_cons, not_or] at h
    simp only [wrap, find, Ne.symm h.1, if_false, ih h.2]

theorem cut_wrap {c : List (Dim × ArgLen)} {d : Dim} (h : d ∉ c.map Prod.fst) (S : Sig) (v : Val) :
    (wrap c S).cut d v = wrap c (S.cut d v) := by
  induction c with
  | nil => rfl
  | cons x c ih =>
    rw [List.map_cons, List.mem_cons, not_or] at h
    simp only [cut] at ih
    simp only [cut, wrap, replace, List.mem_singleton, Ne.symm h.1, if_false, ih h.2]

end Sig

theorem suits_of_ill {t : DimTree} {S : Sig}
    (h : ∀ d, t.contains d = true → S.find d .empty = .ill) : Suits t S := by
  cases t with
  | leaf => trivial
  | bad => trivial
  | node d n bs =>
    simp only [Suits, h d (by simp [DimTree.contains])]

theorem suits_filter {keep : Dim → Bool} {S : Sig} (hu : S.uniq) {c : List (Dim × ArgLen)}
    (hc : ∀ e ∈ c.map Prod.fst, keep e = false) : Suits (S.tree.filter keep) (S.wrap c) := by
  have hkc : ∀ e, keep e = true → e ∉ c.map Prod.fst := by
    intro e he h; rw [hc e h] at he; cases he
  have hcont : ∀ (S : Sig) e, S.anyAccept e = false → (S.tree.filter keep).contains e = false := by
    intro S e h
    cases hh : (S.tree.filter keep).contains e with
    | false => rfl
    | true => rw [Sig.tree_contains (DimTree.filter_contains hh).1] at h; cases h
  induction S generalizing c with
  | scalar s => trivial
  | void => trivial
  | ill => trivial
  | fn e l r ih =>
    simp only [Sig.tree, DimTree.filter]
    split
    · next hk =>
      simp only [Suits, Sig.find_wrap (hkc e hk)]
      simp only [Sig.find, if_true]
      refine ⟨fun i => hcont r e hu.1, fun i v => ?_⟩
      rw [Sig.cut_wrap (hkc e hk)]
      simp only [Sig.cut, Sig.replace, List.mem_singleton, if_true, Sig.fixRepl]
      exact ih hu.2 hc hkc
    · next hk =>
      simp only [dif_pos]
      rw [← Sig.wrap_append]
      have : ∀ x ∈ (c ++ [(e, l)]).map Prod.fst, keep x = false := by
        intro x hx
        rw [List.map_append, List.mem_append] at hx
        rcases hx with hx | hx
        · exact hc x hx
        · simp at hx; subst hx; simpa using hk
      refine ih hu.2 this ?_
      intro x hx h; rw [this x h] at hx; cases hx
  | dep e n rs ih =>
    simp only [Sig.tree, DimTree.filter]
    split
    · next hk =>
      simp only [Suits, Sig.find_wrap (hkc e hk)]
      simp only [Sig.find, if_true]
      refine ⟨trivial, fun i => hcont _ e (hu i).1, fun i => ?_⟩
      rw [Sig.cut_wrap (hkc e hk)]
      simp only [Sig.cut, Sig.replace, List.mem_singleton, if_true, Sig.fixRepl, Sig.branch, i.2, dif_pos]
      exact ih i (hu i).2 hc hkc
    · next hk =>
      split
      · next hn =>
        subst hn
        refine suits_of_ill fun d hd => ?_
        have hkd := (DimTree.filter_contains hd).2
        rw [Sig.find_wrap (hkc d hkd)]
        have : e ≠ d := by rintro rfl; exact hk hkd
        simp [Sig.find, this, State.empty, Sig.litIdx]
      · trivial

theorem suits_tree {S : Sig} (hu : S.uniq) : Suits S.tree S := by
  have : ∀ S : Sig, S.tree.filter (fun _ => true) = S.tree := by
    intro S
    induction S with
    | scalar s => rfl
    | void => rfl
    | ill => rfl
    | fn e l r ih => simp only [Sig.tree, DimTree.filter, if_true, ih]
    | dep e n rs ih => simp only [Sig.tree, DimTree.filter, if_true, ih]
  have h := suits_filter (keep := fun _ => true) hu (c := []) (by simp)
  rw [this] at h
  exact h

/-! ### The reordered tree -/

theorem Sig.Front.tree {keep : Dim → Bool} {e : Dim} (hk : keep e = true) {S : Sig} (h : Sig.Front e S) :
    (∀ st, ∃ l r, S.find e st = .fn e l r) ∧ DimTree.Front e 1 (S.tree.filter keep) ∧
      (∀ v, (S.tree.filter keep).fix e 0 = ((S.cut e v).tree).filter keep) ∨
    ∃ n, (∀ st, ∃ rs, S.find e st = .dep e n rs) ∧ DimTree.Front e n (S.tree.filter keep) ∧
      (∀ k, k < n → (S.tree.filter keep).fix e k = ((S.cut e (.lit k)).tree).filter keep) := by
  induction h with
  | fn l r =>
    left
    refine ⟨fun st => ⟨l, r, by simp [Sig.find]⟩, ?_, fun v => ?_⟩
    · simp only [Sig.tree, DimTree.filter, hk, if_true]; exact .here _
    · simp only [Sig.tree, DimTree.filter, hk, if_true, DimTree.fix, Nat.zero_lt_one, dif_pos, Sig.cut,
        Sig.replace, List.mem_singleton, Sig.fixRepl]
  | dep n rs =>
    right
    refine ⟨n, fun st => ⟨rs, by simp [Sig.find]⟩, ?_, fun k hkn => ?_⟩
    · simp only [Sig.tree, DimTree.filter, hk, if_true]; exact .here _
    · simp only [Sig.tree, DimTree.filter, hk, if_true, DimTree.fix, hkn, dif_pos, Sig.cut,
        Sig.replace, List.mem_singleton, Sig.fixRepl, Sig.branch]
  | @skip x r l hx h ih =>
    have key : ∀ v, (Sig.fn x l r).cut e v = .fn x l (r.cut e v) := by
      intro v; simp [Sig.cut, Sig.replace, hx]
    have hfr : ∀ n, DimTree.Front e n (r.tree.filter keep) →
        DimTree.Front e n ((Sig.fn x l r).tree.filter keep) := by
      intro n h
      simp only [Sig.tree, DimTree.filter]
      split
      · exact .skip hx h
      · simp only [dif_pos]; exact h
    have hfx : ∀ k v, (r.tree.filter keep).fix e k = ((r.cut e v).tree).filter keep →
        ((Sig.fn x l r).tree.filter keep).fix e k = (((Sig.fn x l r).cut e v).tree).filter keep := by
      intro k v h
      rw [key]
      simp only [Sig.tree, DimTree.filter]
      split
      · simp only [DimTree.fix, hx, if_false, h]
      · simp only [dif_pos, h]
    rcases ih with ⟨h1, h2, h3⟩ | ⟨n, h1, h2, h3⟩
    · left
      refine ⟨fun st => ?_, hfr 1 h2, fun v => hfx 0 v (h3 v)⟩
      obtain ⟨l', r', h⟩ := h1 st
      exact ⟨l', r', by simp [Sig.find, hx, h]⟩
    · right
      refine ⟨n, fun st => ?_, hfr n h2, fun k hk => hfx k _ (h3 k hk)⟩
      obtain ⟨rs, h⟩ := h1 st
      exact ⟨rs, by simp [Sig.find, hx, h]⟩

namespace DimTree

variable {X : DimTree}

/-- All the loops of a nest that compiles have branches. -/
theorem compiles_pos {ds : List Dim} {φ : List (Dim × Nat)} {S : Sig} (hφ : ∀ d ∈ ds, d ∉ φ.map Prod.fst)
    (hn : ds.Nodup) (h : Compiles ((X.reorder ds).fixAll φ) S) {e : Dim} {ds' ds0 : List Dim}
    (hs : ds = ds0 ++ e :: ds') : 0 < (X.reorder ds').branches e := by
  induction ds generalizing φ S ds0 with
  | nil => simp at hs
  | cons x ds ih =>
    rw [List.nodup_cons] at hn
    rw [reorder_fixAll _ (hφ x (by simp))] at h
    simp only [Compiles] at h
    have key : ∃ j v, j < (X.reorder ds).branches x ∧
        Compiles ((X.reorder ds).fixAll ((x, j) :: φ)) (S.cut x v) := by
      split at h
      · exact ⟨0, .dyn 0, by omega, h.2 ⟨0, by omega⟩ 0⟩
      · exact ⟨0, .lit 0, h.1, h.2 ⟨0, h.1⟩⟩
      · exact absurd h id
    obtain ⟨j, v, hj, hc⟩ := key
    cases ds0 with
    | nil =>
      simp only [List.nil_append, List.cons.injEq] at hs
      obtain ⟨rfl, rfl⟩ := hs
      omega
    | cons y ds0 =>
      simp only [List.cons_append, List.cons.injEq] at hs
      refine ih (φ := (x, j) :: φ) ?_ hn.2 hc hs.2
      intro d hd
      rw [List.map_cons, List.mem_cons, not_or]
      exact ⟨by rintro rfl; exact hn.1 hd, hφ d (by simp [hd])⟩

/-- A dimension that is not reordered keeps its branches. -/
theorem branches_reorder {ds : List Dim} {φ : List (Dim × Nat)} {e : Dim} {n : Nat}
    (hφ : ∀ d ∈ ds, d ∉ φ.map Prod.fst) (hn : ds.Nodup) (he : e ∉ ds)
    (hpos : ∀ ds0 x ds', ds = ds0 ++ x :: ds' → 0 < (X.reorder ds').branches x)
    (hf : Front e n (X.fixAll φ)) : n ≤ ((X.reorder ds).fixAll φ).branches e := by
  induction ds generalizing φ with
  | nil => rw [show X.reorder [] = X from rfl, hf.branches]; exact Nat.le_refl _
  | cons x ds ih =>
    rw [List.nodup_cons] at hn
    rw [List.mem_cons, not_or] at he
    have hx := hφ x (by simp)
    rw [reorder_fixAll _ hx]
    refine Nat.le_trans ?_ (branches_child (Ne.symm he.1) ⟨0, hpos [] x ds rfl⟩)
    refine ih ?_ hn.2 he.2 (fun ds0 y ds' h => hpos (x :: ds0) y ds' (by simp [h])) ?_
    · intro d hd
      rw [List.map_cons, List.mem_cons, not_or]
      exact ⟨by rintro rfl; exact hn.1 hd, hφ d (by simp [hd])⟩
    · show Front e n ((X.fix x 0).fixAll φ)
      rw [fixAll_comm hx]
      exact hf.fix (Ne.symm he.1)

/-- Something that does not compile is still there after the reordering. -/
theorem broken_reorder {ds : List Dim} {φ : List (Dim × Nat)} {S : Sig} (hφ : ∀ d ∈ ds, d ∉ φ.map Prod.fst)
    (hn : ds.Nodup) (hb : Broken (X.fixAll φ)) : ¬ Compiles ((X.reorder ds).fixAll φ) S := by
  induction ds generalizing φ S with
  | nil => exact hb.not_compiles S
  | cons x ds ih =>
    intro h
    rw [List.nodup_cons] at hn
    have hx := hφ x (by simp)
    rw [reorder_fixAll _ hx] at h
    simp only [Compiles] at h
    have key : ∃ v, Compiles ((X.reorder ds).fixAll ((x, 0) :: φ)) (S.cut x v) := by
      split at h
      · exact ⟨.dyn 0, h.2 ⟨0, by omega⟩ 0⟩
      · exact ⟨.lit 0, h.2 ⟨0, h.1⟩⟩
      · exact absurd h id
    obtain ⟨v, hc⟩ := key
    refine ih (φ := (x, 0) :: φ) ?_ hn.2 ?_ hc
    · intro d hd
      rw [List.map_cons, List.mem_cons, not_or]
      exact ⟨by rintro rfl; exact hn.1 hd, hφ d (by simp [hd])⟩
    · show Broken ((X.fix x 0).fixAll φ)
      rw [fixAll_comm hx]
      exact hb.fix x

theorem contains_reorder {ds : List Dim} {φ : List (Dim × Nat)} {q : Dim} (hφ : ∀ d ∈ ds, d ∉ φ.map Prod.fst)
    (hn : ds.Nodup) (hq : q ∉ ds) (h : ((X.reorder ds).fixAll φ).contains q = true) :
    (X.fixAll φ).contains q = true := by
  induction ds generalizing φ with
  | nil => exact h
  | cons x ds ih =>
    rw [List.nodup_cons] at hn
    rw [List.mem_cons, not_or] at hq
    have hx := hφ x (by simp)
    rw [reorder_fixAll _ hx] at h
    simp only [contains, Bool.or_eq_true, beq_iff_eq, decide_eq_true_eq] at h
    rcases h with h | ⟨i, h⟩
    · exact absurd h.symm hq.1
    · have := ih (φ := (x, i.val) :: φ) (by
        intro d hd
        rw [List.map_cons, List.mem_cons, not_or]
        exact ⟨by rintro rfl; exact hn.1 hd, hφ d (by simp [hd])⟩) hn.2 hq.2 h
      have h2 : ((X.fix x i).fixAll φ).contains q = true := this
      rw [fixAll_comm hx] at h2
      exact fix_contains h2

end DimTree

theorem Sig.cut_not_accept {S : Sig} (hu : S.uniq) {d : Dim} {v : Val} : (S.cut d v).anyAccept d = false := by
  induction S with
  | scalar s => rfl
  | void => rfl
  | ill => rfl
  | fn e l r ih =>
    by_cases he : e = d
    · subst he
      simp only [cut, replace, List.mem_singleton, if_true, fixRepl]
      exact hu.1
    · simp only [cut, replace, List.mem_singleton, he, if_false, anyAccept, Bool.or_eq_false_iff,
        beq_eq_false_iff_ne]
      exact ⟨he, ih hu.2⟩
  | dep e n rs ih =>
    by_cases he : e = d
    · subst he
      simp only [cut, replace, List.mem_singleton, if_true, fixRepl]
      cases v with
      | lit k =>
        simp only [branch]
        split
        · exact (hu _).1
        · rfl
      | dyn k => rfl
      | bad f => rfl
    · simp only [cut, replace, List.mem_singleton, he, if_false, anyAccept, Bool.or_eq_false_iff,
        beq_eq_false_iff_ne, decide_eq_false_iff_not, not_exists]
      refine ⟨he, fun i h => ?_⟩
      have := ih i (hu i).2
      simp only [cut] at this
      rw [this] at h; cases h

theorem suits_reorder_aux {keep : Dim → Bool} {X : DimTree} {ds : List Dim} {φ : List (Dim × Nat)} {S : Sig}
    (hu : S.uniq) (hk : ∀ d ∈ ds, keep d = true) (hφ : ∀ d ∈ ds, d ∉ φ.map Prod.fst)
    (hn : ds.Nodup) (hX : X.fixAll φ = S.tree.filter keep) (hc : Compiles ((X.reorder ds).fixAll φ) S) :
    Suits ((X.reorder ds).fixAll φ) S := by
  induction ds generalizing φ S with
  | nil =>
    show Suits (X.fixAll φ) S
    rw [hX]
    exact suits_filter hu (c := []) (by simp)
  | cons e ds ih =>
    rw [List.nodup_cons] at hn
    have he := hφ e (by simp)
    have hc0 := hc
    rw [DimTree.reorder_fixAll _ he] at hc ⊢
    have hφ' : ∀ j, ∀ d ∈ ds, d ∉ ((e, j) :: φ : List (Dim × Nat)).map Prod.fst := by
      intro j d hd
      rw [List.map_cons, List.mem_cons, not_or]
      exact ⟨by rintro rfl; exact hn.1 hd, hφ d (by simp [hd])⟩
    have hfix : ∀ j, X.fixAll ((e, j) :: φ) = (S.tree.filter keep).fix e j := by
      intro j
      show (X.fix e j).fixAll φ = _
      rw [DimTree.fixAll_comm he, hX]
    have hcont : ∀ j v, X.fixAll ((e, j) :: φ) = ((S.cut e v).tree).filter keep →
        ((X.reorder ds).fixAll ((e, j) :: φ)).contains e = false := by
      intro j v h
      cases hh : ((X.reorder ds).fixAll ((e, j) :: φ)).contains e with
      | false => rfl
      | true =>
        have := DimTree.contains_reorder (hφ' j) hn.2 hn.1 hh
        rw [h] at this
        have := Sig.tree_contains (DimTree.filter_contains this).1
        rw [Sig.cut_not_accept hu] at this; cases this
    have hfr : Sig.Front e S := by
      apply Sig.front_of_find
      simp only [Compiles] at hc
      split at hc
      · next h => rw [h]; simp [Sig.shape]
      · next h => rw [h]; simp [Sig.shape]
      · exact absurd hc id
    have hcs := hfr.cases
    rcases hfr.tree (keep := keep) (hk e (by simp)) with ⟨h1, h2, h3⟩ | ⟨n, h1, h2, h3⟩
    · obtain ⟨l, r, hf⟩ := h1 .empty
      simp only [Compiles, hf] at hc
      simp only [Suits, hf]
      obtain ⟨hb, hc⟩ := hc
      have hj : ∀ j : Fin ((X.reorder ds).branches e), j.val = 0 := fun j => by omega
      have hf3 : ∀ (j : Fin ((X.reorder ds).branches e)) v, X.fixAll ((e, j.val) :: φ) = ((S.cut e v).tree).filter keep := by
        intro j v; rw [hfix, hj j, h3 v]
      refine ⟨fun j => hcont j (.dyn 0) (hf3 j _), fun j v => ?_⟩
      refine ih ?_ (fun d hd => hk d (by simp [hd])) (hφ' j) hn.2 (hf3 j _) (hc j v)
      rcases hcs with ⟨-, -, h⟩ | ⟨m, -, h, -⟩
      · exact (h _).1 hu
      · obtain ⟨rs, hr⟩ := h .empty
        rw [hf] at hr; cases hr
    · obtain ⟨rs, hf⟩ := h1 .empty
      simp only [Compiles, hf] at hc
      simp only [Suits, hf]
      obtain ⟨hb, hc⟩ := hc
      have hle : (X.reorder ds).branches e ≤ n := by
        rcases Nat.lt_or_ge n ((X.reorder ds).branches e) with hlt | h
        · refine absurd (hc ⟨n, hlt⟩) (DimTree.broken_reorder (hφ' n) hn.2 ?_)
          rw [hfix]
          exact h2.fix_out (Nat.le_refl _)
        · exact h
      have hge : n ≤ (X.reorder ds).branches e := by
        refine Nat.le_trans ?_ (DimTree.branches_fixAll he)
        refine DimTree.branches_reorder (fun d hd => hφ d (by simp [hd])) hn.2 hn.1 ?_ (by rw [hX]; exact h2)
        intro ds0 x ds' hds
        exact DimTree.compiles_pos hφ (List.nodup_cons.2 hn) hc0 (ds0 := e :: ds0) (by simp [hds])
      refine ⟨by omega, fun j => hcont j (.lit j) ?_, fun j => ?_⟩
      · rw [hfix, h3 _ (by omega)]
      · refine ih ?_ (fun d hd => hk d (by simp [hd])) (hφ' j) hn.2 ?_ (hc j)
        · rcases hcs with ⟨-, h, -⟩ | ⟨m, -, h, h'⟩
          · obtain ⟨_, _, hr⟩ := h .empty
            rw [hf] at hr; cases hr
          · obtain ⟨_, hr⟩ := h .empty
            rw [hf] at hr; cases hr
            exact (h' _ (by omega)).1 hu
        · rw [hfix, h3 _ (by omega)]

theorem suits_reorder {keep : Dim → Bool} {ds : List Dim} {S : Sig} (hu : S.uniq)
    (hk : ∀ d ∈ ds, keep d = true) (hn : ds.Nodup) (hc : Compiles ((S.tree.filter keep).reorder ds) S) :
    Suits ((S.tree.filter keep).reorder ds) S :=
  suits_reorder_aux (φ := []) hu hk (by simp) hn rfl hc

end Noarr
