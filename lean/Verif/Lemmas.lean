import Verif.Struct
import Verif.Spec

/-
Small lemmas on values, states and the queries, used by the property files.
-/

namespace Noarr

/-! ### Values in exact arithmetic -/

namespace Val

@[simp] theorem nat?_lit (n : Nat) : (lit n).nat? = some n := rfl
@[simp] theorem nat?_dyn (n : Nat) : (dyn n).nat? = some n := rfl
@[simp] theorem nat?_bad (f : Fault) : (bad f).nat? = none := rfl

theorem nat?_eq_some {v : Val} {n : Nat} : v.nat? = some n ↔ v = lit n ∨ v = dyn n := by
  cases v <;> simp [nat?]

/-- The value of a sum. -/
theorem nat?_add {a b : Val} {n : Nat} :
    (a.add .ideal b).nat? = some n ↔ ∃ x y, a.nat? = some x ∧ b.nat? = some y ∧ n = x + y := by
  cases a <;> cases b <;> simp [add, ofLit, ofDyn, Arith.ideal, eq_comm]

theorem nat?_mul {a b : Val} {n : Nat} :
    (a.mul .ideal b).nat? = some n ↔ ∃ x y, a.nat? = some x ∧ b.nat? = some y ∧ n = x * y := by
  cases a with
  | bad f => simp [mul]
  | lit a =>
    cases b with
    | bad f => simp [mul]
    | lit b => simp [mul, ofLit, Arith.ideal, eq_comm]
    | dyn b => by_cases h : a = 0 <;> simp [mul, ofDyn, Arith.ideal, eq_comm, h]
  | dyn a =>
    cases b with
    | bad f => simp [mul]
    | lit b => by_cases h : b = 0 <;> simp [mul, ofDyn, Arith.ideal, eq_comm, h]
    | dyn b => simp [mul, ofDyn, Arith.ideal, eq_comm]

theorem nat?_sub {a b : Val} {n : Nat} :
    (a.sub .ideal b).nat? = some n ↔
      ∃ x y, a.nat? = some x ∧ b.nat? = some y ∧ y ≤ x ∧ n = x - y := by
  cases a with
  | bad f => simp [sub]
  | lit a =>
    cases b with
    | bad f => simp [sub]
    | lit b => by_cases h : b ≤ a <;> simp [sub, ofLit, Arith.ideal, eq_comm, h]
    | dyn b => by_cases h : b ≤ a <;> simp [sub, ofDyn, Arith.ideal, eq_comm, h]
  | dyn a =>
    cases b with
    | bad f => simp [sub]
    | lit b => by_cases h : b ≤ a <;> simp [sub, ofDyn, Arith.ideal, eq_comm, h]
    | dyn b => by_cases h : b ≤ a <;> simp [sub, ofDyn, Arith.ideal, eq_comm, h]

/-- The value of a quotient: a constant zero may be divided by zero. -/
theorem nat?_div {a b : Val} {n : Nat} :
    (a.div .ideal b).nat? = some n ↔
      ∃ x y, a.nat? = some x ∧ b.nat? = some y ∧ (y ≠ 0 ∨ (a = lit 0 ∧ b = dyn 0)) ∧ n = x / y := by
  cases a with
  | bad f => simp [div]
  | lit a =>
    cases b with
    | bad f => simp [div]
    | lit b => by_cases h : b = 0 <;> simp [div, ofLit, Arith.ideal, eq_comm, h]
    | dyn b =>
      by_cases h : a = 0 <;> by_cases hb : b = 0 <;>
        simp [div, ofDyn, Arith.ideal, eq_comm, h, hb]
  | dyn a =>
    cases b with
    | bad f => simp [div]
    | lit b => by_cases h : b = 0 <;> simp [div, ofDyn, Arith.ideal, eq_comm, h]
    | dyn b => by_cases h : b = 0 <;> simp [div, ofDyn, Arith.ideal, eq_comm, h]

/-- The value of a remainder. -/
theorem nat?_mod {a b : Val} {n : Nat} :
    (a.mod .ideal b).nat? = some n ↔
      ∃ x y, a.nat? = some x ∧ b.nat? = some y ∧ (y ≠ 0 ∨ (a = lit 0 ∧ b = dyn 0)) ∧ n = x % y := by
  cases a with
  | bad f => simp [mod]
  | lit a =>
    cases b with
    | bad f => simp [mod]
    | lit b => by_cases h : b = 0 <;> simp [mod, ofLit, Arith.ideal, eq_comm, h]
    | dyn b =>
      by_cases h : a = 0 <;> by_cases hb : b = 0 <;>
        simp [mod, ofDyn, Arith.ideal, eq_comm, h, hb]
  | dyn a =>
    cases b with
    | bad f => simp [mod]
    | lit b => by_cases h : b = 0 <;> simp [mod, ofDyn, Arith.ideal, eq_comm, h]
    | dyn b => by_cases h : b = 0 <;> simp [mod, ofDyn, Arith.ideal, eq_comm, h]

@[simp] theorem add_ideal_lit_zero (a : Val) : a.add .ideal (lit 0) = a := by
  cases a <;> simp [add, ofLit, ofDyn, Arith.ideal]

theorem add_assoc_ideal (a b c : Val) :
    (a.add .ideal b).add .ideal c = a.add .ideal (b.add .ideal c) := by
  cases a <;> cases b <;> cases c <;> simp [add, ofLit, ofDyn, Arith.ideal, Nat.add_assoc]

theorem sub_sub_ideal (a b c : Val) (hb : b.nat? ≠ none) (hc : c.nat? ≠ none) :
    (a.sub .ideal b).sub .ideal c = a.sub .ideal (b.add .ideal c) := by
  have key : ∀ x y z : Nat, (x - y) - z = x - (y + z) := by omega
  have mk : ∀ x y z : Nat, (¬ y + z ≤ x) → ¬ (y ≤ x ∧ z ≤ x - y) := by omega
  have mk2 : ∀ x y z : Nat, y + z ≤ x → y ≤ x ∧ z ≤ x - y := by omega
  cases b with
  | bad f => simp at hb
  | lit y | dyn y =>
    cases c with
    | bad f => simp at hc
    | lit z | dyn z =>
      cases a with
      | bad f => simp [sub]
      | lit x | dyn x =>
        by_cases h : y + z ≤ x
        · obtain ⟨h1, h2⟩ := mk2 x y z h
          simp only [sub, add, ofLit, ofDyn, Arith.ideal, h, h1, h2, ↓reduceIte, key]
        · by_cases h1 : y ≤ x
          · have h2 : ¬ z ≤ x - y := fun h2 => mk x y z h ⟨h1, h2⟩
            simp only [sub, add, ofLit, ofDyn, Arith.ideal, h, h1, h2, ↓reduceIte]
          · simp only [sub, add, ofLit, ofDyn, Arith.ideal, h, h1, ↓reduceIte]

end Val

/-! ### States -/

namespace State

@[simp] theorem set_self (st : State) (t : Tag) (v : Val) : st.set t v t = some v := by
  simp [set]

theorem set_ne (st : State) {t u : Tag} (v : Val) (h : u ≠ t) : st.set t v u = st u := by
  simp [set, h]

@[simp] theorem remove_self (st : State) (t : Tag) : st.remove t t = none := by simp [remove]

theorem remove_ne (st : State) {t u : Tag} (h : u ≠ t) : st.remove t u = st u := by
  simp [remove, h]

theorem remove_absent (st : State) (t : Tag) (h : st t = none) : st.remove t = st := by
  funext u
  by_cases hu : u = t
  · simp [remove, hu, h]
  · simp [remove, hu]

theorem set_set (st : State) (t : Tag) (v w : Val) : (st.set t v).set t w = st.set t w := by
  funext u
  by_cases hu : u = t <;> simp [set, hu]

theorem set_comm (st : State) {t u : Tag} (v w : Val) (h : t ≠ u) :
    (st.set t v).set u w = (st.set u w).set t v := by
  funext x
  by_cases hx : x = t
  · subst hx; simp [set, h]
  · by_cases hy : x = u
    · subst hy; simp [set, hx]
    · simp [set, hx, hy]

theorem remove_set_comm (st : State) {t u : Tag} (v : Val) (h : t ≠ u) :
    (st.set t v).remove u = (st.remove u).set t v := by
  funext x
  by_cases hx : x = t
  · subst hx; simp [set, remove, h]
  · by_cases hy : x = u
    · subst hy; simp [set, remove, hx]
    · simp [set, remove, hx, hy]

theorem remove_set_self (st : State) (t : Tag) (v : Val) : (st.set t v).remove t = st.remove t := by
  funext x
  by_cases hx : x = t <;> simp [set, remove, hx]

theorem remove_comm (st : State) (t u : Tag) : (st.remove t).remove u = (st.remove u).remove t := by
  funext x
  by_cases hx : x = t <;> by_cases hy : x = u <;> simp [remove, hx, hy]

theorem mapAt_absent (st : State) (t : Tag) (f : Val → Val) (h : st t = none) :
    st.mapAt t f = st := by
  funext u
  by_cases hu : u = t
  · simp [mapAt, hu, h]
  · simp [mapAt, hu]

end State

/-! ### `length` needs `has_length` -/

@[simp] theorem guardLen_idem (h : Option Bool) (v : Option Val) :
    guardLen h (guardLen h v) = guardLen h v := by
  unfold guardLen; split <;> simp

theorem guardLen_eq_some {h : Option Bool} {v : Option Val} {n : Val} :
    guardLen h v = some n ↔ h = some true ∧ v = some n := by
  unfold guardLen
  split <;> simp_all

/-- Every structure offers `length` only where it offers `has_length`. -/
theorem Struct.len_guard (A : Arith) (s : Struct) (q : Dim) (st : State) :
    guardLen ((s.sem A).hasLen q st) ((s.sem A).len q st) = (s.sem A).len q st := by
  cases s with
  | scalar s a => rfl
  | tuple t n fs => exact guardLen_idem _ _
  | vector d s => exact guardLen_idem _ _
  | union n ss => exact guardLen_idem _ _
  | view v s => cases v <;> exact guardLen_idem _ _

theorem Struct.hasLen_of_len {A : Arith} {s : Struct} {q : Dim} {st : State} {n : Val}
    (h : (s.sem A).len q st = some n) : (s.sem A).hasLen q st = some true := by
  rw [← Struct.len_guard] at h
  exact (guardLen_eq_some.1 h).1

/-! ### Renaming -/

theorem renameDim_of_mem {ps : List (Dim × Dim)} (h : (ps.map Prod.fst).Nodup) {n e : Dim}
    (hm : (n, e) ∈ ps) : Sig.renameDim ps n = e := by
  induction ps with
  | nil => simp at hm
  | cons p ps ih =>
    obtain ⟨a, b⟩ := p
    simp only [List.map_cons, List.nodup_cons] at h
    simp only [List.mem_cons, Prod.mk.injEq] at hm
    simp only [Sig.renameDim]
    rcases hm with ⟨rfl, rfl⟩ | hm
    · simp
    · have : n ≠ a := by
        rintro rfl
        exact h.1 (List.mem_map.2 ⟨_, hm, rfl⟩)
      simp [this, ih h.2 hm]

theorem renameDim_of_not_mem {ps : List (Dim × Dim)} {n : Dim} (h : n ∉ ps.map Prod.fst) :
    Sig.renameDim ps n = n := by
  induction ps with
  | nil => rfl
  | cons p ps ih =>
    obtain ⟨a, b⟩ := p
    simp only [List.map_cons, List.mem_cons, not_or] at h
    simp [Sig.renameDim, h.1, ih h.2]

theorem map_swap_fst (ps : List (Dim × Dim)) :
    (ps.map Prod.swap).map Prod.fst = ps.map Prod.snd := by simp [Function.comp_def]

theorem map_swap_snd (ps : List (Dim × Dim)) :
    (ps.map Prod.swap).map Prod.snd = ps.map Prod.fst := by simp [Function.comp_def]

/-- Renaming forth and back. -/
theorem renameDim_swap {ps : List (Dim × Dim)} (h1 : (ps.map Prod.fst).Nodup)
    (h2 : (ps.map Prod.snd).Nodup) (n : Dim)
    (hn : ¬ (n ∈ ps.map Prod.snd ∧ n ∉ ps.map Prod.fst)) :
    Sig.renameDim (ps.map Prod.swap) (Sig.renameDim ps n) = n := by
  by_cases hf : n ∈ ps.map Prod.fst
  · obtain ⟨⟨a, e⟩, hm, rfl⟩ := List.mem_map.1 hf
    rw [renameDim_of_mem h1 hm]
    exact renameDim_of_mem (by rw [map_swap_fst]; exact h2) (List.mem_map.2 ⟨_, hm, rfl⟩)
  · rw [renameDim_of_not_mem hf]
    refine renameDim_of_not_mem ?_
    rw [map_swap_fst]
    exact fun h => hn ⟨h, hf⟩

/-- The value of an index of the renamed state. -/
theorem renameState_idx (ps : List (Dim × Dim)) (st : State) (n : Dim) :
    renameState ps st (.idx n) =
      if n ∈ ps.map Prod.fst ∨ n ∉ ps.map Prod.snd then st (.idx (Sig.renameDim ps n))
      else none := by
  simp only [renameState]
  by_cases h1 : n ∈ ps.map Prod.fst
  · rw [if_pos h1, if_pos (Or.inl h1)]
  · rw [if_neg h1, renameDim_of_not_mem h1]
    by_cases h2 : n ∈ ps.map Prod.snd
    · rw [if_pos h2, if_neg (by simp only [not_or, Classical.not_not]; exact ⟨h1, h2⟩)]
    · rw [if_neg h2, if_pos (Or.inr h2)]

/-- The value of a length of the renamed state. -/
theorem renameState_len (ps : List (Dim × Dim)) (st : State) (n : Dim) :
    renameState ps st (.len n) =
      if n ∈ ps.map Prod.fst ∨ n ∉ ps.map Prod.snd then st (.len (Sig.renameDim ps n))
      else none := by
  simp only [renameState]
  by_cases h1 : n ∈ ps.map Prod.fst
  · rw [if_pos h1, if_pos (Or.inl h1)]
  · rw [if_neg h1, renameDim_of_not_mem h1]
    by_cases h2 : n ∈ ps.map Prod.snd
    · rw [if_pos h2, if_neg (by simp only [not_or, Classical.not_not]; exact ⟨h1, h2⟩)]
    · rw [if_neg h2, if_pos (Or.inr h2)]

/-- The internal name of a dimension is never one that only occurs as a new name. -/
theorem renameDim_swap_keep {ps : List (Dim × Dim)} (h2 : (ps.map Prod.snd).Nodup) (q : Dim) :
    Sig.renameDim (ps.map Prod.swap) q ∈ ps.map Prod.fst ∨
    Sig.renameDim (ps.map Prod.swap) q ∉ ps.map Prod.snd := by
  by_cases hq : q ∈ ps.map Prod.snd
  · left
    obtain ⟨⟨a, e⟩, hm, rfl⟩ := List.mem_map.1 hq
    rw [renameDim_of_mem (by rw [map_swap_fst]; exact h2) (List.mem_map.2 ⟨_, hm, rfl⟩)]
    exact List.mem_map.2 ⟨_, hm, rfl⟩
  · right
    rwa [renameDim_of_not_mem (by rw [map_swap_fst]; exact hq)]

/-- Renaming back and forth. -/
theorem renameDim_swap' {ps : List (Dim × Dim)} (h1 : (ps.map Prod.fst).Nodup)
    (h2 : (ps.map Prod.snd).Nodup) (q : Dim)
    (hq : ¬ (q ∈ ps.map Prod.fst ∧ q ∉ ps.map Prod.snd)) :
    Sig.renameDim ps (Sig.renameDim (ps.map Prod.swap) q) = q := by
  by_cases hs : q ∈ ps.map Prod.snd
  · obtain ⟨⟨a, e⟩, hm, rfl⟩ := List.mem_map.1 hs
    rw [renameDim_of_mem (by rw [map_swap_fst]; exact h2) (List.mem_map.2 ⟨_, hm, rfl⟩)]
    exact renameDim_of_mem h1 hm
  · have : Sig.renameDim (ps.map Prod.swap) q = q :=
      renameDim_of_not_mem (by rw [map_swap_fst]; exact hs)
    rw [this]
    exact renameDim_of_not_mem (fun hf => hq ⟨hf, hs⟩)

/-! ### Tactics for states -/

/-- proves equalities of states built by the map operations -/
macro "state_eq" : tactic => `(tactic| (
  funext t
  cases t <;> simp +zetaDelta only [State.at, blocksClean, State.removeAll, State.set, State.mapAt,
    State.remove, List.mem_cons, List.not_mem_nil, or_false, Tag.idx.injEq, Tag.len.injEq,
    reduceCtorEq, false_or, or_self, if_false] <;> grind [State.Without]))

/-- proves the value of a tag in a state built by the map operations -/
macro "state_val" : tactic => `(tactic| (
  simp +zetaDelta only [State.at, blocksClean, State.removeAll, State.set, State.mapAt,
    State.remove, State.has, List.mem_cons, List.not_mem_nil, or_false, Tag.idx.injEq,
    Tag.len.injEq, reduceCtorEq, false_or, or_self, if_false] <;> grind [State.Without]))

theorem Val.Num.cases {v : Val} {n : Nat} (h : v.Num n) : v = .lit n ∨ v = .dyn n :=
  Val.nat?_eq_some.1 h

end Noarr
