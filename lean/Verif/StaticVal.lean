import Verif.Lemmas

/-
Results that are compile-time constants. Specification and proof for C65.

A value of type `std::integral_constant<std::size_t, N>` is `lit N` in the model, a run-time `std::size_t` is
`dyn n` (base/utility.hpp:481-551).
-/

set_option linter.unusedVariables false

namespace Noarr

/-- The value is not a run-time number: it is a constant, or the result of a faulty computation on constants. -/
def Val.Static (v : Val) : Prop := ∀ n, v ≠ .dyn n

/-- All the indices and lengths in the state are constants. -/
def State.Static (st : State) : Prop := ∀ t v, st t = some v → v.Static

/-- The values given to the view are constants, and the view is neither `merge_zcurve` nor
`into_blocks_dynamic`. -/
def View.static : View → Prop
  | .fix _ i => i.Static
  | .setLength _ l => l.Static
  | .shift _ a => a.Static
  | .slice _ a l => a.Static ∧ l.Static
  | .span _ a e => a.Static ∧ e.Static
  | .step _ a k => a.Static ∧ k.Static
  | .intoBlocksStat _ _ _ _ nl => nl.Static
  | .intoBlocksDyn _ _ _ _ => False
  | .mergeZ _ _ _ _ => False
  | _ => True

/-- All the values given to views are constants, and there is neither `merge_zcurve` nor
`into_blocks_dynamic`. -/
def Struct.static : Struct → Prop
  | .scalar _ _ => True
  | .tuple _ _ fs => ∀ i, (fs i).static
  | .vector _ s => s.static
  | .union _ ss => ∀ i, (ss i).static
  | .view v s => v.static ∧ s.static

/-! ### Arithmetic -/

namespace Val
variable {A : Arith}

@[simp] theorem static_lit (n : Nat) : (lit n).Static := fun _ h => by cases h
@[simp] theorem static_bad (f : Fault) : (bad f).Static := fun _ h => by cases h

theorem static_ofLit (e : Except Fault Nat) : (ofLit e).Static := by
  cases e <;> simp [ofLit]

theorem Static.add {a b : Val} (ha : a.Static) (hb : b.Static) : (a.add A b).Static := by
  cases a <;> cases b <;> first | exact absurd rfl (ha _) | exact absurd rfl (hb _) | simp [Val.add, static_ofLit]

theorem Static.sub {a b : Val} (ha : a.Static) (hb : b.Static) : (a.sub A b).Static := by
  cases a <;> cases b <;> first | exact absurd rfl (ha _) | exact absurd rfl (hb _) | simp [Val.sub, static_ofLit]

theorem Static.mul {a b : Val} (ha : a.Static) (hb : b.Static) : (a.mul A b).Static := by
  cases a <;> cases b <;> first | exact absurd rfl (ha _) | exact absurd rfl (hb _) | simp [Val.mul, static_ofLit]

theorem Static.div {a b : Val} (ha : a.Static) (hb : b.Static) : (a.div A b).Static := by
  cases a <;> cases b <;> first | exact absurd rfl (ha _) | exact absurd rfl (hb _) | simp [Val.div, static_ofLit]

theorem Static.mod {a b : Val} (ha : a.Static) (hb : b.Static) : (a.mod A b).Static := by
  cases a <;> cases b <;> first | exact absurd rfl (ha _) | exact absurd rfl (hb _) | simp [Val.mod, static_ofLit]

/-- A constant that is a number is a constant number. -/
theorem Static.eq_lit {v : Val} (h : v.Static) {n : Nat} (hn : v.nat? = some n) : v = lit n := by
  cases v with
  | lit m => cases hn; rfl
  | dyn m => exact absurd rfl (h m)
  | bad f => cases hn

end Val

/-! ### States -/

namespace State
variable {st : State}

theorem static_empty : State.empty.Static := fun t v h => by cases h

theorem Static.set (h : st.Static) {t : Tag} {v : Val} (hv : v.Static) : (st.set t v).Static := by
  intro t' w hw
  simp only [State.set] at hw
  split at hw
  · cases hw; exact hv
  · exact h _ _ hw

theorem Static.remove (h : st.Static) (t : Tag) : (st.remove t).Static := by
  intro t' w hw
  simp only [State.remove] at hw
  split at hw
  · cases hw
  · exact h _ _ hw

theorem Static.removeAll (h : st.Static) (ts : List Tag) : (st.removeAll ts).Static := by
  intro t' w hw
  simp only [State.removeAll] at hw
  split at hw
  · cases hw
  · exact h _ _ hw

theorem Static.mapAt (h : st.Static) (t : Tag) {f : Val → Val} (hf : ∀ v, v.Static → (f v).Static) :
    (st.mapAt t f).Static := by
  intro t' w hw
  simp only [State.mapAt] at hw
  split at hw
  · cases hs : st t with
    | none => rw [hs] at hw; cases hw
    | some v => rw [hs] at hw; cases hw; exact hf v (h t v hs)
  · exact h _ _ hw

end State

/-! ### Structures -/

/-- The queries of a structure have constant results when asked with constants. -/
structure Sem.Static (S : Sem) : Prop where
  len : ∀ {q st v}, State.Static st → S.len q st = some v → v.Static
  size : ∀ {st v}, State.Static st → S.size st = some v → v.Static
  off : ∀ {st start v}, State.Static st → start.Static → S.off st start = some v → v.Static

structure ViewSem.Static (V : ViewSem) : Prop where
  sub : ∀ {st u}, State.Static st → V.sub st = some u → u.Static
  len : ∀ {q st v}, State.Static st → V.len q st = some v → v.Static

theorem ViewSem.Static.toSem {V : ViewSem} {S : Sem} (hV : V.Static) (hS : S.Static) : (V.toSem S).Static where
  len := hV.len
  size := by
    intro st v hst h
    simp only [ViewSem.toSem] at h
    split at h
    · obtain ⟨u, hu, h⟩ := Option.bind_eq_some_iff.1 h
      exact hS.size (hV.sub hst hu) h
    · cases h
  off := by
    intro st start v hst hs h
    simp only [ViewSem.toSem] at h
    split at h
    · obtain ⟨u, hu, h⟩ := Option.bind_eq_some_iff.1 h
      exact hS.off (hV.sub hst hu) hs h
    · cases h

theorem static_scalar (s a : Nat) : (scalarSem s a).Static where
  len := by intro q st v hst h; cases h
  size := by intro st v hst h; cases h; simp
  off := by intro st start v hst hs h; cases h; exact hs

theorem static_sizeAcc {A : Arith} {st : State} (hst : st.Static) :
    ∀ (Ss : List Sem) (hS : ∀ S ∈ Ss, S.Static) (start v : Val), start.Static → sizeAcc A st Ss start = some v →
      v.Static
  | [], hS, start, v, hs, h => by cases h; exact hs
  | S :: Ss, hS, start, v, hs, h => by
    simp only [sizeAcc] at h
    obtain ⟨al, hal, h⟩ := Option.bind_eq_some_iff.1 h
    obtain ⟨sz, hsz, h⟩ := Option.bind_eq_some_iff.1 h
    refine static_sizeAcc hst Ss (fun S' hS' => hS S' (.tail _ hS')) _ v ?_ h
    have := (hS S (.head _)).size hst hsz
    exact ((((hs.add (by simp)).sub (by simp)).div (by simp)).mul (by simp)).add this

theorem static_tuple {A : Arith} {t : Dim} {n : Nat} {fs : Fin n → Sem} (hf : ∀ i, (fs i).Static) :
    (tupleSem A t n fs).Static := by
  have hall : ∀ S ∈ List.ofFn fs, S.Static := by
    intro S hS
    obtain ⟨i, rfl⟩ := List.mem_ofFn.1 hS
    exact hf i
  have hfield : ∀ {st : State} {S : Sem}, ((constIdx (st (.idx t))).bind fun k =>
      if h : k < n then some (fs ⟨k, h⟩) else none) = some S → S.Static := by
    intro st S h
    obtain ⟨k, hk, h⟩ := Option.bind_eq_some_iff.1 h
    split at h
    · cases h; exact hf _
    · cases h
  refine ⟨?_, ?_, ?_⟩
  · intro q st v hst h
    obtain ⟨-, h⟩ := guardLen_eq_some.1 h
    split at h
    · cases h; simp
    · obtain ⟨S, hS, h⟩ := Option.bind_eq_some_iff.1 h
      exact (hfield hS).len (hst.remove _) h
  · intro st v hst h
    exact static_sizeAcc (hst.remove _) _ hall _ v (by simp) h
  · intro st start v hst hs h
    simp only [tupleSem] at h
    obtain ⟨k, hk, h⟩ := Option.bind_eq_some_iff.1 h
    obtain ⟨S, hS, h⟩ := Option.bind_eq_some_iff.1 h
    obtain ⟨b, hb, h⟩ := Option.bind_eq_some_iff.1 h
    refine (hfield hS).off (hst.remove _) ?_ h
    exact (static_sizeAcc (hst.remove _) _ (fun S hS => hall S (List.mem_of_mem_take hS)) _ b (by simp) hb).add hs

theorem static_union {n : Nat} {fs : Fin n → Sem} (hf : ∀ i, (fs i).Static) : (unionSem n fs).Static where
  len := by
    intro q st v hst h
    obtain ⟨-, h⟩ := guardLen_eq_some.1 h
    split at h
    · exact (hf _).len hst h
    · cases h
  size := by intro st v hst h; cases h
  off := by intro st start v hst hs h; cases h

/-- The offset in a vector does not use the length, except to see whether it is the constant 1. -/
theorem static_vector_off {A : Arith} {d : Dim} {T : Sem} (hT : T.Static) {st : State} {start v : Val}
    (hst : ∀ t, t ≠ .len d → ∀ v, st t = some v → v.Static) (hs : start.Static)
    (h : (vectorSem A d T).off st start = some v) : v.Static := by
  have hsub : (st.removeAll [.idx d, .len d]).Static := by
    intro t w hw
    simp only [State.removeAll] at hw
    split at hw
    · cases hw
    · next hm => exact hst t (by rintro rfl; simp at hm) w hw
  simp only [vectorSem] at h
  obtain ⟨i, hi, h⟩ := Option.bind_eq_some_iff.1 h
  obtain ⟨l, hl, h⟩ := Option.bind_eq_some_iff.1 h
  have hi' := hst (.idx d) (by simp) i hi
  split at h
  · exact hT.off hsub hs h
  · obtain ⟨w, -, h⟩ := Option.bind_eq_some_iff.1 h
    cases h; simp
  · obtain ⟨s, hsz, h⟩ := Option.bind_eq_some_iff.1 h
    exact hT.off hsub ((hi'.mul (hT.size hsub hsz)).add hs) h

theorem static_vector {A : Arith} {d : Dim} {T : Sem} (hT : T.Static) : (vectorSem A d T).Static where
  len := by
    intro q st v hst h
    obtain ⟨-, h⟩ := guardLen_eq_some.1 h
    split at h
    · exact hst _ _ h
    · exact hT.len (hst.removeAll _) h
  size := by
    intro st v hst h
    simp only [vectorSem] at h
    obtain ⟨l, hl, h⟩ := Option.bind_eq_some_iff.1 h
    obtain ⟨s, hs, h⟩ := Option.bind_eq_some_iff.1 h
    cases h
    exact (hst _ _ hl).mul (hT.size (hst.removeAll _) hs)
  off := fun hst hs h => static_vector_off hT (fun t _ => hst t) hs h

section Views
variable {A : Arith} {S : Sem} (hS : S.Static)
include hS

theorem static_bcast (d : Dim) : (bcastSem d S).Static where
  sub := by intro st u hst h; cases h; exact hst.removeAll _
  len := by
    intro q st v hst h
    obtain ⟨-, h⟩ := guardLen_eq_some.1 h
    split at h
    · exact hst _ _ h
    · exact hS.len (hst.removeAll _) h

theorem static_fix (d : Dim) {i : Val} (hi : i.Static) : (fixSem d i S).Static where
  sub := by intro st u hst h; cases h; exact (hst.remove _).set hi
  len := by
    intro q st v hst h
    obtain ⟨-, h⟩ := guardLen_eq_some.1 h
    exact hS.len ((hst.remove _).set hi) h

theorem static_setLength (d : Dim) {l : Val} (hl : l.Static) : (setLengthSem d l S).Static where
  sub := by intro st u hst h; cases h; exact hst.set hl
  len := by
    intro q st v hst h
    obtain ⟨-, h⟩ := guardLen_eq_some.1 h
    exact hS.len (hst.set hl) h

theorem static_shift (d : Dim) {a : Val} (ha : a.Static) : (shiftSem A d a S).Static where
  sub := by
    intro st u hst h; cases h
    exact (hst.mapAt _ fun v hv => hv.add ha).mapAt _ fun v hv => hv.add ha
  len := by
    intro q st v hst h
    obtain ⟨-, h⟩ := guardLen_eq_some.1 h
    have hu := (hst.mapAt (.idx d) fun v hv => hv.add (A := A) ha).mapAt (.len d) fun v hv => hv.add (A := A) ha
    split at h
    · split at h
      · next l hl => cases h; exact hst _ _ hl
      · obtain ⟨l, hl, h⟩ := Option.bind_eq_some_iff.1 h
        cases h
        exact (hS.len hu hl).sub ha
    · exact hS.len hu h

theorem static_slice (d : Dim) {a l : Val} (ha : a.Static) (hl : l.Static) : (sliceSem A d a l S).Static where
  sub := by intro st u hst h; cases h; exact hst.mapAt _ fun v hv => hv.add ha
  len := by
    intro q st v hst h
    obtain ⟨-, h⟩ := guardLen_eq_some.1 h
    split at h
    · cases h; exact hl
    · exact hS.len (hst.mapAt _ fun v hv => hv.add ha) h

theorem static_span (d : Dim) {a e : Val} (ha : a.Static) (he : e.Static) : (spanSem A d a e S).Static where
  sub := by intro st u hst h; cases h; exact hst.mapAt _ fun v hv => hv.add ha
  len := by
    intro q st v hst h
    obtain ⟨-, h⟩ := guardLen_eq_some.1 h
    split at h
    · cases h; exact he.sub ha
    · exact hS.len (hst.mapAt _ fun v hv => hv.add ha) h

theorem static_step (d : Dim) {a k : Val} (ha : a.Static) (hk : k.Static) : (stepSem A d a k S).Static where
  sub := by intro st u hst h; cases h; exact hst.mapAt _ fun v hv => (hv.mul hk).add ha
  len := by
    intro q st v hst h
    obtain ⟨-, h⟩ := guardLen_eq_some.1 h
    split at h
    · obtain ⟨l, hl, h⟩ := Option.bind_eq_some_iff.1 h
      cases h
      exact ((((hS.len hst hl).add hk).sub ha).sub (by simp)).div hk
    · exact hS.len (hst.mapAt _ fun v hv => (hv.mul hk).add ha) h

theorem static_reverse (d : Dim) : (reverseSem A d S).Static where
  sub := by
    intro st u hst h
    simp only [reverseSem] at h
    split at h
    · cases h; exact hst
    · next i hi =>
      split at h
      · cases h
      · cases h; exact hst.remove _
      · obtain ⟨l, hl, h⟩ := Option.bind_eq_some_iff.1 h
        cases h
        exact (hst.remove _).set (((hS.len (hst.remove _) hl).sub (by simp)).sub (hst _ _ hi))
  len := by
    intro q st v hst h
    obtain ⟨-, h⟩ := guardLen_eq_some.1 h
    exact hS.len hst h

theorem static_reorder (ds : List Dim) : (reorderSem ds S).Static where
  sub := by intro st u hst h; cases h; exact hst
  len := by
    intro q st v hst h
    obtain ⟨-, h⟩ := guardLen_eq_some.1 h
    exact hS.len hst h

theorem static_hoist (d : Dim) : (hoistSem d S).Static where
  sub := by intro st u hst h; cases h; exact hst
  len := by
    intro q st v hst h
    obtain ⟨-, h⟩ := guardLen_eq_some.1 h
    exact hS.len hst h

theorem static_rename (ps : List (Dim × Dim)) : (renameSem ps S).Static := by
  have hr : ∀ {st : State}, st.Static → (renameState ps st).Static := by
    intro st hst t v h
    cases t <;> simp only [renameState] at h <;> split at h
    · exact hst _ _ h
    · split at h
      · cases h
      · exact hst _ _ h
    · exact hst _ _ h
    · split at h
      · cases h
      · exact hst _ _ h
  refine ⟨?_, ?_⟩
  · intro st u hst h; cases h; exact hr hst
  · intro q st v hst h
    obtain ⟨-, h⟩ := guardLen_eq_some.1 h
    exact hS.len (hr hst) h

theorem static_join (a b d : Dim) : (joinSem a b d S).Static := by
  have hsub : ∀ {st u : State}, st.Static → (joinSem a b d S).sub st = some u → u.Static := by
    intro st u hst h
    simp only [joinSem] at h
    obtain ⟨ha, -, h⟩ := Option.bind_eq_some_iff.1 h
    obtain ⟨hb, -, h⟩ := Option.bind_eq_some_iff.1 h
    have hc := hst.removeAll [.idx d, .idx a, .idx b, .len d, .len a, .len b]
    split at h
    · cases h
    · split at h
      · next l hl =>
        split at h
        · cases h
        · cases h
          refine State.Static.set (State.Static.set ?_ (hst _ _ hl)) (hst _ _ hl)
          split
          · next i hi => exact (hc.set (hst _ _ hi)).set (hst _ _ hi)
          · exact hc
      · cases h
        split
        · next i hi => exact (hc.set (hst _ _ hi)).set (hst _ _ hi)
        · exact hc
  refine ⟨hsub, ?_⟩
  intro q st v hst h
  obtain ⟨-, h⟩ := guardLen_eq_some.1 h
  obtain ⟨u, hu, h⟩ := Option.bind_eq_some_iff.1 h
  exact hS.len (hsub hst hu) h

theorem static_intoBlocks (d maj min : Dim) : (intoBlocksSem A d maj min S).Static := by
  have hsub : ∀ {st u : State}, st.Static → intoBlocksSub A d maj min S st = some u → u.Static := by
    intro st u hst h
    have hc : (blocksClean d maj min st).Static := hst.removeAll _
    simp only [intoBlocksSub] at h
    split at h
    · next nl hnl =>
      have hc' : (match st (.len maj) with
        | some ml => (blocksClean d maj min st).set (.len d) (ml.mul A nl)
        | none => blocksClean d maj min st).Static := by
        split
        · next ml hml => exact hc.set ((hst _ _ hml).mul (hst _ _ hnl))
        · exact hc
      split at h
      · next i j hi hj => cases h; exact hc'.set (((hst _ _ hi).mul (hst _ _ hnl)).add (hst _ _ hj))
      · cases h; exact hc'
    · split at h
      · cases h
      · cases h; exact hc
      · split at h
        · next ml i j hml hi hj =>
          obtain ⟨l, hl, h⟩ := Option.bind_eq_some_iff.1 h
          cases h
          exact hc.set (((hst _ _ hi).mul ((hS.len hc hl).div (hst _ _ hml))).add (hst _ _ hj))
        · cases h; exact hc
  refine ⟨hsub, ?_⟩
  intro q st v hst h
  obtain ⟨-, h⟩ := guardLen_eq_some.1 h
  have hc : (blocksClean d maj min st).Static := hst.removeAll _
  split at h
  · split at h
    · next l hl => cases h; exact hst _ _ hl
    · obtain ⟨ml, hml, h⟩ := Option.bind_eq_some_iff.1 h
      obtain ⟨l, hl, h⟩ := Option.bind_eq_some_iff.1 h
      cases h
      exact (hS.len hc hl).div (hst _ _ hml)
  · split at h
    · split at h
      · next l hl => cases h; exact hst _ _ hl
      · obtain ⟨nl, hnl, h⟩ := Option.bind_eq_some_iff.1 h
        obtain ⟨u, hu, h⟩ := Option.bind_eq_some_iff.1 h
        obtain ⟨l, hl, h⟩ := Option.bind_eq_some_iff.1 h
        cases h
        exact (hS.len (hsub hst hu) hl).div (hst _ _ hnl)
    · obtain ⟨u, hu, h⟩ := Option.bind_eq_some_iff.1 h
      exact hS.len (hsub hst hu) h

omit hS in
theorem static_ceilDiv {l k : Val} (hl : l.Static) (hk : k.Static) : (ceilDiv A l k).Static :=
  ((hl.add hk).sub (by simp)).div hk

/-- All the queries of `into_blocks_dynamic`, except for the length of the presence dimension. -/
theorem static_intoBlocksDyn (d maj min pres : Dim) :
    (∀ {st u : State}, st.Static → (intoBlocksDynSem A d maj min pres S).sub st = some u → u.Static) ∧
    (∀ {q st v}, State.Static st → q ≠ pres → (intoBlocksDynSem A d maj min pres S).len q st = some v →
      v.Static) := by
  have hclean : ∀ {st u : State}, st.Static → blocksDynClean d maj min pres st = some u → u.Static := by
    intro st u hst h
    simp only [blocksDynClean] at h
    split at h
    · cases h
    · cases h; exact hst.removeAll _
  have hsub : ∀ {st u : State}, st.Static → intoBlocksDynSub A d maj min pres S st = some u → u.Static := by
    intro st u hst h
    simp only [intoBlocksDynSub] at h
    obtain ⟨cs, hcs, h⟩ := Option.bind_eq_some_iff.1 h
    have hc := hclean hst hcs
    split at h
    · next nl hnl =>
      have hc' : (match st (.len maj) with
        | some ml => cs.set (.len d) (ml.mul A nl)
        | none => cs).Static := by
        split
        · next ml hml => exact hc.set ((hst _ _ hml).mul (hst _ _ hnl))
        · exact hc
      split at h
      · next i j hi hj => cases h; exact hc'.set (((hst _ _ hi).mul (hst _ _ hnl)).add (hst _ _ hj))
      · cases h; exact hc'
    · split at h
      · next ml i j hml hi hj =>
        obtain ⟨l, hl, h⟩ := Option.bind_eq_some_iff.1 h
        cases h
        exact hc.set (((hst _ _ hi).mul (static_ceilDiv (hS.len hc hl) (hst _ _ hml))).add (hst _ _ hj))
      · cases h; exact hc
  refine ⟨hsub, ?_⟩
  intro q st v hst hq h
  obtain ⟨-, h⟩ := guardLen_eq_some.1 h
  rw [if_neg hq] at h
  split at h
  · split at h
    · next l hl => cases h; exact hst _ _ hl
    · obtain ⟨ml, hml, h⟩ := Option.bind_eq_some_iff.1 h
      obtain ⟨cs, hcs, h⟩ := Option.bind_eq_some_iff.1 h
      obtain ⟨l, hl, h⟩ := Option.bind_eq_some_iff.1 h
      cases h
      exact static_ceilDiv (hS.len (hclean hst hcs) hl) (hst _ _ hml)
  · split at h
    · split at h
      · next l hl => cases h; exact hst _ _ hl
      · obtain ⟨nl, hnl, h⟩ := Option.bind_eq_some_iff.1 h
        obtain ⟨u, hu, h⟩ := Option.bind_eq_some_iff.1 h
        obtain ⟨l, hl, h⟩ := Option.bind_eq_some_iff.1 h
        cases h
        exact static_ceilDiv (hS.len (hsub hst hu) hl) (hst _ _ hnl)
    · obtain ⟨u, hu, h⟩ := Option.bind_eq_some_iff.1 h
      exact hS.len (hsub hst hu) h

theorem static_intoBlocksStat (d border maj min : Dim) {nl : Val} (hn : nl.Static) :
    (intoBlocksStatSem A d border maj min nl S).Static := by
  have hsub : ∀ {st u : State}, st.Static → intoBlocksStatSub A d border maj min nl S st = some u → u.Static := by
    intro st u hst h
    simp only [intoBlocksStatSub] at h
    obtain ⟨cs, hcs, h⟩ := Option.bind_eq_some_iff.1 h
    have hc : cs.Static := by
      simp only [blocksStatClean] at hcs
      split at hcs
      · cases hcs
      · cases hcs; exact hst.removeAll _
    split at h
    · split at h
      · next i j hi hj =>
        obtain ⟨body, -, h⟩ := Option.bind_eq_some_iff.1 h
        split at h
        · cases h; exact hc.set (((hst _ _ hi).mul hn).add (hst _ _ hj))
        · obtain ⟨l, hl, h⟩ := Option.bind_eq_some_iff.1 h
          cases h
          exact hc.set ((((hS.len hc hl).div hn).mul hn).add (hst _ _ hj))
      · cases h; exact hc
    · cases h; exact hc
  refine ⟨hsub, ?_⟩
  intro q st v hst h
  obtain ⟨-, h⟩ := guardLen_eq_some.1 h
  split at h
  · cases h; simp
  · split at h
    · split at h
      · cases h
      · cases h; exact hn
      · obtain ⟨u, hu, h⟩ := Option.bind_eq_some_iff.1 h
        obtain ⟨l, hl, h⟩ := Option.bind_eq_some_iff.1 h
        cases h
        exact (hS.len (hsub hst hu) hl).mod hn
    · split at h
      · split at h
        · cases h
        · obtain ⟨u, hu, h⟩ := Option.bind_eq_some_iff.1 h
          obtain ⟨l, hl, h⟩ := Option.bind_eq_some_iff.1 h
          cases h
          exact (hS.len (hsub hst hu) hl).div hn
        · cases h; simp
      · obtain ⟨u, hu, h⟩ := Option.bind_eq_some_iff.1 h
        exact hS.len (hsub hst hu) h

theorem static_mergeBlocks (maj min d : Dim) : (mergeBlocksSem A maj min d S).Static := by
  have hsub : ∀ {st u : State}, st.Static → mergeBlocksSub A maj min d S st = some u → u.Static := by
    intro st u hst h
    have hc : (blocksClean d maj min st).Static := hst.removeAll _
    simp only [mergeBlocksSub] at h
    obtain ⟨hmin, -, h⟩ := Option.bind_eq_some_iff.1 h
    obtain ⟨hmaj, -, h⟩ := Option.bind_eq_some_iff.1 h
    split at h
    · obtain ⟨nl, hnl, h⟩ := Option.bind_eq_some_iff.1 h
      have hnl := hS.len hc hnl
      have hc1 : (match st (.idx d) with
        | some i => ((blocksClean d maj min st).set (.idx maj) (i.div A nl)).set (.idx min) (i.mod A nl)
        | none => blocksClean d maj min st).Static := by
        split
        · next i hi => exact (hc.set ((hst _ _ hi).div hnl)).set ((hst _ _ hi).mod hnl)
        · exact hc
      split at h
      · cases h; exact hc1
      · split at h
        · next l hl => cases h; exact hc1.set ((hst _ _ hl).div hnl)
        · cases h; exact hc1
    · split at h
      · obtain ⟨ml, hml, h⟩ := Option.bind_eq_some_iff.1 h
        have hml := hS.len hc hml
        split at h
        · cases h; exact hc
        · next l hl =>
          have hnl := (hst _ _ hl).div (A := A) hml
          split at h
          · next i hi =>
            cases h
            exact ((hc.set ((hst _ _ hi).div hnl)).set ((hst _ _ hi).mod hnl)).set hnl
          · cases h; exact hc.set hnl
      · cases h; exact hc
  refine ⟨hsub, ?_⟩
  intro q st v hst h
  obtain ⟨-, h⟩ := guardLen_eq_some.1 h
  split at h
  · split at h
    · next l hl => cases h; exact hst _ _ hl
    · obtain ⟨u, hu, h⟩ := Option.bind_eq_some_iff.1 h
      obtain ⟨ml, hml, h⟩ := Option.bind_eq_some_iff.1 h
      obtain ⟨nl, hnl, h⟩ := Option.bind_eq_some_iff.1 h
      cases h
      exact (hS.len (hsub hst hu) hml).mul (hS.len (hsub hst hu) hnl)
  · obtain ⟨u, hu, h⟩ := Option.bind_eq_some_iff.1 h
    exact hS.len (hsub hst hu) h

end Views

theorem View.static_sem {A : Arith} {v : View} (hv : v.static) {S : Sem} (hS : S.Static) : (v.sem A S).Static := by
  cases v with
  | bcast d => exact static_bcast hS d
  | fix d i => exact static_fix hS d hv
  | setLength d l => exact static_setLength hS d hv
  | shift d a => exact static_shift hS d hv
  | slice d a l => exact static_slice hS d hv.1 hv.2
  | span d a e => exact static_span hS d hv.1 hv.2
  | step d a k => exact static_step hS d hv.1 hv.2
  | reverse d => exact static_reverse hS d
  | reorder ds => exact static_reorder hS ds
  | hoist d => exact static_hoist hS d
  | rename ps => exact static_rename hS ps
  | join a b d => exact static_join hS a b d
  | intoBlocks d maj min => exact static_intoBlocks hS d maj min
  | intoBlocksDyn d maj min pres => exact absurd hv id
  | intoBlocksStat d border maj min nl => exact static_intoBlocksStat hS d border maj min hv
  | mergeBlocks maj min d => exact static_mergeBlocks hS maj min d
  | mergeZ sl gl ds d => exact absurd hv id

theorem Struct.static_sem {A : Arith} : ∀ {s : Struct}, s.static → (s.sem A).Static
  | .scalar s a, h => static_scalar s a
  | .tuple t n fs, h => static_tuple fun i => static_sem (h i)
  | .vector d s, h => static_vector (static_sem (s := s) h)
  | .union n ss, h => static_union fun i => static_sem (h i)
  | .view v s, h => (View.static_sem h.1 (static_sem h.2)).toSem (static_sem h.2)

end Noarr
