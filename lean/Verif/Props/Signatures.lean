import Verif.SigSpec
import Verif.SigPath
import Mathlib.Data.List.Perm.Basic
import Mathlib.Data.List.Nodup

/-
C68: the dimensions of a view, their order and their lengths in the type.
-/

set_option linter.unusedSimpArgs false

namespace Noarr

@[local simp] theorem timesLen_eq : timesLen = Sig.mergeLen := by
  funext a b
  cases a <;> cases b <;> rfl

@[local simp] theorem constLen_eq : constLen = ArgLen.ofVal := by
  funext a
  cases a <;> rfl

@[local simp] theorem minusLen_eq : minusLen = Sig.shiftLen := by
  funext a b
  cases a <;> cases b <;> simp only [minusLen, Sig.shiftLen, ArgLen.static.injEq]
  omega

@[local simp] theorem lineName_eq : lineName = Sig.renameDim := by
  funext ps e
  induction ps with
  | nil => rfl
  | cons p ps ih =>
    simp only [lineName, Sig.renameDim] at ih ⊢
    rw [List.find?_cons]
    by_cases h : p.1 = e
    · simp [h]
    · rw [if_neg (Ne.symm h), ← ih]
      simp [h]

theorem mem_rewrite_cons {ds : List Dim} {G : Entry → Line → List Line} {e : Dim} {x : Entry} {w w' : Line} :
    w' ∈ Line.rewrite ds G ((e, x) :: w) ↔
      (e ∈ ds ∧ w' ∈ G x w) ∨ (e ∉ ds ∧ ∃ u ∈ Line.rewrite ds G w, w' = (e, x) :: u) := by
  simp only [Line.rewrite]
  split
  · next h => simp [h]
  · next h => simp [h, eq_comm]

theorem mem_lines_dep {d : Dim} {n : Nat} {rs : Fin n → Sig} {w : Line} :
    w ∈ (Sig.dep d n rs).lines ↔ ∃ i, ∃ u ∈ (rs i).lines, w = (d, .field i n) :: u := by
  simp [Sig.lines, eq_comm]

theorem mem_lines_fn {d : Dim} {l : ArgLen} {r : Sig} {w : Line} :
    w ∈ (Sig.fn d l r).lines ↔ ∃ u ∈ r.lines, w = (d, .arr l) :: u := by
  simp [Sig.lines, eq_comm]

/-- `replace` rewrites the ways like the replacement does at a node. -/
theorem replace_lines {R : Sig → Sig} {ds : List Dim} {G : Entry → Line → List Line}
    (hfn : ∀ d l r, d ∈ ds → (R (.fn d l r)).wf = true → ∀ w', w' ∈ (R (.fn d l r)).lines ↔ ∃ w ∈ r.lines, w' ∈ G (.arr l) w)
    (hdep : ∀ d n (rs : Fin n → Sig), d ∈ ds → (R (.dep d n rs)).wf = true →
      ∀ w', w' ∈ (R (.dep d n rs)).lines ↔ ∃ i, ∃ w ∈ (rs i).lines, w' ∈ G (.field i n) w)
    {S : Sig} (hw : (S.replace R ds).wf = true) (w' : Line) :
    w' ∈ (S.replace R ds).lines ↔ ∃ w ∈ S.lines, w' ∈ Line.rewrite ds G w := by
  induction S generalizing w' with
  | scalar s => simp [Sig.replace, Sig.lines, Line.rewrite]
  | void => simp [Sig.replace, Sig.lines, Line.rewrite]
  | ill => simp [Sig.replace, Sig.wf] at hw
  | fn d l r ih =>
    simp only [Sig.replace] at hw ⊢
    split at hw
    · next h =>
      rw [if_pos h, hfn d l r h hw]
      constructor
      · rintro ⟨w, h1, h2⟩
        exact ⟨_, mem_lines_fn.2 ⟨w, h1, rfl⟩, mem_rewrite_cons.2 (.inl ⟨h, h2⟩)⟩
      · rintro ⟨w, h1, h2⟩
        obtain ⟨u, hu, rfl⟩ := mem_lines_fn.1 h1
        rcases mem_rewrite_cons.1 h2 with h2 | h2
        · exact ⟨u, hu, h2.2⟩
        · exact absurd h h2.1
    · next h =>
      rw [if_neg h, mem_lines_fn]
      constructor
      · rintro ⟨u, h1, rfl⟩
        obtain ⟨w, h2, h3⟩ := (ih hw u).1 h1
        exact ⟨_, mem_lines_fn.2 ⟨w, h2, rfl⟩, mem_rewrite_cons.2 (.inr ⟨h, u, h3, rfl⟩)⟩
      · rintro ⟨w, h1, h2⟩
        obtain ⟨u, hu, rfl⟩ := mem_lines_fn.1 h1
        rcases mem_rewrite_cons.1 h2 with h2 | ⟨-, v, h3, rfl⟩
        · exact absurd h2.1 h
        · exact ⟨v, (ih hw v).2 ⟨u, hu, h3⟩, rfl⟩
  | dep d n rs ih =>
    simp only [Sig.replace] at hw ⊢
    split at hw
    · next h =>
      rw [if_pos h, hdep d n rs h hw]
      constructor
      · rintro ⟨i, w, h1, h2⟩
        exact ⟨_, mem_lines_dep.2 ⟨i, w, h1, rfl⟩, mem_rewrite_cons.2 (.inl ⟨h, h2⟩)⟩
      · rintro ⟨w, h1, h2⟩
        obtain ⟨i, u, hu, rfl⟩ := mem_lines_dep.1 h1
        rcases mem_rewrite_cons.1 h2 with h2 | h2
        · exact ⟨i, u, hu, h2.2⟩
        · exact absurd h h2.1
    · next h =>
      simp only [Sig.wf, decide_eq_true_eq] at hw
      rw [if_neg h, mem_lines_dep]
      constructor
      · rintro ⟨i, u, h1, rfl⟩
        obtain ⟨w, h2, h3⟩ := (ih i (hw i) u).1 h1
        exact ⟨_, mem_lines_dep.2 ⟨i, w, h2, rfl⟩, mem_rewrite_cons.2 (.inr ⟨h, u, h3, rfl⟩)⟩
      · rintro ⟨w, h1, h2⟩
        obtain ⟨i, u, hu, rfl⟩ := mem_lines_dep.1 h1
        rcases mem_rewrite_cons.1 h2 with h2 | ⟨-, v, h3, rfl⟩
        · exact absurd h2.1 h
        · exact ⟨i, v, (ih i (hw i) v).2 ⟨u, hu, h3⟩, rfl⟩

theorem mem_pickFields {d : Dim} {m : Nat} {f : Nat → Nat} {i : Nat} {u : Line} :
    u ∈ pickFields d m f i ↔ ∃ j < m, f j = i ∧ u = [(d, .field j m)] := by
  simp only [pickFields, List.mem_filterMap, List.mem_range]
  constructor
  · rintro ⟨j, hj, h⟩
    split at h
    · next hf => exact ⟨j, hj, hf, by simpa [eq_comm] using h⟩
    · simp at h
  · rintro ⟨j, hj, hf, rfl⟩
    exact ⟨j, hj, by simp [hf]⟩

theorem select_lines {d : Dim} {n : Nat} {rs : Fin n → Sig} {m : Nat} {f : Nat → Nat}
    (hw : (Sig.select d rs m f).wf = true) (w' : Line) :
    w' ∈ (Sig.select d rs m f).lines ↔
      ∃ i, ∃ w ∈ (rs i).lines, w' ∈ (pickFields d m f i.val).map (· ++ w) := by
  simp only [Sig.select] at hw ⊢
  split at hw
  · next h =>
    rw [dif_pos h, mem_lines_dep]
    simp only [List.mem_map, mem_pickFields]
    constructor
    · rintro ⟨j, u, hu, rfl⟩
      exact ⟨_, u, hu, _, ⟨j, j.isLt, rfl, rfl⟩, rfl⟩
    · rintro ⟨i, w, hw', _, ⟨j, hj, hf, rfl⟩, rfl⟩
      refine ⟨⟨j, hj⟩, w, ?_, rfl⟩
      have : (⟨f j, h ⟨j, hj⟩⟩ : Fin n) = i := Fin.ext hf
      rw [this]
      exact hw'
  · simp [Sig.wf] at hw

theorem find_fn {q : Dim} {S : Sig} {e : Dim} {l : ArgLen} {r : Sig} (h : S.find q .empty = .fn e l r) :
    e = q ∧ ∀ w ∈ S.lines, w.find? (fun p => p.1 = q) = some (q, .arr l) := by
  induction S with
  | scalar s => simp [Sig.find] at h
  | void => simp [Sig.find] at h
  | ill => simp [Sig.find] at h
  | fn d l' r' ih =>
    simp only [Sig.find] at h
    split at h
    · next hd =>
      simp only [Sig.fn.injEq] at h
      obtain ⟨rfl, rfl, rfl⟩ := h
      refine ⟨hd, fun w hw => ?_⟩
      obtain ⟨u, -, rfl⟩ := mem_lines_fn.1 hw
      simp [hd]
    · next hd =>
      obtain ⟨h1, h2⟩ := ih h
      refine ⟨h1, fun w hw => ?_⟩
      obtain ⟨u, hu, rfl⟩ := mem_lines_fn.1 hw
      simp [hd, h2 u hu]
  | dep d n rs ih =>
    simp only [Sig.find] at h
    split at h
    · simp at h
    · simp [State.empty, Sig.litIdx] at h

theorem mapDims_lines {f : Dim → Dim} {S : Sig} (w' : Line) :
    w' ∈ (S.mapDims f).lines ↔ ∃ w ∈ S.lines, w' = w.map fun p => (f p.1, p.2) := by
  induction S generalizing w' with
  | scalar s => simp [Sig.mapDims, Sig.lines]
  | void => simp [Sig.mapDims, Sig.lines]
  | ill => simp [Sig.mapDims, Sig.lines]
  | fn d l r ih =>
    simp only [Sig.mapDims, mem_lines_fn, ih]
    constructor
    · rintro ⟨_, ⟨w, hw, rfl⟩, rfl⟩
      exact ⟨_, ⟨w, hw, rfl⟩, rfl⟩
    · rintro ⟨_, ⟨w, hw, rfl⟩, rfl⟩
      exact ⟨_, ⟨w, hw, rfl⟩, rfl⟩
  | dep d n rs ih =>
    simp only [Sig.mapDims, mem_lines_dep, ih]
    constructor
    · rintro ⟨i, _, ⟨w, hw, rfl⟩, rfl⟩
      exact ⟨_, ⟨i, w, hw, rfl⟩, rfl⟩
    · rintro ⟨_, ⟨i, w, hw, rfl⟩, rfl⟩
      exact ⟨i, _, ⟨w, hw, rfl⟩, rfl⟩

theorem mergeZ_lines {ds : List Dim} {d : Dim} {S : Sig} {n : Nat} {acc : ArgLen}
    (hw : (S.mergeZRepl ds d n acc).wf = true) (w' : Line) :
    w' ∈ (S.mergeZRepl ds d n acc).lines ↔ ∃ w ∈ S.lines, w' ∈ Line.mergeAll ds d n acc w := by
  induction S generalizing w' n acc with
  | scalar s => simp [Sig.mergeZRepl, Sig.lines, Line.mergeAll]
  | void => simp [Sig.mergeZRepl, Sig.lines, Line.mergeAll]
  | ill => simp [Sig.mergeZRepl, Sig.wf] at hw
  | fn e l r ih =>
    have hx : (∃ w ∈ (Sig.fn e l r).lines, w' ∈ Line.mergeAll ds d n acc w) ↔
        ∃ u ∈ r.lines, w' ∈ Line.mergeAll ds d n acc ((e, .arr l) :: u) := by
      constructor
      · rintro ⟨w, h1, h2⟩
        obtain ⟨u, hu, rfl⟩ := mem_lines_fn.1 h1
        exact ⟨u, hu, h2⟩
      · rintro ⟨u, hu, h2⟩
        exact ⟨_, mem_lines_fn.2 ⟨u, hu, rfl⟩, h2⟩
    rw [hx]
    simp only [Sig.mergeZRepl] at hw ⊢
    simp only [Line.mergeAll]
    by_cases he : e ∈ ds
    · simp only [he, if_true] at hw ⊢
      by_cases hn : n ≤ 1
      · simp only [hn, if_true] at hw ⊢
        simp [mem_lines_fn]
      · simp only [hn, if_false] at hw ⊢
        exact ih hw w'
    · simp only [he, if_false] at hw ⊢
      rw [mem_lines_fn]
      simp only [List.mem_map, ih hw]
      constructor
      · rintro ⟨u, ⟨w, h1, h2⟩, rfl⟩; exact ⟨w, h1, u, h2, rfl⟩
      · rintro ⟨w, h1, u, h2, rfl⟩; exact ⟨u, ⟨w, h1, h2⟩, rfl⟩
  | dep e m rs ih =>
    have hx : (∃ w ∈ (Sig.dep e m rs).lines, w' ∈ Line.mergeAll ds d n acc w) ↔
        ∃ i, ∃ u ∈ (rs i).lines, w' ∈ Line.mergeAll ds d n acc ((e, .field i m) :: u) := by
      constructor
      · rintro ⟨w, h1, h2⟩
        obtain ⟨i, u, hu, rfl⟩ := mem_lines_dep.1 h1
        exact ⟨i, u, hu, h2⟩
      · rintro ⟨i, u, hu, h2⟩
        exact ⟨_, mem_lines_dep.2 ⟨i, u, hu, rfl⟩, h2⟩
    rw [hx]
    simp only [Sig.mergeZRepl] at hw ⊢
    simp only [Line.mergeAll]
    by_cases he : e ∈ ds
    · simp [he, Sig.wf] at hw
    · simp only [he, if_false, Sig.wf, decide_eq_true_eq] at hw ⊢
      rw [mem_lines_dep]
      simp only [List.mem_map]
      constructor
      · rintro ⟨i, u, h, rfl⟩
        obtain ⟨w, h1, h2⟩ := (ih i (hw i) u).1 h
        exact ⟨i, w, h1, u, h2, rfl⟩
      · rintro ⟨i, w, h1, u, h2, rfl⟩
        exact ⟨i, u, (ih i (hw i) u).2 ⟨w, h1, h2⟩, rfl⟩

/-- A view that does not select fields of a tuple. -/
theorem edit_lines {R : Sig → Sig} {ds : List Dim} {F : Entry → List Line}
    (hfn : ∀ d l r, d ∈ ds → (R (.fn d l r)).wf = true →
      ∀ w', w' ∈ (R (.fn d l r)).lines ↔ ∃ w ∈ r.lines, w' ∈ (F (.arr l)).map (· ++ w))
    (hdep : ∀ d n (rs : Fin n → Sig), d ∈ ds → (R (.dep d n rs)).wf = true →
      ∀ w', w' ∈ (R (.dep d n rs)).lines ↔ ∃ i, ∃ w ∈ (rs i).lines, w' ∈ (F (.field i n)).map (· ++ w))
    {S : Sig} (hw : (S.replace R ds).wf = true) (w' : Line) :
    w' ∈ (S.replace R ds).lines ↔ ∃ w ∈ S.lines, w' ∈ Line.edit ds F w :=
  replace_lines hfn hdep hw w'

/-- The dimensions of a view: if it compiles, the ways through its signature are those of the structure below, each
rewritten as `View.edit` says. -/
theorem C68_view_signature (A : Arith) (v : View) (s : Struct) (hv : ∀ ds, v ≠ .reorder ds)
    (hw : ((Struct.view v s).sem A).sig.wf = true) (w' : Line) :
    w' ∈ ((Struct.view v s).sem A).sig.lines ↔ ∃ w ∈ (s.sem A).sig.lines, w' ∈ v.edit w := by
  have hsig : ((Struct.view v s).sem A).sig = (v.sem A (s.sem A)).sig := rfl
  rw [hsig] at hw ⊢
  generalize s.sem A = T at hw ⊢
  cases v with
  | bcast d =>
    simp only [View.sem, bcastSem] at hw ⊢
    simp [mem_lines_fn, View.edit]
  | fix d i =>
    simp only [View.sem, fixSem] at hw ⊢
    refine edit_lines ?_ ?_ hw w'
    · intro e l r _ _ w'
      simp [Sig.fixRepl]
    · intro e n rs _ hwf w'
      simp only [Sig.fixRepl, Sig.branch] at hwf ⊢
      split at hwf
      · next k hk =>
        simp only [Option.some.injEq] at hk
        subst hk
        split at hwf
        · next hkn =>
          simp only [hkn, dite_true]
          constructor
          · intro h; exact ⟨⟨k, hkn⟩, w', h, by simp⟩
          · rintro ⟨j, w, h1, h2⟩
            by_cases hj : k = j.val
            · subst hj
              simp at h2
              subst h2
              exact h1
            · simp [hj] at h2
        · simp [Sig.wf] at hwf
      · simp [Sig.wf] at hwf
  | setLength d l =>
    simp only [View.sem, setLengthSem] at hw ⊢
    refine edit_lines ?_ ?_ hw w'
    · intro e k r he _ w'
      simp only [List.mem_singleton] at he
      subst he
      simp [Sig.setLengthRepl, relen, mem_lines_fn, eq_comm]
    · intro e n rs _ hwf w'
      simp [Sig.setLengthRepl, Sig.wf] at hwf
  | shift d a =>
    simp only [View.sem, shiftSem] at hw ⊢
    refine edit_lines ?_ ?_ hw w'
    · intro e k r he _ w'
      simp only [List.mem_singleton] at he
      subst he
      simp [Sig.shiftRepl, mem_lines_fn, eq_comm]
    · intro e n rs he hwf w'
      simp only [List.mem_singleton] at he
      subst he
      simp only [Sig.shiftRepl] at hwf ⊢
      cases a with
      | lit a =>
        simp only at hwf ⊢
        split at hwf
        · next h => rw [if_pos h]; exact select_lines hwf w'
        · simp [Sig.wf] at hwf
      | dyn _ => simp [Sig.wf] at hwf
      | bad _ => simp [Sig.wf] at hwf
  | slice d a l =>
    simp only [View.sem, sliceSem] at hw ⊢
    refine edit_lines ?_ ?_ hw w'
    · intro e k r he _ w'
      simp only [List.mem_singleton] at he
      subst he
      simp [Sig.sliceRepl, mem_lines_fn, eq_comm]
    · intro e n rs he hwf w'
      simp only [List.mem_singleton] at he
      subst he
      simp only [Sig.sliceRepl] at hwf ⊢
      split at hwf
      · exact select_lines hwf w'
      · simp [Sig.wf] at hwf
  | span d a l =>
    simp only [View.sem, spanSem] at hw ⊢
    refine edit_lines ?_ ?_ hw w'
    · intro e k r he _ w'
      simp only [List.mem_singleton] at he
      subst he
      simp [Sig.spanRepl, mem_lines_fn, eq_comm]
    · intro e n rs he hwf w'
      simp only [List.mem_singleton] at he
      subst he
      simp only [Sig.spanRepl] at hwf ⊢
      split at hwf
      · split at hwf
        · next h => simp only [h, if_true]; exact select_lines hwf w'
        · simp [Sig.wf] at hwf
      · simp [Sig.wf] at hwf
  | step d a l =>
    simp only [View.sem, stepSem] at hw ⊢
    refine edit_lines ?_ ?_ hw w'
    · intro e k r he _ w'
      simp only [List.mem_singleton] at he
      subst he
      simp [Sig.stepRepl, mem_lines_fn, eq_comm]
    · intro e n rs he hwf w'
      simp only [List.mem_singleton] at he
      subst he
      simp only [Sig.stepRepl] at hwf ⊢
      split at hwf
      · split at hwf
        · next h => rw [if_pos h]; exact select_lines hwf w'
        · simp [Sig.wf] at hwf
      · simp [Sig.wf] at hwf
  | reverse d =>
    simp only [View.sem, reverseSem] at hw ⊢
    refine edit_lines ?_ ?_ hw w'
    · intro e k r he _ w'
      simp only [List.mem_singleton] at he
      subst he
      simp [Sig.reverseRepl, mem_lines_fn, eq_comm]
    · intro e n rs he hwf w'
      simp only [List.mem_singleton] at he
      subst he
      exact select_lines hwf w'
  | reorder ds => exact absurd rfl (hv ds)
  | hoist d =>
    simp only [View.sem, hoistSem] at hw ⊢
    split at hw
    · next e l r h =>
      obtain ⟨-, hf⟩ := find_fn h
      simp only [Sig.wf] at hw
      rw [mem_lines_fn]
      have := edit_lines (R := Sig.retRepl) (ds := [d]) (F := fun _ => [[]])
        (fun e l r _ _ w' => by simp [Sig.retRepl]) (fun e n rs _ hwf => by simp [Sig.retRepl, Sig.wf] at hwf) hw
      simp only [this, View.edit]
      constructor
      · rintro ⟨u, ⟨w, h1, h2⟩, rfl⟩
        exact ⟨w, h1, by simp [hf w h1, h2]⟩
      · rintro ⟨w, h1, h2⟩
        simp only [hf w h1, Option.toList_some, List.flatMap_cons, List.flatMap_nil, List.append_nil, List.mem_map] at h2
        obtain ⟨u, h2, rfl⟩ := h2
        exact ⟨u, ⟨w, h1, h2⟩, rfl⟩
    · simp [Sig.wf] at hw
  | rename ps =>
    simp only [View.sem, renameSem] at hw ⊢
    split at hw
    · next h =>
      rw [if_pos h, mapDims_lines]
      simp [View.edit]
    · simp [Sig.wf] at hw
  | join a b d =>
    simp only [View.sem, joinSem] at hw ⊢
    split at hw
    · simp [Sig.wf] at hw
    · next hc =>
      rw [if_neg hc]
      split at hw
      · next _ la _ _ lb _ ha hb =>
        split at hw
        · next hl =>
          obtain ⟨-, hf⟩ := find_fn ha
          simp only [Sig.wf] at hw
          simp only [hl, if_true] at hf ⊢
          rw [mem_lines_fn]
          have := edit_lines (R := Sig.retRepl) (ds := [a, b]) (F := fun _ => [[]])
            (fun e l r _ _ w' => by simp [Sig.retRepl]) (fun e n rs _ hwf => by simp [Sig.retRepl, Sig.wf] at hwf) hw
          simp only [this, View.edit]
          constructor
          · rintro ⟨u, ⟨w, h1, h2⟩, rfl⟩
            exact ⟨w, h1, by simp [hf w h1, h2]⟩
          · rintro ⟨w, h1, h2⟩
            simp only [hf w h1, Option.toList_some, List.flatMap_cons, List.flatMap_nil, List.append_nil,
              List.mem_map] at h2
            obtain ⟨u, h2, rfl⟩ := h2
            exact ⟨u, ⟨w, h1, h2⟩, rfl⟩
        · simp [Sig.wf] at hw
      · simp [Sig.wf] at hw
  | intoBlocks d maj min =>
    simp only [View.sem, intoBlocksSem] at hw ⊢
    split at hw
    · simp [Sig.wf] at hw
    · next hc =>
      rw [if_neg hc]
      refine edit_lines ?_ ?_ hw w'
      · intro e k r _ _ w'
        simp [Sig.intoBlocksRepl, Sig.lines, eq_comm]
      · intro e n rs _ hwf
        simp [Sig.intoBlocksRepl, Sig.wf] at hwf
  | intoBlocksDyn d maj min pres =>
    simp only [View.sem, intoBlocksDynSem] at hw ⊢
    split at hw
    · simp [Sig.wf] at hw
    · next hc =>
      rw [if_neg hc]
      refine edit_lines ?_ ?_ hw w'
      · intro e k r _ _ w'
        simp [Sig.intoBlocksDynRepl, Sig.lines, eq_comm]
      · intro e n rs _ hwf
        simp [Sig.intoBlocksDynRepl, Sig.wf] at hwf
  | intoBlocksStat d border maj min l =>
    simp only [View.sem, intoBlocksStatSem] at hw ⊢
    split at hw
    · simp [Sig.wf] at hw
    · next hc =>
      rw [if_neg hc]
      refine edit_lines ?_ ?_ hw w'
      · intro e k r _ hwf w'
        have two : ∀ (x1 x2 y1 y2 : ArgLen),
            (w' ∈ (Sig.dep border 2 fun i => if i = 0 then .fn maj x1 (.fn min x2 r) else .fn maj y1 (.fn min y2 r)).lines) ↔
            ∃ w ∈ r.lines, w' = (border, .field 0 2) :: (maj, .arr x1) :: (min, .arr x2) :: w ∨
              w' = (border, .field 1 2) :: (maj, .arr y1) :: (min, .arr y2) :: w := by
          intro x1 x2 y1 y2
          simp only [mem_lines_dep, Fin.exists_fin_two, if_true, Fin.val_zero, Fin.val_one,
            show ¬ ((1 : Fin 2) = 0) by decide, if_false, mem_lines_fn]
          constructor
          · rintro (⟨_, ⟨_, ⟨u, hu, rfl⟩, rfl⟩, rfl⟩ | ⟨_, ⟨_, ⟨u, hu, rfl⟩, rfl⟩, rfl⟩)
            · exact ⟨u, hu, .inl rfl⟩
            · exact ⟨u, hu, .inr rfl⟩
          · rintro ⟨u, hu, rfl | rfl⟩
            · exact .inl ⟨_, ⟨_, ⟨u, hu, rfl⟩, rfl⟩, rfl⟩
            · exact .inr ⟨_, ⟨_, ⟨u, hu, rfl⟩, rfl⟩, rfl⟩
        cases k with
        | dynamic =>
          simp only [Sig.intoBlocksStatRepl] at hwf ⊢
          simp [two]
        | static k =>
          cases l with
          | lit l =>
            simp only [Sig.intoBlocksStatRepl, ArgLen.ofVal] at hwf ⊢
            by_cases hl : l = 0
            · simp [hl, Sig.wf] at hwf
            · simp [hl, two]
          | dyn l =>
            simp only [Sig.intoBlocksStatRepl, ArgLen.ofVal] at hwf ⊢
            simp [two]
          | bad l =>
            simp only [Sig.intoBlocksStatRepl, ArgLen.ofVal] at hwf ⊢
            simp [two]
      · intro e n rs _ hwf
        simp [Sig.intoBlocksStatRepl, Sig.wf] at hwf
  | mergeBlocks maj min d =>
    simp only [View.sem, mergeBlocksSem] at hw ⊢
    split at hw
    · simp [Sig.wf] at hw
    · next hc =>
      rw [if_neg hc]
      refine replace_lines ?_ ?_ hw w'
      · intro e k r _ hwf w'
        simp only [Sig.mergeBlocksRepl] at hwf ⊢
        refine edit_lines ?_ ?_ hwf w'
        · intro e' k' r' _ hwf' w''
          simp only [Sig.mergeBlocksInner] at hwf' ⊢
          split at hwf'
          · next h => rw [if_pos h]; simp [mem_lines_fn, relen, eq_comm]
          · simp [Sig.wf] at hwf'
        · intro e' n' rs' _ hwf'
          simp [Sig.mergeBlocksInner, Sig.wf] at hwf'
      · intro e n rs _ hwf
        simp [Sig.mergeBlocksRepl, Sig.wf] at hwf
  | mergeZ sl gl ds d =>
    simp only [View.sem, mergeZSem] at hw ⊢
    split at hw
    · simp [Sig.wf] at hw
    · next hc =>
      rw [if_neg hc]
      exact mergeZ_lines hw w'

/-! ### Layouts -/

/-- A vector has a new outermost dimension, a tuple one with a field for each structure. -/
theorem C68_layout_signature (A : Arith) :
    (∀ d s, ((Struct.vector d s).sem A).sig.wf = true →
      ((Struct.vector d s).sem A).sig.lines = (s.sem A).sig.lines.map ((d, .arr .dynamic) :: ·)) ∧
    ∀ t n (fs : Fin n → Struct), ((Struct.tuple t n fs).sem A).sig.wf = true → ∀ w',
      w' ∈ ((Struct.tuple t n fs).sem A).sig.lines ↔ ∃ i, ∃ w ∈ ((fs i).sem A).sig.lines, w' = (t, .field i n) :: w := by
  constructor
  · intro d s hw
    simp only [Struct.sem, vectorSem] at hw ⊢
    split at hw
    · simp [Sig.wf] at hw
    · next h => rw [if_neg h]; rfl
  · intro t n fs hw w'
    simp only [Struct.sem, tupleSem] at hw ⊢
    split at hw
    · simp [Sig.wf] at hw
    · next h => rw [if_neg h, mem_lines_dep]

/-! ### reorder -/

/-- The fields on the way are those that the state selects. -/
def Agrees (st : State) (w : Line) : Prop := ∀ e i n, (e, Entry.field i n) ∈ w → ∀ v, st (.idx e) = some v → v = .lit i

theorem lines_dims {S : Sig} {w : Line} (hw : w ∈ S.lines) {e : Dim} {x : Entry} (h : (e, x) ∈ w) :
    S.anyAccept e = true := by
  induction S generalizing w with
  | scalar s => simp [Sig.lines] at hw; simp [hw] at h
  | void => simp [Sig.lines] at hw; simp [hw] at h
  | ill => simp [Sig.lines] at hw
  | fn d l r ih =>
    obtain ⟨u, hu, rfl⟩ := mem_lines_fn.1 hw
    simp only [Sig.anyAccept, Bool.or_eq_true, beq_iff_eq]
    rcases List.mem_cons.1 h with h | h
    · simp only [Prod.mk.injEq] at h
      exact .inl h.1.symm
    · exact .inr (ih hu h)
  | dep d n rs ih =>
    obtain ⟨i, u, hu, rfl⟩ := mem_lines_dep.1 hw
    simp only [Sig.anyAccept, Bool.or_eq_true, beq_iff_eq, decide_eq_true_eq]
    rcases List.mem_cons.1 h with h | h
    · simp only [Prod.mk.injEq] at h
      exact .inl h.1.symm
    · exact .inr ⟨i, ih i hu h⟩

/-- A dimension is once on the way. -/
theorem lines_unique {S : Sig} (hu : S.uniq) {w : Line} (hw : w ∈ S.lines) {e : Dim} {x y : Entry} (hx : (e, x) ∈ w)
    (hy : (e, y) ∈ w) : x = y := by
  induction S generalizing w with
  | scalar s => simp [Sig.lines] at hw; simp [hw] at hx
  | void => simp [Sig.lines] at hw; simp [hw] at hx
  | ill => simp [Sig.lines] at hw
  | fn d l r ih =>
    obtain ⟨u, hm, rfl⟩ := mem_lines_fn.1 hw
    have no : ∀ z, (d, z) ∉ u := fun z hz => by simpa [lines_dims hm hz] using hu.1
    simp only [List.mem_cons, Prod.mk.injEq] at hx hy
    rcases hx with ⟨rfl, rfl⟩ | hx <;> rcases hy with ⟨h1, rfl⟩ | hy
    · rfl
    · exact absurd hy (no _)
    · exact absurd (h1 ▸ hx) (no _)
    · exact ih hu.2 hm hx hy
  | dep d n rs ih =>
    obtain ⟨i, u, hm, rfl⟩ := mem_lines_dep.1 hw
    have no : ∀ z, (d, z) ∉ u := fun z hz => by simpa [lines_dims hm hz] using (hu i).1
    simp only [List.mem_cons, Prod.mk.injEq] at hx hy
    rcases hx with ⟨rfl, rfl⟩ | hx <;> rcases hy with ⟨h1, rfl⟩ | hy
    · rfl
    · exact absurd hy (no _)
    · exact absurd (h1 ▸ hx) (no _)
    · exact ih i (hu i).2 hm hx hy

theorem agrees_cons {st : State} {p : Dim × Entry} {w : Line} (h : Agrees st (p :: w)) : Agrees st w :=
  fun e i n hm => h e i n (List.mem_cons_of_mem _ hm)

theorem litIdx_lit {n : Nat} {o : Option Val} {k : Fin n} (h : Sig.litIdx n o = some k) : o = some (.lit k) := by
  unfold Sig.litIdx at h
  split at h
  · split at h
    · simp only [Option.some.injEq] at h; subst h; rfl
    · simp at h
  · simp at h

/-- What `sig_find_dim` finds is on every way that agrees with the state. -/
theorem find_line {q : Dim} {st : State} {S : Sig} {w : Line} (hw : w ∈ S.lines) (ha : Agrees st w) :
    (∀ e l r, S.find q st = .fn e l r → (q, .arr l) ∈ w) ∧
    ∀ e n rs, S.find q st = .dep e n rs → ∃ i : Fin n, (q, .field i n) ∈ w := by
  induction S generalizing w with
  | scalar s => simp [Sig.find]
  | void => simp [Sig.find]
  | ill => simp [Sig.find]
  | fn d l r ih =>
    obtain ⟨u, hu, rfl⟩ := mem_lines_fn.1 hw
    simp only [Sig.find]
    split
    · next hd =>
      refine ⟨fun e l' r' h => ?_, fun e n rs h => by simp at h⟩
      simp only [Sig.fn.injEq] at h
      simp [hd, h.2.1]
    · have := ih hu (agrees_cons ha)
      exact ⟨fun e l' r' h => List.mem_cons_of_mem _ (this.1 e l' r' h),
        fun e n rs h => (this.2 e n rs h).imp fun _ => List.mem_cons_of_mem _⟩
  | dep d n rs ih =>
    obtain ⟨i, u, hu, rfl⟩ := mem_lines_dep.1 hw
    simp only [Sig.find]
    split
    · next hd =>
      refine ⟨fun e l' r' h => by simp at h, fun e n' rs' h => ?_⟩
      simp only [Sig.dep.injEq] at h
      obtain ⟨-, rfl, -⟩ := h
      exact ⟨i, by simp [hd]⟩
    · split
      · next k hk =>
        have h1 := ha d i n (by simp) _ (litIdx_lit hk)
        simp only [Val.lit.injEq] at h1
        have h2 : k = i := Fin.ext h1
        subst h2
        have := ih k hu (agrees_cons ha)
        exact ⟨fun e l' r' h => List.mem_cons_of_mem _ (this.1 e l' r' h),
          fun e n rs h => (this.2 e n rs h).imp fun _ => List.mem_cons_of_mem _⟩
      · exact ⟨fun e l r h => by simp at h, fun e n rs h => by simp at h⟩

theorem scalar_line {st : State} {S : Sig} (hc : (S.reassembleScalar st).complete = true) :
    (∃ w ∈ S.lines, Agrees st w ∧ ∀ p ∈ w, st.has (.idx p.1) = true) ∧
    (S.reassembleScalar st).lines = [[]] ∧
    ∀ w ∈ S.lines, Agrees st w → ∀ p ∈ w, st.has (.idx p.1) = true := by
  induction S with
  | scalar s => exact ⟨⟨[], by simp [Sig.lines], by simp [Agrees], by simp⟩, rfl, by simp [Sig.lines]⟩
  | void => simp [Sig.reassembleScalar, Sig.complete] at hc
  | ill => simp [Sig.reassembleScalar, Sig.complete] at hc
  | fn d l r ih =>
    simp only [Sig.reassembleScalar] at hc ⊢
    split at hc
    · next hd =>
      obtain ⟨⟨w, h1, h2, h3⟩, h4, h5⟩ := ih hc
      refine ⟨⟨_, mem_lines_fn.2 ⟨w, h1, rfl⟩, ?_, ?_⟩, by rw [if_pos hd, h4], ?_⟩
      · intro e i n hm
        simp only [List.mem_cons, Prod.mk.injEq, reduceCtorEq, and_false, false_or] at hm
        exact h2 e i n hm
      · intro p hp
        rcases List.mem_cons.1 hp with rfl | hp
        · exact hd
        · exact h3 p hp
      · intro w hw ha p hp
        obtain ⟨u, hu, rfl⟩ := mem_lines_fn.1 hw
        rcases List.mem_cons.1 hp with rfl | hp
        · exact hd
        · exact h5 u hu (agrees_cons ha) p hp
    · simp [Sig.complete] at hc
  | dep d n rs ih =>
    simp only [Sig.reassembleScalar] at hc ⊢
    split at hc
    · next hd =>
      rw [if_pos hd]
      split at hc
      · next k hk =>
        have hk' := litIdx_lit hk
        obtain ⟨⟨w, h1, h2, h3⟩, h4, h5⟩ := ih k hc
        refine ⟨⟨_, mem_lines_dep.2 ⟨k, w, h1, rfl⟩, ?_, ?_⟩, h4, ?_⟩
        · intro e i n hm v hv
          simp only [List.mem_cons, Prod.mk.injEq, Entry.field.injEq] at hm
          rcases hm with ⟨rfl, rfl, rfl⟩ | hm
          · simpa [hk', eq_comm] using hv
          · exact h2 e i n hm v hv
        · intro p hp
          rcases List.mem_cons.1 hp with rfl | hp
          · exact hd
          · exact h3 p hp
        · intro w hw ha p hp
          obtain ⟨i, u, hu, rfl⟩ := mem_lines_dep.1 hw
          have h1 := ha d i n (by simp) _ hk'
          simp only [Val.lit.injEq] at h1
          have h2 : k = i := Fin.ext h1
          subst h2
          rcases List.mem_cons.1 hp with rfl | hp
          · exact hd
          · exact h5 u hu (agrees_cons ha) p hp
      · simp [Sig.complete] at hc
    · simp [Sig.complete] at hc

theorem agrees_set_field {S : Sig} (hS : S.uniq) {st : State} {w : Line} (hw : w ∈ S.lines) {d : Dim} {i n : Nat}
    (h : (d, .field i n) ∈ w) (ha : Agrees st w) : Agrees (st.set (.idx d) (.lit i)) w := by
  intro e j m hm v hv
  by_cases he : e = d
  · subst he
    have := lines_unique hS hw h hm
    simp only [Entry.field.injEq] at this
    simp [State.set] at hv
    simp [← hv, this.1]
  · refine ha e j m hm v ?_
    simpa [State.set, he] using hv

theorem agrees_set_arr {S : Sig} (hS : S.uniq) {st : State} {w : Line} (hw : w ∈ S.lines) {d : Dim} {l : ArgLen} {x : Val}
    (h : (d, .arr l) ∈ w) (ha : Agrees st w) : Agrees (st.set (.idx d) x) w := by
  intro e j m hm v hv
  by_cases he : e = d
  · subst he
    exact absurd (lines_unique hS hw h hm) (by simp)
  · refine ha e j m hm v ?_
    simpa [State.set, he] using hv

theorem reassemble_lines {S : Sig} (hS : S.uniq) {ds : List Dim} {st : State}
    (hst : ∀ d ∈ ds, st (.idx d) = none) (hc : (S.reassemble ds st).complete = true) :
    (∀ w', w' ∈ (S.reassemble ds st).lines ↔
      ∃ w ∈ S.lines, Agrees st w ∧ w'.map Prod.fst = ds ∧ ∀ p ∈ w', p ∈ w) ∧
    ∀ w ∈ S.lines, Agrees st w → ∀ p ∈ w, st.has (.idx p.1) = true ∨ p.1 ∈ ds := by
  induction ds generalizing st with
  | nil =>
    simp only [Sig.reassemble] at hc ⊢
    obtain ⟨⟨w, h1, h2, -⟩, h4, h5⟩ := scalar_line hc
    refine ⟨fun w' => ?_, fun w hw ha p hp => .inl (h5 w hw ha p hp)⟩
    rw [h4, List.mem_singleton]
    constructor
    · rintro rfl
      exact ⟨w, h1, h2, rfl, by simp⟩
    · rintro ⟨-, -, -, h, -⟩
      simpa using h
  | cons d ds ih =>
    simp only [Sig.reassemble] at hc ⊢
    split at hc
    · simp [Sig.complete] at hc
    · next hd =>
      rw [if_neg hd]
      have back : ∀ {x : Val} {w : Line}, Agrees (st.set (.idx d) x) w → Agrees st w := by
        intro x w ha e i n hm v hv
        by_cases he : e = d
        · subst he
          simp [hst e (by simp)] at hv
        · exact ha e i n hm v (by simpa [State.set, he] using hv)
      have hst' : ∀ (x : Val), ∀ e ∈ ds, (st.set (.idx d) x) (.idx e) = none := by
        intro x e he
        have : e ≠ d := by rintro rfl; exact hd he
        simpa [State.set, this] using hst e (by simp [he])
      have hhas : ∀ (x : Val) (e : Dim), (st.set (.idx d) x).has (.idx e) = true → st.has (.idx e) = true ∨ e = d := by
        intro x e h
        by_cases he : e = d
        · exact .inr he
        · exact .inl (by simpa [State.has, State.set, he] using h)
      split at hc
      · next e l r hf =>
        simp only [Sig.complete] at hc
        obtain ⟨ih1, ih2⟩ := ih (hst' (.dyn 0)) hc
        refine ⟨fun w' => ?_, fun w hw ha p hp => ?_⟩
        · rw [mem_lines_fn]
          constructor
          · rintro ⟨u, hu, rfl⟩
            obtain ⟨w, h1, h2, h3, h4⟩ := (ih1 u).1 hu
            refine ⟨w, h1, back h2, by simp [h3], fun p hp => ?_⟩
            rcases List.mem_cons.1 hp with rfl | hp
            · exact (find_line h1 (back h2)).1 _ _ _ hf
            · exact h4 p hp
          · rintro ⟨w, h1, h2, h3, h4⟩
            have hm := (find_line h1 h2).1 _ _ _ hf
            cases w' with
            | nil => simp at h3
            | cons p u =>
              obtain ⟨pd, px⟩ := p
              simp only [List.map_cons, List.cons.injEq] at h3
              obtain ⟨rfl, h3⟩ := h3
              have := lines_unique hS h1 (h4 _ List.mem_cons_self) hm
              subst this
              exact ⟨u, (ih1 u).2 ⟨w, h1, agrees_set_arr hS h1 hm h2, h3, fun p hp => h4 p (by simp [hp])⟩, rfl⟩
        · have hm := (find_line hw ha).1 _ _ _ hf
          rcases ih2 w hw (agrees_set_arr hS hw hm ha) p hp with h | h
          · rcases hhas _ _ h with h | h
            · exact .inl h
            · exact .inr (by simp [h])
          · exact .inr (by simp [h])
      · next e n rs hf =>
        simp only [Sig.complete, decide_eq_true_eq] at hc
        have ih' := fun i : Fin n => ih (hst' (.lit i)) (hc i)
        refine ⟨fun w' => ?_, fun w hw ha p hp => ?_⟩
        · rw [mem_lines_dep]
          constructor
          · rintro ⟨i, u, hu, rfl⟩
            obtain ⟨w, h1, h2, h3, h4⟩ := ((ih' i).1 u).1 hu
            refine ⟨w, h1, back h2, by simp [h3], fun p hp => ?_⟩
            rcases List.mem_cons.1 hp with rfl | hp
            · obtain ⟨j, hj⟩ := (find_line h1 (back h2)).2 _ _ _ hf
              have := h2 d j n hj (.lit i) (by simp [State.set])
              simp only [Val.lit.injEq] at this
              rwa [this]
            · exact h4 p hp
          · rintro ⟨w, h1, h2, h3, h4⟩
            obtain ⟨j, hm⟩ := (find_line h1 h2).2 _ _ _ hf
            cases w' with
            | nil => simp at h3
            | cons p u =>
              obtain ⟨pd, px⟩ := p
              simp only [List.map_cons, List.cons.injEq] at h3
              obtain ⟨rfl, h3⟩ := h3
              have := lines_unique hS h1 (h4 _ List.mem_cons_self) hm
              subst this
              exact ⟨j, u, ((ih' j).1 u).2 ⟨w, h1, agrees_set_field hS h1 hm h2, h3, fun p hp => h4 p (by simp [hp])⟩, rfl⟩
        · obtain ⟨j, hm⟩ := (find_line hw ha).2 _ _ _ hf
          rcases (ih' j).2 w hw (agrees_set_field hS hw hm ha) p hp with h | h
          · rcases hhas _ _ h with h | h
            · exact .inl h
            · exact .inr (by simp [h])
          · exact .inr (by simp [h])
      · simp [Sig.complete] at hc

theorem reassemble_nodup {S : Sig} {ds : List Dim} {st : State} {w : Line} (h : w ∈ (S.reassemble ds st).lines) :
    ds.Nodup := by
  induction ds generalizing st w with
  | nil => simp
  | cons d ds ih =>
    simp only [Sig.reassemble] at h
    split at h
    · simp [Sig.lines] at h
    · next hd =>
      refine List.nodup_cons.2 ⟨hd, ?_⟩
      split at h
      · obtain ⟨u, hu, -⟩ := mem_lines_fn.1 h
        exact ih hu
      · obtain ⟨i, u, hu, -⟩ := mem_lines_dep.1 h
        exact ih hu
      · simp [Sig.lines] at h

theorem lines_nodup {S : Sig} (hu : S.uniq) {w : Line} (hw : w ∈ S.lines) : (w.map Prod.fst).Nodup := by
  induction S generalizing w with
  | scalar s => simp [Sig.lines] at hw; simp [hw]
  | void => simp [Sig.lines] at hw; simp [hw]
  | ill => simp [Sig.lines] at hw
  | fn d l r ih =>
    obtain ⟨u, hm, rfl⟩ := mem_lines_fn.1 hw
    refine List.nodup_cons.2 ⟨fun h => ?_, ih hu.2 hm⟩
    obtain ⟨p, hp, hd⟩ := List.mem_map.1 h
    have := lines_dims hm (e := p.1) (x := p.2) hp
    simp only at hd
    simp [hd, hu.1] at this
  | dep d n rs ih =>
    obtain ⟨i, u, hm, rfl⟩ := mem_lines_dep.1 hw
    refine List.nodup_cons.2 ⟨fun h => ?_, ih i (hu i).2 hm⟩
    obtain ⟨p, hp, hd⟩ := List.mem_map.1 h
    have := lines_dims hm (e := p.1) (x := p.2) hp
    simp only at hd
    simp [hd, (hu i).1] at this

/-- `reorder` that mentions all the dimensions: the ways are those of the structure below, each with its dimensions in
the given order. -/
theorem C68_reorder_signature (A : Arith) (ds : List Dim) (s : Struct) (hu : (s.sem A).sig.uniq)
    (hc : ((Struct.view (.reorder ds) s).sem A).sig.complete = true) (w' : Line) :
    w' ∈ ((Struct.view (.reorder ds) s).sem A).sig.lines ↔
      ∃ w ∈ (s.sem A).sig.lines, w'.Perm w ∧ w'.map Prod.fst = ds := by
  have hsig : ((Struct.view (.reorder ds) s).sem A).sig = (s.sem A).sig.reassemble ds .empty := rfl
  rw [hsig] at hc ⊢
  obtain ⟨h1, h2⟩ := reassemble_lines hu (fun _ _ => rfl) hc
  have ha : ∀ w, Agrees .empty w := by
    intro w e i n _ v hv
    simp [State.empty] at hv
  rw [h1]
  constructor
  · rintro ⟨w, hw, -, hd, hp⟩
    refine ⟨w, hw, ?_, hd⟩
    have hn := lines_nodup hu hw
    have sub : ∀ p ∈ w, p ∈ w' := by
      intro p hpw
      rcases h2 w hw (ha w) p hpw with h | h
      · simp [State.has, State.empty] at h
      · rw [← hd] at h
        obtain ⟨q, hq, hqd⟩ := List.mem_map.1 h
        obtain ⟨e, x⟩ := p
        obtain ⟨e', y⟩ := q
        simp only at hqd
        subst hqd
        have := lines_unique hu hw hpw (hp _ hq)
        rwa [this]
    have hl : w.length ≤ w'.length := by
      have h3 : (w.map Prod.fst) ⊆ (w'.map Prod.fst) := fun e he => by
        obtain ⟨p, hp1, rfl⟩ := List.mem_map.1 he
        exact List.mem_map_of_mem (sub p hp1)
      simpa using (List.subperm_of_subset hn h3).length_le
    exact ((List.subperm_of_subset hn.of_map fun p hp1 => sub p hp1).perm_of_length_le
      (by
        have hn' : (w'.map Prod.fst).Nodup := by
          rw [hd]
          exact reassemble_nodup ((h1 w').2 ⟨w, hw, ha w, hd, hp⟩)
        have h3 : (w'.map Prod.fst) ⊆ (w.map Prod.fst) := fun e he => by
          obtain ⟨p, hp1, rfl⟩ := List.mem_map.1 he
          exact List.mem_map_of_mem (hp p hp1)
        simpa using (List.subperm_of_subset hn' h3).length_le)).symm
  · rintro ⟨w, hw, hp, hd⟩
    exact ⟨w, hw, ha w, hd, fun p hpw => hp.mem_iff.1 hpw⟩

/-! ### Examples -/

/-- An array over 0 and 1. -/
def c68Array : Struct := .vector 0 (.vector 1 (.scalar 4 4))

/-- Blocks of dimension 0, then the inner index of the blocks merged with dimension 1: the merged dimension 4 is where the
inner one of the two was. -/
def c68Merged : Struct := .view (.mergeBlocks 3 1 4) (.view (.intoBlocks 0 2 3) c68Array)

example : (c68Merged.sem .ideal).sig.wf = true ∧
    [(2, .arr .dynamic), (4, .arr .dynamic)] ∈ (c68Merged.sem .ideal).sig.lines := by
  have hw : (c68Merged.sem .ideal).sig.wf = true := by decide
  refine ⟨hw, ?_⟩
  rw [c68Merged, C68_view_signature _ _ _ (by simp) (by decide)]
  refine ⟨[(2, .arr .dynamic), (3, .arr .dynamic), (1, .arr .dynamic)], ?_, by decide⟩
  rw [C68_view_signature _ _ _ (by simp) (by decide)]
  exact ⟨[(0, .arr .dynamic), (1, .arr .dynamic)], by decide, by decide⟩

/-- A tuple (dimension 0) of an array and of a scalar with a broadcast dimension, both over 1. -/
def c68Tuple : Struct :=
  .tuple 0 2 fun i => if i = 0 then .vector 1 (.scalar 4 4) else .view (.setLength 1 (.lit 3)) (.view (.bcast 1) (.scalar 8 8))

theorem c68Tuple_complete : ((Struct.view (.reorder [1, 0]) c68Tuple).sem .ideal).sig.complete = false := by decide

example : ((Struct.view (.reorder [0, 1]) c68Tuple).sem .ideal).sig.complete = true ∧ (c68Tuple.sem .ideal).sig.uniq ∧
    [(0, .field 1 2), (1, .arr (.static 3))] ∈ ((Struct.view (.reorder [0, 1]) c68Tuple).sem .ideal).sig.lines := by
  have hc : ((Struct.view (.reorder [0, 1]) c68Tuple).sem .ideal).sig.complete = true := by decide
  have hu : (c68Tuple.sem .ideal).sig.uniq := by
    intro i
    match i with
    | 0 => exact ⟨by decide, by decide, trivial⟩
    | 1 => exact ⟨by decide, by decide, trivial⟩
  refine ⟨hc, hu, ?_⟩
  rw [C68_reorder_signature _ _ _ hu hc]
  exact ⟨_, by decide, List.Perm.refl _, rfl⟩

/-- The signature of `join` keeps the inner one of the joined dimensions. -/
theorem C68_join_keeps_inner :
    ((Struct.view (.join 0 1 2) c68Array).sem .ideal).sig.lines = [[(2, .arr .dynamic), (1, .arr .dynamic)]] := by
  decide

end Noarr
