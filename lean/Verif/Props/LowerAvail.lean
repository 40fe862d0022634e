import Verif.LowerBound
import Verif.SigUniq

/-
C69: where `lower_bound_along` is offered, and that it can be computed there.
-/

set_option linter.unusedSimpArgs false

namespace Noarr

/-- The views that hand the queries about bounds on, possibly along a dimension of another name or another range. -/
def View.letsThrough : View → Bool
  | .bcast _ | .fix _ _ | .setLength _ _ | .hoist _ | .slice _ _ _ | .span _ _ _ | .shift _ _ | .reverse _ | .rename _ =>
    true
  | _ => false

/-- Those that have the lengths of the structure below (`shift` takes a length from the state, `rename` also answers for
the old names). -/
def View.passesLen : View → Bool
  | .shift _ _ | .rename _ => false
  | v => v.letsThrough

/-- Those that do not turn the dimension around. -/
def View.passesOn : View → Bool
  | .reverse _ => false
  | v => v.letsThrough

/-- Layouts and the given views. -/
def Struct.builtOf (P : View → Bool) : Struct → Prop
  | .scalar _ _ => True
  | .union _ _ => False
  | .vector _ s => s.builtOf P
  | .tuple _ _ fs => ∀ i, (fs i).builtOf P
  | .view v s => P v = true ∧ s.builtOf P

/-- Vectors and the given views. -/
def Struct.vectorsOf (P : View → Bool) : Struct → Prop
  | .scalar _ _ => True
  | .union _ _ => False
  | .tuple _ _ _ => False
  | .vector _ s => s.vectorsOf P
  | .view v s => P v = true ∧ s.vectorsOf P

theorem has_removeAll_idx {st : State} {d q : Dim} (h : q ≠ d) :
    (st.removeAll [.idx d, .len d]).has (.idx q) = st.has (.idx q) := by
  simp [State.has, State.removeAll, h]

theorem has_mapAt {st : State} {t t' : Tag} {g : Val → Val} : (st.mapAt t g).has t' = st.has t' := by
  simp only [State.has, State.mapAt]
  split
  · next h => subst h; cases st t' <;> rfl
  · rfl

/-- C69: a lower bound is only offered along a dimension whose length is known and in which no index is given. -/
theorem C69_offered_only_if (A : Arith) (s : Struct) (hp : s.builtOf View.letsThrough) (hw : s.wf A) (q : Dim) (st : State)
    (h : s.hasLower A q st = true) : (s.sem A).hasLen q st = some true ∧ st.has (.idx q) = false := by
  induction s generalizing q st with
  | scalar _ _ => simp [Struct.hasLower] at h
  | union _ _ => exact hp.elim
  | vector d s ih =>
    simp only [Struct.hasLower] at h
    simp only [Struct.sem, vectorSem]
    split at h
    · next hq => subst hq; simp_all
    · next hq =>
      rw [if_neg hq]
      have := ih hp hw.2 _ _ h
      rwa [has_removeAll_idx hq] at this
  | tuple t n fs ih =>
    simp only [Struct.hasLower] at h
    simp only [Struct.sem, tupleSem]
    split at h
    · next hi =>
      split at h
      · next k hk =>
        split at h
        · next hkn =>
          split at h
          · simp at h
          · next hq =>
            have := ih _ (hp _) (hw.2 _) _ _ h
            refine ⟨?_, ?_⟩
            · rw [if_neg hq, if_pos hi]
              simp only [hk, Option.bind_eq_bind, Option.bind_some, dif_pos hkn]
              exact this.1
            · simpa [State.has, State.remove, hq] using this.2
        · simp at h
      · simp at h
    · next hi =>
      simp only [decide_eq_true_eq] at h
      subst h
      simp_all
  | view v s ih =>
    simp only [Struct.hasLower] at h
    split at h
    · simp at h
    · next u hu =>
      cases v <;> simp only [View.letsThrough, Struct.builtOf, Bool.false_eq_true, false_and] at hp
      case bcast d =>
        simp only [View.sem, bcastSem, Option.some.injEq] at hu
        simp only [Struct.sem, View.sem, ViewSem.toSem, bcastSem]
        subst hu
        dsimp only at h
        split at h
        · next hq => subst hq; simp_all
        · next hq =>
          rw [if_neg hq]
          have := ih hp.2 hw.2 _ _ h
          rwa [has_removeAll_idx hq] at this
      case fix d i =>
        simp only [View.sem, fixSem, Option.some.injEq] at hu
        simp only [Struct.sem, View.sem, ViewSem.toSem, fixSem]
        subst hu
        have := ih hp.2 hw.2 _ _ h
        by_cases hq : q = d
        · subst hq
          simp [State.has, State.set] at this
        · rw [if_neg hq]
          refine ⟨this.1, ?_⟩
          simpa [State.has, State.set, State.remove, hq] using this.2
      case setLength d l =>
        simp only [View.sem, setLengthSem, Option.some.injEq] at hu
        simp only [Struct.sem, View.sem, ViewSem.toSem, setLengthSem]
        subst hu
        have := ih hp.2 hw.2 _ _ h
        exact ⟨this.1, by simpa [State.has, State.set] using this.2⟩
      case hoist d =>
        simp only [View.sem, hoistSem, Option.some.injEq] at hu
        simp only [Struct.sem, View.sem, ViewSem.toSem, hoistSem]
        subst hu
        exact ih hp.2 hw.2 _ _ h
      case slice d a l =>
        simp only [View.sem, sliceSem, Option.some.injEq] at hu
        simp only [Struct.sem, View.sem, ViewSem.toSem, sliceSem]
        subst hu
        have := ih hp.2 hw.2 _ _ h
        exact ⟨this.1, by rw [← this.2, has_mapAt]⟩
      case span d a l =>
        simp only [View.sem, spanSem, Option.some.injEq] at hu
        simp only [Struct.sem, View.sem, ViewSem.toSem, spanSem]
        subst hu
        have := ih hp.2 hw.2 _ _ h
        exact ⟨this.1, by rw [← this.2, has_mapAt]⟩
      case shift d a =>
        simp only [View.sem, shiftSem, Option.some.injEq] at hu
        simp only [Struct.sem, View.sem, ViewSem.toSem, shiftSem]
        subst hu
        have := ih hp.2 hw.2 _ _ h
        refine ⟨?_, by rw [← this.2, has_mapAt, has_mapAt]⟩
        split
        · next hq =>
          subst hq
          split
          · rfl
          · exact this.1
        · exact this.1
      case reverse d =>
        have hm := ih hp.2 hw.2 _ _ h
        have hu' := hu
        simp only [View.sem, reverseSem] at hu
        simp only [Struct.sem, View.sem, ViewSem.toSem]
        refine ⟨?_, ?_⟩
        · show (((View.reverse d).sem A (s.sem A)).sub st).bind _ = _
          rw [hu']
          exact hm.1
        · split at hu
          · simp only [Option.some.injEq] at hu
            subst hu
            exact hm.2
          · next i hi =>
            split at hu
            · simp at hu
            · next hl =>
              simp only [Option.some.injEq] at hu
              subst hu
              by_cases hq : q = d
              · subst hq
                rw [hm.1] at hl
                simp at hl
              · simpa [State.has, State.remove, hq] using hm.2
            · next hl =>
              simp only [Option.bind_eq_bind, Option.bind_eq_some_iff, Option.some.injEq] at hu
              obtain ⟨l, -, rfl⟩ := hu
              by_cases hq : q = d
              · subst hq
                simp [State.has, State.set] at hm
              · simpa [State.has, State.set, State.remove, hq] using hm.2
      case rename ps =>
        simp only [View.sem, renameSem, Option.some.injEq] at hu
        simp only [Struct.sem, View.sem, ViewSem.toSem, renameSem]
        subst hu
        dsimp only at h
        split at h
        · simp at h
        · next hq =>
          have hm := ih hp.2 hw.2 _ _ h
          refine ⟨hm.1, ?_⟩
          have hok : renameOk ps (s.sem A).sig = true := by
            have := hw.1
            simp only [Struct.sem, View.sem, ViewSem.toSem, renameSem] at this
            split at this
            · assumption
            · simp [Sig.wf] at this
          simp only [renameOk, Bool.and_eq_true, decide_eq_true_eq] at hok
          have hb := hm.2
          rw [State.has, renameState_idx, if_pos (renameDim_swap_keep hok.1.2 q),
            renameDim_swap' hok.1.1 hok.1.2 q hq] at hb
          exact hb

/-- C69: without `shift` and `rename` among the views, a lower bound is offered wherever the length is known. Missing from
the converse of `C69_offered_only_if`: these two; `shift` and `rename` report lengths of dimensions that are not there. -/
theorem C69_offered_if_partial (A : Arith) (s : Struct) (hp : s.builtOf View.passesLen) (q : Dim) (st : State)
    (h : (s.sem A).hasLen q st = some true) : s.hasLower A q st = true := by
  induction s generalizing q st with
  | scalar _ _ => simp [Struct.sem, scalarSem] at h
  | union _ _ => exact hp.elim
  | vector d s ih =>
    simp only [Struct.hasLower]
    simp only [Struct.sem, vectorSem] at h
    split at h
    · next hq => subst hq; simp_all
    · next hq => rw [if_neg hq]; exact ih hp _ _ h
  | tuple t n fs ih =>
    simp only [Struct.hasLower]
    simp only [Struct.sem, tupleSem] at h
    split at h
    · next hq => subst hq; simp_all
    · next hq =>
      split at h
      · next hi =>
        rw [if_pos hi]
        simp only [Option.bind_eq_bind, Option.bind_eq_some_iff] at h
        obtain ⟨S, ⟨k, hk, hS⟩, hl⟩ := h
        split at hS
        · next hkn =>
          simp only [Option.some.injEq] at hS
          subst hS
          simp only [hk, dif_pos hkn, if_neg hq]
          exact ih _ (hp _) _ _ hl
        · simp at hS
      · simp at h
  | view v s ih =>
    simp only [Struct.hasLower]
    cases v <;> simp only [View.passesLen, View.letsThrough, Struct.builtOf, Bool.false_eq_true, false_and] at hp
    case bcast d =>
      simp only [Struct.sem, View.sem, ViewSem.toSem, bcastSem] at h ⊢
      split at h
      · next hq => subst hq; simp_all
      · next hq => rw [if_neg hq]; exact ih hp.2 _ _ h
    case fix d i =>
      simp only [Struct.sem, View.sem, ViewSem.toSem, fixSem] at h ⊢
      split at h
      · simp at h
      · exact ih hp.2 _ _ h
    case setLength d l => exact ih hp.2 _ _ h
    case hoist d => exact ih hp.2 _ _ h
    case slice d a l => exact ih hp.2 _ _ h
    case span d a l => exact ih hp.2 _ _ h
    case reverse d =>
      have h' : (((View.reverse d).sem A (s.sem A)).sub st).bind ((s.sem A).hasLen q) = some true := h
      cases hu : ((View.reverse d).sem A (s.sem A)).sub st with
      | none => simp [hu] at h'
      | some u =>
        simp only [hu, Option.bind_some] at h'
        exact ih hp.2 _ _ h'


/-! ### The bounds can be computed -/

/-- With vectors and views that do not turn dimensions around, the length is available where it is announced. -/
theorem len_of_vectorsOf {A : Arith} {s : Struct} (hp : s.vectorsOf View.passesOn) {q : Dim} {st : State}
    (h : (s.sem A).hasLen q st = some true) : ∃ l, (s.sem A).len q st = some l := by
  induction s generalizing q st with
  | scalar _ _ => simp [Struct.sem, scalarSem] at h
  | union _ _ => exact hp.elim
  | tuple _ _ _ => exact hp.elim
  | vector d s ih =>
    simp only [Struct.sem, vectorSem] at h ⊢
    simp only [h, guardLen]
    split at h
    · next hq =>
      subst hq
      rw [if_pos rfl]
      simp only [Option.some.injEq, Bool.and_eq_true] at h
      exact Option.isSome_iff_exists.1 h.1
    · next hq => rw [if_neg hq]; exact ih hp h
  | view v s ih =>
    cases v <;> simp only [View.passesOn, View.letsThrough, Struct.vectorsOf, Bool.false_eq_true, false_and] at hp
    case bcast d =>
      simp only [Struct.sem, View.sem, ViewSem.toSem, bcastSem] at h ⊢
      simp only [h, guardLen]
      split at h
      · next hq =>
        subst hq
        rw [if_pos rfl]
        simp only [Option.some.injEq, Bool.and_eq_true] at h
        exact Option.isSome_iff_exists.1 h.1
      · next hq => rw [if_neg hq]; exact ih hp.2 h
    case fix d i =>
      simp only [Struct.sem, View.sem, ViewSem.toSem, fixSem] at h ⊢
      simp only [h, guardLen]
      split at h
      · simp at h
      · exact ih hp.2 h
    case setLength d l =>
      simp only [Struct.sem, View.sem, ViewSem.toSem, setLengthSem] at h ⊢
      simp only [h, guardLen]
      exact ih hp.2 h
    case hoist d =>
      simp only [Struct.sem, View.sem, ViewSem.toSem, hoistSem] at h ⊢
      simp only [h, guardLen]
      exact ih hp.2 h
    case slice d a l =>
      simp only [Struct.sem, View.sem, ViewSem.toSem, sliceSem] at h ⊢
      simp only [h, guardLen]
      split
      · exact ⟨_, rfl⟩
      · exact ih hp.2 h
    case span d a l =>
      simp only [Struct.sem, View.sem, ViewSem.toSem, spanSem] at h ⊢
      simp only [h, guardLen]
      split
      · exact ⟨_, rfl⟩
      · exact ih hp.2 h
    case rename ps =>
      simp only [Struct.sem, View.sem, ViewSem.toSem, renameSem] at h ⊢
      simp only [h, guardLen]
      exact ih hp.2 h
    case shift d a =>
      simp only [Struct.sem, View.sem, ViewSem.toSem, shiftSem] at h ⊢
      simp only [h, guardLen]
      split at h
      · next hq =>
        subst hq
        rw [if_pos rfl]
        cases hl : st (.len q) with
        | some l => exact ⟨_, rfl⟩
        | none =>
          rw [if_neg (by simp [State.has, hl])] at h
          obtain ⟨l, hl⟩ := ih hp.2 h
          exact ⟨_, by simp [hl]; rfl⟩
      · next hq => rw [if_neg hq]; exact ih hp.2 h

theorem Struct.builtOf_of_vectorsOf {P Q : View → Bool} (hPQ : ∀ v, P v = true → Q v = true) {s : Struct}
    (h : s.vectorsOf P) : s.builtOf Q := by
  induction s with
  | scalar _ _ => trivial
  | union _ _ => exact h.elim
  | tuple _ _ _ => exact h.elim
  | vector d s ih => exact ih h
  | view v s ih => exact ⟨hPQ v h.1, ih h.2⟩

theorem View.passes_of_on (v : View) (h : v.passesOn = true) : v.letsThrough = true := by
  cases v <;> simp_all [View.passesOn]

/-- C69: with vectors and views that do not turn dimensions around, `lower_bound_along` and `lower_bound_at` can be
computed wherever they are offered, with any range or without, if the size of the structure is known. Missing: tuples
(the range must consist of constants then, `C41_range_through_a_tuple`) and `reverse` below other views; for `reverse` on
top see `C69_reverse_available`. -/
theorem C69_available_partial (A : Arith) (s : Struct) (hp : s.vectorsOf View.passesOn) (hw : s.wf A) (q : Dim)
    (st : State) (r : Option (Val × Val)) (h : s.hasLower A q st = true) {n : Val} (hs : (s.sem A).size st = some n) :
    (∃ x, s.lower A q st r = some x) ∧ ∃ x, s.lowerAt A q st r = some x := by
  have hb := Struct.builtOf_of_vectorsOf View.passes_of_on hp
  induction s generalizing q st r n with
  | scalar _ _ => simp [Struct.hasLower] at h
  | union _ _ => exact hp.elim
  | tuple _ _ _ => exact hp.elim
  | vector d s ih =>
    simp only [Struct.lower, Struct.lowerAt, h, Bool.true_eq_false, if_false]
    simp only [Struct.sem, vectorSem, Option.bind_eq_bind, Option.bind_eq_some_iff, Option.some.injEq] at hs
    obtain ⟨l, -, k, hk, -⟩ := hs
    split
    · cases r with
      | none => exact ⟨⟨_, rfl⟩, _, rfl⟩
      | some r => exact ⟨⟨_, by simp [hk]; rfl⟩, _, rfl⟩
    · next hq =>
      simp only [Struct.hasLower, if_neg hq] at h
      exact ih hp hw.2 _ _ r h hk hb
  | view v s ih =>
    have hlen : ∀ {e : Dim} {u : State}, s.hasLower A e u = true → ∃ l, (s.sem A).len e u = some l :=
      fun h => len_of_vectorsOf hp.2 (C69_offered_only_if A s hb.2 hw.2 _ _ h).1
    simp only [Struct.lower, Struct.lowerAt, h, Bool.true_eq_false, if_false]
    simp only [Struct.hasLower] at h
    simp only [Struct.sem, ViewSem.toSem] at hs
    cases hu : (v.sem A (s.sem A)).sub st with
    | none => simp [hu] at h
    | some u =>
      simp only [hu] at h ⊢
      have hsz : (s.sem A).size u = some n := by
        split at hs
        · simpa [hu] using hs
        · simp at hs
      cases v <;> simp only [View.passesOn, View.letsThrough, Struct.vectorsOf, Bool.false_eq_true, false_and] at hp
      case bcast d =>
        dsimp only at h ⊢
        split at h
        · next hq =>
          rw [if_pos hq, if_pos hq]
          cases r with
          | none => exact ⟨⟨_, rfl⟩, _, rfl⟩
          | some r => exact ⟨⟨_, rfl⟩, _, rfl⟩
        · next hq =>
          rw [if_neg hq, if_neg hq]
          exact ih hp.2 hw.2 _ _ r h hsz hb.2
      case fix d i => exact ih hp.2 hw.2 _ _ r h hsz hb.2
      case setLength d l => exact ih hp.2 hw.2 _ _ r h hsz hb.2
      case hoist d => exact ih hp.2 hw.2 _ _ r h hsz hb.2
      case rename ps =>
        dsimp only at h ⊢
        split at h
        · simp at h
        · exact ih hp.2 hw.2 _ _ r h hsz hb.2
      case shift d a =>
        dsimp only at h ⊢
        split
        · next hq =>
          subst hq
          obtain ⟨l, hl⟩ := hlen h
          cases r with
          | none =>
            obtain ⟨x, hx⟩ := (ih hp.2 hw.2 _ _ (some (a, l)) h hsz hb.2).1
            obtain ⟨y, hy⟩ := (ih hp.2 hw.2 _ _ (some (a, l.sub A a)) h hsz hb.2).2
            exact ⟨⟨x, by simp [hl, hx]⟩, _, by simp [hl, hy]; rfl⟩
          | some r =>
            obtain ⟨⟨x, hx⟩, y, hy⟩ := ih hp.2 hw.2 _ _ (some (r.1.add A a, r.2.add A a)) h hsz hb.2
            exact ⟨⟨x, hx⟩, _, by simp [hy]; rfl⟩
        · exact ih hp.2 hw.2 _ _ r h hsz hb.2
      case slice d a l =>
        dsimp only at h ⊢
        split
        · next hq =>
          subst hq
          cases r with
          | none =>
            obtain ⟨⟨x, hx⟩, y, hy⟩ := ih hp.2 hw.2 _ _ (some (a, a.add A l)) h hsz hb.2
            exact ⟨⟨x, hx⟩, _, by simp [hy]; rfl⟩
          | some r =>
            obtain ⟨⟨x, hx⟩, y, hy⟩ := ih hp.2 hw.2 _ _ (some (r.1.add A a, r.2.add A a)) h hsz hb.2
            exact ⟨⟨x, hx⟩, _, by simp [hy]; rfl⟩
        · exact ih hp.2 hw.2 _ _ r h hsz hb.2
      case span d a l =>
        dsimp only at h ⊢
        split
        · next hq =>
          subst hq
          cases r with
          | none =>
            obtain ⟨⟨x, hx⟩, y, hy⟩ := ih hp.2 hw.2 _ _ (some (a, l)) h hsz hb.2
            exact ⟨⟨x, hx⟩, _, by simp [hy]; rfl⟩
          | some r =>
            obtain ⟨⟨x, hx⟩, y, hy⟩ := ih hp.2 hw.2 _ _ (some (r.1.add A a, r.2.add A a)) h hsz hb.2
            exact ⟨⟨x, hx⟩, _, by simp [hy]; rfl⟩
        · exact ih hp.2 hw.2 _ _ r h hsz hb.2

/-- C69 for a reversed dimension of such a structure. -/
theorem C69_reverse_available (A : Arith) (s : Struct) (hp : s.vectorsOf View.passesOn) (d : Dim)
    (hw : (Struct.view (.reverse d) s).wf A) (q : Dim) (st : State) (r : Option (Val × Val))
    (h : (Struct.view (.reverse d) s).hasLower A q st = true) {n : Val}
    (hs : ((Struct.view (.reverse d) s).sem A).size st = some n) :
    (∃ x, (Struct.view (.reverse d) s).lower A q st r = some x) ∧
      ∃ x, (Struct.view (.reverse d) s).lowerAt A q st r = some x := by
  have hb := Struct.builtOf_of_vectorsOf View.passes_of_on hp
  simp only [Struct.lower, Struct.lowerAt, h, Bool.true_eq_false, if_false]
  simp only [Struct.hasLower] at h
  simp only [Struct.sem, ViewSem.toSem] at hs
  cases hu : ((View.reverse d).sem A (s.sem A)).sub st with
  | none => simp [hu] at h
  | some u =>
    simp only [hu] at h ⊢
    have hsz : (s.sem A).size u = some n := by
      split at hs
      · simpa [hu] using hs
      · simp at hs
    have ha := fun r => C69_available_partial A s hp hw.2 q u r h hsz
    split
    · next hq =>
      subst hq
      obtain ⟨l, hl⟩ := len_of_vectorsOf hp (C69_offered_only_if A s hb hw.2 _ _ h).1
      cases r with
      | none =>
        obtain ⟨⟨x, hx⟩, y, hy⟩ := ha none
        exact ⟨⟨x, hx⟩, _, by simp [hl, hy]; rfl⟩
      | some r =>
        obtain ⟨⟨x, hx⟩, y, hy⟩ := ha (some (l.sub A r.2, (l.sub A (.lit 1)).sub A r.1))
        exact ⟨⟨x, by simp [hl, hx]⟩, _, by simp [hl, hy]; rfl⟩
    · exact ha r

/-! ### Blocks -/

/-- C69 for blocks: along the inner block dimension a bound is offered if it is along the divided one; along the outer
one, if also the length of the inner one is known; never along the divided dimension. -/
theorem C69_blocks_offered (A : Arith) (s : Struct) (d maj min : Dim) (hm : maj ≠ min) (hd : d ≠ maj) (hn : d ≠ min)
    (st u : State) (hu : ((View.intoBlocks d maj min).sem A (s.sem A)).sub st = some u) :
    (Struct.view (.intoBlocks d maj min) s).hasLower A min st = s.hasLower A d u ∧
    ((Struct.view (.intoBlocks d maj min) s).hasLower A maj st = true ↔
      ((Struct.view (.intoBlocks d maj min) s).sem A).hasLen min st = some true ∧ s.hasLower A d u = true) ∧
    (Struct.view (.intoBlocks d maj min) s).hasLower A d st = false ∧
    ∀ q, q ≠ d → q ≠ maj → q ≠ min → (Struct.view (.intoBlocks d maj min) s).hasLower A q st = s.hasLower A q u := by
  refine ⟨?_, ?_, ?_, fun q h1 h2 h3 => ?_⟩ <;> simp [Struct.hasLower, hu, *]

/-- C69 for static blocks: within a part, if the length of the inner block dimension is known; along the dimension that
distinguishes the parts if none is chosen. -/
theorem C69_static_blocks_offered (A : Arith) (s : Struct) (d border maj min : Dim) (k : Val) (hbM : border ≠ maj)
    (hbm : border ≠ min) (hm : maj ≠ min) (hd : d ≠ maj) (hn : d ≠ min) (hb : d ≠ border)
    (st u : State) (hu : ((View.intoBlocksStat d border maj min k).sem A (s.sem A)).sub st = some u) :
    (∀ q, q = maj ∨ q = min → ((Struct.view (.intoBlocksStat d border maj min k) s).hasLower A q st = true ↔
      st.has (.idx border) = true ∧ ((Struct.view (.intoBlocksStat d border maj min k) s).sem A).hasLen min st = some true ∧
        s.hasLower A d u = true)) ∧
    ((Struct.view (.intoBlocksStat d border maj min k) s).hasLower A border st = true ↔
      st.has (.idx border) = false ∧ s.hasLower A d u = true) ∧
    (Struct.view (.intoBlocksStat d border maj min k) s).hasLower A d st = false ∧
    ∀ q, q ≠ d → q ≠ maj → q ≠ min → q ≠ border →
      (Struct.view (.intoBlocksStat d border maj min k) s).hasLower A q st = s.hasLower A q u := by
  refine ⟨fun q hq => ?_, ?_, ?_, fun q h1 h2 h3 h4 => ?_⟩
  · rcases hq with rfl | rfl <;> simp [Struct.hasLower, hu, and_assoc]
  all_goals simp [Struct.hasLower, hu, *]

/-- C69 for dynamic blocks: along all three dimensions, if the length of the inner block dimension is known. -/
theorem C69_dynamic_blocks_offered (A : Arith) (s : Struct) (d maj min pres : Dim) (hd : d ≠ maj) (hn : d ≠ min)
    (hp : d ≠ pres) (st u : State) (hu : ((View.intoBlocksDyn d maj min pres).sem A (s.sem A)).sub st = some u) :
    (∀ q, q = maj ∨ q = min ∨ q = pres → ((Struct.view (.intoBlocksDyn d maj min pres) s).hasLower A q st = true ↔
      ((Struct.view (.intoBlocksDyn d maj min pres) s).sem A).hasLen min st = some true ∧ s.hasLower A d u = true)) ∧
    (Struct.view (.intoBlocksDyn d maj min pres) s).hasLower A d st = false ∧
    ∀ q, q ≠ d → q ≠ maj → q ≠ min → q ≠ pres →
      (Struct.view (.intoBlocksDyn d maj min pres) s).hasLower A q st = s.hasLower A q u := by
  refine ⟨fun q hq => ?_, ?_, fun q h1 h2 h3 h4 => ?_⟩
  · rcases hq with rfl | rfl | rfl <;> simp [Struct.hasLower, hu]
  all_goals simp [Struct.hasLower, hu, *]

/-- C69 for merged blocks: along the merged dimension, if along both of them. -/
theorem C69_merged_offered (A : Arith) (s : Struct) (maj min d : Dim) (hd : d ≠ maj) (hn : d ≠ min) (st u : State)
    (hu : ((View.mergeBlocks maj min d).sem A (s.sem A)).sub st = some u) :
    ((Struct.view (.mergeBlocks maj min d) s).hasLower A d st = true ↔
      s.hasLower A maj u = true ∧ s.hasLower A min u = true) ∧
    (Struct.view (.mergeBlocks maj min d) s).hasLower A maj st = false ∧
    (Struct.view (.mergeBlocks maj min d) s).hasLower A min st = false ∧
    ∀ q, q ≠ d → q ≠ maj → q ≠ min → (Struct.view (.mergeBlocks maj min d) s).hasLower A q st = s.hasLower A q u := by
  refine ⟨?_, ?_, ?_, fun q h1 h2 h3 => ?_⟩ <;> simp [Struct.hasLower, hu, hd.symm, hn.symm, *]

/-- C69 for a renamed dimension: under the new name if it is under the old one, never under a name that is gone. -/
theorem C69_renamed_offered (A : Arith) (s : Struct) (a b : Dim) (hab : a ≠ b) (st : State) :
    (Struct.view (.rename [(a, b)]) s).hasLower A b st = s.hasLower A a (renameState [(a, b)] st) ∧
    (Struct.view (.rename [(a, b)]) s).hasLower A a st = false := by
  constructor <;> simp [Struct.hasLower, View.sem, renameSem, Sig.renameDim, hab]

/-- C69: the structures along which no bound is offered at all. -/
theorem C69_never_offered (A : Arith) (s : Struct) (q : Dim) (st : State) :
    (∀ sz al, (Struct.scalar sz al).hasLower A q st = false) ∧
    (∀ n (ss : Fin n → Struct), (Struct.union n ss).hasLower A q st = false) ∧
    (∀ d a k, (Struct.view (.step d a k) s).hasLower A q st = false) ∧
    (∀ a b d, (Struct.view (.join a b d) s).hasLower A q st = false) ∧
    (∀ ds, (Struct.view (.reorder ds) s).hasLower A q st = false) ∧
    ∀ mx k ds d, (Struct.view (.mergeZ mx k ds d) s).hasLower A q st = false := by
  refine ⟨fun _ _ => rfl, fun _ _ => rfl, fun _ _ _ => ?_, fun _ _ _ => ?_, fun _ => ?_, fun _ _ _ _ => ?_⟩ <;>
    · simp only [Struct.hasLower]
      split <;> rfl

/-! ### Where the announcement is wrong -/

/-- An array of ten, in blocks whose lengths are not given. -/
def c69Blocks : Struct := .view (.intoBlocks 0 1 2) (.view (.setLength 0 (.lit 10)) (.vector 0 (.scalar 4 4)))

/-- Along the inner block dimension a bound is offered even if its length is not known, and then it does not compile. -/
theorem C69_blocks_without_length :
    c69Blocks.hasLower .ideal 2 .empty = true ∧ c69Blocks.lower .ideal 2 .empty none = none ∧
      (c69Blocks.sem .ideal).hasLen 2 .empty = some false := by decide

/-- A bound is offered along the inner block dimension even if it is fixed. -/
theorem C69_fixed_block :
    (Struct.view (.fix 2 (.lit 1)) c69Blocks).hasLower .ideal 2 .empty = true ∧
      ((Struct.view (.fix 2 (.lit 1)) c69Blocks).sem .ideal).sig.anyAccept 2 = false := by decide

/-! ### Examples -/

/-- A matrix with a sliced, a shifted and a renamed dimension. -/
def c69Matrix : Struct :=
  .view (.rename [(1, 3)]) (.view (.shift 1 (.lit 1)) (.view (.slice 0 (.lit 2) (.dyn 4))
    (.view (.setLength 1 (.dyn 8)) (.view (.setLength 0 (.dyn 10)) (.vector 0 (.vector 1 (.scalar 4 4)))))))

theorem c69Matrix_wf : c69Matrix.wf .ideal :=
  ⟨by decide, by decide, by decide, by decide, by decide, by decide, by decide, trivial⟩

example : c69Matrix.hasLower .ideal 3 .empty = true := by decide

example : (∃ x, c69Matrix.lower .ideal 3 .empty (some (.dyn 2, .dyn 5)) = some x) ∧
    ∃ x, c69Matrix.lowerAt .ideal 3 .empty (some (.dyn 2, .dyn 5)) = some x :=
  C69_available_partial .ideal c69Matrix ⟨rfl, rfl, rfl, rfl, rfl, trivial⟩ c69Matrix_wf 3 .empty _ (by decide)
    (n := .dyn 320) (by decide)

example : (∃ x, (Struct.view (.reverse 0) c69Matrix).lower .ideal 0 .empty (some (.dyn 1, .dyn 3)) = some x) ∧
    ∃ x, (Struct.view (.reverse 0) c69Matrix).lowerAt .ideal 0 .empty (some (.dyn 1, .dyn 3)) = some x :=
  C69_reverse_available .ideal c69Matrix ⟨rfl, rfl, rfl, rfl, rfl, trivial⟩ 0 ⟨by decide, c69Matrix_wf⟩ 0 .empty _
    (by decide) (n := .dyn 320) (by decide)

/-- A tuple of such a structure and of a broadcast one: along a dimension of the first field, once it is chosen. -/
def c69Tuple : Struct :=
  .view (.slice 0 (.lit 1) (.dyn 2)) (.tuple 7 2 fun i =>
    if i = 0 then .view (.setLength 0 (.dyn 5)) (.vector 0 (.scalar 4 4))
    else .view (.setLength 0 (.lit 3)) (.view (.bcast 0) (.scalar 8 8)))

theorem c69Tuple_built : c69Tuple.builtOf View.passesLen :=
  ⟨rfl, fun i => match i with
    | 0 => ⟨rfl, trivial⟩
    | 1 => ⟨rfl, rfl, trivial⟩⟩

example : c69Tuple.hasLower .ideal 0 (State.empty.set (.idx 7) (.lit 0)) = true :=
  C69_offered_if_partial .ideal _ c69Tuple_built _ _ (by decide)

example : ∃ u, ((View.intoBlocks 0 1 2).sem .ideal ((Struct.view (.setLength 0 (.lit 10)) (.vector 0 (.scalar 4 4))).sem
    .ideal)).sub (State.empty.set (.len 2) (.lit 5)) = some u := ⟨_, rfl⟩

end Noarr
