import Verif.FlatSpec
import Verif.OrderLemmas

/-
Traversals of structures without tuple dimensions.
-/

set_option linter.unusedVariables false
set_option linter.unusedSimpArgs false

namespace Noarr

theorem Sig.flat_find {S : Sig} (h : S.flat) {d : Dim} (ha : S.anyAccept d = true) (st : State) :
    ∃ l r, S.find d st = .fn d l r := by
  induction S with
  | scalar s => simp [anyAccept] at ha
  | void => exact absurd h id
  | ill => exact absurd h id
  | dep => exact absurd h id
  | fn e l r ih =>
    simp only [find]
    split
    · next he => subst he; exact ⟨l, r, rfl⟩
    · next he => exact ih h (by simpa [anyAccept, he] using ha)

theorem Sig.flat_dimList {S : Sig} (h : S.flat) (q : Dim) : q ∈ S.dimList ↔ S.anyAccept q = true := by
  induction S with
  | scalar s => simp [anyAccept, dimList]
  | void => exact absurd h id
  | ill => exact absurd h id
  | dep => exact absurd h id
  | fn e l r ih =>
    simp only [dimList, anyAccept, List.mem_cons, Bool.or_eq_true, ih h, beq_iff_eq]
    grind

theorem Sig.flat_needs {S : Sig} (h : S.flat) (st : State) (q : Dim) : S.needs st q ↔ S.anyAccept q = true := by
  induction S with
  | scalar s => simp [anyAccept, needs]
  | void => exact absurd h id
  | ill => exact absurd h id
  | dep => exact absurd h id
  | fn e l r ih =>
    simp only [needs, anyAccept, Bool.or_eq_true, ih h, beq_iff_eq]
    grind

theorem seqAll_length {α β : Type} {f : α → Option (List β)} {l : List α} {m : Nat}
    (h : ∀ i ∈ l, ∃ a, f i = some a ∧ a.length = m) :
    ∃ r, seqAll (l.map f) = some r ∧ r.length = l.length * m := by
  induction l with
  | nil => exact ⟨[], rfl, by simp⟩
  | cons i l ih =>
    obtain ⟨a, ha, hm⟩ := h i (by simp)
    obtain ⟨r, hr, hl⟩ := ih fun j hj => h j (by simp [hj])
    refine ⟨a ++ r, by simp [seqAll, ha, hr], ?_⟩
    simp only [List.length_append, List.length_cons, hm, hl, Nat.add_mul, Nat.one_mul]
    omega

/-- The walk succeeds, and the number of visits is the product of the lengths. -/
theorem walk_flat {S : Sem} {N : Dim → Nat} (hf : S.sig.flat) (hN : HasLengths S N) {M : Sig}
    (hM : M.flat) (hu : M.uniq) (hacc : ∀ q, M.anyAccept q = true → S.sig.anyAccept q = true) {st : State}
    (hl : ∀ e, st (.len e) = none) (hno : ∀ e, M.anyAccept e = true → st (.idx e) = none) :
    ∃ ps, walk S M.tree st = some ps ∧ ps.length = (M.dimList.map N).prod := by
  induction M generalizing st with
  | scalar s => exact ⟨[[]], rfl, rfl⟩
  | void => exact absurd hM id
  | ill => exact absurd hM id
  | dep => exact absurd hM id
  | fn d l r ih =>
    have hd : (Sig.fn d l r).anyAccept d = true := by simp [Sig.anyAccept]
    obtain ⟨l', r', hfd⟩ := Sig.flat_find hf (hacc d hd) st
    obtain ⟨v, hv, hn⟩ := hN d (hacc d hd) st hl (hno d hd)
    have hn' : v.nat? = some (N d) := hn
    simp only [Sig.tree, walk, hfd, dif_pos, hv, hn', bind, Option.bind_some]
    obtain ⟨ps, h1, h2⟩ := seqAll_length (l := List.range (N d)) (m := (r.dimList.map N).prod)
      (f := fun i => (walk S r.tree (st.set (.idx d) (.dyn i))).map fun ps => ps.map fun p => (d, .dyn i) :: p)
      (fun i _ => by
        obtain ⟨ps, h1, h2⟩ := ih (st := st.set (.idx d) (.dyn i)) hM hu.2
          (fun q hq => hacc q (by simp [Sig.anyAccept, hq])) (fun e => by simpa [State.set] using hl e)
          (fun e he => by
            have : e ≠ d := by rintro rfl; rw [hu.1] at he; cases he
            simpa [State.set, this] using hno e (by simp [Sig.anyAccept, he]))
        exact ⟨_, by rw [h1]; rfl, by simpa using h2⟩)
    exact ⟨ps, h1, by simp [h2, Sig.dimList]⟩

theorem nested_flat {S : Sem} {N : Dim → Nat} (hf : S.sig.flat) (hN : HasLengths S N) {M : Sig}
    (hM : M.flat) (hu : M.uniq) (hacc : ∀ q, M.anyAccept q = true → S.sig.anyAccept q = true) {st : State}
    (hl : ∀ e, st (.len e) = none) (hno : ∀ e, M.anyAccept e = true → st (.idx e) = none) (u : State) :
    (∃ p, Nested S M st p ∧ p.state st = u) ↔
      (∀ q, M.anyAccept q = true → ∃ k, k < N q ∧ u (.idx q) = some (.dyn k)) ∧
      (∀ q, M.anyAccept q = false → u (.idx q) = st (.idx q)) ∧ ∀ q, u (.len q) = none := by
  induction M generalizing st with
  | scalar s =>
    constructor
    · rintro ⟨p, h, rfl⟩
      cases h
      exact ⟨fun q hq => by simp [Sig.anyAccept] at hq, fun q _ => rfl, hl⟩
    · rintro ⟨-, h2, h3⟩
      refine ⟨[], .scalar, ?_⟩
      exact State.ext (fun q => (h2 q rfl).symm) fun q => by rw [h3]; exact hl q
  | void => exact absurd hM id
  | ill => exact absurd hM id
  | dep => exact absurd hM id
  | fn d l r ih =>
    have hd : (Sig.fn d l r).anyAccept d = true := by simp [Sig.anyAccept]
    obtain ⟨v, hv, hn⟩ := hN d (hacc d hd) st hl (hno d hd)
    have ih' := fun i => ih (st := st.set (.idx d) (.dyn i)) hM hu.2
      (fun q hq => hacc q (by simp [Sig.anyAccept, hq])) (fun e => by simpa [State.set] using hl e)
      (fun e he => by
        have : e ≠ d := by rintro rfl; rw [hu.1] at he; cases he
        simpa [State.set, this] using hno e (by simp [Sig.anyAccept, he]))
    constructor
    · rintro ⟨p, h, rfl⟩
      cases h with
      | fn i h1 h2 h3 h4 =>
        next p l' m =>
        obtain ⟨g1, g2, g3⟩ := (ih' i).1 ⟨_, h4, rfl⟩
        refine ⟨fun q hq => ?_, fun q hq => ?_, g3⟩
        · by_cases hr : r.anyAccept q = true
          · exact g1 q hr
          · have : q = d := by simp [Sig.anyAccept, hr] at hq; exact hq.symm
            subst this
            refine ⟨i, ?_, (g2 q (by simpa using hr)).trans (by simp [State.set])⟩
            rw [hv] at h1; cases h1
            rw [hn.eq h2]; exact h3
        · simp only [Sig.anyAccept, Bool.or_eq_false_iff, beq_eq_false_iff_ne, ne_eq] at hq
          refine (g2 q hq.2).trans ?_
          simp [State.set, Ne.symm hq.1]
    · rintro ⟨g1, g2, g3⟩
      obtain ⟨k, hk, hku⟩ := g1 d hd
      obtain ⟨p, h1, h2⟩ := (ih' k).2 ⟨fun q hq => g1 q (by simp [Sig.anyAccept, hq]), fun q hq => by
        by_cases he : q = d
        · subst he; simpa [State.set] using hku
        · simpa [State.set, he] using g2 q (by simp [Sig.anyAccept, hq, Ne.symm he]), g3⟩
      exact ⟨_, .fn k hv hn hk h1, h2⟩

/-- What `for_each` visits, for a structure without tuples and with fixed lengths. -/
theorem forEach_flat {A : Arith} {s : Struct} {N : Dim → Nat} (hf : (s.sem A).sig.flat)
    (hu : (s.sem A).sig.uniq) (hN : HasLengths (s.sem A) N) :
    ∃ sts, (Traverser.mk s []).forEach A [] = some sts ∧ sts.Nodup ∧
      sts.length = ((s.sem A).sig.dimList.map N).prod ∧
      ∀ u, u ∈ sts ↔ OnBox (fun q => (s.sem A).sig.anyAccept q = true) N u := by
  obtain ⟨ps, h1, h2⟩ := walk_flat hf hN hf hu (fun q h => h) (st := .empty) (fun _ => rfl) (fun _ _ => rfl)
  have hmem := walk_mem _ hu (.refl _) h1
  have h3 : (Traverser.mk s []).forEach A [] = some (ps.map fun p => p.state .empty) := by
    simp only [Traverser.forEach, Traverser.forSections, Traverser.run, Traverser.top, Struct.apply, h1,
      Option.map_some, bind, Option.bind_some]
    have : ∀ l : List Path, (∀ p ∈ l, p ∈ ps) →
        (l.map (Traverser.mk s []).visit).mapM (fun t => t.state A) = some (l.map fun p => p.state .empty) := by
      intro l
      induction l with
      | nil => intro _; rfl
      | cons p l ih =>
        intro hl
        have e1 : ((Traverser.mk s []).visit p).state A = some (p.state .empty) :=
          stateAt_fix A s p (Nested.nodup hu ((hmem p).1 (hl p (by simp))))
        simp only [List.map_cons, List.mapM_cons, e1, ih fun q hq => hl q (by simp [hq]), bind,
          Option.bind_some, pure]
    exact this ps fun p hp => hp
  refine ⟨_, h3, ?_, by simpa using h2, fun u => ?_⟩
  · refine List.pairwise_map.2 ?_
    refine List.Pairwise.imp_of_mem ?_ (PathLt.nodup (walk_sorted _ h1))
    intro p p' hp hp' hne he
    exact hne (Nested.inj hu ((hmem p).1 hp) ((hmem p').1 hp') he)
  · have := nested_flat hf hN hf hu (fun q h => h) (st := .empty) (fun _ => rfl) (fun _ _ => rfl) u
    rw [List.mem_map]
    constructor
    · rintro ⟨p, hp, rfl⟩
      obtain ⟨g1, g2, g3⟩ := this.1 ⟨p, (hmem p).1 hp, rfl⟩
      exact ⟨g1, fun q hq => (g2 q (by simpa using hq)).trans rfl, g3⟩
    · rintro ⟨g1, g2, g3⟩
      obtain ⟨p, hp, e⟩ := this.2 ⟨g1, fun q hq => (g2 q (by simp [hq])).trans rfl, g3⟩
      exact ⟨p, (hmem p).2 hp, e⟩

/-- For such structures, the box is what `Addresses` says. -/
theorem addresses_flat {A : Arith} {s : Struct} {N : Dim → Nat} (hf : (s.sem A).sig.flat)
    (hN : HasLengths (s.sem A) N) (st : State) :
    Addresses (s.sem A) st ↔ OnBox (fun q => (s.sem A).sig.anyAccept q = true) N st := by
  have key : ∀ q, (s.sem A).sig.anyAccept q = true → (∀ q, st (.len q) = none) →
      (IndexOk (s.sem A) st q ↔ ∃ k, k < N q ∧ st (.idx q) = some (.dyn k)) := by
    intro q hq hl
    obtain ⟨l, r, hfd⟩ := Sig.flat_find hf hq st
    obtain ⟨v, hv, hn⟩ := hN q hq (st.remove (.idx q)) (fun e => by simpa [State.remove] using hl e)
      (by simp [State.remove])
    simp only [IndexOk, hfd]
    constructor
    · rintro ⟨k, l, m, h1, h2, h3, h4⟩
      rw [hv] at h2; cases h2
      exact ⟨k, by rw [hn.eq h3]; exact h4, h1⟩
    · rintro ⟨k, h1, h2⟩
      exact ⟨k, v, N q, h2, hv, hn, h1⟩
  constructor
  · intro h
    refine ⟨fun q hq => (key q hq h.noLen).1 (h.ok q ((Sig.flat_needs hf st q).2 hq)), fun q hq => ?_, h.noLen⟩
    cases hs : st (.idx q) with
    | none => rfl
    | some v => exact absurd ((Sig.flat_needs hf st q).1 (h.only q (by simp [hs]))) hq
  · intro h
    refine ⟨fun q hq => ?_, fun q hq => ?_, h.noLen⟩
    · have hq := (Sig.flat_needs hf st q).1 hq
      exact (key q hq h.noLen).2 (h.ok q hq)
    · refine (Sig.flat_needs hf st q).2 ?_
      cases ha : (s.sem A).sig.anyAccept q with
      | true => rfl
      | false => rw [h.only q (by simp [ha])] at hq; cases hq

end Noarr
