import Verif.ContigSpec
import Verif.OrderLemmas
import Verif.AlongLemmas
import Verif.Props.Layout

/-
Ranges of bytes filled by the elements of a structure. Used for C42.
-/

set_option linter.unusedVariables false
set_option linter.unusedSimpArgs false

namespace Noarr

/-- The element addressed by `u` is at the offset `k` (from wherever the structure starts) and has the
size `e`. -/
def Lies (s : Struct) (u : State) (k e : Nat) : Prop :=
  (∀ start a, start.Num a → ∃ o, (s.sem .ideal).off u start = some o ∧ o.Num (a + k)) ∧
  (s.sem .ideal).elem u = some e

/-- The byte belongs to an element with `R`. -/
def Byte (s : Struct) (L : Lens) (R : State → Prop) (b : Nat) : Prop :=
  ∃ u k e, Addr (s.sem .ideal) L u ∧ R u ∧ Lies s u k e ∧ k ≤ b ∧ b < k + e

/-- The elements with `R` fill a range of bytes. -/
def IsRange (s : Struct) (L : Lens) (R : State → Prop) : Prop :=
  ∃ lo hi, ∀ b, Byte s L R b ↔ lo ≤ b ∧ b < hi

/-- The index in `d` is in an interval, bounded from above by `b` if there is such a bound. -/
def In (u : State) (d : Dim) (a : Nat) (b : Option Nat) : Prop :=
  ∃ i, u (.idx d) = some (.dyn i) ∧ a ≤ i ∧ ∀ y, b = some y → i < y

theorem Byte.congr {s : Struct} {L : Lens} {R R' : State → Prop}
    (h : ∀ u, Addr (s.sem .ideal) L u → (R u ↔ R' u)) (b : Nat) : Byte s L R b ↔ Byte s L R' b := by
  constructor
  · rintro ⟨u, k, e, h1, h2, h3⟩; exact ⟨u, k, e, h1, (h u h1).1 h2, h3⟩
  · rintro ⟨u, k, e, h1, h2, h3⟩; exact ⟨u, k, e, h1, (h u h1).2 h2, h3⟩

theorem IsRange.congr {s : Struct} {L : Lens} {R R' : State → Prop}
    (h : ∀ u, Addr (s.sem .ideal) L u → (R u ↔ R' u)) (hr : IsRange s L R) : IsRange s L R' := by
  obtain ⟨lo, hi, hr⟩ := hr
  exact ⟨lo, hi, fun b => by rw [← Byte.congr h b, hr]⟩

theorem IsRange.empty {s : Struct} {L : Lens} {R : State → Prop}
    (h : ∀ u, Addr (s.sem .ideal) L u → ¬ R u) : IsRange s L R :=
  ⟨0, 0, fun b => ⟨fun ⟨u, k, e, h1, h2, h3⟩ => absurd h2 (h u h1), fun h => by omega⟩⟩

/-! ### Structures that address the same elements -/

/-- The elements of `s` with `R` correspond to those of `s'` with `R'`, which lie `c` bytes before. -/
structure Corr (s : Struct) (L : Lens) (R : State → Prop) (s' : Struct) (L' : Lens) (R' : State → Prop)
    (c : Nat) (M : State → State → Prop) : Prop where
  fwd : ∀ st, Addr (s.sem .ideal) L st → R st → ∃ u, M st u ∧ Addr (s'.sem .ideal) L' u ∧ R' u
  bwd : ∀ u, Addr (s'.sem .ideal) L' u → R' u → ∃ st, M st u ∧ Addr (s.sem .ideal) L st ∧ R st
  lies : ∀ st u, M st u → Addr (s.sem .ideal) L st → Addr (s'.sem .ideal) L' u → ∀ k e,
    Lies s st k e ↔ ∃ k', k = c + k' ∧ Lies s' u k' e

section Corr
variable {s s' : Struct} {L L' : Lens} {R R' : State → Prop} {c : Nat} {M : State → State → Prop}

theorem Corr.and (h : Corr s L R s' L' R' c M) {Q Q' : State → Prop}
    (hQ : ∀ st u, M st u → Addr (s.sem .ideal) L st → Addr (s'.sem .ideal) L' u → R st → R' u →
      (Q st ↔ Q' u)) :
    Corr s L (fun st => R st ∧ Q st) s' L' (fun u => R' u ∧ Q' u) c fun st u => M st u ∧ R st ∧ R' u := by
  refine ⟨fun st hst hR => ?_, fun u hu hR => ?_, fun st u hM => h.lies st u hM.1⟩
  · obtain ⟨u, h1, h2, h3⟩ := h.fwd st hst hR.1
    exact ⟨u, ⟨h1, hR.1, h3⟩, h2, h3, (hQ st u h1 hst h2 hR.1 h3).1 hR.2⟩
  · obtain ⟨st, h1, h2, h3⟩ := h.bwd u hu hR.1
    exact ⟨st, ⟨h1, h3, hR.1⟩, h2, h3, (hQ st u h1 h2 hu h3 hR.1).2 hR.2⟩

theorem Corr.byte (h : Corr s L R s' L' R' c M) (b : Nat) :
    Byte s L R b ↔ ∃ b', b = c + b' ∧ Byte s' L' R' b' := by
  constructor
  · rintro ⟨st, k, e, h1, h2, h3, h4, h5⟩
    obtain ⟨u, hM, hu, hR⟩ := h.fwd st h1 h2
    obtain ⟨k', rfl, hk⟩ := (h.lies st u hM h1 hu k e).1 h3
    exact ⟨b - c, by omega, u, k', e, hu, hR, hk, by omega, by omega⟩
  · rintro ⟨b', rfl, u, k, e, h1, h2, h3, h4, h5⟩
    obtain ⟨st, hM, hst, hR⟩ := h.bwd u h1 h2
    exact ⟨st, c + k, e, hst, hR, (h.lies st u hM hst h1 _ e).2 ⟨k, rfl, h3⟩, by omega, by omega⟩

theorem Corr.range (h : Corr s L R s' L' R' c M) (hr : IsRange s' L' R') : IsRange s L R := by
  obtain ⟨lo, hi, hr⟩ := hr
  refine ⟨c + lo, c + hi, fun b => ?_⟩
  rw [h.byte]
  constructor
  · rintro ⟨b', rfl, h⟩
    have := (hr b').1 h
    omega
  · rintro ⟨h1, h2⟩
    exact ⟨b - c, by omega, (hr _).2 (by omega)⟩

theorem dyn_inj {a b : Nat} : (some (Val.dyn a) = some (Val.dyn b)) ↔ a = b := by simp

end Corr

/-! ### Views -/

/-- The offset in a view is that in the structure below. -/
theorem Selects.corr {s : Struct} {v : View} {L L' : Lens} {P : State → Prop} (h : Selects .ideal s v L L' P)
    (ho : ∀ st, Addr ((Struct.view v s).sem .ideal) L st → (v.sem .ideal (s.sem .ideal)).offOk st = true) :
    Corr (.view v s) L (fun _ => True) s L' P 0 fun st u => (v.sem .ideal (s.sem .ideal)).sub st = some u := by
  refine ⟨fun st hst _ => ?_, fun u hu hP => ?_, fun st u hM hst hu k e => ?_⟩
  · obtain ⟨u, h1, h2, h3⟩ := h.fwd st hst
    exact ⟨u, h1, h2, h3⟩
  · obtain ⟨st, h1, h2⟩ := h.bwd u hu hP
    exact ⟨st, h2, h1, trivial⟩
  · have : Lies (.view v s) st k e ↔ Lies s u k e := by
      simp only [Lies, Struct.sem, ViewSem.toSem, ho st hst, hM, if_true, Option.bind_some]
    rw [this]
    constructor
    · intro h; exact ⟨k, by omega, h⟩
    · rintro ⟨k', rfl, h⟩; rwa [Nat.zero_add]

/-- Every element has an offset. -/
def Total (s : Struct) (L : Lens) (R : State → Prop) : Prop :=
  ∀ u, Addr (s.sem .ideal) L u → R u → ∃ k e, Lies s u k e

theorem Corr.total {s s' : Struct} {L L' : Lens} {R R' : State → Prop} {c : Nat} {M : State → State → Prop}
    (h : Corr s L R s' L' R' c M) (ht : Total s' L' R') : Total s L R := by
  intro st hst hR
  obtain ⟨u, hM, hu, hR'⟩ := h.fwd st hst hR
  obtain ⟨k, e, hk⟩ := ht u hu hR'
  exact ⟨c + k, e, (h.lies st u hM hst hu _ _).2 ⟨k, rfl, hk⟩⟩

/-- The elements fill the structure. -/
structure Fills (s : Struct) (L : Lens) : Prop where
  total : Total s L fun _ => True
  fills : ∃ Z, (∀ u z, (∀ q, u (.len q) = L q) → (s.sem .ideal).size u = some z → z.Num Z) ∧
    (∀ u, Addr (s.sem .ideal) L u → ∃ z, (s.sem .ideal).size u = some z) ∧
    ∀ b, Byte s L (fun _ => True) b ↔ b < Z

/-- The view does not merge dimensions. -/
def View.unmerged : View → Prop
  | .join _ _ _ | .mergeBlocks _ _ _ | .mergeZ _ _ _ _ => False
  | _ => True

/-- The lengths handed down. -/
theorem sub_lens {v : View} {s : Struct} {st u : State} {L : Lens} (hL : ∀ q, st (.len q) = L q)
    (hw : ((Struct.view v s).sem .ideal).sig.wf = true)
    (hv : v.unmerged)
    (hu : (v.sem .ideal (s.sem .ideal)).sub st = some u) (q : Dim) : u (.len q) = v.lens .ideal L q := by
  cases v with
  | join a b d => exact absurd hv id
  | mergeBlocks a b d => exact absurd hv id
  | mergeZ a b d e => exact absurd hv id
  | bcast d => cases hu; simp [State.removeAll, View.lens, Lens.remove, hL]
  | fix d i => cases hu; simp [State.set, State.remove, View.lens, Lens.remove, hL]
  | setLength d l => cases hu; simp [State.set, View.lens, Lens.set, hL]
  | shift d a =>
    cases hu
    simp only [State.mapAt, View.lens, Tag.len.injEq, reduceCtorEq, if_false]
    by_cases h : q = d
    · subst h; simp [hL]
    · simp [h, hL]
  | slice d a n => cases hu; simp [State.mapAt, View.lens, hL]
  | span d a n => cases hu; simp [State.mapAt, View.lens, hL]
  | step d a n => cases hu; simp [State.mapAt, View.lens, hL]
  | reverse d =>
    simp only [View.sem, reverseSem] at hu
    simp only [View.lens]
    split at hu
    · cases hu; exact hL q
    · split at hu
      · simp at hu
      · cases hu; simp [State.remove, hL]
      · simp only [bind, Option.bind_eq_some_iff, Option.some.injEq] at hu
        obtain ⟨l, -, rfl⟩ := hu
        simp [State.remove, State.set, hL]
  | reorder ds => cases hu; exact hL q
  | hoist d => cases hu; exact hL q
  | rename ps => cases hu; simp only [View.lens, renameState, hL]
  | intoBlocks d maj min =>
    have hu : intoBlocksSub .ideal d maj min (s.sem .ideal) st = some u := hu
    have hc : blocksClean d maj min st (.len q) = L.remove [d, maj, min] q := by
      simp only [blocksClean, State.removeAll, Lens.remove, List.mem_cons, List.not_mem_nil, or_false,
        Tag.len.injEq, reduceCtorEq, false_or, hL]
    simp only [intoBlocksSub] at hu
    simp only [View.lens, ← hL]
    cases hnl : st (.len min) with
    | some nl =>
      simp only [hnl] at hu
      cases hml : st (.len maj) <;> cases hI : st (.idx maj) <;> cases hJ : st (.idx min) <;>
        simp only [hml, hI, hJ, Option.some.injEq] at hu <;> subst hu <;>
        simp only [State.set, Lens.set, Tag.len.injEq, reduceCtorEq, if_false] <;> first | exact hc | (rw [hc])
    | none =>
      simp only [hnl] at hu
      have : u (.len q) = blocksClean d maj min st (.len q) := by
        cases hb : (s.sem .ideal).hasLen d (blocksClean d maj min st) with
        | none => simp [hb] at hu
        | some b =>
          cases b with
          | false => simp only [hb, Option.some.injEq] at hu; rw [hu]
          | true =>
            simp only [hb] at hu
            cases hml : st (.len maj) <;> cases hI : st (.idx maj) <;> cases hJ : st (.idx min) <;>
              simp only [hml, hI, hJ, Option.some.injEq, bind, Option.bind_eq_some_iff] at hu <;>
              first
              | (subst hu; rfl)
              | (obtain ⟨l, -, rfl⟩ := hu; simp [State.set])
      rw [this, hc]
      cases st (.len maj) <;> rfl
  | intoBlocksDyn d maj min pres =>
    have hu : intoBlocksDynSub .ideal d maj min pres (s.sem .ideal) st = some u := hu
    have hc : dynClean d maj min pres st (.len q) = L.remove [d, maj, min] q := by
      simp only [dynClean, State.removeAll, Lens.remove, List.mem_cons, List.not_mem_nil, or_false,
        Tag.len.injEq, reduceCtorEq, false_or, hL]
    simp only [intoBlocksDynSub, blocksDynClean_eq] at hu
    split at hu
    · simp at hu
    simp only [bind, Option.bind_some] at hu
    simp only [View.lens, ← hL]
    cases hnl : st (.len min) <;> cases hml : st (.len maj) <;> cases hI : st (.idx maj) <;>
      cases hJ : st (.idx min) <;>
      simp only [hnl, hml, hI, hJ, Option.some.injEq, Option.bind_eq_some_iff] at hu <;>
      first
      | (subst hu; simp only [State.set, Lens.set, Tag.len.injEq, reduceCtorEq, if_false]; first | exact hc | (rw [hc]); done)
      | (obtain ⟨l, hl, rfl⟩ := hu; simp only [State.set, Tag.len.injEq, reduceCtorEq, if_false]; exact hc)
  | intoBlocksStat d border maj min nl =>
    have hu : intoBlocksStatSub .ideal d border maj min nl (s.sem .ideal) st = some u := hu
    simp only [intoBlocksStatSub, blocksStatClean_eq] at hu
    split at hu
    · simp at hu
    next hb =>
    have hb' : ∀ e ∈ [border, maj, min], st (.len e) = none := by
      simp only [State.has] at hb
      simp only [List.mem_cons, List.not_mem_nil, or_false]
      rintro e (rfl | rfl | rfl) <;> cases h : st (.len _) <;> simp_all
    have hc : statClean d border maj min st (.len q) = L.remove [d, border, maj, min] q := by
      simp only [statClean, State.removeAll, Lens.remove, List.mem_cons, List.not_mem_nil, or_false,
        Tag.len.injEq, reduceCtorEq, false_or, hL]
      by_cases h1 : q = d
      · simp [h1]
      · by_cases h2 : q ∈ [border, maj, min]
        · have := hb' q h2
          rw [hL] at this
          simp [this]
        · simp only [List.mem_cons, List.not_mem_nil, or_false] at h2
          simp [h1, h2]
    simp only [View.lens]
    rw [← hc]
    simp only [bind, Option.bind_some] at hu
    split at hu
    · cases hI : st (.idx maj) <;> cases hJ : st (.idx min) <;>
        simp only [hI, hJ, Option.some.injEq, Option.bind_eq_some_iff] at hu
      · subst hu; rfl
      · subst hu; rfl
      · subst hu; rfl
      · obtain ⟨b, hb, hu⟩ := hu
        cases b with
        | true =>
          simp only [if_true, Option.some.injEq] at hu
          subst hu; simp [State.set]
        | false =>
          simp only [Bool.false_eq_true, if_false, Option.bind_eq_some_iff, Option.some.injEq] at hu
          obtain ⟨l, -, rfl⟩ := hu; simp [State.set]
    · cases hu; rfl

/-- An address has an index in a dimension that is everywhere. -/
theorem Addr.has_of_all {S : Sem} {L : Lens} {u : State} (h : Addr S L u) {d : Dim}
    (ha : S.sig.allAccept d = true) : ∃ o, S.sig.entry u d o :=
  Sig.entry_of_allAccept ha fun e n _ he => by
    obtain ⟨k, hk, hi⟩ := h.ok e (some n) he
    exact ⟨k, hk, hi⟩

theorem Addr.idx_isSome {S : Sem} {L : Lens} {u : State} (h : Addr S L u) {d : Dim} {o : Option Nat}
    (he : S.sig.entry u d o) : ∃ i, u (.idx d) = some i := by
  have := h.ok d o he
  cases o with
  | none => obtain ⟨k, l, m, hk, -⟩ := this; exact ⟨_, hk⟩
  | some n => obtain ⟨k, -, hk⟩ := this; exact ⟨_, hk⟩

theorem offOk_ibd {s : Struct} {L L' : Lens} {P : State → Prop} {d maj min pres : Dim}
    (hu : (s.sem .ideal).sig.uniq)
    (hw : ((Struct.view (.intoBlocksDyn d maj min pres) s).sem .ideal).sig.wf = true)
    (hd : ¬ (s.sem .ideal).sig.hasDep d)
    (hs : Selects .ideal s (.intoBlocksDyn d maj min pres) L L' P)
    (hall : ∀ u, Addr (s.sem .ideal) L' u → P u → ∃ o, (s.sem .ideal).sig.entry u d o)
    (st : State) (hst : Addr ((Struct.view (.intoBlocksDyn d maj min pres) s).sem .ideal) L st) :
    ((View.intoBlocksDyn d maj min pres).sem .ideal (s.sem .ideal)).offOk st = true := by
  obtain ⟨u, hsub, hu', hP⟩ := hs.fwd st hst
  obtain ⟨o, ho⟩ := hall u hu' hP
  obtain rfl : o = none := by
    cases o with
    | none => rfl
    | some n => exact absurd ho (nodep_entry hd u n)
  obtain ⟨-, hfr, hent⟩ := ibd_entry (A := .ideal) hu hd hw
  have hdims : ∀ e, e ∉ [d, maj, min, pres] → u (.idx e) = st (.idx e) := fun e he =>
    sub_idx (v := .intoBlocksDyn d maj min pres) (by simp only [View.dims]; simp at he ⊢; grind) hsub
  have ho' : (s.sem .ideal).sig.entry st d none := by
    refine (Sig.entry_nodep_congr fun e he => hdims e ?_).1 ho
    have ha := Sig.hasDep_accept he
    have hne : e ≠ d := by rintro rfl; exact hd he
    intro hm
    simp only [List.mem_cons, List.not_mem_nil, or_false] at hm
    have := hfr e (by simp; grind) hne
    rw [ha] at this; cases this
  have key : ∀ q ∈ [maj, min, pres], st.has (.idx q) = true := by
    intro q hq
    obtain ⟨i, hi⟩ := hst.idx_isSome ((hent st q none).2 (.inr ⟨hq, rfl, ho'⟩))
    simp [State.has, hi]
  simp [View.sem, intoBlocksDynSem, key]

theorem offOk_view {s : Struct} {v : View} {L L' : Lens} {P : State → Prop}
    (hu : (s.sem .ideal).sig.uniq) (hw : ((Struct.view v s).sem .ideal).sig.wf = true)
    (ha : v.admits .ideal s L) (hs : Selects .ideal s v L L' P)
    (hall : ∀ d maj min pres, v = .intoBlocksDyn d maj min pres → ∀ u, Addr (s.sem .ideal) L' u → P u →
      ∃ o, (s.sem .ideal).sig.entry u d o)
    (st : State) (hst : Addr ((Struct.view v s).sem .ideal) L st) :
    (v.sem .ideal (s.sem .ideal)).offOk st = true := by
  cases v with
  | reorder ds => exact ha
  | intoBlocksDyn d maj min pres => exact offOk_ibd hu hw ha.1 hs (hall _ _ _ _ rfl) st hst
  | _ => rfl

/-! ### Vectors -/

theorem addr_vector {s : Struct} {d : Dim} {L : Lens} (ha : (s.sem .ideal).sig.anyAccept d = false) {u : State} :
    Addr ((Struct.vector d s).sem .ideal) L u ↔ (∀ q, u (.len q) = L q) ∧
      ∃ i l n, u (.idx d) = some (.dyn i) ∧ L d = some l ∧ l.Num n ∧ i < n ∧
        Addr (s.sem .ideal) (L.remove [d]) (u.removeAll [.idx d, .len d]) := by
  have hent : ∀ q o, ((Struct.vector d s).sem .ideal).sig.entry u q o ↔
      (q = d ∧ o = none) ∨ (s.sem .ideal).sig.entry (u.removeAll [.idx d, .len d]) q o := by
    intro q o
    simp only [Struct.sem, vectorSem, ha, Bool.false_eq_true, if_false, Sig.entry]
    rw [Sig.entry_congr (st := u) (st' := u.removeAll [.idx d, .len d])]
    intro e he
    have : e ≠ d := by rintro rfl; rw [ha] at he; cases he
    simp [State.removeAll, this]
  have hne : ∀ q o, (s.sem .ideal).sig.entry (u.removeAll [.idx d, .len d]) q o → q ≠ d := by
    rintro q o he rfl
    have := Sig.entry_accept he
    rw [ha] at this; cases this
  have hlen : ∀ q, q ≠ d → ((Struct.vector d s).sem .ideal).len q (u.remove (.idx q)) =
      (s.sem .ideal).len q ((u.removeAll [.idx d, .len d]).remove (.idx q)) := by
    intro q hq
    have hst : (u.remove (.idx q)).removeAll [.idx d, .len d] = (u.removeAll [.idx d, .len d]).remove (.idx q) := by
      funext t; simp only [State.remove, State.removeAll]; split <;> split <;> rfl
    have hg := guard_len .ideal s q ((u.removeAll [.idx d, .len d]).remove (.idx q))
    simp only [Struct.sem, vectorSem, hq, if_false, hst]
    exact hg
  have hok : ∀ q o, q ≠ d → (EntryOk ((Struct.vector d s).sem .ideal) u q o ↔
      EntryOk (s.sem .ideal) (u.removeAll [.idx d, .len d]) q o) := by
    intro q o hq
    have hi : (u.removeAll [.idx d, .len d]) (.idx q) = u (.idx q) := by simp [State.removeAll, hq]
    cases o with
    | none => simp only [EntryOk, hi, hlen q hq]
    | some n => simp only [EntryOk, hi]
  have hokd : EntryOk ((Struct.vector d s).sem .ideal) u d none ↔
      ∃ i l n, u (.idx d) = some (.dyn i) ∧ u (.len d) = some l ∧ l.Num n ∧ i < n := by
    have : ((Struct.vector d s).sem .ideal).len d (u.remove (.idx d)) = u (.len d) := by
      simp only [Struct.sem, vectorSem, if_true, State.has, State.remove, reduceCtorEq, if_false]
      cases u (.len d) <;> rfl
    simp only [EntryOk, this]
  constructor
  · intro h
    obtain ⟨i, l, n, h1, h2, h3, h4⟩ := hokd.1 (h.ok d none ((hent d none).2 (.inl ⟨rfl, rfl⟩)))
    refine ⟨h.lens, i, l, n, h1, by rw [← h.lens]; exact h2, h3, h4, fun q o he => ?_, fun q hq => ?_, fun q => ?_⟩
    · exact (hok q o (hne q o he)).1 (h.ok q o ((hent q o).2 (.inr he)))
    · by_cases hqd : q = d
      · subst hqd; simp [State.removeAll] at hq
      · obtain ⟨o, ho⟩ := h.only q (by simpa [State.removeAll, hqd] using hq)
        rcases (hent q o).1 ho with ⟨rfl, -⟩ | ho
        · exact absurd rfl hqd
        · exact ⟨o, ho⟩
    · simp [State.removeAll, Lens.remove, h.lens]
  · rintro ⟨hL, i, l, n, h1, h2, h3, h4, h⟩
    refine ⟨fun q o he => ?_, fun q hq => ?_, hL⟩
    · rcases (hent q o).1 he with ⟨rfl, rfl⟩ | he
      · exact hokd.2 ⟨i, l, n, h1, by rw [hL]; exact h2, h3, h4⟩
      · exact (hok q o (hne q o he)).2 (h.ok q o he)
    · by_cases hqd : q = d
      · exact ⟨none, (hent q none).2 (.inl ⟨hqd, rfl⟩)⟩
      · obtain ⟨o, ho⟩ := h.only q (by simpa [State.removeAll, hqd] using hq)
        exact ⟨o, (hent q o).2 (.inr ho)⟩

/-- The address of element `i` of a vector. -/
def State.inVector (w : State) (d : Dim) (i : Nat) (L : Lens) : State
  | .idx q => if q = d then some (.dyn i) else w (.idx q)
  | .len q => L q

theorem inVector_sub {w : State} {d : Dim} {i : Nat} {L : Lens} (hL : ∀ q, w (.len q) = L.remove [d] q)
    (hi : w (.idx d) = none) : (w.inVector d i L).removeAll [.idx d, .len d] = w := by
  refine State.ext (fun q => ?_) (fun q => ?_)
  · by_cases h : q = d
    · subst h; simp [State.removeAll, hi]
    · simp [State.removeAll, State.inVector, h]
  · rw [hL]
    simp only [State.removeAll, State.inVector, Lens.remove, List.mem_cons, List.not_mem_nil, or_false,
      reduceCtorEq, Tag.len.injEq, false_or]

/-- An offset that is a number is a number from any start. -/
theorem off_any {s : Struct} {st : State} {start o : Val} {m : Nat}
    (h : (s.sem .ideal).off st start = some o) (hm : o.Num m) :
    ∃ k, ∀ start' a, start'.Num a → ∃ o', (s.sem .ideal).off st start' = some o' ∧ o'.Num (a + k) := by
  induction s generalizing st start with
  | scalar z b => exact ⟨0, fun start' a ha => ⟨start', rfl, ha⟩⟩
  | tuple t n fs ih =>
    simp only [Struct.sem, tupleSem, bind, Option.bind_eq_some_iff] at h
    obtain ⟨j, hj, S, hS, before, hb, h⟩ := h
    rw [hj] at hS
    simp only [Option.some.injEq, exists_eq_left'] at hS
    split at hS
    · next hjn =>
      obtain rfl := Option.some.inj hS
      obtain ⟨c, hc⟩ := off_start (s := fs ⟨j, hjn⟩) h hm
      obtain ⟨B, y, hB, hy, -⟩ := Val.nat?_add.1 hc
      obtain ⟨k, hk⟩ := ih _ h
      refine ⟨B + k, fun start' a ha => ?_⟩
      obtain ⟨o', ho', hn⟩ := hk _ _ (Val.num_add hB ha)
      refine ⟨o', ?_, by rw [show a + (B + k) = B + a + k by omega]; exact hn⟩
      simp only [Struct.sem, tupleSem, bind, hj, Option.bind_some, hjn, dif_pos, hb]
      exact ho'
    · simp at hS
  | vector d s ih =>
    simp only [Struct.sem, vectorSem, bind, Option.bind_eq_some_iff] at h
    simp only [Struct.sem, vectorSem, bind]
    obtain ⟨i, hi, l, hl, h⟩ := h
    simp only [hi, hl, Option.bind_some]
    split at h
    · exact ih h
    · simp only [Option.bind_eq_some_iff, Option.some.injEq] at h
      obtain ⟨_, -, rfl⟩ := h
      simp [Val.Num, Val.nat?] at hm
    · next h1 h2 =>
      simp only [Option.bind_eq_some_iff] at h
      obtain ⟨sz, hsz, h⟩ := h
      obtain ⟨c, hc⟩ := off_start (s := s) h hm
      obtain ⟨B, y, hB, hy, -⟩ := Val.nat?_add.1 hc
      obtain ⟨k, hk⟩ := ih h
      refine ⟨B + k, fun start' a ha => ?_⟩
      obtain ⟨o', ho', hn⟩ := hk _ _ (Val.num_add hB ha)
      refine ⟨o', ?_, by rw [show a + (B + k) = B + a + k by omega]; exact hn⟩
      simp only [hsz, Option.bind_some]
      exact ho'
  | union n ss ih => simp [Struct.sem, unionSem] at h
  | view v s ih =>
    simp only [Struct.sem, ViewSem.toSem] at h ⊢
    split at h
    · next hk =>
      obtain ⟨u, hu, h⟩ := Option.bind_eq_some_iff.1 h
      simp only [hk, if_true, hu, Option.bind_some]
      exact ih h
    · simp at h

/-- It is enough to look at one start. -/
theorem Lies.of {s : Struct} {u : State} {start o : Val} {a k e : Nat} (ha : start.Num a)
    (ho : (s.sem .ideal).off u start = some o) (hk : o.Num (a + k)) (he : (s.sem .ideal).elem u = some e) :
    Lies s u k e := by
  obtain ⟨k', hk'⟩ := off_any ho hk
  obtain ⟨o', ho', hn⟩ := hk' start a ha
  rw [ho] at ho'; cases ho'
  have := Val.Num.eq hk hn
  have : k = k' := by omega
  subst this
  exact ⟨hk', he⟩

theorem Lies.vector {s : Struct} {d : Dim} {u : State} {i : Nat} {l z : Val} {n Z : Nat}
    (hi : u (.idx d) = some (.dyn i)) (hl : u (.len d) = some l) (hn : l.Num n) (hin : i < n)
    (hz : (s.sem .ideal).size (u.removeAll [.idx d, .len d]) = some z) (hZ : z.Num Z) (k e : Nat) :
    Lies (.vector d s) u k e ↔ ∃ k', k = i * Z + k' ∧ Lies s (u.removeAll [.idx d, .len d]) k' e := by
  have hst : ∀ start a, start.Num a → (((Val.dyn i).mul .ideal z).add .ideal start).Num (i * Z + a) :=
    fun start a ha => Val.num_add (Val.num_mul rfl hZ) ha
  have hoff : (∀ start, ((Struct.vector d s).sem .ideal).off u start =
        (s.sem .ideal).off (u.removeAll [.idx d, .len d]) start) ∧ i = 0 ∨
      ∀ start, ((Struct.vector d s).sem .ideal).off u start =
        (s.sem .ideal).off (u.removeAll [.idx d, .len d]) (((Val.dyn i).mul .ideal z).add .ideal start) := by
    simp only [Struct.sem, vectorSem, hi, hl, bind, Option.bind_some]
    rcases Val.Num.cases hn with rfl | rfl
    · by_cases h1 : n = 1
      · subst h1
        exact .inl ⟨fun _ => rfl, by omega⟩
      · exact .inr fun start => by simp [h1, hz]
    · exact .inr fun start => by simp [hz]
  have hel : ((Struct.vector d s).sem .ideal).elem u = (s.sem .ideal).elem (u.removeAll [.idx d, .len d]) := rfl
  simp only [Lies, hel]
  rcases hoff with ⟨h, rfl⟩ | h
  · simp only [h]
    constructor
    · intro h; exact ⟨k, by omega, h⟩
    · rintro ⟨k', rfl, h⟩; simpa using h
  · simp only [h]
    constructor
    · rintro ⟨h1, h2⟩
      obtain ⟨o, ho, hok⟩ := h1 (.dyn 0) 0 rfl
      obtain ⟨K, hK⟩ := off_shift s (u.removeAll [.idx d, .len d])
      have := hK _ o _ _ ho (hst (.dyn 0) 0 rfl) hok
      refine ⟨K, by omega, Lies.of (hst (.dyn 0) 0 rfl) ho ?_ h2⟩
      rw [← this]; exact hok
    · rintro ⟨k', rfl, h1, h2⟩
      refine ⟨fun start a ha => ?_, h2⟩
      obtain ⟨o, ho, hok⟩ := h1 _ _ (hst start a ha)
      exact ⟨o, ho, by rw [show a + (i * Z + k') = i * Z + a + k' by omega]; exact hok⟩

/-- The elements of one item of a vector. -/
theorem vector_corr {s : Struct} {d : Dim} {L : Lens} {l : Val} {n Z i : Nat}
    (ha : (s.sem .ideal).sig.anyAccept d = false) (hl : L d = some l) (hn : l.Num n) (hi : i < n)
    (hz : ∀ u, Addr (s.sem .ideal) (L.remove [d]) u → ∃ z, (s.sem .ideal).size u = some z ∧ z.Num Z) :
    Corr (.vector d s) L (fun st => st (.idx d) = some (.dyn i)) s (L.remove [d]) (fun _ => True) (i * Z)
      fun st u => st (.idx d) = some (.dyn i) ∧ st.removeAll [.idx d, .len d] = u := by
  refine ⟨fun st hst hR => ?_, fun u hu _ => ?_, ?_⟩
  · obtain ⟨-, _, _, _, -, -, -, -, h⟩ := (addr_vector ha).1 hst
    exact ⟨_, ⟨hR, rfl⟩, h, trivial⟩
  · have hnone : u (.idx d) = none := by
      cases h : u (.idx d) with
      | none => rfl
      | some x =>
        obtain ⟨o, ho⟩ := hu.only d (by simp [h])
        have := Sig.entry_accept ho
        rw [ha] at this; cases this
    have hs := inVector_sub (i := i) hu.lens hnone
    refine ⟨u.inVector d i L, ⟨by simp [State.inVector], hs⟩, ?_, by simp [State.inVector]⟩
    refine (addr_vector ha).2 ⟨fun q => rfl, i, l, n, by simp [State.inVector], hl, hn, hi, ?_⟩
    rw [hs]; exact hu
  · rintro st u ⟨h1, rfl⟩ hst hu k e
    obtain ⟨z, hz, hZ⟩ := hz _ hu
    exact Lies.vector h1 (by rw [hst.lens]; exact hl) hn hi hz hZ k e

/-- The items of a vector one after another. -/
theorem vector_byte {s : Struct} {d : Dim} {L : Lens} {l : Val} {n Z : Nat}
    (ha : (s.sem .ideal).sig.anyAccept d = false) (hl : L d = some l) (hn : l.Num n)
    (hz : ∀ u, Addr (s.sem .ideal) (L.remove [d]) u → ∃ z, (s.sem .ideal).size u = some z ∧ z.Num Z)
    (hb : ∀ b, Byte s (L.remove [d]) (fun _ => True) b ↔ b < Z) (x y b : Nat) :
    Byte (.vector d s) L (fun u => In u d x (some y)) b ↔ x * Z ≤ b ∧ b < Nat.min y n * Z := by
  have h1 : Byte (.vector d s) L (fun u => In u d x (some y)) b ↔
      ∃ i, x ≤ i ∧ i < y ∧ i < n ∧ Byte (.vector d s) L (fun u => u (.idx d) = some (.dyn i)) b := by
    constructor
    · rintro ⟨u, k, e, hu, ⟨i, hi, h1, h2⟩, h⟩
      obtain ⟨-, j, l', n', hj, hl', hn', hlt, -⟩ := (addr_vector ha).1 hu
      rw [hi] at hj; cases hj
      rw [hl] at hl'; cases hl'
      rw [← Val.Num.eq hn hn'] at hlt
      exact ⟨i, h1, h2 _ rfl, hlt, u, k, e, hu, hi, h⟩
    · rintro ⟨i, h1, h2, h3, u, k, e, hu, hi, h⟩
      exact ⟨u, k, e, hu, ⟨i, hi, h1, fun y hy => by cases hy; exact h2⟩, h⟩
  have h2 : ∀ i, i < n → (Byte (.vector d s) L (fun u => u (.idx d) = some (.dyn i)) b ↔
      i * Z ≤ b ∧ b < (i + 1) * Z) := by
    intro i hi
    rw [(vector_corr ha hl hn hi hz).byte]
    constructor
    · rintro ⟨b', rfl, h⟩
      have := (hb b').1 h
      rw [Nat.add_mul]; omega
    · rintro ⟨h1, h2⟩
      rw [Nat.add_mul] at h2
      exact ⟨b - i * Z, by omega, (hb _).2 (by omega)⟩
  have hmin : Nat.min y n = y ∨ Nat.min y n = n := by
    rcases Nat.le_total y n with h | h
    · exact .inl (Nat.min_eq_left h)
    · exact .inr (Nat.min_eq_right h)
  have hle1 : Nat.min y n ≤ y := Nat.min_le_left _ _
  have hle2 : Nat.min y n ≤ n := Nat.min_le_right _ _
  rw [h1]
  constructor
  · rintro ⟨i, hx, hy, hin, h⟩
    obtain ⟨h3, h4⟩ := (h2 i hin).1 h
    have e1 := Nat.mul_le_mul_right Z hx
    have e2 := Nat.mul_le_mul_right Z (show i + 1 ≤ Nat.min y n by rcases hmin with h | h <;> rw [h] <;> omega)
    omega
  · rintro ⟨h3, h4⟩
    have hZ : 0 < Z := by
      rcases Nat.eq_zero_or_pos Z with h | h
      · subst h; simp at h4
      · exact h
    have e1 : b / Z < Nat.min y n := (Nat.div_lt_iff_lt_mul hZ).2 h4
    have e2 : x ≤ b / Z := (Nat.le_div_iff_mul_le hZ).2 h3
    refine ⟨b / Z, e2, by omega, by omega, (h2 _ (by omega)).2 ⟨Nat.div_mul_le_self _ _, ?_⟩⟩
    have := Nat.lt_div_mul_add (a := b) hZ
    rw [Nat.add_mul]; omega

theorem Fills.vector {s : Struct} {d : Dim} {L : Lens} (ha : (s.sem .ideal).sig.anyAccept d = false)
    (hL : ∀ l, L d = some l → ∃ n, l.Num n) (h : Fills s (L.remove [d])) : Fills (.vector d s) L := by
  obtain ⟨ht, Z, h1, h2, h3⟩ := h
  have hz : ∀ u, Addr (s.sem .ideal) (L.remove [d]) u → ∃ z, (s.sem .ideal).size u = some z ∧ z.Num Z := by
    intro u hu
    obtain ⟨z, hz⟩ := h2 u hu
    exact ⟨z, hz, h1 u z hu.lens hz⟩
  have hsub : ∀ u : State, (∀ q, u (.len q) = L q) → ∀ q,
      u.removeAll [.idx d, .len d] (.len q) = L.remove [d] q := by
    intro u hu q; simp [State.removeAll, Lens.remove, hu]
  cases hl : L d with
  | none =>
    have hno : ∀ u, ¬ Addr ((Struct.vector d s).sem .ideal) L u := by
      intro u hu
      obtain ⟨-, _, _, _, -, h, -⟩ := (addr_vector ha).1 hu
      rw [hl] at h; cases h
    refine ⟨fun u hu => absurd hu (hno u), 0, ?_, fun u hu => absurd hu (hno u), ?_⟩
    · intro u z hu hz
      simp [Struct.sem, vectorSem, hu, hl] at hz
    · intro b
      exact ⟨fun ⟨u, _, _, hu, _⟩ => absurd hu (hno u), fun h => by omega⟩
  | some l =>
    obtain ⟨n, hn⟩ := hL l hl
    refine ⟨?_, n * Z, ?_, ?_, ?_⟩
    · intro u hu _
      obtain ⟨-, i, l', n', hi, hl', hn', hlt, h⟩ := (addr_vector ha).1 hu
      rw [hl] at hl'; cases hl'
      rw [← Val.Num.eq hn hn'] at hlt
      obtain ⟨k, e, hk⟩ := ht _ h trivial
      obtain ⟨z, hz, hZ⟩ := hz _ h
      exact ⟨_, e, (Lies.vector hi (by rw [hu.lens]; exact hl) hn hlt hz hZ _ e).2 ⟨k, rfl, hk⟩⟩
    · intro u z hu hz
      simp only [Struct.sem, vectorSem, hu, hl, bind, Option.bind_some, Option.bind_eq_some_iff,
        Option.some.injEq] at hz
      obtain ⟨z', hz', rfl⟩ := hz
      exact Val.num_mul hn (h1 _ _ (hsub u hu) hz')
    · intro u hu
      obtain ⟨-, i, l', n', hi, hl', hn', hlt, h⟩ := (addr_vector ha).1 hu
      obtain ⟨z, hz, hZ⟩ := hz _ h
      exact ⟨l.mul .ideal z, by simp [Struct.sem, vectorSem, hu.lens, hl, hz]⟩
    · intro b
      have : Byte (.vector d s) L (fun _ => True) b ↔ Byte (.vector d s) L (fun u => In u d 0 (some n)) b := by
        refine Byte.congr (fun u hu => ?_) b
        obtain ⟨-, i, l', n', hi, hl', hn', hlt, h⟩ := (addr_vector ha).1 hu
        rw [hl] at hl'; cases hl'
        rw [← Val.Num.eq hn hn'] at hlt
        exact ⟨fun _ => ⟨i, hi, by omega, fun y hy => by cases hy; exact hlt⟩, fun _ => trivial⟩
      rw [this, vector_byte ha hl hn hz h3]
      simp

/-! ### Tuples -/

theorem addr_tuple {t : Dim} {n : Nat} {fs : Fin n → Struct} {L : Lens}
    (ha : ∀ i, ((fs i).sem .ideal).sig.anyAccept t = false) {u : State} :
    Addr ((Struct.tuple t n fs).sem .ideal) L u ↔ ∃ k, ∃ h : k < n, u (.idx t) = some (.lit k) ∧
      Addr ((fs ⟨k, h⟩).sem .ideal) L (u.remove (.idx t)) := by
  have hsig : ((Struct.tuple t n fs).sem .ideal).sig = .dep t n fun i => ((fs i).sem .ideal).sig := by
    simp only [Struct.sem, tupleSem]
    rw [if_neg]
    rintro ⟨i, hi⟩
    rw [ha] at hi; cases hi
  have hself : ((Struct.tuple t n fs).sem .ideal).sig.entry u t (some n) := by rw [hsig]; simp [Sig.entry]
  have main : ∀ k (h : k < n), u (.idx t) = some (.lit k) →
      (Addr ((Struct.tuple t n fs).sem .ideal) L u ↔ Addr ((fs ⟨k, h⟩).sem .ideal) L (u.remove (.idx t))) := by
    intro k h hk
    have hent : ∀ q o, ((Struct.tuple t n fs).sem .ideal).sig.entry u q o ↔
        (q = t ∧ o = some n) ∨ ((fs ⟨k, h⟩).sem .ideal).sig.entry (u.remove (.idx t)) q o := by
      intro q o
      rw [hsig, ← Sig.entry_congr (st := u) (st' := u.remove (.idx t))]
      · have hli : Sig.litIdx n (some (.lit k)) = some ⟨k, h⟩ := by simp [Sig.litIdx, h]
        simp only [Sig.entry, hk, hli]
        constructor
        · rintro (h1 | ⟨j, hj, h2⟩)
          · exact .inl h1
          · right
            cases hj; exact h2
        · rintro (h1 | h2)
          · exact .inl h1
          · exact .inr ⟨⟨k, h⟩, rfl, h2⟩
      · intro e he
        have : e ≠ t := by rintro rfl; rw [ha] at he; cases he
        simp [State.remove, this]
    have hne : ∀ q o, ((fs ⟨k, h⟩).sem .ideal).sig.entry (u.remove (.idx t)) q o → q ≠ t := by
      rintro q o he rfl
      have := Sig.entry_accept he
      rw [ha] at this; cases this
    have hlen : ∀ q, q ≠ t → ((Struct.tuple t n fs).sem .ideal).len q (u.remove (.idx q)) =
        ((fs ⟨k, h⟩).sem .ideal).len q ((u.remove (.idx t)).remove (.idx q)) := by
      intro q hq
      have hst : (u.remove (.idx q)).remove (.idx t) = (u.remove (.idx t)).remove (.idx q) := by
        funext t; simp only [State.remove]; split <;> split <;> rfl
      have hi : (u.remove (.idx q)) (.idx t) = some (.lit k) := by
        simp [State.remove, Ne.symm hq, hk]
      have hg := guard_len .ideal (fs ⟨k, h⟩) q ((u.remove (.idx t)).remove (.idx q))
      simp only [Struct.sem, tupleSem, hq, if_false, hi, State.has, Option.isSome_some, if_true, constIdx,
        bind, Option.bind_some, h, dif_pos, hst]
      exact hg
    have hok : ∀ q o, q ≠ t → (EntryOk ((Struct.tuple t n fs).sem .ideal) u q o ↔
        EntryOk ((fs ⟨k, h⟩).sem .ideal) (u.remove (.idx t)) q o) := by
      intro q o hq
      have hi : (u.remove (.idx t)) (.idx q) = u (.idx q) := by simp [State.remove, hq]
      cases o with
      | none => simp only [EntryOk, hi, hlen q hq]
      | some n => simp only [EntryOk, hi]
    constructor
    · intro h'
      refine ⟨fun q o he => ?_, fun q hq => ?_, fun q => ?_⟩
      · exact (hok q o (hne q o he)).1 (h'.ok q o ((hent q o).2 (.inr he)))
      · by_cases hqd : q = t
        · subst hqd; simp [State.remove] at hq
        · obtain ⟨o, ho⟩ := h'.only q (by simpa [State.remove, hqd] using hq)
          rcases (hent q o).1 ho with ⟨rfl, -⟩ | ho
          · exact absurd rfl hqd
          · exact ⟨o, ho⟩
      · simp [State.remove, h'.lens]
    · intro h'
      refine ⟨fun q o he => ?_, fun q hq => ?_, fun q => ?_⟩
      · rcases (hent q o).1 he with ⟨rfl, rfl⟩ | he
        · exact ⟨k, h, hk⟩
        · exact (hok q o (hne q o he)).2 (h'.ok q o he)
      · by_cases hqd : q = t
        · exact ⟨some n, (hent q _).2 (.inl ⟨hqd, rfl⟩)⟩
        · obtain ⟨o, ho⟩ := h'.only q (by simpa [State.remove, hqd] using hq)
          exact ⟨o, (hent q o).2 (.inr ho)⟩
      · have := h'.lens q
        simpa [State.remove] using this
  constructor
  · intro h
    obtain ⟨k, hk, hi⟩ := h.ok t (some n) hself
    exact ⟨k, hk, hi, (main k hk hi).1 h⟩
  · rintro ⟨k, hk, hi, h⟩
    exact (main k hk hi).2 h

theorem Lies.tuple {t : Dim} {n : Nat} {fs : Fin n → Struct} {u : State} {k : Nat} (h : k < n)
    (hk : u (.idx t) = some (.lit k)) {before : Val} {B : Nat}
    (hb : sizeAcc .ideal (u.remove (.idx t)) ((List.ofFn fun i => (fs i).sem .ideal).take k) (.lit 0) =
      some before) (hB : before.Num B) (x e : Nat) :
    Lies (.tuple t n fs) u x e ↔ ∃ x', x = B + x' ∧ Lies (fs ⟨k, h⟩) (u.remove (.idx t)) x' e := by
  have hoff : ∀ start, ((Struct.tuple t n fs).sem .ideal).off u start =
      ((fs ⟨k, h⟩).sem .ideal).off (u.remove (.idx t)) (before.add .ideal start) := by
    intro start
    simp only [Struct.sem, tupleSem, hk, constIdx, bind, Option.bind_some, h, dif_pos, hb]
  have hel : ((Struct.tuple t n fs).sem .ideal).elem u =
      ((fs ⟨k, h⟩).sem .ideal).elem (u.remove (.idx t)) := by
    simp only [Struct.sem, tupleSem, hk, constIdx, bind, Option.bind_some, h, dif_pos]
  have hst : ∀ start a, start.Num a → (before.add .ideal start).Num (B + a) :=
    fun start a ha => Val.num_add hB ha
  simp only [Lies, hel, hoff]
  constructor
  · rintro ⟨h1, h2⟩
    obtain ⟨o, ho, hok⟩ := h1 (.dyn 0) 0 rfl
    obtain ⟨K, hK⟩ := off_shift (fs ⟨k, h⟩) (u.remove (.idx t))
    have := hK _ o _ _ ho (hst (.dyn 0) 0 rfl) hok
    refine ⟨K, by omega, Lies.of (hst (.dyn 0) 0 rfl) ho ?_ h2⟩
    rw [← this]; exact hok
  · rintro ⟨x', rfl, h1, h2⟩
    refine ⟨fun start a ha => ?_, h2⟩
    obtain ⟨o, ho, hok⟩ := h1 _ _ (hst start a ha)
    exact ⟨o, ho, by rw [show a + (B + x') = B + a + x' by omega]; exact hok⟩

/-- The elements of one field of a tuple. -/
theorem tuple_corr {t : Dim} {n : Nat} {fs : Fin n → Struct} {L : Lens} {k B : Nat} (h : k < n)
    (ha : ∀ i, ((fs i).sem .ideal).sig.anyAccept t = false)
    (hb : ∀ u, Addr ((fs ⟨k, h⟩).sem .ideal) L u → ∃ before,
      sizeAcc .ideal u ((List.ofFn fun i => (fs i).sem .ideal).take k) (.lit 0) = some before ∧ before.Num B) :
    Corr (.tuple t n fs) L (fun st => st (.idx t) = some (.lit k)) (fs ⟨k, h⟩) L (fun _ => True) B
      fun st u => st (.idx t) = some (.lit k) ∧ st.remove (.idx t) = u := by
  refine ⟨fun st hst hR => ?_, fun u hu _ => ?_, ?_⟩
  · obtain ⟨k', h', hk, hst⟩ := (addr_tuple ha).1 hst
    rw [hR] at hk; cases hk
    exact ⟨_, ⟨hR, rfl⟩, hst, trivial⟩
  · have hnone : u (.idx t) = none := by
      cases h : u (.idx t) with
      | none => rfl
      | some x =>
        obtain ⟨o, ho⟩ := hu.only t (by simp [h])
        have := Sig.entry_accept ho
        rw [ha] at this; cases this
    have hs : (u.set (.idx t) (.lit k)).remove (.idx t) = u := by
      funext tag
      simp only [State.remove, State.set]
      split
      · next h => rw [h, hnone]
      · rfl
    refine ⟨u.set (.idx t) (.lit k), ⟨by simp [State.set], hs⟩, ?_, by simp [State.set]⟩
    refine (addr_tuple ha).2 ⟨k, h, by simp [State.set], ?_⟩
    rw [hs]; exact hu
  · rintro st u ⟨h1, rfl⟩ hst hu x e
    obtain ⟨before, hb, hB⟩ := hb _ hu
    exact Lies.tuple h h1 hb hB x e

theorem sum_cover (zs : List Nat) (b : Nat) : b < sumSizes zs ↔
    ∃ k, ∃ h : k < zs.length, sumSizes (zs.take k) ≤ b ∧ b < sumSizes (zs.take k) + zs[k] := by
  induction zs generalizing b with
  | nil => simp [sumSizes]
  | cons z zs ih =>
    simp only [sumSizes]
    constructor
    · intro h
      by_cases hb : b < z
      · exact ⟨0, by simp, by simp [sumSizes], by simpa [sumSizes] using hb⟩
      · obtain ⟨k, hk, h1, h2⟩ := (ih (b - z)).1 (by omega)
        refine ⟨k + 1, by simpa using hk, ?_, ?_⟩
        · simp only [List.take_succ_cons, sumSizes]; omega
        · simp only [List.take_succ_cons, sumSizes, List.getElem_cons_succ]; omega
    · rintro ⟨k, hk, h1, h2⟩
      cases k with
      | zero => simp [sumSizes] at h2; omega
      | succ k =>
        simp only [List.take_succ_cons, sumSizes, List.getElem_cons_succ] at h1 h2
        have := (ih (b - z)).2 ⟨k, by simpa using hk, by omega, by omega⟩
        omega

theorem Fills.tuple {t : Dim} {n : Nat} {fs : Fin n → Struct} {L : Lens}
    (ha : ∀ i, ((fs i).sem .ideal).sig.anyAccept t = false) (h : ∀ i, Fills (fs i) L) {al : Nat} (hal : 0 < al)
    {zs : Fin n → Nat} (hz : ∀ i u, (∀ q, u (.len q) = L q) → ((fs i).sem .ideal).align u = some al ∧
        ∃ v, ((fs i).sem .ideal).size u = some v ∧ v.Num (zs i) ∧ al ∣ zs i) :
    Fills (.tuple t n fs) L := by
  have hbyte : ∀ i b, Byte (fs i) L (fun _ => True) b ↔ b < zs i := by
    intro i b
    obtain ⟨-, Z, h1, h2, h3⟩ := h i
    obtain ⟨-, v, hv, hn, -⟩ := hz i (fun | .idx _ => none | .len q => L q) (fun q => rfl)
    have : Z = zs i := Val.Num.eq (h1 _ _ (fun q => rfl) hv) hn
    rw [h3, this]
  have hacc : ∀ u : State, (∀ q, u (.len q) = L q) → ∀ k, ∃ v,
      sizeAcc .ideal u ((List.ofFn fun i => (fs i).sem .ideal).take k) (.lit 0) = some v ∧
      v.Num (sumSizes ((List.ofFn zs).take k)) := by
    intro u hu k
    have := sizeAcc_exact hal (st := u) (l := (List.ofFn fun i => (fs i).sem .ideal).take k)
      (zs := (List.ofFn zs).take k) (start := .lit 0) (a := 0) rfl (Nat.dvd_zero _)
      (by
        intro S hS
        obtain ⟨i, rfl⟩ := List.mem_ofFn.1 (List.mem_of_mem_take hS)
        exact (hz i u hu).1)
      (by simp) (by
        intro i hi
        simp only [List.length_take, List.length_ofFn] at hi
        simpa using (hz ⟨i, by omega⟩ u hu).2)
    simpa using this
  have hcorr : ∀ k (hk : k < n), Corr (.tuple t n fs) L (fun st => st (.idx t) = some (.lit k)) (fs ⟨k, hk⟩) L
      (fun _ => True) (sumSizes ((List.ofFn zs).take k))
      fun st u => st (.idx t) = some (.lit k) ∧ st.remove (.idx t) = u :=
    fun k hk => tuple_corr hk ha fun u hu => hacc u hu.lens k
  have hrem : ∀ u : State, (∀ q, u (.len q) = L q) → ∀ q, u.remove (.idx t) (.len q) = L q := by
    intro u hu q; simp [State.remove, hu]
  have hfull : ∀ (l : List Sem) (m : Nat), m = l.length → l.take m = l := fun l m h => by subst h; simp
  have hsize : ∀ u : State, (∀ q, u (.len q) = L q) → ∃ v,
      ((Struct.tuple t n fs).sem .ideal).size u = some v ∧ v.Num (sumSizes (List.ofFn zs)) := by
    intro u hu
    have := hacc _ (hrem u hu) n
    rw [hfull _ n (by simp)] at this
    rw [show (List.ofFn zs).take n = List.ofFn zs by rw [List.take_of_length_le]; simp] at this
    exact this
  refine ⟨?_, sumSizes (List.ofFn zs), ?_, ?_, ?_⟩
  · intro u hu _
    obtain ⟨k, hk, hi, hu'⟩ := (addr_tuple ha).1 hu
    exact (hcorr k hk).total (fun w hw _ => (h _).total w hw trivial) u hu hi
  · intro u z hu hz
    obtain ⟨v, hv, hn⟩ := hsize u hu
    rw [hv] at hz; cases hz; exact hn
  · intro u hu
    obtain ⟨v, hv, -⟩ := hsize u hu.lens
    exact ⟨v, hv⟩
  · intro b
    rw [sum_cover]
    have h1 : Byte (.tuple t n fs) L (fun _ => True) b ↔
        ∃ k, ∃ hk : k < n, Byte (.tuple t n fs) L (fun st => st (.idx t) = some (.lit k)) b := by
      constructor
      · rintro ⟨u, x, e, hu, -, h⟩
        obtain ⟨k, hk, hi, -⟩ := (addr_tuple ha).1 hu
        exact ⟨k, hk, u, x, e, hu, hi, h⟩
      · rintro ⟨k, hk, u, x, e, hu, hi, h⟩
        exact ⟨u, x, e, hu, trivial, h⟩
    rw [h1]
    constructor
    · rintro ⟨k, hk, h⟩
      obtain ⟨b', rfl, h'⟩ := ((hcorr k hk).byte b).1 h
      have := (hbyte _ _).1 h'
      exact ⟨k, by simpa using hk, by omega, by simp; omega⟩
    · rintro ⟨k, hk, h1, h2⟩
      have hk' : k < n := by simpa using hk
      refine ⟨k, hk', ((hcorr k hk').byte b).2 ⟨b - sumSizes ((List.ofFn zs).take k), by omega, (hbyte _ _).2 ?_⟩⟩
      simp only [List.getElem_ofFn] at h2
      omega

/-! ### Scalars -/

theorem addr_scalar {z a : Nat} {L : Lens} {u : State} : Addr ((Struct.scalar z a).sem .ideal) L u ↔
    (∀ q, u (.len q) = L q) ∧ ∀ q, u (.idx q) = none := by
  constructor
  · intro h
    refine ⟨h.lens, fun q => ?_⟩
    cases hq : u (.idx q) with
    | none => rfl
    | some x =>
      obtain ⟨o, ho⟩ := h.only q (by simp [hq])
      simp [Struct.sem, scalarSem, Sig.entry] at ho
  · rintro ⟨h1, h2⟩
    exact ⟨fun q o ho => by simp [Struct.sem, scalarSem, Sig.entry] at ho, fun q hq => by simp [h2] at hq, h1⟩

theorem lies_scalar {z a : Nat} {u : State} : Lies (.scalar z a) u 0 z :=
  ⟨fun start a ha => ⟨start, rfl, ha⟩, rfl⟩

theorem Fills.scalar (z a : Nat) (L : Lens) : Fills (.scalar z a) L := by
  refine ⟨fun u _ _ => ⟨0, z, lies_scalar⟩, z, ?_, fun u _ => ⟨.lit z, rfl⟩, ?_⟩
  · intro u v _ h; cases h; rfl
  · intro b
    constructor
    · rintro ⟨u, k, e, hu, -, ⟨h, he⟩, h1, h2⟩
      cases he
      obtain ⟨o, ho, hn⟩ := h (.dyn 0) 0 rfl
      cases ho
      have := Val.Num.eq hn rfl
      omega
    · intro h
      exact ⟨fun | .idx _ => none | .len q => L q, 0, z, addr_scalar.2 ⟨fun q => rfl, fun q => rfl⟩, trivial,
        lies_scalar, by omega, by omega⟩

/-! ### Broadcast -/

theorem addr_bcast {s : Struct} {d : Dim} {L : Lens} (ha : (s.sem .ideal).sig.anyAccept d = false) {u : State} :
    Addr ((Struct.view (.bcast d) s).sem .ideal) L u ↔ (∀ q, u (.len q) = L q) ∧
      ∃ i l n, u (.idx d) = some (.dyn i) ∧ L d = some l ∧ l.Num n ∧ i < n ∧
        Addr (s.sem .ideal) (L.remove [d]) (u.removeAll [.idx d, .len d]) := by
  have hent : ∀ q o, ((Struct.view (.bcast d) s).sem .ideal).sig.entry u q o ↔
      (q = d ∧ o = none) ∨ (s.sem .ideal).sig.entry (u.removeAll [.idx d, .len d]) q o := by
    intro q o
    simp only [Struct.sem, ViewSem.toSem, View.sem, bcastSem, Sig.entry]
    rw [Sig.entry_congr (st := u) (st' := u.removeAll [.idx d, .len d])]
    intro e he
    have : e ≠ d := by rintro rfl; rw [ha] at he; cases he
    simp [State.removeAll, this]
  have hne : ∀ q o, (s.sem .ideal).sig.entry (u.removeAll [.idx d, .len d]) q o → q ≠ d := by
    rintro q o he rfl
    have := Sig.entry_accept he
    rw [ha] at this; cases this
  have hlen : ∀ q, q ≠ d → ((Struct.view (.bcast d) s).sem .ideal).len q (u.remove (.idx q)) =
      (s.sem .ideal).len q ((u.removeAll [.idx d, .len d]).remove (.idx q)) := by
    intro q hq
    have hst : (u.remove (.idx q)).removeAll [.idx d, .len d] = (u.removeAll [.idx d, .len d]).remove (.idx q) := by
      funext t; simp only [State.remove, State.removeAll]; split <;> split <;> rfl
    have hg := guard_len .ideal s q ((u.removeAll [.idx d, .len d]).remove (.idx q))
    simp only [Struct.sem, ViewSem.toSem, View.sem, bcastSem, hq, if_false, hst]
    exact hg
  have hok : ∀ q o, q ≠ d → (EntryOk ((Struct.view (.bcast d) s).sem .ideal) u q o ↔
      EntryOk (s.sem .ideal) (u.removeAll [.idx d, .len d]) q o) := by
    intro q o hq
    have hi : (u.removeAll [.idx d, .len d]) (.idx q) = u (.idx q) := by simp [State.removeAll, hq]
    cases o with
    | none => simp only [EntryOk, hi, hlen q hq]
    | some n => simp only [EntryOk, hi]
  have hokd : EntryOk ((Struct.view (.bcast d) s).sem .ideal) u d none ↔
      ∃ i l n, u (.idx d) = some (.dyn i) ∧ u (.len d) = some l ∧ l.Num n ∧ i < n := by
    have : ((Struct.view (.bcast d) s).sem .ideal).len d (u.remove (.idx d)) = u (.len d) := by
      simp only [Struct.sem, ViewSem.toSem, View.sem, bcastSem, if_true, State.has, State.remove, reduceCtorEq, if_false]
      cases u (.len d) <;> rfl
    simp only [EntryOk, this]
  constructor
  · intro h
    obtain ⟨i, l, n, h1, h2, h3, h4⟩ := hokd.1 (h.ok d none ((hent d none).2 (.inl ⟨rfl, rfl⟩)))
    refine ⟨h.lens, i, l, n, h1, by rw [← h.lens]; exact h2, h3, h4, fun q o he => ?_, fun q hq => ?_, fun q => ?_⟩
    · exact (hok q o (hne q o he)).1 (h.ok q o ((hent q o).2 (.inr he)))
    · by_cases hqd : q = d
      · subst hqd; simp [State.removeAll] at hq
      · obtain ⟨o, ho⟩ := h.only q (by simpa [State.removeAll, hqd] using hq)
        rcases (hent q o).1 ho with ⟨rfl, -⟩ | ho
        · exact absurd rfl hqd
        · exact ⟨o, ho⟩
    · simp [State.removeAll, Lens.remove, h.lens]
  · rintro ⟨hL, i, l, n, h1, h2, h3, h4, h⟩
    refine ⟨fun q o he => ?_, fun q hq => ?_, hL⟩
    · rcases (hent q o).1 he with ⟨rfl, rfl⟩ | he
      · exact hokd.2 ⟨i, l, n, h1, by rw [hL]; exact h2, h3, h4⟩
      · exact (hok q o (hne q o he)).2 (h.ok q o he)
    · by_cases hqd : q = d
      · exact ⟨none, (hent q none).2 (.inl ⟨hqd, rfl⟩)⟩
      · obtain ⟨o, ho⟩ := h.only q (by simpa [State.removeAll, hqd] using hq)
        exact ⟨o, (hent q o).2 (.inr ho)⟩

theorem Lies.bcast {s : Struct} {d : Dim} {u : State} (k e : Nat) :
    Lies (.view (.bcast d) s) u k e ↔ Lies s (u.removeAll [.idx d, .len d]) k e := by
  simp only [Lies, Struct.sem, ViewSem.toSem, View.sem, bcastSem, if_true, Option.bind_some]

/-- The elements are those of the structure below, if there is an index. -/
theorem bcast_corr {s : Struct} {d : Dim} {L : Lens} {l : Val} {n : Nat} {R : State → Prop} {i : Nat}
    (ha : (s.sem .ideal).sig.anyAccept d = false) (hl : L d = some l) (hn : l.Num n) (hi : i < n)
    (hR : ∀ st : State, st (.idx d) = some (.dyn i) → R st) :
    Corr (.view (.bcast d) s) L R s (L.remove [d]) (fun _ => True) 0
      fun st u => R st ∧ st.removeAll [.idx d, .len d] = u := by
  refine ⟨fun st hst hR => ?_, fun u hu _ => ?_, ?_⟩
  · obtain ⟨-, _, _, _, -, -, -, -, h⟩ := (addr_bcast ha).1 hst
    exact ⟨_, ⟨hR, rfl⟩, h, trivial⟩
  · have hnone : u (.idx d) = none := by
      cases h : u (.idx d) with
      | none => rfl
      | some x =>
        obtain ⟨o, ho⟩ := hu.only d (by simp [h])
        have := Sig.entry_accept ho
        rw [ha] at this; cases this
    have hs := inVector_sub (i := i) hu.lens hnone
    have hR' := hR (u.inVector d i L) (by simp [State.inVector])
    refine ⟨u.inVector d i L, ⟨hR', hs⟩, ?_, hR'⟩
    refine (addr_bcast ha).2 ⟨fun q => rfl, i, l, n, by simp [State.inVector], hl, hn, hi, ?_⟩
    rw [hs]; exact hu
  · rintro st u ⟨h1, rfl⟩ hst hu k e
    rw [Lies.bcast]
    constructor
    · intro h; exact ⟨k, by omega, h⟩
    · rintro ⟨k', rfl, h⟩; rwa [Nat.zero_add]

theorem Fills.bcast {s : Struct} {d : Dim} {L : Lens} {l : Val} {n : Nat}
    (ha : (s.sem .ideal).sig.anyAccept d = false) (hl : L d = some l) (hn : l.Num n) (h0 : 0 < n)
    (h : Fills s (L.remove [d])) : Fills (.view (.bcast d) s) L := by
  have hc := bcast_corr (R := fun _ => True) ha hl hn h0 (fun _ _ => trivial)
  obtain ⟨hT, Z, h1, h2, h3⟩ := h
  refine ⟨hc.total hT, Z, ?_, ?_, ?_⟩
  · intro st z hst hz
    refine h1 (st.removeAll [.idx d, .len d]) z (fun q => ?_) hz
    simp [State.removeAll, Lens.remove, hst]
  · intro st hst
    obtain ⟨-, _, _, _, -, -, -, -, h⟩ := (addr_bcast ha).1 hst
    exact h2 _ h
  · intro b
    rw [hc.byte, ← h3]
    constructor
    · rintro ⟨b', rfl, h⟩; rwa [Nat.zero_add]
    · intro h; exact ⟨b, by omega, h⟩

theorem not_accept_bcast {s : Struct} {d : Dim} (hu : ((Struct.view (.bcast d) s).sem .ideal).sig.uniq) :
    (s.sem .ideal).sig.anyAccept d = false := hu.1

/-! ### Views that use everything -/

theorem Fills.view {s : Struct} {v : View} {L : Lens} (ht : (Struct.view v s).tame)
    (hw : ((Struct.view v s).sem .ideal).sig.wf = true) (hu : (s.sem .ideal).sig.uniq)
    (huv : ((Struct.view v s).sem .ideal).sig.uniq) (hm : s.unmixed .ideal) (ha : v.admits .ideal s L)
    (hf : v.full .ideal s) (h : Fills s (v.lens .ideal L)) : Fills (.view v s) L := by
  have hs := select_view ht hw hu huv hm ha
  have hk : ∀ u, v.keeps u := by
    intro u
    cases v <;> first | trivial | exact absurd hf id
  have hoff := offOk_view hu hw ha hs (by
    rintro d maj min pres rfl u hu' -
    exact hu'.has_of_all hf)
  have hv : v.unmerged := by
    cases v <;> first | trivial | exact hf
  have hc : Corr (.view v s) L (fun _ => True) s (v.lens .ideal L) (fun _ => True) 0
      fun st u => (v.sem .ideal (s.sem .ideal)).sub st = some u := by
    have := hs.corr hoff
    exact ⟨fun st h1 h2 => by
      obtain ⟨u, x, y, _⟩ := this.fwd st h1 h2
      exact ⟨u, x, y, trivial⟩, fun u h1 _ => this.bwd u h1 (hk u), this.lies⟩
  have hso : (v.sem .ideal (s.sem .ideal)).sizeOk = true := by
    cases v with
    | reorder ds => exact ha
    | _ => first | rfl | exact absurd hf id
  obtain ⟨hT, Z, h1, h2, h3⟩ := h
  refine ⟨hc.total hT, Z, ?_, ?_, ?_⟩
  · intro st z hst hz
    simp only [Struct.sem, ViewSem.toSem, hso, if_true, Option.bind_eq_some_iff] at hz
    obtain ⟨u, hu', hz⟩ := hz
    exact h1 u z (sub_lens hst hw hv hu') hz
  · intro st hst
    obtain ⟨u, hu', hA, -⟩ := hs.fwd st hst
    obtain ⟨z, hz⟩ := h2 u hA
    exact ⟨z, by simp only [Struct.sem, ViewSem.toSem, hso, if_true, hu', Option.bind_some]; exact hz⟩
  · intro b
    rw [hc.byte, ← h3]
    constructor
    · rintro ⟨b', rfl, h⟩; rwa [Nat.zero_add]
    · intro h; exact ⟨b, by omega, h⟩

theorem not_accept_vector {s : Struct} {d : Dim} (hw : (Struct.vector d s).wf .ideal) :
    (s.sem .ideal).sig.anyAccept d = false := by
  have := hw.1
  cases h : (s.sem .ideal).sig.anyAccept d with
  | false => rfl
  | true => simp [Struct.sem, vectorSem, h, Sig.wf] at this

theorem not_accept_tuple {t : Dim} {n : Nat} {fs : Fin n → Struct} (hw : (Struct.tuple t n fs).wf .ideal)
    (i : Fin n) : ((fs i).sem .ideal).sig.anyAccept t = false := by
  have := hw.1
  cases h : ((fs i).sem .ideal).sig.anyAccept t with
  | false => rfl
  | true =>
    simp only [Struct.sem, tupleSem] at this
    rw [if_pos ⟨i, h⟩] at this
    simp [Sig.wf] at this

/-- What is ruled out. -/
theorem isContig_ruledOut {A : Arith} {s : Struct} {v : View} {p : State}
    (h : v.ruledOut fun q => p.has (.idx q)) : (Struct.view v s).isContig A p = false := by
  cases v with
  | mergeBlocks maj min d => rfl
  | mergeZ a b ds d => rfl
  | step d a k =>
    have h : p.has (.idx d) = false := h
    simp [Struct.isContig, h]
  | intoBlocks d maj min =>
    obtain ⟨h1, h2⟩ := h
    simp only at h1 h2
    simp [Struct.isContig, h1, h2]
  | intoBlocksDyn d maj min pres =>
    obtain ⟨h1, h2⟩ := h
    simp only at h1 h2
    simp [Struct.isContig, h1, h2]
  | intoBlocksStat d border maj min nl =>
    simp [Struct.isContig, View.sem, intoBlocksStatSem, State.has, State.removeAll, isBody]
  | _ => exact absurd h id

theorem isContig_sub {A : Arith} {s : Struct} {v : View} {p : State} (h : (Struct.view v s).isContig A p = true) :
    ∃ u, (v.sem A (s.sem A)).sub p = some u ∧ s.isContig A u = true := by
  cases hu : (v.sem A (s.sem A)).sub p with
  | none => cases v <;> simp [Struct.isContig, hu] at h
  | some u =>
    refine ⟨u, rfl, ?_⟩
    cases v <;> simp_all [Struct.isContig]

/-- Views that use everything do not add indices. -/
theorem sub_noIdx {A : Arith} {s : Struct} {v : View} {p u : State} (hf : v.full A s) (hp : p.noIdx)
    (hu : (v.sem A (s.sem A)).sub p = some u) : u.noIdx := by
  intro q
  cases v with
  | setLength d l => cases hu; simpa [State.set] using hp q
  | reorder ds => cases hu; exact hp q
  | hoist d => cases hu; exact hp q
  | rename ps => cases hu; simp only [renameState_idx]; split <;> first | exact hp _ | rfl
  | reverse d =>
    simp only [View.sem, reverseSem] at hu
    have := hp d
    simp [State.has, this] at hu
    subst hu
    exact hp q
  | intoBlocks d maj min =>
    have hu : intoBlocksSub A d maj min (s.sem A) p = some u := hu
    have hc : blocksClean d maj min p (.idx q) = none := by
      simp only [blocksClean, State.removeAll]; split <;> first | rfl | exact hp q
    simp only [intoBlocksSub] at hu
    cases hnl : p (.len min) with
    | some nl =>
      cases hml : p (.len maj) <;> simp only [hnl, hml, hp maj, Option.some.injEq] at hu <;>
        subst hu <;> simp [State.set, hc]
    | none =>
      simp only [hnl] at hu
      rcases hb : (s.sem A).hasLen d (blocksClean d maj min p) with _ | _ | _ <;> simp only [hb] at hu
      · cases hu
      · cases hu; exact hc
      · cases hml : p (.len maj) <;> simp only [hml, hp maj, Option.some.injEq] at hu <;> subst hu <;> exact hc
  | intoBlocksDyn d maj min pres =>
    have hu : intoBlocksDynSub A d maj min pres (s.sem A) p = some u := hu
    have hc : dynClean d maj min pres p (.idx q) = none := by
      simp only [dynClean, State.removeAll]; split <;> first | rfl | exact hp q
    simp only [intoBlocksDynSub, blocksDynClean_eq] at hu
    split at hu
    · cases hu
    simp only [bind, Option.bind_some] at hu
    cases hnl : p (.len min) <;> cases hml : p (.len maj) <;>
      simp only [hnl, hml, hp maj, Option.some.injEq] at hu <;> subst hu <;> simp [State.set, hc]
  | _ => exact absurd hf id

/-- The elements of a whole structure fill it. -/
theorem Struct.whole_fills {s : Struct} {L : Lens} {p : State} (hw : s.wf .ideal) (hn : s.noDup .ideal) (ht : s.tame)
    (h : s.whole L) (hp : p.noIdx) (hL : ∀ q, p (.len q) = L q) (hc : s.isContig .ideal p = true) : Fills s L := by
  induction s generalizing L p with
  | scalar z a => exact .scalar z a L
  | tuple t n fs ih =>
    obtain ⟨h1, al, hal, zs, hz⟩ := h
    simp only [Struct.isContig, State.has, hp t, Option.isSome_none, Bool.false_eq_true, if_false, List.all_eq_true,
      List.mem_finRange, forall_const] at hc
    exact .tuple (not_accept_tuple hw) (fun i => ih i (hw.2 i) (hn.2 i) (ht i) (h1 i)
      (fun q => by simp only [State.remove]; split <;> first | rfl | exact hp q)
      (fun q => by simp [State.remove, hL]) (hc i)) hal hz
  | vector d s ih =>
    simp only [Struct.isContig, Bool.and_eq_true] at hc
    exact .vector (not_accept_vector hw) h.1 (ih hw.2 hn.2 ht h.2
      (fun q => by simp only [State.removeAll]; split <;> first | rfl | exact hp q)
      (fun q => by simp [State.removeAll, Lens.remove, hL]) hc.2)
  | union n ss => simp [Struct.isContig] at hc
  | view v s ih =>
    rcases h with h | ⟨d, l, n, rfl, hl, hn', h0, h⟩ | ⟨h1, h2, h3, h4⟩
    · have hno : (fun q => p.has (.idx q)) = fun _ => false := by funext q; simp [State.has, hp q]
      rw [isContig_ruledOut (by rw [hno]; exact h)] at hc
      cases hc
    · obtain ⟨u, hu, hc⟩ := isContig_sub hc
      cases hu
      exact .bcast (not_accept_bcast hn.uniq) hl hn' h0 (ih hw.2 hn.2 ht.1 h
        (fun q => by simp only [State.removeAll]; split <;> first | rfl | exact hp q)
        (fun q => by simp [State.removeAll, Lens.remove, hL]) hc)
    · obtain ⟨u, hu, hc⟩ := isContig_sub hc
      have hv : v.unmerged := by
        cases v <;> first | trivial | exact h3
      exact .view ht hw.1 hn.2.uniq hn.uniq h2 h1 h3 (ih hw.2 hn.2 ht.1 h4 (sub_noIdx h3 hp hu)
        (sub_lens hL hw.1 hv hu) hc)

end Noarr
