import Verif.LowerGoes
import Verif.Select

/-
`lower_bound_along` and `lower_bound_at` without a range. Used for C41.
-/

set_option linter.unusedVariables false
set_option linter.unusedSimpArgs false

namespace Noarr

/-- What the answers without a range mean for a dimension of length `l`. -/
structure Floor (C : Nat → Nat → Prop) (l lw la : Option Val) : Prop where
  low : ∀ w N x X, l = some w → w.Num N → lw = some x → x.Num X → ∀ i y, i < N → C i y → X ≤ y
  here : ∀ w N z M, l = some w → w.Num N → 0 < N → la = some z → z.Num M → M < N
  hit : ∀ w N x X z M, l = some w → w.Num N → 0 < N → lw = some x → x.Num X → la = some z → z.Num M →
    ∀ y, C M y → y = X

/-- The answers without a range. -/
def Struct.Floored (s : Struct) (q : Dim) (f : State) : Prop :=
  Floor (Contributes s q f) ((s.sem .ideal).len q f) (s.lower .ideal q f none) (s.lowerAt .ideal q f none)

/-- The dimension comes from a vector, and its index 0 is that of the vector. -/
def Struct.fromZero (s : Struct) (q : Dim) : Prop := s.goes true q ∧ s.unmoved q ∧ s.stored q

/-- The dimensions for which the answers without a range are right: those in `Struct.goes`, slices of
those, and any number of times reversed, the indices that say which part of blocks it is, and those merged
from dimensions that are neither shifted, sliced nor reversed. -/
def Struct.lowest : Struct → Dim → Prop
  | .scalar _ _, _ => True
  | .union _ _, _ => True
  | .tuple t _ fs, q => q = t ∨ ∀ i, (fs i).lowest q
  | .vector d s, q => q = d ∨ s.lowest q
  | .view v s, q => (Struct.view v s).goes true q ∨
    match v with
    | .bcast d => q ≠ d ∧ ¬ s.hard q ∧ s.lowest q
    | .fix d _ => q ≠ d ∧ ¬ s.hard q ∧ s.lowest q
    | .setLength _ _ => ¬ s.hard q ∧ s.lowest q
    | .hoist _ => ¬ s.hard q ∧ s.lowest q
    | .shift d _ => q ≠ d ∧ ¬ s.hard q ∧ s.lowest q
    | .slice d start _ => ¬ s.hard q ∧ ((q = d ∧ s.goes false d ∧ ∃ k, start.Num k) ∨ (q ≠ d ∧ s.lowest q))
    | .span d start _ => ¬ s.hard q ∧ ((q = d ∧ s.goes false d ∧ ∃ k, start.Num k) ∨ (q ≠ d ∧ s.lowest q))
    | .rename ps => (q ∈ ps.map Prod.fst → q ∈ ps.map Prod.snd) ∧
      ¬ s.hard (Sig.renameDim (ps.map Prod.swap) q) ∧ s.lowest (Sig.renameDim (ps.map Prod.swap) q)
    | .reverse d => q = d ∧ s.stored d ∧ s.lowest d
    | .intoBlocks d maj min => q ∉ [d, maj, min] ∧ ¬ s.hard q ∧ s.lowest q
    | .intoBlocksDyn d maj min pres => q = pres ∨ q ∉ [d, maj, min, pres] ∧ ¬ s.hard q ∧ s.lowest q
    | .intoBlocksStat d border maj min _ => q = border ∧ maj ≠ border ∧ min ≠ border ∨
      q ∉ [d, border, maj, min] ∧ ¬ s.hard q ∧ s.lowest q
    | .mergeBlocks maj min d => q = d ∧ maj ≠ min ∧ s.fromZero maj ∧ s.fromZero min ∨
      q ∉ [maj, min, d] ∧ ¬ s.hard q ∧ s.lowest q
    | _ => False

section
variable {C C' : Nat → Nat → Prop} {l l' lw lw' la la' : Option Val}

theorem Floor.mono (h : Floor C l lw la) (hC : ∀ i y, C' i y → C i y)
    (hl : ∀ x, l' = some x → l = some x)
    (hw : ∀ x, lw' = some x → lw = some x) (ha : ∀ x, la' = some x → la = some x) :
    Floor C' l' lw' la' where
  low w N x X h1 h2 h3 h4 i y hi hy := h.low w N x X (hl _ h1) h2 (hw _ h3) h4 i y hi (hC _ _ hy)
  here w N z M h1 h2 h0 h3 h4 := h.here w N z M (hl _ h1) h2 h0 (ha _ h3) h4
  hit w N x X z M h1 h2 h0 h3 h4 h5 h6 y hy :=
    h.hit w N x X z M (hl _ h1) h2 h0 (hw _ h3) h4 (ha _ h5) h6 y (hC _ _ hy)

theorem Floor.none (hw : lw = none) (ha : la = none) : Floor C l lw la where
  low w N x X h1 h2 h3 := by simp [hw] at h3
  here w N z M h1 h2 h0 h3 := by simp [ha] at h3
  hit w N x X z M h1 h2 h0 h3 := by simp [hw] at h3

theorem Rising.floor {lw la : Option (Val × Val) → Option Val} (h : Rising C lw la) :
    Floor C l (lw .none) (la .none) where
  low w N x X h1 h2 h3 h4 i y hi hy := (h.low0 x X h3 h4).1 i y hy
  here w N z M h1 h2 h0 h3 h4 := by rw [h.here0 z M h3 h4]; exact h0
  hit w N x X z M h1 h2 h0 h3 h4 h5 h6 y hy := by
    rw [h.here0 z M h5 h6] at hy
    exact (h.low0 x X h3 h4).2 y hy

/-- A slice of a dimension along which the offset gets smaller. -/
theorem Falling.floor {lw la : Option (Val × Val) → Option Val} (h : Falling C lw la) {start e : Val} {S : Nat}
    (hS : start.Num S)
    (hC : ∀ i y, C' i y → ∃ S, start.Num S ∧ C (i + S) y)
    (hl : ∀ w N, l' = some w → w.Num N → 0 < N → e.Num (S + N))
    (hw : ∀ x, lw' = some x → lw (some (start, e)) = some x)
    (ha : ∀ x, la' = some x → ∃ z, la (some (start, e)) = some z ∧ x = z.sub .ideal start) :
    Floor C' l' lw' la' where
  low w N x X h1 h2 h3 h4 i y hi hy := by
    obtain ⟨S', hS', hy⟩ := hC i y hy
    cases Val.Num.eq hS hS'
    exact (h.low _ _ x X (hw _ h3) h4 (S + N) (hl w N h1 h2 (by omega)) (by omega)).1 _ y (by omega) hy
  here w N z M h1 h2 h0 h3 h4 := by
    obtain ⟨z', h5, rfl⟩ := ha _ h3
    obtain ⟨a, b, h6, h7, h8, rfl⟩ := Val.nat?_sub.1 h4
    have := Val.Num.eq h7 hS
    have := h.here _ _ _ _ h5 h6 (S + N) (hl w N h1 h2 h0) (by omega)
    omega
  hit w N x X z M h1 h2 h0 h3 h4 h5 h6 y hy := by
    obtain ⟨z', h7, rfl⟩ := ha _ h5
    obtain ⟨a, b, h8, h9, h10, rfl⟩ := Val.nat?_sub.1 h6
    have hb := Val.Num.eq h9 hS
    have e1 := h.here _ _ _ _ h7 h8 (S + N) (hl w N h1 h2 h0) (by omega)
    obtain ⟨S', hS', hy⟩ := hC _ y hy
    cases Val.Num.eq hS hS'
    refine (h.low _ _ x X (hw _ h3) h4 (S + N) (hl w N h1 h2 h0) (by omega)).2 y ?_
    have : a - b + S = S + N - 1 := by omega
    rwa [this] at hy

theorem Floor.reverse (h : Floor C l lw la)
    (hC : ∀ w i y, l' = some w → C' i y → ∃ N, w.Num N ∧ i < N ∧ C (N - 1 - i) y)
    (hl : ∀ x, l' = some x → l = some x)
    (hw : ∀ x, lw' = some x → lw = some x)
    (ha : ∀ w x, l' = some w → la' = some x → ∃ z, la = some z ∧ x = (w.sub .ideal (.lit 1)).sub .ideal z) :
    Floor C' l' lw' la' where
  low w N x X h1 h2 h3 h4 i y hi hy := by
    obtain ⟨N', h5, h6, h7⟩ := hC w i y h1 hy
    cases Val.Num.eq h2 h5
    exact h.low w N x X (hl _ h1) h2 (hw _ h3) h4 _ y (by omega) h7
  here w N z M h1 h2 h0 h3 h4 := by
    obtain ⟨z', h5, rfl⟩ := ha _ _ h1 h3
    obtain ⟨a, b, h6, h7, h8, rfl⟩ := Val.nat?_sub.1 h4
    obtain ⟨N', o, h9, h10, h11, rfl⟩ := Val.nat?_sub.1 h6
    have := Val.Num.eq h9 h2
    have : (1 : Nat) = o := Val.Num.eq (v := .lit 1) rfl h10
    omega
  hit w N x X z M h1 h2 h0 h3 h4 h5 h6 y hy := by
    obtain ⟨z', h7, rfl⟩ := ha _ _ h1 h5
    obtain ⟨a, b, h8, h9, h10, rfl⟩ := Val.nat?_sub.1 h6
    obtain ⟨N', o, h11, h12, h13, rfl⟩ := Val.nat?_sub.1 h8
    have e1 := Val.Num.eq h11 h2
    have e2 : (1 : Nat) = o := Val.Num.eq (v := .lit 1) rfl h12
    obtain ⟨N'', h14, h15, h16⟩ := hC w _ y h1 hy
    have e3 := Val.Num.eq h14 h2
    have := h.here w N z' b (hl _ h1) h2 h0 h7 h9
    refine h.hit w N x X z' b (hl _ h1) h2 h0 (hw _ h3) h4 h7 h9 y ?_
    have : N'' - 1 - (N' - o - b) = b := by omega
    rwa [this] at h16

end

theorem con_reverse {s : Struct} {d : Dim} {f : State} {l : Val}
    (ht : (Struct.view (.reverse d) s).tame) (hs : (Struct.view (.reverse d) s).sane .ideal)
    (hst : s.stored d) (hf : f (.idx d) = none) (hl : (s.sem .ideal).len d f = some l) {i y : Nat}
    (hy : Contributes (.view (.reverse d) s) d f i y) :
    ∃ N, l.Num N ∧ i < N ∧ Contributes s d f (N - 1 - i) y := by
  have hsf : ((View.reverse d).sem .ideal (s.sem .ideal)).sub f = some f := by
    simp only [View.sem, reverseSem, hf]
  have hR : Reads (.reverse d) s (s.offAlong .ideal d) ((Struct.view (.reverse d) s).offAlong .ideal d) := by
    intro g o ho
    simp only [Struct.offAlong] at ho
    exact Option.bind_eq_some_iff.1 ho
  obtain ⟨g, u, w, a, hg, hw, hn, hu1, hu2, ha, hya⟩ := con_view hR ht hs hs.2.1 rfl trivial hy
  rw [hsf] at hu2
  have hu2 := Option.some.inj hu2
  obtain ⟨x, k, hx, hk⟩ := offAlong_idx ht.1 hs.1 hst ha hya
  simp only [View.sem, reverseSem, hw, hg] at hu1
  split at hu1
  · simp at hu1
  · cases hu1
    rw [hf] at hx; simp at hx
  · simp only [hl, bind, Option.bind_some, Option.some.injEq] at hu1
    subst hu1
    simp only [State.set, if_true, Option.some.injEq] at hx
    subst hx
    have hk' := hk
    obtain ⟨p, I, hp, hI, hle, rfl⟩ := Val.nat?_sub.1 hk
    obtain ⟨N, o, hN, ho, hle', rfl⟩ := Val.nat?_sub.1 hp
    have := Val.Num.eq hI hn
    subst this
    have : (1 : Nat) = o := Val.Num.eq (v := .lit 1) rfl ho
    subst this
    exact ⟨N, hN, by omega, _, _, a, hu2.symm, by simp [State.set], hk', ha, hya⟩

theorem floored_pass {v : View} {s : Struct} {q q' : Dim} {f : State}
    (hu : ∀ u, (v.sem .ideal (s.sem .ideal)).sub f = some u → s.Floored q' u)
    (hC : ∀ i y, Contributes (.view v s) q f i y →
      ∃ u, (v.sem .ideal (s.sem .ideal)).sub f = some u ∧ Contributes s q' u i y)
    (hw : ∀ r x, (Struct.view v s).lower .ideal q f r = some x →
      ∃ u, (v.sem .ideal (s.sem .ideal)).sub f = some u ∧ s.lower .ideal q' u r = some x)
    (ha : ∀ r x, (Struct.view v s).lowerAt .ideal q f r = some x →
      ∃ u, (v.sem .ideal (s.sem .ideal)).sub f = some u ∧ s.lowerAt .ideal q' u r = some x)
    (hl : ∀ u, (v.sem .ideal (s.sem .ideal)).sub f = some u → ∀ x,
      ((Struct.view v s).sem .ideal).len q f = some x → (s.sem .ideal).len q' u = some x) :
    (Struct.view v s).Floored q f := by
  cases h : (v.sem .ideal (s.sem .ideal)).sub f with
  | none =>
    refine .none ?_ ?_
    · cases h2 : (Struct.view v s).lower .ideal q f none with
      | none => rfl
      | some x => obtain ⟨u, hu, -⟩ := hw _ x h2; rw [h] at hu; simp at hu
    · cases h2 : (Struct.view v s).lowerAt .ideal q f none with
      | none => rfl
      | some x => obtain ⟨u, hu, -⟩ := ha _ x h2; rw [h] at hu; simp at hu
  | some u =>
    refine (hu u h).mono ?_ (hl u h) ?_ ?_
    · intro i y hy
      obtain ⟨u', h1, h2⟩ := hC i y hy
      rw [h] at h1; cases h1; exact h2
    · intro x hx
      obtain ⟨u', h1, h2⟩ := hw _ x hx
      rw [h] at h1; cases h1; exact h2
    · intro x hx
      obtain ⟨u', h1, h2⟩ := ha _ x hx
      rw [h] at h1; cases h1; exact h2

theorem floored_other {v : View} {s : Struct} {q : Dim} {f : State} (hq : q ∉ v.dims)
    (ht : (Struct.view v s).tame) (hs : (Struct.view v s).sane .ideal) (hh : ¬ s.hard q)
    (hp : v.passes (s.sem .ideal)) (hf : f (.idx q) = none)
    (hu : ∀ u, (v.sem .ideal (s.sem .ideal)).sub f = some u → s.Floored q u) :
    (Struct.view v s).Floored q f := by
  refine floored_pass (q' := q) hu ?_ (fun r x => lower_pass hq) (fun r x => lowerAt_pass hq) ?_
  · intro i y hy
    exact con_pass (reads_oa hq) ht hs hh (inner_of_not_dims hq) (follows_of_not_dims hq)
      (fun g u h => sub_idx hq h) hy
  · intro u hu x hx
    rw [len_other hq hp hf hu] at hx; exact hx

theorem floored_tuple_ne {n : Nat} {fs : Fin n → Struct} {t q : Dim} {f : State} (hq : q ≠ t)
    (h : ∀ i, (fs i).Floored q (f.remove (.idx t))) : (Struct.tuple t n fs).Floored q f := by
  by_cases hk : ∃ k, constIdx (f (.idx t)) = some k ∧ k < n
  · obtain ⟨k, hk, hkn⟩ := hk
    refine (h ⟨k, hkn⟩).mono ?_ ?_ ?_ ?_
    · rintro i y ⟨g, w, a, rfl, hw, hn, ha, hy⟩
      have e : (g.remove (.idx q)) (.idx t) = g (.idx t) := by simp [State.remove, Ne.symm hq]
      rw [e] at hk
      simp only [Struct.offAlong, hk, bind, Option.bind_some, hkn, dif_pos, hq, if_false] at ha
      exact ⟨_, w, a, by state_eq, by simpa [State.remove, hq] using hw, hn, ha, hy⟩
    · intro x hx
      simp only [Struct.sem, tupleSem, guardLen_eq_some, hq, if_false, hk, bind, Option.bind_some, hkn,
        dif_pos] at hx
      exact hx.2
    · intro x h
      unfold Struct.lower at h
      simp only [hk, hkn, dif_pos] at h
      split at h
      · simp at h
      · exact h
    · intro x h
      unfold Struct.lowerAt at h
      simp only [hk, hkn, dif_pos] at h
      split at h
      · simp at h
      · exact h
  · have hh : (Struct.tuple t n fs).hasLower .ideal q f = false := by
      simp only [Struct.hasLower]
      split
      · split
        · next k hk' =>
          rw [dif_neg (fun h => hk ⟨k, hk', h⟩)]
        · rfl
      · simp [hq]
    refine .none ?_ ?_
    · unfold Struct.lower; simp only [hh, true_or, if_true]
    · unfold Struct.lowerAt; simp only [hh, true_or, if_true]

theorem floored_vector_ne {s : Struct} {d q : Dim} {f : State} (hq : q ≠ d)
    (h : s.Floored q (f.removeAll [.idx d, .len d])) : (Struct.vector d s).Floored q f := by
  refine Floor.mono h ?_ ?_ ?_ ?_
  · rintro i y ⟨g, w, a, rfl, hw, hn, ha, hy⟩
    simp only [Struct.offAlong, hq, if_false] at ha
    exact ⟨_, w, a, by state_eq, by simpa [State.removeAll, hq] using hw, hn, ha, hy⟩
  · intro x hx
    simp only [Struct.sem, vectorSem, guardLen_eq_some, hq, if_false] at hx
    exact hx.2
  · intro x h
    simp only [Struct.lower, hq, if_false] at h
    split at h
    · simp at h
    · exact h
  · intro x h
    simp only [Struct.lowerAt, hq, if_false] at h
    split at h
    · simp at h
    · exact h

theorem floored_slice {s : Struct} {d : Dim} {start len : Val} {S : Nat} {f : State}
    (ht : (Struct.view (.slice d start len) s).tame) (hs : (Struct.view (.slice d start len) s).sane .ideal)
    (hh : ¬ s.hard d) (hS : start.Num S)
    (h : ∀ u, ((View.slice d start len).sem .ideal (s.sem .ideal)).sub f = some u → s.Bounded false d u) :
    (Struct.view (.slice d start len) s).Floored d f := by
  have hR : Reads (.slice d start len) s (s.offAlong .ideal d) ((Struct.view (.slice d start len) s).offAlong .ideal d) := by
    intro g o ho
    simp only [Struct.offAlong] at ho
    exact Option.bind_eq_some_iff.1 ho
  refine ((h _ rfl).2 rfl).floor (e := start.add .ideal len) hS ?_ ?_ ?_ ?_
  · exact fun i y hy => con_shift (f := f) (i := i) (y := y) hR ht hs hh rfl trivial hS
      (fun g u hu => by cases hu; simp [State.mapAt]) rfl hy
  · intro w N hw hN _
    simp only [Struct.sem, ViewSem.toSem, View.sem, sliceSem, guardLen_eq_some, if_true, Option.some.injEq] at hw
    obtain ⟨-, rfl⟩ := hw
    exact Val.num_add hS hN
  · intro x hx
    simp only [Struct.lower, if_true] at hx
    split at hx
    · simp at hx
    · exact hx
  · intro x hx
    simp only [Struct.lowerAt, if_true] at hx
    split at hx
    · simp at hx
    · replace hx := Option.bind_eq_some_iff.1 hx
      obtain ⟨z, h1, h2⟩ := hx
      cases h2
      exact ⟨z, h1, rfl⟩

theorem floored_span {s : Struct} {d : Dim} {start stop : Val} {S : Nat} {f : State}
    (ht : (Struct.view (.span d start stop) s).tame) (hs : (Struct.view (.span d start stop) s).sane .ideal)
    (hh : ¬ s.hard d) (hS : start.Num S)
    (h : ∀ u, ((View.span d start stop).sem .ideal (s.sem .ideal)).sub f = some u → s.Bounded false d u) :
    (Struct.view (.span d start stop) s).Floored d f := by
  have hR : Reads (.span d start stop) s (s.offAlong .ideal d) ((Struct.view (.span d start stop) s).offAlong .ideal d) := by
    intro g o ho
    simp only [Struct.offAlong] at ho
    exact Option.bind_eq_some_iff.1 ho
  refine ((h _ rfl).2 rfl).floor (e := stop) hS ?_ ?_ ?_ ?_
  · exact fun i y hy => con_shift (f := f) (i := i) (y := y) hR ht hs hh rfl trivial hS
      (fun g u hu => by cases hu; simp [State.mapAt]) rfl hy
  · intro w N hw hN h0
    simp only [Struct.sem, ViewSem.toSem, View.sem, spanSem, guardLen_eq_some, if_true, Option.some.injEq] at hw
    obtain ⟨-, rfl⟩ := hw
    obtain ⟨a, b, h1, h2, h3, rfl⟩ := Val.nat?_sub.1 hN
    have := Val.Num.eq h2 hS
    have e : S + (a - b) = a := by omega
    rw [e]; exact h1
  · intro x hx
    simp only [Struct.lower, if_true] at hx
    split at hx
    · simp at hx
    · exact hx
  · intro x hx
    simp only [Struct.lowerAt, if_true] at hx
    split at hx
    · simp at hx
    · replace hx := Option.bind_eq_some_iff.1 hx
      obtain ⟨z, h1, h2⟩ := hx
      cases h2
      exact ⟨z, h1, rfl⟩

theorem floored_reverse {s : Struct} {d : Dim} {f : State}
    (ht : (Struct.view (.reverse d) s).tame) (hs : (Struct.view (.reverse d) s).sane .ideal)
    (hst : s.stored d) (hf : f (.idx d) = none) (h : s.Floored d f) :
    (Struct.view (.reverse d) s).Floored d f := by
  have hsf : ((View.reverse d).sem .ideal (s.sem .ideal)).sub f = some f := by
    simp only [View.sem, reverseSem, hf]
  have hl : ∀ x, ((Struct.view (.reverse d) s).sem .ideal).len d f = some x → (s.sem .ideal).len d f = some x := by
    intro x hx
    simp only [Struct.sem, ViewSem.toSem, View.sem, reverseSem, guardLen_eq_some] at hx
    exact hx.2
  refine Floor.reverse h ?_ hl ?_ ?_
  · intro w i y hw hy
    exact con_reverse ht hs hst hf (hl _ hw) hy
  · intro x hx
    simp only [Struct.lower, if_true] at hx
    split at hx
    · simp at hx
    · simp only [hsf] at hx; exact hx
  · intro w x hw hx
    simp only [Struct.lowerAt, if_true] at hx
    split at hx
    · simp at hx
    · simp only [hsf] at hx
      replace hx := Option.bind_eq_some_iff.1 hx
      obtain ⟨l, h1, hx⟩ := hx
      replace hx := Option.bind_eq_some_iff.1 hx
      obtain ⟨z, h2, hx⟩ := hx
      cases hx
      rw [hl _ hw] at h1; cases h1
      exact ⟨z, h2, rfl⟩

theorem pick_one {c z : Val} {M : Nat} (h : pick c (.lit 0) (.lit 1) = some z) : z.nat? = none := by
  cases c <;> simp [pick] at h
  subst h; rfl

/-- The border: the bound is 0, and the query for the index does not compile. -/
theorem floored_border {s : Struct} {d border maj min : Dim} {nl : Val} {f : State}
    (hmb : maj ≠ border ∧ min ≠ border) :
    (Struct.view (.intoBlocksStat d border maj min nl) s).Floored border f := by
  have hw : ∀ x, (Struct.view (.intoBlocksStat d border maj min nl) s).lower .ideal border f none = some x →
      x = .lit 0 := by
    intro x hx
    simp only [Struct.lower, hmb.1.symm, hmb.2.symm, if_false, if_true] at hx
    split at hx
    · simp at hx
    · split at hx
      · simp at hx
      · cases hx; rfl
  have ha : ∀ z M, (Struct.view (.intoBlocksStat d border maj min nl) s).lowerAt .ideal border f none = some z →
      ¬ z.Num M := by
    intro z M hz
    simp only [Struct.lowerAt, hmb.1.symm, hmb.2.symm, if_false, if_true] at hz
    split at hz
    · simp at hz
    · split at hz
      · simp at hz
      · replace hz := Option.bind_eq_some_iff.1 hz
        obtain ⟨c, -, h2⟩ := hz
        simp [Val.Num, pick_one (M := M) h2]
  refine ⟨fun w N x X h1 h2 h3 h4 i y hi hy => ?_, fun w N z M h1 h2 h0 h3 h4 => (ha z M h3 h4).elim,
    fun w N x X z M h1 h2 h0 h3 h4 h5 h6 => (ha z M h5 h6).elim⟩
  cases hw x h3; cases h4; exact Nat.zero_le _

/-- `DimIsPresent` contributes nothing. -/
theorem floored_pres {s : Struct} {d maj min pres : Dim} {f : State}
    (hs : (Struct.view (.intoBlocksDyn d maj min pres) s).sane .ideal) :
    (Struct.view (.intoBlocksDyn d maj min pres) s).Floored pres f := by
  have h1 : pres ≠ min := hs.2.2.1.symm
  have h2 : pres ≠ maj := hs.2.2.2
  have hw : ∀ x, (Struct.view (.intoBlocksDyn d maj min pres) s).lower .ideal pres f none = some x →
      x = .lit 0 := by
    intro x hx
    simp only [Struct.lower, h1, h2, if_false, if_true] at hx
    split at hx
    · simp at hx
    · split at hx
      · simp at hx
      · cases hx; rfl
  have ha : ∀ x, (Struct.view (.intoBlocksDyn d maj min pres) s).lowerAt .ideal pres f none = some x →
      x = .lit 0 := by
    intro x hx
    simp only [Struct.lowerAt, h1, h2, if_false, if_true, Option.isSome_none, Bool.false_eq_true] at hx
    split at hx
    · simp at hx
    · split at hx
      · simp at hx
      · cases hx; rfl
  refine ⟨fun w N x X _ _ h3 h4 i y hi hy => ?_, fun w N z M _ _ h0 h3 h4 => ?_,
    fun w N x X z M _ _ h0 h3 h4 h5 h6 y hy => ?_⟩
  · cases hw x h3; cases h4; exact Nat.zero_le _
  · cases ha z h3; cases h4; exact h0
  · cases hw x h3; cases h4
    obtain ⟨g, v, a, -, -, -, ho, hy⟩ := hy
    simp only [Struct.offAlong, h1, h2, if_false, if_true] at ho
    replace ho := Option.bind_eq_some_iff.1 ho
    obtain ⟨_, -, ho⟩ := ho
    cases ho; cases hy; rfl

theorem lower_zero {s : Struct} {q : Dim} (hg : s.goes true q) (hu : s.unmoved q) {f : State}
    {r : Option (Val × Val)} (hr : ∀ lo hi, r = some (lo, hi) → ∀ L, lo.Num L → L = 0) {x : Val} {X : Nat}
    (h : s.lower .ideal q f r = some x) (hX : x.Num X) : X = 0 := by
  induction s generalizing q f r x X with
  | scalar z a => simp [Struct.lower] at h
  | union n ss => simp [Struct.lower] at h
  | tuple t n fs ih =>
    unfold Struct.lower at h
    split at h
    · simp at h
    next hl =>
    split at h
    · next k hk =>
      split at h
      · next hkn =>
        rcases hg with ⟨rfl, -⟩ | ⟨hq, hg⟩
        · refine absurd (.inl ?_) hl
          have : f.has (.idx q) = true := by
            cases hf : f (.idx q) with
            | none => simp [hf, constIdx] at hk
            | some _ => simp [State.has, hf]
          simp [Struct.hasLower, this, hk, hkn]
        · exact ih _ (hg _) (hu _) hr h hX
      · simp at h
    · split at h
      · cases h; cases hX; rfl
      · next lo hi =>
        simp only [bind, Option.bind_eq_some_iff, Option.some.injEq] at h
        obtain ⟨k, hk, b, hb, rfl⟩ := h
        have : lo = .lit k := by
          unfold constIdx at hk; split at hk
          · next h => cases h; cases hk; rfl
          · cases hk
        subst this
        have := hr _ _ rfl k rfl
        subst this
        simp [sizeAcc] at hb
        subst hb
        obtain ⟨a, b, h1, h2, rfl⟩ := Val.nat?_add.1 hX
        cases h1; cases h2; rfl
  | vector d s ih =>
    simp only [Struct.lower] at h
    split at h
    · simp at h
    split at h
    · split at h
      · cases h; cases hX; rfl
      · next lo hi =>
        simp only [bind, Option.bind_eq_some_iff, Option.some.injEq] at h
        obtain ⟨sz, -, rfl⟩ := h
        obtain ⟨a, b, -, h2, rfl⟩ := Val.nat?_mul.1 hX
        rw [hr _ _ rfl b h2, Nat.mul_zero]
    · next hq => exact ih (hg.resolve_left fun h => hq h.1).2 (hu.resolve_left hq) hr h hX
  | view v s ih =>
    have pass : q ∉ v.dims → s.goes true q → X = 0 := fun hq hg => by
      obtain ⟨u, -, h⟩ := lower_pass hq h
      exact ih hg (hu.2 (not_blocksOf hq) q (inner_of_not_dims hq)) hr h hX
    have hk := hu.1
    cases v with
    | bcast d =>
      rcases hg with ⟨rfl, -⟩ | ⟨hq, hh, hg⟩
      · simp only [Struct.lower, if_true] at h
        split at h
        · simp at h
        split at h
        · simp at h
        · cases h; cases hX; rfl
      · exact pass (by simpa [View.dims] using hq) hg
    | fix d i => exact pass (by simpa [View.dims] using hg.1) hg.2.2
    | setLength d l => exact pass (by simp [View.dims]) hg.2
    | hoist d => exact pass (by simp [View.dims]) hg.2
    | shift d start => exact pass (by simpa [View.dims, View.keepsZero] using hk) hg.2.1
    | slice d start len => exact pass (by simpa [View.dims, View.keepsZero] using hk) hg.2.1
    | span d start stop => exact pass (by simpa [View.dims, View.keepsZero] using hk) hg.2.1
    | reverse d => exact pass (by simpa [View.dims, View.keepsZero] using hk) (hg.2.resolve_left fun h => hk h.1).2
    | rename ps => exact ih hg.2.2 (hu.2 (by simp [View.blocksOf]) _ rfl) hr (lower_rename h) hX
    | intoBlocks d maj min =>
      rcases hg with ⟨hq, -, hg, hum, -⟩ | ⟨hq, hh, hg⟩
      · simp only [Struct.lower] at h
        split at h
        · simp at h
        split at h
        · simp at h
        split at h
        · split at h
          · simp only [bind, Option.bind_eq_some_iff] at h
            obtain ⟨nl, -, h⟩ := h
            exact ih hg hum (by rintro _ _ ⟨⟩ L hL; exact (Val.Num.eq (v := .lit 0) hL rfl)) h hX
          · exact ih hg hum hr h hX
        · next hmin =>
          rw [if_pos (hq.resolve_right hmin)] at h
          split at h
          · cases h; cases hX; rfl
          · simp only [bind, Option.bind_eq_some_iff] at h
            obtain ⟨nl, -, h⟩ := h
            refine ih hg hum ?_ h hX
            rintro _ _ ⟨⟩ L hL
            obtain ⟨a, b, h1, -, rfl⟩ := Val.nat?_mul.1 hL
            rw [hr _ _ rfl a h1, Nat.zero_mul]
      · exact pass (by simpa [View.dims] using hq) hg
    | intoBlocksDyn d maj min pres =>
      rcases hg with ⟨hq, -, hg, hum, -⟩ | ⟨hq, hh, hg⟩
      · simp only [Struct.lower] at h
        split at h
        · simp at h
        split at h
        · simp at h
        split at h
        · split at h
          · simp only [bind, Option.bind_eq_some_iff] at h
            obtain ⟨nl, -, h⟩ := h
            exact ih hg hum (by rintro _ _ ⟨⟩ L hL; exact (Val.Num.eq (v := .lit 0) hL rfl)) h hX
          · exact ih hg hum hr h hX
        · next hmin =>
          split at h
          · cases h; cases hX; rfl
          rw [if_pos (hq.resolve_right hmin)] at h
          split at h
          · cases h; cases hX; rfl
          · simp only [bind, Option.bind_eq_some_iff] at h
            obtain ⟨nl, -, h⟩ := h
            refine ih hg hum ?_ h hX
            rintro _ _ ⟨⟩ L hL
            obtain ⟨a, b, h1, -, rfl⟩ := Val.nat?_mul.1 hL
            rw [hr _ _ rfl a h1, Nat.zero_mul]
      · exact pass (by simpa [View.dims] using hq) hg
    | intoBlocksStat d border maj min nl =>
      rcases hg with ⟨hq, hb, -, hg, hum, -⟩ | ⟨hq, hh, hg⟩
      · simp only [Struct.lower] at h
        split at h
        · simp at h
        split at h
        · simp at h
        split at h
        · split at h
          · simp only [bind, Option.bind_eq_some_iff] at h
            obtain ⟨nl, -, h⟩ := h
            exact ih hg hum (by rintro _ _ ⟨⟩ L hL; exact (Val.Num.eq (v := .lit 0) hL rfl)) h hX
          · exact ih hg hum hr h hX
        · next hmin =>
          split at h
          · cases h; cases hX; rfl
          rw [if_pos (hq.resolve_right hmin)] at h
          split at h
          · cases h; cases hX; rfl
          · simp only [bind, Option.bind_eq_some_iff] at h
            obtain ⟨nl, -, h⟩ := h
            refine ih hg hum ?_ h hX
            rintro _ _ ⟨⟩ L hL
            obtain ⟨a, b, h1, -, rfl⟩ := Val.nat?_mul.1 hL
            rw [hr _ _ rfl a h1, Nat.zero_mul]
      · exact pass (by simpa [View.dims] using hq) hg
    | mergeBlocks maj min d => exact pass (by simpa [View.dims] using hg.1) hg.2.2
    | step d a k => exact hg.elim
    | join a b d => exact hg.elim
    | reorder ds => exact hg.elim
    | mergeZ sl gl ds d => exact hg.elim

theorem stored_inBody {s : Struct} {up : Bool} {q : Dim} (ht : s.tame) (hg : s.goes up q) (hh : ¬ s.hard q)
    (hst : s.stored q) (f : State) : s.inBody q f := by
  induction s generalizing up q f with
  | scalar z a => trivial
  | union n ss => trivial
  | tuple t n fs ih =>
    have hq : q ≠ t := fun h => hh (.inl h)
    exact fun i => ih i (ht i) ((hg.resolve_left fun h => hq h.1).2 i) (fun h => hh (.inr ⟨i, h⟩)) (hst.resolve_left hq i) _
  | vector d s ih =>
    by_cases hq : q = d
    · exact .inl hq
    · exact .inr (ih ht (hg.resolve_left fun h => hq h.1).2 (fun h => hh ⟨hq, h⟩) (hst.resolve_left hq) _)
  | view v s ih =>
    obtain ⟨⟨-, hno⟩, q', hi, hst⟩ := hst
    refine ⟨fun d border maj min nl hv hq => absurd ?_ (hno d border maj min nl hv), fun q'' u hi' hu => ?_⟩
    · subst hv; rcases hq with rfl | rfl <;> simp [View.dims]
    rw [hi] at hi'; cases hi'
    have pass : q ∉ v.dims → ¬ s.hard q → s.goes up q → s.inBody q' u := fun hq hh hg => by
      rw [inner_of_not_dims hq] at hi; cases hi
      exact ih ht.1 hg hh hst u
    have same : q' = q → ¬ s.hard q → s.goes up q → s.inBody q' u := fun e hh hg => by
      subst e; exact ih ht.1 hg hh hst u
    cases v with
    | bcast d =>
      by_cases hq : q = d
      · simp [View.inner, hq] at hi
      · have := hg.resolve_left fun h => hq h.1
        exact pass (by simpa [View.dims] using hq) this.2.1 this.2.2
    | fix d i => exact pass (by simpa [View.dims] using hg.1) hg.2.1 hg.2.2
    | setLength d l => exact pass (by simp [View.dims]) hg.1 hg.2
    | hoist d => exact pass (by simp [View.dims]) hg.1 hg.2
    | shift d start => exact same (by cases hi; rfl) hg.1 hg.2.1
    | slice d start len => exact same (by cases hi; rfl) hg.1 hg.2.1
    | span d start stop => exact same (by cases hi; rfl) hg.1 hg.2.1
    | reverse d =>
      cases hi
      obtain ⟨hh, ⟨rfl, -, hg, -⟩ | ⟨-, hg⟩⟩ := hg
      · exact ih ht.1 hg hh hst u
      · exact ih ht.1 hg hh hst u
    | rename ps => cases hi; exact ih ht.1 hg.2.2 hg.2.1 hst u
    | intoBlocks d maj min =>
      rcases hg with ⟨hq, -, hg, -⟩ | ⟨hq, hh, hg⟩
      · simp only [View.inner, if_pos hq] at hi
        cases hi
        exact ih ht.1 hg ht.2.1.1 hst u
      · exact pass (by simpa [View.dims] using hq) hh hg
    | intoBlocksDyn d maj min pres =>
      rcases hg with ⟨hq, -, hg, -⟩ | ⟨hq, hh, hg⟩
      · simp only [View.inner, if_pos hq] at hi
        cases hi
        exact ih ht.1 hg ht.2.1.1 hst u
      · exact pass (by simpa [View.dims] using hq) hh hg
    | intoBlocksStat d border maj min nl =>
      rcases hg with ⟨hq, -, -, hg, -⟩ | ⟨hq, hh, hg⟩
      · simp only [View.inner, if_pos hq] at hi
        cases hi
        exact ih ht.1 hg ht.2.1.1 hst u
      · exact pass (by simpa [View.dims] using hq) hh hg
    | mergeBlocks maj min d => exact pass (by simpa [View.dims] using hg.1) hg.2.1 hg.2.2
    | step d a k => exact hg.elim
    | join a b d => exact hg.elim
    | reorder ds => exact hg.elim
    | mergeZ sl gl ds d => exact hg.elim

/-- Merged dimensions, neither of which is shifted, sliced or reversed. -/
theorem floored_merged {s : Struct} {maj min d : Dim} {f : State} (hne : maj ≠ min)
    (ht : (Struct.view (.mergeBlocks maj min d) s).tame) (hs : (Struct.view (.mergeBlocks maj min d) s).sane .ideal)
    (hM : s.fromZero maj) (hm : s.fromZero min) (hf : f (.idx d) = none) :
    (Struct.view (.mergeBlocks maj min d) s).Floored d f := by
  have hM1 := ht.2.1.1
  have hm1 := ht.2.2.1
  obtain ⟨hM2, hM3, hM4⟩ := hM
  obtain ⟨hm2, hm3, hm4⟩ := hm
  have hw : ∀ x X, (Struct.view (.mergeBlocks maj min d) s).lower .ideal d f none = some x → x.Num X → X = 0 := by
    intro x X hx hX
    simp only [Struct.lower, if_true] at hx
    split at hx
    · simp at hx
    split at hx
    · simp at hx
    simp only [bind, Option.bind_eq_some_iff, Option.some.injEq] at hx
    obtain ⟨a, ha, b, hb, rfl⟩ := hx
    obtain ⟨m, n, h1, h2, rfl⟩ := Val.nat?_add.1 hX
    rw [lower_zero hM2 hM3 (by simp) ha h1, lower_zero hm2 hm3 (by simp) hb h2]
  have ha : ∀ z M, (Struct.view (.mergeBlocks maj min d) s).lowerAt .ideal d f none = some z → z.Num M → M = 0 := by
    intro z M hz hM
    simp only [Struct.lowerAt, if_true] at hz
    split at hz
    · simp at hz
    split at hz
    · simp at hz
    next u hu =>
    simp only [bind, Option.bind_eq_some_iff, Option.some.injEq] at hz
    obtain ⟨a, ha, b, hb, rfl⟩ := hz
    obtain ⟨m, n, h1, h2, rfl⟩ := Val.nat?_add.1 hM
    have hu0 : u (.idx maj) = none ∧ u (.idx min) = none := by
      have c1 : blocksClean d maj min f (.idx maj) = none := by unfold blocksClean; state_val
      have c2 : blocksClean d maj min f (.idx min) = none := by unfold blocksClean; state_val
      simp only [View.sem, ViewSem.toSem, mergeBlocksSem, mergeBlocksSub, bind, Option.bind_eq_some_iff, hf] at hu
      obtain ⟨hmin, -, hmaj, -, hu⟩ := hu
      cases hmin <;> cases hmaj <;> simp only [Bool.false_eq_true, if_true, if_false, Option.bind_eq_some_iff] at hu
      all_goals first
        | (cases hu; exact ⟨c1, c2⟩)
        | (obtain ⟨_, -, hu⟩ := hu
           first
           | (cases hu; exact ⟨c1, c2⟩)
           | (split at hu <;> cases hu <;> simp [State.set, c1, c2]))
    rw [((Struct.bounded ht.1 hs.1 hM2 (stored_inBody ht.1 hM2 hM1 hM4 u) hu0.1).1 rfl).1.here0 _ _ ha h1,
      ((Struct.bounded ht.1 hs.1 hm2 (stored_inBody ht.1 hm2 hm1 hm4 u) hu0.2).1 rfl).1.here0 _ _ hb h2]
  refine ⟨fun w N x X _ _ h3 h4 i y hi hy => ?_, fun w N z M _ _ h0 h3 h4 => ?_,
    fun w N x X z M _ _ h0 h3 h4 h5 h6 y hy => ?_⟩
  · rw [hw x X h3 h4]; exact Nat.zero_le _
  · rw [ha z M h3 h4]; exact h0
  · rw [hw x X h3 h4]
    rw [ha z M h5 h6] at hy
    obtain ⟨g, v, a, hg, hv, hn, ho, hy⟩ := hy
    simp only [Struct.offAlong, if_true, bind, Option.bind_eq_some_iff, Option.some.injEq] at ho
    obtain ⟨x1, ⟨u, hu, h7⟩, x2, ⟨u', hu', h8⟩, rfl⟩ := ho
    rw [hu] at hu'; cases hu'
    obtain ⟨m, n, h9, h10, rfl⟩ := Val.nat?_add.1 hy
    have h9 : x1.Num m := by cases x1 <;> exact h9
    have h10 : x2.Num n := by cases x2 <;> exact h10
    obtain ⟨w1, n1, hw1, hn1⟩ := offAlong_idx ht.1 hs.1 hM4 h7 h9
    obtain ⟨w2, n2, hw2, hn2⟩ := offAlong_idx ht.1 hs.1 hm4 h8 h10
    obtain ⟨I, nl, hI, e1, e2, -⟩ := mb_parts hne hu hw1
    rw [hv] at hI; cases hI
    rw [e1] at hw1; cases hw1
    rw [e2] at hw2; cases hw2
    obtain ⟨a1, b1, k1, -, -, rfl⟩ := Val.nat?_div.1 hn1
    obtain ⟨a2, b2, k2, -, -, rfl⟩ := Val.nat?_mod.1 hn2
    cases Val.Num.eq hn k1
    cases Val.Num.eq hn k2
    rw [Nat.zero_div] at hn1
    rw [Nat.zero_mod] at hn2
    rw [((Struct.bounded ht.1 hs.1 hM2 (stored_inBody ht.1 hM2 hM1 hM4 (u.remove (.idx maj))) (by simp [State.remove])).1 rfl).2 hM3 m
        ⟨u, _, x1, rfl, e1, hn1, h7, h9⟩,
      ((Struct.bounded ht.1 hs.1 hm2 (stored_inBody ht.1 hm2 hm1 hm4 (u.remove (.idx min))) (by simp [State.remove])).1 rfl).2 hm3 n
        ⟨u, _, x2, rfl, e2, hn2, h8, h10⟩]

/-- The answers without a range. -/
theorem Struct.floored {s : Struct} (ht : s.tame) (hs : s.sane .ideal) {q : Dim} {f : State}
    (hg : s.lowest q) (hb : s.inBody q f) (hf : f (.idx q) = none) : s.Floored q f := by
  induction s generalizing q f with
  | scalar z a => exact .none (by simp only [Struct.lower]) (by simp only [Struct.lowerAt])
  | union n ss => exact .none (by simp only [Struct.lower]) (by simp only [Struct.lowerAt])
  | tuple t n fs ih =>
    by_cases hq : q = t
    · subst hq
      exact ((bounded_tuple hf).1 rfl).1.floor
    · exact floored_tuple_ne hq fun i =>
        ih i (ht i) (hs.1 i) (hg.resolve_left hq i) (hb i) (by simp [State.remove, hf])
  | vector d s ih =>
    by_cases hq : q = d
    · subst hq
      exact (bounded_vector.1 rfl).1.floor
    · exact floored_vector_ne hq (ih ht hs (hg.resolve_left hq) (hb.resolve_left hq) (by simp [State.removeAll, hf]))
  | view v s ih =>
    rcases hg with hg | hg
    · exact ((Struct.bounded ht hs hg hb hf).1 rfl).1.floor
    have pass : v.passes (s.sem .ideal) → q ∉ v.dims → ¬ s.hard q → s.lowest q → (Struct.view v s).Floored q f :=
      fun hp hq hh hg => floored_other hq ht hs hh hp hf fun u hu =>
        ih ht.1 hs.1 hg (hb.2 q u (inner_of_not_dims hq) hu) ((sub_idx hq hu).trans hf)
    cases v with
    | bcast d => exact pass trivial (by simpa [View.dims] using hg.1) hg.2.1 hg.2.2
    | fix d i => exact pass trivial (by simpa [View.dims] using hg.1) hg.2.1 hg.2.2
    | setLength d l => exact pass trivial (by simp [View.dims]) hg.1 hg.2
    | hoist d => exact pass trivial (by simp [View.dims]) hg.1 hg.2
    | shift d start => exact pass trivial (by simpa [View.dims] using hg.1) hg.2.1 hg.2.2
    | slice d start len =>
      obtain ⟨hh, ⟨rfl, hg, k, hk⟩ | ⟨hq, hg⟩⟩ := hg
      · refine floored_slice ht hs hh hk fun u hu =>
          Struct.bounded ht.1 hs.1 hg (hb.2 q u rfl hu) ?_
        cases hu; simp [State.mapAt, hf]
      · exact pass trivial (by simpa [View.dims] using hq) hh hg
    | span d start stop =>
      obtain ⟨hh, ⟨rfl, hg, k, hk⟩ | ⟨hq, hg⟩⟩ := hg
      · refine floored_span ht hs hh hk fun u hu =>
          Struct.bounded ht.1 hs.1 hg (hb.2 q u rfl hu) ?_
        cases hu; simp [State.mapAt, hf]
      · exact pass trivial (by simpa [View.dims] using hq) hh hg
    | reverse d =>
      obtain ⟨rfl, hst, hg⟩ := hg
      exact floored_reverse ht hs hst hf (ih ht.1 hs.1 hg
        (hb.2 q f rfl (by simp only [View.sem, reverseSem, hf])) hf)
    | rename ps =>
      obtain ⟨hq, hh, hg⟩ := hg
      refine floored_pass (q' := Sig.renameDim (ps.map Prod.swap) q) ?_ ?_ ?_ ?_ ?_
      · intro u hu
        cases hu
        exact ih ht.1 hs.1 hg (hb.2 _ _ rfl rfl) ((rename_idx ht.2.1 ht.2.2 hq f).trans hf)
      · intro i y hy
        exact con_pass (reads_rename hq) ht hs hh rfl hq
          (fun g u h => by cases h; exact rename_idx ht.2.1 ht.2.2 hq g) hy
      · intro r x hx; exact ⟨_, rfl, lower_rename hx⟩
      · intro r x hx; exact ⟨_, rfl, lowerAt_rename hx⟩
      · intro u hu x hx
        cases hu
        simp only [Struct.sem, ViewSem.toSem, View.sem, renameSem, guardLen_eq_some] at hx
        exact hx.2
    | intoBlocks d maj min => exact pass trivial (by simpa [View.dims] using hg.1) hg.2.1 hg.2.2
    | intoBlocksDyn d maj min pres =>
      rcases hg with rfl | hg
      · exact floored_pres hs
      · exact pass trivial (by simpa [View.dims] using hg.1) hg.2.1 hg.2.2
    | intoBlocksStat d border maj min nl =>
      rcases hg with ⟨rfl, hmb⟩ | hg
      · exact floored_border hmb
      · exact pass trivial (by simpa [View.dims] using hg.1) hg.2.1 hg.2.2
    | mergeBlocks maj min d =>
      rcases hg with ⟨rfl, hne, hM, hm⟩ | hg
      · exact floored_merged hne ht hs hM hm hf
      · exact pass trivial (by simpa [View.dims] using hg.1) hg.2.1 hg.2.2
    | step d a k => exact hg.elim
    | join a b d => exact hg.elim
    | reorder ds => exact hg.elim
    | mergeZ sl gl ds d => exact hg.elim

end Noarr
