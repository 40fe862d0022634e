import Verif.LowerMain

/-
`Struct.goes` implies `Struct.Bounded`. Used for C41.
-/

set_option linter.unusedVariables false
set_option linter.unusedSimpArgs false

namespace Noarr

theorem bounded_vector {s : Struct} {d : Dim} {f : State} : (Struct.vector d s).Bounded true d f := by
  have hC : ∀ i y, Contributes (.vector d s) d f i y → ∃ sz N,
      (s.sem .ideal).size (f.removeAll [.idx d, .len d]) = some sz ∧ sz.Num N ∧ y = i * N := by
    rintro i y ⟨g, w, a, rfl, hw, hn, ha, hy⟩
    have e2 : (g.remove (.idx d)).removeAll [.idx d, .len d] = g.removeAll [.idx d, .len d] := by state_eq
    simp only [Struct.offAlong, if_true, bind, Option.bind_eq_some_iff, Option.some.injEq] at ha
    obtain ⟨-, -, w', hw', sz, hsz, rfl⟩ := ha
    rw [hw] at hw'
    cases hw'
    obtain ⟨I, N, hI, hN, rfl⟩ := Val.nat?_mul.1 hy
    exact ⟨sz, N, by rw [e2]; exact hsz, hN, by rw [Val.Num.eq hI hn]⟩
  have hl : ∀ r x, (Struct.vector d s).lower .ideal d f r = some x →
      (r = none ∧ x = .lit 0) ∨ ∃ lo hi sz, r = some (lo, hi) ∧
        (s.sem .ideal).size (f.removeAll [.idx d, .len d]) = some sz ∧ x = sz.mul .ideal lo := by
    intro r x h
    simp only [Struct.lower, if_true] at h
    split at h
    · simp at h
    split at h
    · cases h; exact .inl ⟨rfl, rfl⟩
    · simp only [bind, Option.bind_eq_some_iff, Option.some.injEq] at h
      obtain ⟨sz, h1, rfl⟩ := h
      exact .inr ⟨_, _, sz, rfl, h1, rfl⟩
  have ha : ∀ r x, (Struct.vector d s).lowerAt .ideal d f r = some x →
      (r = none ∧ x = .lit 0) ∨ ∃ lo hi, r = some (lo, hi) ∧ x = lo := by
    intro r x h
    simp only [Struct.lowerAt, if_true] at h
    split at h
    · simp at h
    split at h
    · cases h; exact .inl ⟨rfl, rfl⟩
    · cases h; exact .inr ⟨_, _, rfl, rfl⟩
  refine ⟨fun _ => ⟨⟨?_, ?_, ?_, ?_, ?_⟩, ?_⟩, by simp⟩
  · intro lo hi x X h1 h2 L hL
    obtain ⟨h, -⟩ | ⟨lo', hi', sz, h, h3, rfl⟩ := hl _ _ h1
    · simp at h
    cases h
    obtain ⟨N, L', hN, hL', rfl⟩ := Val.nat?_mul.1 h2
    have := Val.Num.eq hL' hL
    subst this
    have key : ∀ i y, Contributes (.vector d s) d f i y → y = i * N := by
      intro i y hy
      obtain ⟨sz', N', h4, h5, h6⟩ := hC i y hy
      rw [h3] at h4; cases h4
      rw [Val.Num.eq hN h5, h6]
    refine ⟨fun i y hi hy => ?_, fun y hy => ?_⟩
    · rw [key i y hy, Nat.mul_comm]; exact Nat.mul_le_mul_right _ hi
    · rw [key _ y hy, Nat.mul_comm]
  · intro lo hi x X h1 h2 hL
    obtain ⟨h, -⟩ | ⟨lo', hi', sz, h, h3, rfl⟩ := hl _ _ h1
    · simp at h
    cases h
    obtain ⟨N, L', hN, hL', rfl⟩ := Val.nat?_mul.1 h2
    rw [hL] at hL'; simp at hL'
  · intro lo hi x X h1 h2
    obtain ⟨h, -⟩ | ⟨lo', hi', h, rfl⟩ := ha _ _ h1
    · simp at h
    cases h; exact h2
  · intro x X h1 h2
    obtain ⟨-, rfl⟩ | ⟨lo', hi', sz, h, -⟩ := hl _ _ h1
    · cases h2
      refine ⟨fun _ _ _ => Nat.zero_le _, fun y hy => ?_⟩
      obtain ⟨_, _, _, _, h6⟩ := hC 0 y hy
      simpa using h6
    · simp at h
  · intro x X h1 h2
    obtain ⟨-, rfl⟩ | ⟨lo', hi', h, -⟩ := ha _ _ h1
    · cases h2; rfl
    · simp at h
  · intro _ y hy
    obtain ⟨_, _, _, _, h6⟩ := hC 0 y hy
    simpa using h6

theorem bounded_bcast {s : Struct} {d : Dim} {f : State} : (Struct.view (.bcast d) s).Bounded true d f := by
  have hC : ∀ i y, Contributes (.view (.bcast d) s) d f i y → y = 0 := by
    rintro i y ⟨g, w, a, rfl, hw, hn, ha, hy⟩
    simp only [Struct.offAlong, if_true, Option.some.injEq] at ha
    subst ha; cases hy; rfl
  have hl : ∀ r x, (Struct.view (.bcast d) s).lower .ideal d f r = some x → x = .lit 0 := by
    intro r x h
    simp only [Struct.lower, if_true] at h
    split at h
    · simp at h
    split at h
    · simp at h
    · cases h; rfl
  have ha : ∀ r x, (Struct.view (.bcast d) s).lowerAt .ideal d f r = some x →
      (r = none ∧ x = .lit 0) ∨ ∃ lo hi, r = some (lo, hi) ∧ x = lo := by
    intro r x h
    simp only [Struct.lowerAt, if_true] at h
    split at h
    · simp at h
    split at h
    · simp at h
    split at h
    · cases h; exact .inl ⟨rfl, rfl⟩
    · cases h; exact .inr ⟨_, _, rfl, rfl⟩
  refine ⟨fun _ => ⟨⟨?_, ?_, ?_, ?_, ?_⟩, ?_⟩, by simp⟩
  · intro lo hi x X h1 h2 L hL
    cases hl _ _ h1; cases h2
    exact ⟨fun _ _ _ _ => Nat.zero_le _, fun y hy => hC _ y hy⟩
  · intro lo hi x X h1 h2 hL
    cases hl _ _ h1; cases h2; rfl
  · intro lo hi x X h1 h2
    obtain ⟨h, -⟩ | ⟨lo', hi', h, rfl⟩ := ha _ _ h1
    · simp at h
    cases h; exact h2
  · intro x X h1 h2
    cases hl _ _ h1; cases h2
    exact ⟨fun _ _ _ => Nat.zero_le _, fun y hy => hC _ y hy⟩
  · intro x X h1 h2
    obtain ⟨-, rfl⟩ | ⟨lo', hi', h, -⟩ := ha _ _ h1
    · cases h2; rfl
    · simp at h
  · intro _ y hy; exact hC _ y hy

/-- The index of a tuple. -/
theorem bounded_tuple {n : Nat} {fs : Fin n → Struct} {t : Dim} {f : State} (hf : f (.idx t) = none) :
    (Struct.tuple t n fs).Bounded true t f := by
  have hC : ∀ i y, Contributes (.tuple t n fs) t f i y → ∃ b,
      sizeAcc .ideal (f.remove (.idx t)) ((List.ofFn fun i => (fs i).sem .ideal).take i) (.lit 0) = some b ∧
        b.Num y := by
    rintro i y ⟨g, w, a, rfl, hw, hn, ha, hy⟩
    have e2 : (g.remove (.idx t)).remove (.idx t) = g.remove (.idx t) := by state_eq
    simp only [Struct.offAlong, if_true, bind, Option.bind_eq_some_iff] at ha
    obtain ⟨k, hk, ha⟩ := ha
    have hk' := constIdx_eq hk
    rw [hw] at hk'; cases hk'; cases hn
    split at ha
    · simp only [Option.bind_eq_some_iff, Option.some.injEq] at ha
      obtain ⟨b, hb, rfl⟩ := ha
      obtain ⟨B, z, hB, hz, rfl⟩ := Val.nat?_add.1 hy
      cases hz
      exact ⟨b, by rw [e2]; exact hb, hB⟩
    · simp at ha
  have hc : constIdx (f (.idx t)) = none := by rw [hf]; rfl
  have hl : ∀ r x, (Struct.tuple t n fs).lower .ideal t f r = some x →
      (r = none ∧ x = .lit 0) ∨ ∃ k hi b, r = some (.lit k, hi) ∧
        sizeAcc .ideal (f.remove (.idx t)) ((List.ofFn fun i => (fs i).sem .ideal).take k) (.lit 0) = some b ∧
        x = b.add .ideal (.lit 0) := by
    intro r x h
    unfold Struct.lower at h
    simp only [hc] at h
    split at h
    · simp at h
    split at h
    · cases h; exact .inl ⟨rfl, rfl⟩
    · simp only [bind, Option.bind_eq_some_iff, Option.some.injEq] at h
      obtain ⟨k, h1, b, h2, rfl⟩ := h
      have := constIdx_eq h1
      cases this
      exact .inr ⟨k, _, b, rfl, h2, rfl⟩
  have ha : ∀ r x, (Struct.tuple t n fs).lowerAt .ideal t f r = some x →
      (r = none ∧ x = .lit 0) ∨ ∃ lo hi, r = some (lo, hi) ∧ x = lo := by
    intro r x h
    unfold Struct.lowerAt at h
    simp only [hc] at h
    split at h
    · simp at h
    split at h
    · cases h; exact .inl ⟨rfl, rfl⟩
    · cases h; exact .inr ⟨_, _, rfl, rfl⟩
  have hz : ∀ y, Contributes (.tuple t n fs) t f 0 y → y = 0 := by
    intro y hy
    obtain ⟨b, h1, h2⟩ := hC 0 y hy
    simp only [List.take_zero, sizeAcc, Option.some.injEq] at h1
    subst h1; cases h2; rfl
  refine ⟨fun _ => ⟨⟨?_, ?_, ?_, ?_, ?_⟩, ?_⟩, by simp⟩
  · intro lo hi x X h1 h2 L hL
    obtain ⟨h, -⟩ | ⟨k, hi', b, h, h3, rfl⟩ := hl _ _ h1
    · simp at h
    cases h; cases hL
    obtain ⟨B, z, hB, hz', rfl⟩ := Val.nat?_add.1 h2
    cases hz'
    refine ⟨fun i y hi hy => ?_, fun y hy => ?_⟩
    · obtain ⟨b', h4, h5⟩ := hC i y hy
      have e : (List.ofFn fun i => (fs i).sem .ideal).take i =
          (List.ofFn fun i => (fs i).sem .ideal).take L ++
            ((List.ofFn fun i => (fs i).sem .ideal).take i).drop L := by
        have := (List.take_append_drop L ((List.ofFn fun i => (fs i).sem .ideal).take i)).symm
        rw [List.take_take, Nat.min_eq_left hi] at this
        exact this
      rw [e, sizeAcc_append, h3] at h4
      obtain ⟨a, h6, h7⟩ := sizeAcc_mono h4 h5
      have := Val.Num.eq h6 hB
      omega
    · obtain ⟨b', h4, h5⟩ := hC _ y hy
      rw [h3] at h4; cases h4
      rw [Val.Num.eq h5 hB]; rfl
  · intro lo hi x X h1 h2 hL
    obtain ⟨h, -⟩ | ⟨k, hi', b, h, h3, rfl⟩ := hl _ _ h1
    · simp at h
    cases h; simp at hL
  · intro lo hi x X h1 h2
    obtain ⟨h, -⟩ | ⟨lo', hi', h, rfl⟩ := ha _ _ h1
    · simp at h
    cases h; exact h2
  · intro x X h1 h2
    obtain ⟨-, rfl⟩ | ⟨_, _, _, h, -⟩ := hl _ _ h1
    · cases h2
      exact ⟨fun _ _ _ => Nat.zero_le _, hz⟩
    · simp at h
  · intro x X h1 h2
    obtain ⟨-, rfl⟩ | ⟨lo', hi', h, -⟩ := ha _ _ h1
    · cases h2; rfl
    · simp at h
  · intro _; exact hz

theorem bounded_vector_ne {up : Bool} {s : Struct} {d q : Dim} {f : State} (hq : q ≠ d)
    (h : s.Bounded up q (f.removeAll [.idx d, .len d])) : (Struct.vector d s).Bounded up q f := by
  have hC : ∀ i y, Contributes (.vector d s) q f i y →
      Contributes s q (f.removeAll [.idx d, .len d]) i y := by
    rintro i y ⟨g, w, a, rfl, hw, hn, ha, hy⟩
    simp only [Struct.offAlong, hq, if_false] at ha
    exact ⟨_, w, a, by state_eq, by simpa [State.removeAll, hq] using hw, hn, ha, hy⟩
  have hl : ∀ r x, (Struct.vector d s).lower .ideal q f r = some x →
      s.lower .ideal q (f.removeAll [.idx d, .len d]) r = some x := by
    intro r x h
    simp only [Struct.lower, hq, if_false] at h
    split at h
    · simp at h
    · exact h
  have ha : ∀ r x, (Struct.vector d s).lowerAt .ideal q f r = some x →
      s.lowerAt .ideal q (f.removeAll [.idx d, .len d]) r = some x := by
    intro r x h
    simp only [Struct.lowerAt, hq, if_false] at h
    split at h
    · simp at h
    · exact h
  exact ⟨fun e => ⟨(h.1 e).1.mono hC hl ha, fun hm y hy => (h.1 e).2 (hm.resolve_left hq) y (hC _ _ hy)⟩,
    fun e => (h.2 e).mono hC hl ha⟩

theorem bounded_tuple_ne {up : Bool} {n : Nat} {fs : Fin n → Struct} {t q : Dim} {f : State} (hq : q ≠ t)
    (h : ∀ i, (fs i).Bounded up q (f.remove (.idx t))) : (Struct.tuple t n fs).Bounded up q f := by
  by_cases hk : ∃ k, constIdx (f (.idx t)) = some k ∧ k < n
  · obtain ⟨k, hk, hkn⟩ := hk
    have hC : ∀ i y, Contributes (.tuple t n fs) q f i y →
        Contributes (fs ⟨k, hkn⟩) q (f.remove (.idx t)) i y := by
      rintro i y ⟨g, w, a, rfl, hw, hn, ha, hy⟩
      have e : (g.remove (.idx q)) (.idx t) = g (.idx t) := by simp [State.remove, Ne.symm hq]
      rw [e] at hk
      simp only [Struct.offAlong, hk, bind, Option.bind_some, hkn, dif_pos, hq, if_false] at ha
      exact ⟨_, w, a, by state_eq, by simpa [State.remove, hq] using hw, hn, ha, hy⟩
    have hl : ∀ r x, (Struct.tuple t n fs).lower .ideal q f r = some x →
        (fs ⟨k, hkn⟩).lower .ideal q (f.remove (.idx t)) r = some x := by
      intro r x h
      unfold Struct.lower at h
      simp only [hk, hkn, dif_pos] at h
      split at h
      · simp at h
      · exact h
    have ha : ∀ r x, (Struct.tuple t n fs).lowerAt .ideal q f r = some x →
        (fs ⟨k, hkn⟩).lowerAt .ideal q (f.remove (.idx t)) r = some x := by
      intro r x h
      unfold Struct.lowerAt at h
      simp only [hk, hkn, dif_pos] at h
      split at h
      · simp at h
      · exact h
    exact ⟨fun e => ⟨((h _).1 e).1.mono hC hl ha, fun hm y hy => ((h _).1 e).2 (hm _) y (hC _ _ hy)⟩,
      fun e => ((h _).2 e).mono hC hl ha⟩
  · have hh : (Struct.tuple t n fs).hasLower .ideal q f = false := by
      simp only [Struct.hasLower]
      split
      · split
        · next k hk' =>
          rw [dif_neg (fun h => hk ⟨k, hk', h⟩)]
        · rfl
      · simp [hq]
    have hl : ∀ r, (Struct.tuple t n fs).lower .ideal q f r = none := by
      intro r; unfold Struct.lower; simp only [hh, true_or, if_true]
    have ha : ∀ r, (Struct.tuple t n fs).lowerAt .ideal q f r = none := by
      intro r; unfold Struct.lowerAt; simp only [hh, true_or, if_true]
    refine ⟨fun _ => ⟨.none hl ha, ?_⟩, fun _ => .none hl ha⟩
    rintro - y ⟨g, w, a, rfl, hw, hn, ha, hy⟩
    simp only [Struct.offAlong, bind, Option.bind_eq_some_iff] at ha
    obtain ⟨k, hk', ha⟩ := ha
    have e : (g.remove (.idx q)) (.idx t) = g (.idx t) := by simp [State.remove, Ne.symm hq]
    rw [e] at hk
    split at ha
    · next h => exact absurd ⟨k, hk', h⟩ hk
    · simp at ha

theorem bounded_shift {up : Bool} {s : Struct} {d : Dim} {start : Val} {S : Nat} {f : State}
    (ht : (Struct.view (.shift d start) s).tame) (hs : (Struct.view (.shift d start) s).sane .ideal)
    (hh : ¬ s.hard d) (hS : start.Num S)
    (h : ∀ u, ((View.shift d start).sem .ideal (s.sem .ideal)).sub f = some u → s.Bounded up d u) :
    (Struct.view (.shift d start) s).Bounded up d f := by
  have hR : Reads (.shift d start) s (s.offAlong .ideal d) ((Struct.view (.shift d start) s).offAlong .ideal d) := by
    intro g o ho
    simp only [Struct.offAlong] at ho
    exact Option.bind_eq_some_iff.1 ho
  have h := h _ rfl
  have hC := fun i y hy => con_shift (f := f) (i := i) (y := y) hR ht hs hh rfl trivial hS
    (fun g u hu => by cases hu; simp [State.mapAt]) rfl hy
  have hw : ∀ lo hi x, (Struct.view (.shift d start) s).lower .ideal d f (some (lo, hi)) = some x →
      s.lower .ideal d ((f.mapAt (.idx d) (·.add .ideal start)).mapAt (.len d) (·.add .ideal start)) (some (lo.add .ideal start, hi.add .ideal start)) = some x := by
    intro lo hi x hx
    simp only [Struct.lower, if_true] at hx
    split at hx
    · simp at hx
    · exact hx
  have ha : ∀ lo hi x, (Struct.view (.shift d start) s).lowerAt .ideal d f (some (lo, hi)) = some x →
      ∃ z, s.lowerAt .ideal d ((f.mapAt (.idx d) (·.add .ideal start)).mapAt (.len d) (·.add .ideal start)) (some (lo.add .ideal start, hi.add .ideal start)) = some z ∧
        x = z.sub .ideal start := by
    intro lo hi x hx
    simp only [Struct.lowerAt, if_true] at hx
    split at hx
    · simp at hx
    · replace hx : (s.lowerAt .ideal d ((f.mapAt (.idx d) (·.add .ideal start)).mapAt (.len d) (·.add .ideal start)) (some (lo.add .ideal start, hi.add .ideal start))).bind
        (fun x => some (x.sub .ideal start)) = some x := hx
      simp only [Option.bind_eq_some_iff, Option.some.injEq] at hx
      obtain ⟨z, h1, rfl⟩ := hx
      exact ⟨z, h1, rfl⟩
  refine ⟨fun e => ⟨(h.1 e).1.shift hC hw ?_ ha ?_, fun hm => absurd rfl hm.1⟩, fun e => (h.2 e).shift hC hw ha⟩
  · intro x hx
    simp only [Struct.lower, if_true] at hx
    split at hx
    · simp at hx
    · replace hx := Option.bind_eq_some_iff.1 hx
      obtain ⟨l, h1, h2⟩ := hx
      exact ⟨l, h2⟩
  · intro x hx
    simp only [Struct.lowerAt, if_true] at hx
    split at hx
    · simp at hx
    · replace hx := Option.bind_eq_some_iff.1 hx
      obtain ⟨l, h1, hx⟩ := hx
      replace hx := Option.bind_eq_some_iff.1 hx
      obtain ⟨z, h2, hx⟩ := hx
      cases hx
      exact ⟨_, z, h2, rfl⟩

theorem bounded_slice {up : Bool} {s : Struct} {d : Dim} {start len : Val} {S : Nat} {f : State}
    (ht : (Struct.view (.slice d start len) s).tame) (hs : (Struct.view (.slice d start len) s).sane .ideal)
    (hh : ¬ s.hard d) (hS : start.Num S)
    (h : ∀ u, ((View.slice d start len).sem .ideal (s.sem .ideal)).sub f = some u → s.Bounded up d u) :
    (Struct.view (.slice d start len) s).Bounded up d f := by
  have hR : Reads (.slice d start len) s (s.offAlong .ideal d) ((Struct.view (.slice d start len) s).offAlong .ideal d) := by
    intro g o ho
    simp only [Struct.offAlong] at ho
    exact Option.bind_eq_some_iff.1 ho
  have h := h _ rfl
  have hC := fun i y hy => con_shift (f := f) (i := i) (y := y) hR ht hs hh rfl trivial hS
    (fun g u hu => by cases hu; simp [State.mapAt]) rfl hy
  have hw : ∀ lo hi x, (Struct.view (.slice d start len) s).lower .ideal d f (some (lo, hi)) = some x →
      s.lower .ideal d (f.mapAt (.idx d) (·.add .ideal start)) (some (lo.add .ideal start, hi.add .ideal start)) = some x := by
    intro lo hi x hx
    simp only [Struct.lower, if_true] at hx
    split at hx
    · simp at hx
    · exact hx
  have ha : ∀ lo hi x, (Struct.view (.slice d start len) s).lowerAt .ideal d f (some (lo, hi)) = some x →
      ∃ z, s.lowerAt .ideal d (f.mapAt (.idx d) (·.add .ideal start)) (some (lo.add .ideal start, hi.add .ideal start)) = some z ∧
        x = z.sub .ideal start := by
    intro lo hi x hx
    simp only [Struct.lowerAt, if_true] at hx
    split at hx
    · simp at hx
    · replace hx : (s.lowerAt .ideal d (f.mapAt (.idx d) (·.add .ideal start)) (some (lo.add .ideal start, hi.add .ideal start))).bind
        (fun x => some (x.sub .ideal start)) = some x := hx
      simp only [Option.bind_eq_some_iff, Option.some.injEq] at hx
      obtain ⟨z, h1, rfl⟩ := hx
      exact ⟨z, h1, rfl⟩
  refine ⟨fun e => ⟨(h.1 e).1.shift hC hw ?_ ha ?_, fun hm => absurd rfl hm.1⟩, fun e => (h.2 e).shift hC hw ha⟩
  · intro x hx
    simp only [Struct.lower, if_true] at hx
    split at hx
    · simp at hx
    · exact ⟨_, hx⟩
  · intro x hx
    simp only [Struct.lowerAt, if_true] at hx
    split at hx
    · simp at hx
    · replace hx := Option.bind_eq_some_iff.1 hx
      obtain ⟨z, h2, hx⟩ := hx
      cases hx
      exact ⟨_, z, h2, rfl⟩

theorem bounded_span {up : Bool} {s : Struct} {d : Dim} {start stop : Val} {S : Nat} {f : State}
    (ht : (Struct.view (.span d start stop) s).tame) (hs : (Struct.view (.span d start stop) s).sane .ideal)
    (hh : ¬ s.hard d) (hS : start.Num S)
    (h : ∀ u, ((View.span d start stop).sem .ideal (s.sem .ideal)).sub f = some u → s.Bounded up d u) :
    (Struct.view (.span d start stop) s).Bounded up d f := by
  have hR : Reads (.span d start stop) s (s.offAlong .ideal d) ((Struct.view (.span d start stop) s).offAlong .ideal d) := by
    intro g o ho
    simp only [Struct.offAlong] at ho
    exact Option.bind_eq_some_iff.1 ho
  have h := h _ rfl
  have hC := fun i y hy => con_shift (f := f) (i := i) (y := y) hR ht hs hh rfl trivial hS
    (fun g u hu => by cases hu; simp [State.mapAt]) rfl hy
  have hw : ∀ lo hi x, (Struct.view (.span d start stop) s).lower .ideal d f (some (lo, hi)) = some x →
      s.lower .ideal d (f.mapAt (.idx d) (·.add .ideal start)) (some (lo.add .ideal start, hi.add .ideal start)) = some x := by
    intro lo hi x hx
    simp only [Struct.lower, if_true] at hx
    split at hx
    · simp at hx
    · exact hx
  have ha : ∀ lo hi x, (Struct.view (.span d start stop) s).lowerAt .ideal d f (some (lo, hi)) = some x →
      ∃ z, s.lowerAt .ideal d (f.mapAt (.idx d) (·.add .ideal start)) (some (lo.add .ideal start, hi.add .ideal start)) = some z ∧
        x = z.sub .ideal start := by
    intro lo hi x hx
    simp only [Struct.lowerAt, if_true] at hx
    split at hx
    · simp at hx
    · replace hx : (s.lowerAt .ideal d (f.mapAt (.idx d) (·.add .ideal start)) (some (lo.add .ideal start, hi.add .ideal start))).bind
        (fun x => some (x.sub .ideal start)) = some x := hx
      simp only [Option.bind_eq_some_iff, Option.some.injEq] at hx
      obtain ⟨z, h1, rfl⟩ := hx
      exact ⟨z, h1, rfl⟩
  refine ⟨fun e => ⟨(h.1 e).1.shift hC hw ?_ ha ?_, fun hm => absurd rfl hm.1⟩, fun e => (h.2 e).shift hC hw ha⟩
  · intro x hx
    simp only [Struct.lower, if_true] at hx
    split at hx
    · simp at hx
    · exact ⟨_, hx⟩
  · intro x hx
    simp only [Struct.lowerAt, if_true] at hx
    split at hx
    · simp at hx
    · replace hx := Option.bind_eq_some_iff.1 hx
      obtain ⟨z, h2, hx⟩ := hx
      cases hx
      exact ⟨_, z, h2, rfl⟩

theorem bounded_reverse {s : Struct} {d : Dim} {f : State}
    (ht : (Struct.view (.reverse d) s).tame) (hs : (Struct.view (.reverse d) s).sane .ideal)
    (hst : s.stored d) (hf : f (.idx d) = none) (h : s.Bounded true d f) :
    (Struct.view (.reverse d) s).Bounded false d f := by
  have hsf : ((View.reverse d).sem .ideal (s.sem .ideal)).sub f = some f := by
    simp only [View.sem, reverseSem, hf]
  have hw : ∀ lo hi x, (Struct.view (.reverse d) s).lower .ideal d f (some (lo, hi)) = some x →
      ∃ l e, (s.sem .ideal).len d f = some l ∧ s.lower .ideal d f (some (l.sub .ideal hi, e)) = some x := by
    intro lo hi x hx
    simp only [Struct.lower, if_true] at hx
    split at hx
    · simp at hx
    · simp only [hsf] at hx
      replace hx := Option.bind_eq_some_iff.1 hx
      obtain ⟨l, h1, h2⟩ := hx
      exact ⟨l, _, h1, h2⟩
  have ha : ∀ lo hi x, (Struct.view (.reverse d) s).lowerAt .ideal d f (some (lo, hi)) = some x →
      ∃ l e z, (s.sem .ideal).len d f = some l ∧ s.lowerAt .ideal d f (some (l.sub .ideal hi, e)) = some z ∧
        x = (l.sub .ideal (.lit 1)).sub .ideal z := by
    intro lo hi x hx
    simp only [Struct.lowerAt, if_true] at hx
    split at hx
    · simp at hx
    · simp only [hsf] at hx
      replace hx := Option.bind_eq_some_iff.1 hx
      obtain ⟨l, h1, hx⟩ := hx
      replace hx := Option.bind_eq_some_iff.1 hx
      obtain ⟨z, h2, hx⟩ := hx
      cases hx
      exact ⟨l, _, z, h1, h2, rfl⟩
  refine ⟨by simp, fun _ => ?_⟩
  cases hl : (s.sem .ideal).len d f with
  | none =>
    refine ⟨?_, ?_⟩
    · intro lo hi x X h1
      obtain ⟨l, _, h2, -⟩ := hw _ _ _ h1
      rw [hl] at h2; simp at h2
    · intro lo hi x X h1
      obtain ⟨l, _, _, h2, -⟩ := ha _ _ _ h1
      rw [hl] at h2; simp at h2
  | some l =>
    refine (h.1 rfl).1.reverse (l := l) ?_ ?_ ?_
    · intro i y hy
      have hR : Reads (.reverse d) s (s.offAlong .ideal d) ((Struct.view (.reverse d) s).offAlong .ideal d) := by
        intro g o ho
        simp only [Struct.offAlong] at ho
        exact Option.bind_eq_some_iff.1 ho
      obtain ⟨g, u, w, a, hg, hw, hn, hu1, hu2, ha, hya⟩ := con_view hR ht hs hs.2.1 rfl trivial hy
      rw [hsf] at hu2
      have hu2 := Option.some.inj hu2
      obtain ⟨x, k, hx, hk⟩ := offAlong_idx ht.1 hs.1 hst ha hya
      simp only [View.sem, reverseSem, hw, hg] at hu1
      split at hu1
      · simp at hu1
      · cases hu1
        rw [hf] at hx; simp at hx
      · simp only [hl, bind, Option.bind_some, Option.some.injEq] at hu1
        subst hu1
        simp only [State.set, if_true, Option.some.injEq] at hx
        subst hx
        have hk' := hk
        obtain ⟨p, I, hp, hI, hle, rfl⟩ := Val.nat?_sub.1 hk
        obtain ⟨N, o, hN, ho, hle', rfl⟩ := Val.nat?_sub.1 hp
        have := Val.Num.eq hI hn
        subst this
        have : (1 : Nat) = o := Val.Num.eq (v := .lit 1) rfl ho
        subst this
        exact ⟨N, hN, by omega, _, _, a, hu2.symm, by simp [State.set], hk', ha, hya⟩
    · intro lo hi x hx
      obtain ⟨l', e, h1, h2⟩ := hw _ _ _ hx
      rw [hl] at h1; cases h1; exact ⟨e, h2⟩
    · intro lo hi x hx
      obtain ⟨l', e, z, h1, h2, h3⟩ := ha _ _ _ hx
      rw [hl] at h1; cases h1; exact ⟨e, z, h2, h3⟩

theorem bounded_ib {s : Struct} {e maj min q : Dim} {f : State} (hq : q = maj ∨ q = min)
    (ht : (Struct.view (.intoBlocks e maj min) s).tame) (hs : (Struct.view (.intoBlocks e maj min) s).sane .ideal)
    (hst : s.stored e) (hum : s.unmoved e) (hf : f (.idx q) = none)
    (h : ∀ u, ((View.intoBlocks e maj min).sem .ideal (s.sem .ideal)).sub f = some u → s.Bounded true e u) :
    (Struct.view (.intoBlocks e maj min) s).Bounded true q f := by
  have hne : maj ≠ min := hs.2
  cases hu : ((View.intoBlocks e maj min).sem .ideal (s.sem .ideal)).sub f with
  | none =>
    have h1 : ∀ r, (Struct.view (.intoBlocks e maj min) s).lower .ideal q f r = none := by
      intro r; simp only [Struct.lower, hu, ite_self]
    have h2 : ∀ r, (Struct.view (.intoBlocks e maj min) s).lowerAt .ideal q f r = none := by
      intro r; simp only [Struct.lowerAt, hu, ite_self]
    refine ⟨fun _ => ⟨.none h1 h2, fun _ y hy => ?_⟩, by simp⟩
    obtain ⟨_, _, _, _, _, _, _, h3, _⟩ := con_ib hq ht hs hst hf hy
    rw [hu] at h3; simp at h3
  | some u =>
    obtain ⟨hr, hz⟩ := (h u hu).1 rfl
    have hz := hz hum
    have hC : ∀ i y, Contributes (.view (.intoBlocks e maj min) s) q f i y → ∃ nl K, ibLen e maj min (s.sem .ideal) f = some nl ∧
        nl.Num K ∧ Contributes s e u (if q = maj then i * K else i) y := by
      intro i y hy
      obtain ⟨nl, K, u', a, c, h1, h2, h3, h4, h5, rfl⟩ := con_ib hq ht hs hst hf hy
      rw [hu] at h3; cases h3
      rw [hz c h5]
      exact ⟨nl, K, h1, h2, h4⟩
    have hzero : ∀ y, Contributes (.view (.intoBlocks e maj min) s) q f 0 y → y = 0 := by
      intro y hy
      obtain ⟨nl, K, -, -, h4⟩ := hC 0 y hy
      refine hz y ?_
      have e0 : (if q = maj then 0 * K else 0) = 0 := by split <;> simp
      rwa [e0] at h4
    refine ⟨fun _ => ⟨?_, fun _ => hzero⟩, by simp⟩
    by_cases hqm : q = maj
    · subst hqm
      simp only [if_true] at hC
      refine hr.major hz ?_ (fun i y hy => ?_) ?_ ?_ ?_
      · intro lo hi x hx
        simp only [Struct.lower, hne, if_false, if_true, hu] at hx
        split at hx
        · simp at hx
        · replace hx := Option.bind_eq_some_iff.1 hx
          obtain ⟨nl, h1, h2⟩ := hx
          refine ⟨nl, h2, fun i y hy => ?_⟩
          obtain ⟨nl', K, h3, h4, h5⟩ := hC i y hy
          rw [ibLen_of_len h1] at h3; cases h3
          exact ⟨K, h4, h5⟩
      · obtain ⟨nl', K, h3, h4, h5⟩ := hC i y hy
        exact ⟨K, h5⟩
      · intro x hx
        simp only [Struct.lower, hne, if_false, if_true, hu] at hx
        split at hx
        · simp at hx
        · cases hx; rfl
      · intro lo hi z hx
        simp only [Struct.lowerAt, hne, if_false, if_true, hu] at hx
        split at hx
        · simp at hx
        · replace hx := Option.bind_eq_some_iff.1 hx
          obtain ⟨c, h1, h2⟩ := hx
          exact ⟨c, h1, h2⟩
      · intro z hx
        simp only [Struct.lowerAt, hne, if_false, if_true, hu] at hx
        split at hx
        · simp at hx
        · replace hx := Option.bind_eq_some_iff.1 hx
          obtain ⟨c, h1, h2⟩ := hx
          replace h2 := Option.bind_eq_some_iff.1 h2
          obtain ⟨nl, h3, h4⟩ := h2
          exact ⟨c, _, h4⟩
    · have hqn := hq.resolve_left hqm
      subst hqn
      simp only [hqm, if_false] at hC
      refine hr.minor (fun i y hy => ?_) ?_ ?_ ?_ ?_
      · obtain ⟨nl', K, h3, h4, h5⟩ := hC i y hy
        exact h5
      · intro lo hi x hx
        simp only [Struct.lower, if_true, hu] at hx
        split at hx
        · simp at hx
        · exact hx
      · intro x hx
        simp only [Struct.lower, if_true, hu] at hx
        split at hx
        · simp at hx
        · replace hx := Option.bind_eq_some_iff.1 hx
          obtain ⟨nl, h1, h2⟩ := hx
          exact ⟨nl, h2⟩
      · intro lo hi z hx
        simp only [Struct.lowerAt, if_true, hu] at hx
        split at hx
        · simp at hx
        · exact hx
      · intro z hx
        simp only [Struct.lowerAt, if_true, hu] at hx
        split at hx
        · simp at hx
        · replace hx := Option.bind_eq_some_iff.1 hx
          obtain ⟨nl, h1, h2⟩ := hx
          exact ⟨nl, h2⟩

theorem bounded_ibd {s : Struct} {e maj min pres q : Dim} {f : State} (hq : q = maj ∨ q = min)
    (ht : (Struct.view (.intoBlocksDyn e maj min pres) s).tame) (hs : (Struct.view (.intoBlocksDyn e maj min pres) s).sane .ideal)
    (hst : s.stored e) (hum : s.unmoved e) (hf : f (.idx q) = none)
    (h : ∀ u, ((View.intoBlocksDyn e maj min pres).sem .ideal (s.sem .ideal)).sub f = some u → s.Bounded true e u) :
    (Struct.view (.intoBlocksDyn e maj min pres) s).Bounded true q f := by
  have hne : maj ≠ min := hs.2.1
  cases hu : ((View.intoBlocksDyn e maj min pres).sem .ideal (s.sem .ideal)).sub f with
  | none =>
    have h1 : ∀ r, (Struct.view (.intoBlocksDyn e maj min pres) s).lower .ideal q f r = none := by
      intro r; simp only [Struct.lower, hu, ite_self]
    have h2 : ∀ r, (Struct.view (.intoBlocksDyn e maj min pres) s).lowerAt .ideal q f r = none := by
      intro r; simp only [Struct.lowerAt, hu, ite_self]
    refine ⟨fun _ => ⟨.none h1 h2, fun _ y hy => ?_⟩, by simp⟩
    obtain ⟨_, _, _, _, _, _, _, h3, _⟩ := con_ibd hq ht hs hst hf hy
    rw [hu] at h3; simp at h3
  | some u =>
    obtain ⟨hr, hz⟩ := (h u hu).1 rfl
    have hz := hz hum
    have hC : ∀ i y, Contributes (.view (.intoBlocksDyn e maj min pres) s) q f i y → ∃ nl K, ibdLen e maj min pres (s.sem .ideal) f = some nl ∧
        nl.Num K ∧ Contributes s e u (if q = maj then i * K else i) y := by
      intro i y hy
      obtain ⟨nl, K, u', a, c, h1, h2, h3, h4, h5, rfl⟩ := con_ibd hq ht hs hst hf hy
      rw [hu] at h3; cases h3
      rw [hz c h5]
      exact ⟨nl, K, h1, h2, h4⟩
    have hzero : ∀ y, Contributes (.view (.intoBlocksDyn e maj min pres) s) q f 0 y → y = 0 := by
      intro y hy
      obtain ⟨nl, K, -, -, h4⟩ := hC 0 y hy
      refine hz y ?_
      have e0 : (if q = maj then 0 * K else 0) = 0 := by split <;> simp
      rwa [e0] at h4
    refine ⟨fun _ => ⟨?_, fun _ => hzero⟩, by simp⟩
    by_cases hqm : q = maj
    · subst hqm
      simp only [if_true] at hC
      refine hr.major hz ?_ (fun i y hy => ?_) ?_ ?_ ?_
      · intro lo hi x hx
        simp only [Struct.lower, hne, hs.2.2.2.symm, if_false, if_true, hu] at hx
        split at hx
        · simp at hx
        · replace hx := Option.bind_eq_some_iff.1 hx
          obtain ⟨nl, h1, h2⟩ := hx
          refine ⟨nl, h2, fun i y hy => ?_⟩
          obtain ⟨nl', K, h3, h4, h5⟩ := hC i y hy
          rw [ibdLen_of_len hs.2.2.1 h1] at h3; cases h3
          exact ⟨K, h4, h5⟩
      · obtain ⟨nl', K, h3, h4, h5⟩ := hC i y hy
        exact ⟨K, h5⟩
      · intro x hx
        simp only [Struct.lower, hne, hs.2.2.2.symm, if_false, if_true, hu] at hx
        split at hx
        · simp at hx
        · cases hx; rfl
      · intro lo hi z hx
        simp only [Struct.lowerAt, hne, hs.2.2.2.symm, if_false, if_true, hu] at hx
        split at hx
        · simp at hx
        · simp at hx
      · intro z hx
        simp only [Struct.lowerAt, hne, hs.2.2.2.symm, if_false, if_true, hu] at hx
        split at hx
        · simp at hx
        · replace hx := Option.bind_eq_some_iff.1 hx
          obtain ⟨c, h1, h2⟩ := hx
          replace h2 := Option.bind_eq_some_iff.1 h2
          obtain ⟨nl, h3, h4⟩ := h2
          exact ⟨c, _, h4⟩
    · have hqn := hq.resolve_left hqm
      subst hqn
      simp only [hqm, if_false] at hC
      refine hr.minor (fun i y hy => ?_) ?_ ?_ ?_ ?_
      · obtain ⟨nl', K, h3, h4, h5⟩ := hC i y hy
        exact h5
      · intro lo hi x hx
        simp only [Struct.lower, if_true, hu] at hx
        split at hx
        · simp at hx
        · exact hx
      · intro x hx
        simp only [Struct.lower, if_true, hu] at hx
        split at hx
        · simp at hx
        · replace hx := Option.bind_eq_some_iff.1 hx
          obtain ⟨nl, h1, h2⟩ := hx
          exact ⟨nl, h2⟩
      · intro lo hi z hx
        simp only [Struct.lowerAt, if_true, hu] at hx
        split at hx
        · simp at hx
        · simp at hx
      · intro z hx
        simp only [Struct.lowerAt, if_true, hu] at hx
        split at hx
        · simp at hx
        · replace hx := Option.bind_eq_some_iff.1 hx
          obtain ⟨nl, h1, h2⟩ := hx
          exact ⟨nl, h2⟩

theorem bounded_ibs {s : Struct} {e border maj min q : Dim} {nl : Val} {f : State} (hq : q = maj ∨ q = min)
    (hmb : maj ≠ border ∧ min ≠ border) (hb : f (.idx border) = some (.lit 0))
    (ht : (Struct.view (.intoBlocksStat e border maj min nl) s).tame)
    (hs : (Struct.view (.intoBlocksStat e border maj min nl) s).sane .ideal)
    (hst : s.stored e) (hum : s.unmoved e) (hf : f (.idx q) = none)
    (h : ∀ u, ((View.intoBlocksStat e border maj min nl).sem .ideal (s.sem .ideal)).sub f = some u → s.Bounded true e u) :
    (Struct.view (.intoBlocksStat e border maj min nl) s).Bounded true q f := by
  have hne : maj ≠ min := hs.2
  have hlen : ∀ nl', ((Struct.view (.intoBlocksStat e border maj min nl) s).sem .ideal).len min f = some nl' →
      nl' = nl := fun nl' h1 => ibs_len hmb.2 (f := f) ⟨fun _ => rfl, fun _ _ h => h⟩ hb h1
  cases hu : ((View.intoBlocksStat e border maj min nl).sem .ideal (s.sem .ideal)).sub f with
  | none =>
    have h1 : ∀ r, (Struct.view (.intoBlocksStat e border maj min nl) s).lower .ideal q f r = none := by
      intro r; simp only [Struct.lower, hu, ite_self]
    have h2 : ∀ r, (Struct.view (.intoBlocksStat e border maj min nl) s).lowerAt .ideal q f r = none := by
      intro r; simp only [Struct.lowerAt, hu, ite_self]
    refine ⟨fun _ => ⟨.none h1 h2, fun _ y hy => ?_⟩, by simp⟩
    obtain ⟨_, _, _, _, _, h3, _⟩ := con_ibs hq hmb hb ht hs hst hf hy
    rw [hu] at h3; simp at h3
  | some u =>
    obtain ⟨hr, hz⟩ := (h u hu).1 rfl
    have hz := hz hum
    have hC : ∀ i y, Contributes (.view (.intoBlocksStat e border maj min nl) s) q f i y → ∃ K,
        nl.Num K ∧ Contributes s e u (if q = maj then i * K else i) y := by
      intro i y hy
      obtain ⟨K, u', a, c, h2, h3, h4, h5, rfl⟩ := con_ibs hq hmb hb ht hs hst hf hy
      rw [hu] at h3; cases h3
      rw [hz c h5]
      exact ⟨K, h2, h4⟩
    have hzero : ∀ y, Contributes (.view (.intoBlocksStat e border maj min nl) s) q f 0 y → y = 0 := by
      intro y hy
      obtain ⟨K, -, h4⟩ := hC 0 y hy
      refine hz y ?_
      have e0 : (if q = maj then 0 * K else 0) = 0 := by split <;> simp
      rwa [e0] at h4
    refine ⟨fun _ => ⟨?_, fun _ => hzero⟩, by simp⟩
    by_cases hqm : q = maj
    · subst hqm
      simp only [if_true] at hC
      refine hr.major hz ?_ (fun i y hy => ?_) ?_ ?_ ?_
      · intro lo hi x hx
        simp only [Struct.lower, hne, hmb.1, if_false, if_true, hu] at hx
        split at hx
        · simp at hx
        · replace hx := Option.bind_eq_some_iff.1 hx
          obtain ⟨nl', h1, h2⟩ := hx
          cases hlen nl' h1
          exact ⟨_, h2, hC⟩
      · obtain ⟨K, h4, h5⟩ := hC i y hy
        exact ⟨K, h5⟩
      · intro x hx
        simp only [Struct.lower, hne, hmb.1, if_false, if_true, hu] at hx
        split at hx
        · simp at hx
        · cases hx; rfl
      · intro lo hi z hx
        simp only [Struct.lowerAt, hne, if_false, if_true, hu] at hx
        split at hx
        · simp at hx
        · replace hx := Option.bind_eq_some_iff.1 hx
          obtain ⟨c, h1, h2⟩ := hx
          replace h2 := Option.bind_eq_some_iff.1 h2
          obtain ⟨nl', h3, h4⟩ := h2
          exact ⟨c, h1, h4⟩
      · intro z hx
        simp only [Struct.lowerAt, hne, if_false, if_true, hu] at hx
        split at hx
        · simp at hx
        · replace hx := Option.bind_eq_some_iff.1 hx
          obtain ⟨c, h1, h2⟩ := hx
          replace h2 := Option.bind_eq_some_iff.1 h2
          obtain ⟨nl', h3, h4⟩ := h2
          exact ⟨c, _, h4⟩
    · have hqn := hq.resolve_left hqm
      subst hqn
      simp only [hqm, if_false] at hC
      refine hr.minor (fun i y hy => ?_) ?_ ?_ ?_ ?_
      · obtain ⟨K, h4, h5⟩ := hC i y hy
        exact h5
      · intro lo hi x hx
        simp only [Struct.lower, if_true, hu] at hx
        split at hx
        · simp at hx
        · exact hx
      · intro x hx
        simp only [Struct.lower, if_true, hu] at hx
        split at hx
        · simp at hx
        · replace hx := Option.bind_eq_some_iff.1 hx
          obtain ⟨nl', h1, h2⟩ := hx
          exact ⟨nl', h2⟩
      · intro lo hi z hx
        simp only [Struct.lowerAt, if_true, hu] at hx
        split at hx
        · simp at hx
        · exact hx
      · intro z hx
        simp only [Struct.lowerAt, if_true, hu] at hx
        split at hx
        · simp at hx
        · replace hx := Option.bind_eq_some_iff.1 hx
          obtain ⟨nl', h1, h2⟩ := hx
          exact ⟨nl', h2⟩

/-- The answers for all the dimensions in `Struct.goes`. -/
theorem Struct.bounded {s : Struct} (ht : s.tame) (hs : s.sane .ideal) {up : Bool} {q : Dim} {f : State}
    (hg : s.goes up q) (hb : s.inBody q f) (hf : f (.idx q) = none) : s.Bounded up q f := by
  induction s generalizing up q f with
  | scalar z a =>
    have h1 : ∀ r, (Struct.scalar z a).lower .ideal q f r = none := fun _ => by simp only [Struct.lower]
    have h2 : ∀ r, (Struct.scalar z a).lowerAt .ideal q f r = none := fun _ => by simp only [Struct.lowerAt]
    refine ⟨fun _ => ⟨.none h1 h2, ?_⟩, fun _ => .none h1 h2⟩
    rintro - y ⟨g, w, a, -, -, -, ha, -⟩
    simp [Struct.offAlong] at ha
  | union n ss =>
    have h1 : ∀ r, (Struct.union n ss).lower .ideal q f r = none := fun _ => by simp only [Struct.lower]
    have h2 : ∀ r, (Struct.union n ss).lowerAt .ideal q f r = none := fun _ => by simp only [Struct.lowerAt]
    refine ⟨fun _ => ⟨.none h1 h2, ?_⟩, fun _ => .none h1 h2⟩
    rintro - y ⟨g, w, a, -, -, -, ha, -⟩
    simp [Struct.offAlong] at ha
  | tuple t n fs ih =>
    rcases hg with ⟨rfl, rfl⟩ | ⟨hq, hg⟩
    · exact bounded_tuple hf
    · exact bounded_tuple_ne hq fun i => ih i (ht i) (hs.1 i) (hg i) (hb i) (by simp [State.remove, hf])
  | vector d s ih =>
    rcases hg with ⟨rfl, rfl⟩ | ⟨hq, hg⟩
    · exact bounded_vector
    · exact bounded_vector_ne hq (ih ht hs hg (hb.resolve_left hq) (by simp [State.removeAll, hf]))
  | view v s ih =>
    have pass : q ∉ v.dims → ¬ s.hard q → s.goes up q → (Struct.view v s).Bounded up q f :=
      fun hq hh hg => bounded_other hq ht hs hh fun u hu => ih ht.1 hs.1 hg (hb.2 q u (inner_of_not_dims hq) hu) ((sub_idx hq hu).trans hf)
    cases v with
    | bcast d =>
      rcases hg with ⟨rfl, rfl⟩ | ⟨hq, hh, hg⟩
      · exact bounded_bcast
      · exact pass (by simpa [View.dims] using hq) hh hg
    | fix d i => exact pass (by simpa [View.dims] using hg.1) hg.2.1 hg.2.2
    | setLength d l => exact pass (by simp [View.dims]) hg.1 hg.2
    | hoist d => exact pass (by simp [View.dims]) hg.1 hg.2
    | shift d start =>
      obtain ⟨hh, hg, k, hk⟩ := hg
      by_cases hq : q = d
      · subst hq
        refine bounded_shift ht hs hh hk fun u hu => ih ht.1 hs.1 hg (hb.2 q u rfl hu) ?_
        cases hu; simp [State.mapAt, hf]
      · exact pass (by simpa [View.dims] using hq) hh hg
    | slice d start len =>
      obtain ⟨hh, hg, k, hk⟩ := hg
      by_cases hq : q = d
      · subst hq
        refine bounded_slice ht hs hh hk fun u hu => ih ht.1 hs.1 hg (hb.2 q u rfl hu) ?_
        cases hu; simp [State.mapAt, hf]
      · exact pass (by simpa [View.dims] using hq) hh hg
    | span d start stop =>
      obtain ⟨hh, hg, k, hk⟩ := hg
      by_cases hq : q = d
      · subst hq
        refine bounded_span ht hs hh hk fun u hu => ih ht.1 hs.1 hg (hb.2 q u rfl hu) ?_
        cases hu; simp [State.mapAt, hf]
      · exact pass (by simpa [View.dims] using hq) hh hg
    | reverse d =>
      obtain ⟨hh, ⟨rfl, rfl, hg, hst⟩ | ⟨hq, hg⟩⟩ := hg
      · exact bounded_reverse ht hs hst hf (ih ht.1 hs.1 hg
          (hb.2 q f rfl (by simp only [View.sem, reverseSem, hf])) hf)
      · exact pass (by simpa [View.dims] using hq) hh hg
    | rename ps =>
      obtain ⟨hq, hh, hg⟩ := hg
      refine bounded_pass (q' := Sig.renameDim (ps.map Prod.swap) q) ?_ ?_ ?_ ?_ ?_
      · intro u hu
        cases hu
        exact ih ht.1 hs.1 hg (hb.2 _ _ rfl rfl) ((rename_idx ht.2.1 ht.2.2 hq f).trans hf)
      · intro i y hy
        exact con_pass (reads_rename hq) ht hs hh rfl hq
          (fun g u h => by cases h; exact rename_idx ht.2.1 ht.2.2 hq g) hy
      · intro r x hx; exact ⟨_, rfl, lower_rename hx⟩
      · intro r x hx; exact ⟨_, rfl, lowerAt_rename hx⟩
      · intro hm; exact hm.2 (by simp [View.blocksOf]) _ rfl
    | intoBlocks d maj min =>
      rcases hg with ⟨hq, rfl, hg, hum, hst⟩ | ⟨hq, hh, hg⟩
      · refine bounded_ib hq ht hs hst hum hf fun u hu => ih ht.1 hs.1 hg
          (hb.2 d u (by simp [View.inner, hq]) hu) ?_
        cases hx : u (.idx d) with
        | none => rfl
        | some x =>
          obtain ⟨i, j, nl, h1, h2, -⟩ := ib_lin hu hx
          rcases hq with rfl | rfl <;> simp_all
      · exact pass (by simpa [View.dims] using hq) hh hg
    | intoBlocksDyn d maj min pres =>
      rcases hg with ⟨hq, rfl, hg, hum, hst⟩ | ⟨hq, hh, hg⟩
      · refine bounded_ibd hq ht hs hst hum hf fun u hu => ih ht.1 hs.1 hg
          (hb.2 d u (by simp [View.inner, hq]) hu) ?_
        cases hx : u (.idx d) with
        | none => rfl
        | some x =>
          obtain ⟨i, j, nl, h1, h2, -⟩ := ibd_lin hu hx
          rcases hq with rfl | rfl <;> simp_all
      · exact pass (by simpa [View.dims] using hq) hh hg
    | intoBlocksStat d border maj min nl =>
      rcases hg with ⟨hq, hmb, rfl, hg, hum, hst⟩ | ⟨hq, hh, hg⟩
      · refine bounded_ibs hq hmb (hb.1 _ _ _ _ _ rfl hq) ht hs hst hum hf fun u hu => ih ht.1 hs.1 hg
          (hb.2 d u (by simp [View.inner, hq]) hu) ?_
        cases hx : u (.idx d) with
        | none => rfl
        | some x =>
          obtain ⟨i, j, h1, h2, -⟩ := ibs_lin hu hx
          rcases hq with rfl | rfl <;> simp_all
      · exact pass (by simpa [View.dims] using hq) hh hg
    | mergeBlocks maj min d => exact pass (by simpa [View.dims] using hg.1) hg.2.1 hg.2.2
    | step d a k => exact hg.elim
    | join a b d => exact hg.elim
    | reorder ds => exact hg.elim
    | mergeZ sl gl ds d => exact hg.elim

end Noarr
