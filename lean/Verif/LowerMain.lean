import Verif.LowerLemmas

/-
`lower_bound_along` and `lower_bound_at` of the dimensions in `Struct.goes`. Used for C41.
-/

set_option linter.unusedVariables false
set_option linter.unusedSimpArgs false

namespace Noarr

section
variable {C C' : Nat → Nat → Prop} {lw lw' la la' : Option (Val × Val) → Option Val}

theorem pick_zero {c b z : Val} {M : Nat} (h : pick c (.lit 0) b = some z) (hz : z.Num M) : M = 0 := by
  cases c <;> cases b <;> simp only [pick, Option.some.injEq, reduceCtorEq] at h <;>
    first
      | (subst h; simp [Val.Num] at hz; done)
      | (split at h
         · cases h; cases hz; rfl
         · simp at h)

theorem pick_first {c a b z : Val} {M : Nat} (h : pick c a b = some z) (hz : z.Num M)
    (hc : ∀ n, c.Num n → n = 0) : a.Num M := by
  have h0 : c.nat? = none ∨ c.nat? = some 0 := by
    cases hn : c.nat? with
    | none => exact .inl rfl
    | some n => rw [hc n hn]; exact .inr rfl
  cases c <;> cases a <;> cases b <;> simp only [pick, Option.some.injEq, reduceCtorEq] at h <;>
    first
      | (subst h; simp [Val.Num] at hz; done)
      | (split at h
         · cases h; exact hz
         · simp at h)
      | (subst h
         rw [if_pos (h0.resolve_left (by simp))] at hz
         exact hz)

theorem Rising.major (h : Rising C lw la) (hz : ∀ y, C 0 y → y = 0)
    (hw : ∀ lo hi x, lw' (some (lo, hi)) = some x → ∃ nl,
      lw (some (lo.mul .ideal nl, hi.mul .ideal nl)) = some x ∧
      ∀ i y, C' i y → ∃ K, nl.Num K ∧ C (i * K) y)
    (hC : ∀ i y, C' i y → ∃ K, C (i * K) y)
    (hw0 : ∀ x, lw' .none = some x → x = .lit 0)
    (ha : ∀ lo hi z, la' (some (lo, hi)) = some z → ∃ c, la .none = some c ∧
      pick c lo (hi.sub .ideal (.lit 1)) = some z)
    (ha0 : ∀ z, la' .none = some z → ∃ c b, pick c (.lit 0) b = some z) :
    Rising C' lw' la' where
  low lo hi x X h1 h2 L hL := by
    obtain ⟨nl, h3, h4⟩ := hw _ _ _ h1
    have key : ∀ i y, C' i y → L ≤ i → X ≤ y ∧ (i = L → y = X) := by
      intro i y hy hi
      obtain ⟨K, hK, hy⟩ := h4 i y hy
      obtain ⟨a, b⟩ := h.low _ _ x X h3 h2 (L * K) (Val.num_mul hL hK)
      exact ⟨a _ _ (Nat.mul_le_mul_right K hi) hy, by rintro rfl; exact b _ hy⟩
    exact ⟨fun i y hi hy => (key i y hy hi).1, fun y hy => (key L y hy (Nat.le_refl _)).2 rfl⟩
  bad lo hi x X h1 h2 hL := by
    obtain ⟨nl, h3, h4⟩ := hw _ _ _ h1
    refine h.bad _ _ x X h3 h2 ?_
    cases lo <;> simp at hL
    cases nl <;> rfl
  here lo hi z M h1 h2 := by
    obtain ⟨c, hc, hp⟩ := ha _ _ _ h1
    exact pick_first hp h2 fun n hn => h.here0 c n hc hn
  low0 x X h1 h2 := by
    cases hw0 x h1
    cases h2
    refine ⟨fun _ _ _ => Nat.zero_le _, fun y hy => ?_⟩
    obtain ⟨K, hy⟩ := hC 0 y hy
    exact hz y (by simpa using hy)
  here0 z M h1 h2 := by
    obtain ⟨c, b, hp⟩ := ha0 _ h1
    exact pick_zero hp h2

theorem Rising.minor (h : Rising C lw la)
    (hC : ∀ i y, C' i y → C i y)
    (hw : ∀ lo hi x, lw' (some (lo, hi)) = some x → lw (some (lo, hi)) = some x)
    (hw0 : ∀ x, lw' .none = some x → ∃ nl, lw (some (.lit 0, nl)) = some x)
    (ha : ∀ lo hi z, la' (some (lo, hi)) = some z → la (some (lo, hi)) = some z)
    (ha0 : ∀ z, la' .none = some z → ∃ nl, la (some (.lit 0, nl)) = some z) :
    Rising C' lw' la' where
  low lo hi x X h1 h2 L hL := by
    obtain ⟨a, b⟩ := h.low lo hi x X (hw _ _ _ h1) h2 L hL
    exact ⟨fun i y hi hy => a i y hi (hC _ _ hy), fun y hy => b y (hC _ _ hy)⟩
  bad lo hi x X h1 h2 hL := h.bad lo hi x X (hw _ _ _ h1) h2 hL
  here lo hi z M h1 h2 := h.here lo hi z M (ha _ _ _ h1) h2
  low0 x X h1 h2 := by
    obtain ⟨nl, h3⟩ := hw0 x h1
    obtain ⟨a, b⟩ := h.low _ _ x X h3 h2 0 rfl
    exact ⟨fun i y hy => a i y (Nat.zero_le _) (hC _ _ hy), fun y hy => b y (hC _ _ hy)⟩
  here0 z M h1 h2 := by
    obtain ⟨nl, h3⟩ := ha0 z h1
    have := h.here _ _ _ _ h3 h2
    cases this; rfl

end

/-! ### Contributions of blocks -/

/-- The contribution of the index of a block, or within a block: the difference of two contributions in
the dimension that is divided. -/
theorem con_blocks {v : View} {s : Struct} {e maj min q x : Dim} {f : State} {nl : Val}
    (hxy : (q = maj ∧ x = min) ∨ (q = min ∧ x = maj)) (hne : maj ≠ min) (hq : q ∈ v.dims)
    (ht : (Struct.view v s).tame) (hs : (Struct.view v s).sane .ideal)
    (hi : v.inner q = some e) (hfo : v.follows q) (hst : s.stored e)
    (hsub : ∀ u, (v.sem .ideal (s.sem .ideal)).sub (f.set (.idx x) (.lit 0)) = some u →
      (v.sem .ideal (s.sem .ideal)).sub f = some u)
    (hlin : Lin v (s.sem .ideal) e maj min q (f.set (.idx x) (.lit 0)) nl)
    (hoa : ∀ g o, (Struct.view v s).offAlong .ideal q g = some o → ∃ a c,
      ((v.sem .ideal (s.sem .ideal)).sub (g.set (.idx x) (.lit 0))).bind (s.offAlong .ideal e) = some a ∧
      ((v.sem .ideal (s.sem .ideal)).sub ((g.set (.idx q) (.lit 0)).set (.idx x) (.lit 0))).bind
        (s.offAlong .ideal e) = some c ∧ o = a.sub .ideal c)
    {i y : Nat} (h : Contributes (.view v s) q f i y) :
    ∃ K uf a c, nl.Num K ∧ (v.sem .ideal (s.sem .ideal)).sub f = some uf ∧
      Contributes s e uf (if q = maj then i * K else i) a ∧ Contributes s e uf 0 c ∧ y = a - c := by
  have hx : q ≠ x := by rcases hxy with ⟨rfl, rfl⟩ | ⟨rfl, rfl⟩ <;> first | exact hne | exact Ne.symm hne
  obtain ⟨g, w, o, rfl, hw, hn, ho, hy⟩ := h
  obtain ⟨va, vc, h1, h2, rfl⟩ := hoa g o ho
  obtain ⟨a, c, ha, hc, -, rfl⟩ := Val.nat?_sub.1 hy
  obtain ⟨u1, hu1, h1⟩ := Option.bind_eq_some_iff.1 h1
  obtain ⟨u2, hu2, h2⟩ := Option.bind_eq_some_iff.1 h2
  have r1 : (g.set (.idx x) (.lit 0)).remove (.idx q) = (g.remove (.idx q)).set (.idx x) (.lit 0) := by state_eq
  have r2 : ((g.set (.idx q) (.lit 0)).set (.idx x) (.lit 0)).remove (.idx q) =
      (g.remove (.idx q)).set (.idx x) (.lit 0) := by state_eq
  have e1 := sub_erase ht hs (fun h => absurd hq h) hi hfo hu1
  have e2 := sub_erase ht hs (fun h => absurd hq h) hi hfo hu2
  rw [r1] at e1
  rw [r2] at e2
  have e3 := hsub _ e1
  have e4 := e1.symm.trans e2
  have e4 := Option.some.inj e4
  obtain ⟨x1, n1, hx1, hn1⟩ := offAlong_idx ht.1 hs.1 hst h1 ha
  obtain ⟨x2, n2, hx2, hn2⟩ := offAlong_idx ht.1 hs.1 hst h2 hc
  obtain ⟨i1, j1, h3, h4, rfl⟩ := hlin _ u1 x1 r1 hu1 hx1
  obtain ⟨i2, j2, h5, h6, rfl⟩ := hlin _ u2 x2 r2 hu2 hx2
  have gx : (g.set (.idx x) (.lit 0)) (.idx q) = some w := by simp [State.set, hx, hw]
  have gx' : (g.set (.idx x) (.lit 0)) (.idx x) = some (.lit 0) := by simp [State.set]
  have gq : ((g.set (.idx q) (.lit 0)).set (.idx x) (.lit 0)) (.idx q) = some (.lit 0) := by
    simp [State.set, hx]
  have gq' : ((g.set (.idx q) (.lit 0)).set (.idx x) (.lit 0)) (.idx x) = some (.lit 0) := by
    simp [State.set]
  obtain ⟨p, J, hp, hJ, rfl⟩ := Val.nat?_add.1 hn1
  obtain ⟨I, K, hI, hK, rfl⟩ := Val.nat?_mul.1 hp
  obtain ⟨p', J', hp', hJ', rfl⟩ := Val.nat?_add.1 hn2
  obtain ⟨I', K', hI', hK', rfl⟩ := Val.nat?_mul.1 hp'
  have := Val.Num.eq hK' hK
  subst this
  refine ⟨K', u1.remove (.idx e), a, c, hK, e3, ⟨u1, _, va, rfl, hx1, ?_, h1, ha⟩,
    ⟨u2, _, vc, e4.symm, hx2, ?_, h2, hc⟩, rfl⟩
  · rw [Val.Num, hn1]
    rcases hxy with ⟨rfl, rfl⟩ | ⟨rfl, rfl⟩
    · rw [gx] at h3; cases h3
      rw [gx'] at h4; cases h4
      cases hJ
      rw [Val.Num.eq hI hn]; simp
    · rw [gx'] at h3; cases h3
      rw [gx] at h4; cases h4
      cases hI
      rw [Val.Num.eq hJ hn]; simp [Ne.symm hne]
  · rw [Val.Num, hn2]
    rcases hxy with ⟨rfl, rfl⟩ | ⟨rfl, rfl⟩
    · rw [gq] at h5; cases h5
      rw [gq'] at h6; cases h6
      cases hJ'; cases hI'; simp
    · rw [gq'] at h5; cases h5
      rw [gq] at h6; cases h6
      cases hJ'; cases hI'; simp

theorem con_ib {s : Struct} {e maj min q : Dim} {f : State} (hq : q = maj ∨ q = min)
    (ht : (Struct.view (.intoBlocks e maj min) s).tame)
    (hs : (Struct.view (.intoBlocks e maj min) s).sane .ideal) (hst : s.stored e)
    (hf : f (.idx q) = none) {i y : Nat} (h : Contributes (.view (.intoBlocks e maj min) s) q f i y) :
    ∃ nl K uf a c, ibLen e maj min (s.sem .ideal) f = some nl ∧ nl.Num K ∧
      ((View.intoBlocks e maj min).sem .ideal (s.sem .ideal)).sub f = some uf ∧
      Contributes s e uf (if q = maj then i * K else i) a ∧ Contributes s e uf 0 c ∧ y = a - c := by
  have hne : maj ≠ min := hs.2
  obtain ⟨x, hxy⟩ : ∃ x, (q = maj ∧ x = min) ∨ (q = min ∧ x = maj) := by
    rcases hq with rfl | rfl
    · exact ⟨_, .inl ⟨rfl, rfl⟩⟩
    · exact ⟨_, .inr ⟨rfl, rfl⟩⟩
  obtain ⟨g1, g2⟩ := ib_ignore (e := e) hxy hne (S := s.sem .ideal) hf (.lit 0)
  have hoa : ∀ g o, (Struct.view (.intoBlocks e maj min) s).offAlong .ideal q g = some o → ∃ a c,
      (((View.intoBlocks e maj min).sem .ideal (s.sem .ideal)).sub (g.set (.idx x) (.lit 0))).bind (s.offAlong .ideal e) = some a ∧
      (((View.intoBlocks e maj min).sem .ideal (s.sem .ideal)).sub ((g.set (.idx q) (.lit 0)).set (.idx x) (.lit 0))).bind
        (s.offAlong .ideal e) = some c ∧ o = a.sub .ideal c := by
    intro g o ho
    rcases hxy with ⟨rfl, rfl⟩ | ⟨rfl, rfl⟩
    · simp only [Struct.offAlong, if_true, bind, Option.bind_eq_some_iff, Option.some.injEq] at ho
      obtain ⟨-, -, a, ha, c, hc, rfl⟩ := ho
      exact ⟨a, c, Option.bind_eq_some_iff.2 ha, Option.bind_eq_some_iff.2 hc, rfl⟩
    · simp only [Struct.offAlong, if_true, Ne.symm hne, if_false, bind, Option.bind_eq_some_iff,
        Option.some.injEq] at ho
      obtain ⟨-, -, a, ha, c, hc, rfl⟩ := ho
      refine ⟨a, c, Option.bind_eq_some_iff.2 ha, ?_, rfl⟩
      have : (g.set (.idx q) (.lit 0)).set (.idx x) (.lit 0) = (g.set (.idx x) (.lit 0)).set (.idx q) (.lit 0) := by
        state_eq
      simp only [this]; exact Option.bind_eq_some_iff.2 hc
  cases hl : ibLen e maj min (s.sem .ideal) f with
  | none =>
    -- there is no index below then
    obtain ⟨g, w, o, rfl, hw, hn, ho, hy⟩ := h
    obtain ⟨a, c, ha, hc, rfl⟩ := hoa g o ho
    obtain ⟨n, m, hn, -⟩ := Val.nat?_sub.1 hy
    obtain ⟨u, hu, ha⟩ := Option.bind_eq_some_iff.1 ha
    obtain ⟨x1, n1, hx1, -⟩ := offAlong_idx ht.1 hs.1 hst ha hn
    obtain ⟨i, j, nl, -, -, h1, -⟩ := ib_lin hu hx1
    have e1 : ibLen e maj min (s.sem .ideal) ((g.set (.idx x) (.lit 0)).remove (.idx q)) = some nl := by
      rw [← h1]; exact ibLen_remove hq
    have e2 : (g.set (.idx x) (.lit 0)).remove (.idx q) = (g.remove (.idx q)).set (.idx x) (.lit 0) := by
      have hx : q ≠ x := by
        rcases hxy with ⟨rfl, rfl⟩ | ⟨rfl, rfl⟩ <;> first | exact hne | exact Ne.symm hne
      state_eq
    rw [e2, g2, hl] at e1
    simp at e1
  | some nl =>
    obtain ⟨K, uf, a, c, h1, h2, h3, h4, h5⟩ := con_blocks hxy hne (by simp [View.dims]; rcases hq with rfl | rfl <;> simp)
      ht hs (by simp [View.inner, hq]) (fun _ => hq) hst (fun u hu => by
        simp only [View.sem, intoBlocksSem] at hu ⊢; rw [← g1]; exact hu)
      (lin_ib (nl := nl) hq (fun nl' h => by rw [g2, hl] at h; exact Option.some.inj h)) hoa h
    exact ⟨nl, K, uf, a, c, rfl, h1, h2, h3, h4, h5⟩

theorem con_ibd {s : Struct} {e maj min pres q : Dim} {f : State} (hq : q = maj ∨ q = min)
    (ht : (Struct.view (.intoBlocksDyn e maj min pres) s).tame)
    (hs : (Struct.view (.intoBlocksDyn e maj min pres) s).sane .ideal) (hst : s.stored e)
    (hf : f (.idx q) = none) {i y : Nat} (h : Contributes (.view (.intoBlocksDyn e maj min pres) s) q f i y) :
    ∃ nl K uf a c, ibdLen e maj min pres (s.sem .ideal) f = some nl ∧ nl.Num K ∧
      ((View.intoBlocksDyn e maj min pres).sem .ideal (s.sem .ideal)).sub f = some uf ∧
      Contributes s e uf (if q = maj then i * K else i) a ∧ Contributes s e uf 0 c ∧ y = a - c := by
  have hne : maj ≠ min := hs.2.1
  obtain ⟨x, hxy⟩ : ∃ x, (q = maj ∧ x = min) ∨ (q = min ∧ x = maj) := by
    rcases hq with rfl | rfl
    · exact ⟨_, .inl ⟨rfl, rfl⟩⟩
    · exact ⟨_, .inr ⟨rfl, rfl⟩⟩
  obtain ⟨g1, g2⟩ := ibd_ignore (e := e) (pres := pres) hxy hne (S := s.sem .ideal) hf (.lit 0)
  have hoa : ∀ g o, (Struct.view (.intoBlocksDyn e maj min pres) s).offAlong .ideal q g = some o → ∃ a c,
      (((View.intoBlocksDyn e maj min pres).sem .ideal (s.sem .ideal)).sub (g.set (.idx x) (.lit 0))).bind (s.offAlong .ideal e) = some a ∧
      (((View.intoBlocksDyn e maj min pres).sem .ideal (s.sem .ideal)).sub ((g.set (.idx q) (.lit 0)).set (.idx x) (.lit 0))).bind
        (s.offAlong .ideal e) = some c ∧ o = a.sub .ideal c := by
    intro g o ho
    rcases hxy with ⟨rfl, rfl⟩ | ⟨rfl, rfl⟩
    · simp only [Struct.offAlong, if_true, bind, Option.bind_eq_some_iff, Option.some.injEq] at ho
      obtain ⟨-, -, a, ha, c, hc, rfl⟩ := ho
      exact ⟨a, c, Option.bind_eq_some_iff.2 ha, Option.bind_eq_some_iff.2 hc, rfl⟩
    · simp only [Struct.offAlong, if_true, Ne.symm hne, if_false, bind, Option.bind_eq_some_iff,
        Option.some.injEq] at ho
      obtain ⟨-, -, a, ha, c, hc, rfl⟩ := ho
      refine ⟨a, c, Option.bind_eq_some_iff.2 ha, ?_, rfl⟩
      have : (g.set (.idx q) (.lit 0)).set (.idx x) (.lit 0) = (g.set (.idx x) (.lit 0)).set (.idx q) (.lit 0) := by
        state_eq
      simp only [this]; exact Option.bind_eq_some_iff.2 hc
  cases hl : ibdLen e maj min pres (s.sem .ideal) f with
  | none =>
    obtain ⟨g, w, o, rfl, hw, hn, ho, hy⟩ := h
    obtain ⟨a, c, ha, hc, rfl⟩ := hoa g o ho
    obtain ⟨n, m, hn, -⟩ := Val.nat?_sub.1 hy
    obtain ⟨u, hu, ha⟩ := Option.bind_eq_some_iff.1 ha
    obtain ⟨x1, n1, hx1, -⟩ := offAlong_idx ht.1 hs.1 hst ha hn
    obtain ⟨i, j, nl, -, -, h1, -⟩ := ibd_lin hu hx1
    have e1 : ibdLen e maj min pres (s.sem .ideal) ((g.set (.idx x) (.lit 0)).remove (.idx q)) = some nl := by
      rw [← h1]; exact ibdLen_remove hq
    have e2 : (g.set (.idx x) (.lit 0)).remove (.idx q) = (g.remove (.idx q)).set (.idx x) (.lit 0) := by
      have hx : q ≠ x := by
        rcases hxy with ⟨rfl, rfl⟩ | ⟨rfl, rfl⟩ <;> first | exact hne | exact Ne.symm hne
      state_eq
    rw [e2, g2, hl] at e1
    simp at e1
  | some nl =>
    obtain ⟨K, uf, a, c, h1, h2, h3, h4, h5⟩ := con_blocks hxy hne (by simp [View.dims]; rcases hq with rfl | rfl <;> simp)
      ht hs (by simp [View.inner, hq]) (fun _ => hq) hst (fun u hu => by
        simp only [View.sem, intoBlocksDynSem] at hu ⊢; rw [← g1]; exact hu)
      (lin_ibd (nl := nl) hq (fun nl' h => by rw [g2, hl] at h; exact Option.some.inj h)) hoa h
    exact ⟨nl, K, uf, a, c, rfl, h1, h2, h3, h4, h5⟩

theorem con_ibs {s : Struct} {e border maj min q : Dim} {nl : Val} {f : State} (hq : q = maj ∨ q = min)
    (hmb : maj ≠ border ∧ min ≠ border) (hb : f (.idx border) = some (.lit 0))
    (ht : (Struct.view (.intoBlocksStat e border maj min nl) s).tame)
    (hs : (Struct.view (.intoBlocksStat e border maj min nl) s).sane .ideal) (hst : s.stored e)
    (hf : f (.idx q) = none) {i y : Nat} (h : Contributes (.view (.intoBlocksStat e border maj min nl) s) q f i y) :
    ∃ K uf a c, nl.Num K ∧
      ((View.intoBlocksStat e border maj min nl).sem .ideal (s.sem .ideal)).sub f = some uf ∧
      Contributes s e uf (if q = maj then i * K else i) a ∧ Contributes s e uf 0 c ∧ y = a - c := by
  have hne : maj ≠ min := hs.2
  obtain ⟨x, hxy⟩ : ∃ x, (q = maj ∧ x = min) ∨ (q = min ∧ x = maj) := by
    rcases hq with rfl | rfl
    · exact ⟨_, .inl ⟨rfl, rfl⟩⟩
    · exact ⟨_, .inr ⟨rfl, rfl⟩⟩
  have hoa : ∀ g o, (Struct.view (.intoBlocksStat e border maj min nl) s).offAlong .ideal q g = some o → ∃ a c,
      (((View.intoBlocksStat e border maj min nl).sem .ideal (s.sem .ideal)).sub (g.set (.idx x) (.lit 0))).bind (s.offAlong .ideal e) = some a ∧
      (((View.intoBlocksStat e border maj min nl).sem .ideal (s.sem .ideal)).sub ((g.set (.idx q) (.lit 0)).set (.idx x) (.lit 0))).bind
        (s.offAlong .ideal e) = some c ∧ o = a.sub .ideal c := by
    intro g o ho
    rcases hxy with ⟨rfl, rfl⟩ | ⟨rfl, rfl⟩
    · simp only [Struct.offAlong, if_true, bind, Option.bind_eq_some_iff, Option.some.injEq] at ho
      obtain ⟨-, -, a, ha, c, hc, rfl⟩ := ho
      exact ⟨a, c, Option.bind_eq_some_iff.2 ha, Option.bind_eq_some_iff.2 hc, rfl⟩
    · simp only [Struct.offAlong, if_true, Ne.symm hne, if_false, bind, Option.bind_eq_some_iff,
        Option.some.injEq] at ho
      obtain ⟨-, -, a, ha, c, hc, rfl⟩ := ho
      refine ⟨a, c, Option.bind_eq_some_iff.2 ha, ?_, rfl⟩
      have : (g.set (.idx q) (.lit 0)).set (.idx x) (.lit 0) = (g.set (.idx x) (.lit 0)).set (.idx q) (.lit 0) := by
        state_eq
      simp only [this]; exact Option.bind_eq_some_iff.2 hc
  have hqb : q ≠ border := by grind
  have hxb : x ≠ border := by grind
  have g1 := ibs_ignore (e := e) (border := border) (nl := nl) hxy hne hxb (S := s.sem .ideal) hf (.lit 0)
  exact con_blocks hxy hne (by simp [View.dims]; rcases hq with rfl | rfl <;> simp)
    ht hs (by simp [View.inner, hq]) ⟨hqb, fun _ => hq⟩ hst (fun u hu => by
      simp only [View.sem, intoBlocksStatSem] at hu ⊢; rw [← g1]; exact hu)
    (lin_ibs hqb (by simp [isBody, State.set, Ne.symm hxb, hb])) hoa h

/-! ### All structures -/

/-- What is proved for dimensions with `Struct.goes`. -/
def Struct.Bounded (up : Bool) (s : Struct) (q : Dim) (f : State) : Prop :=
  (up = true → Rising (Contributes s q f) (s.lower .ideal q f) (s.lowerAt .ideal q f) ∧
    (s.unmoved q → ∀ y, Contributes s q f 0 y → y = 0)) ∧
  (up = false → Falling (Contributes s q f) (s.lower .ideal q f) (s.lowerAt .ideal q f))

theorem bounded_pass {up : Bool} {v : View} {s : Struct} {q q' : Dim} {f : State}
    (hu : ∀ u, (v.sem .ideal (s.sem .ideal)).sub f = some u → s.Bounded up q' u)
    (hC : ∀ i y, Contributes (.view v s) q f i y →
      ∃ u, (v.sem .ideal (s.sem .ideal)).sub f = some u ∧ Contributes s q' u i y)
    (hl : ∀ r x, (Struct.view v s).lower .ideal q f r = some x →
      ∃ u, (v.sem .ideal (s.sem .ideal)).sub f = some u ∧ s.lower .ideal q' u r = some x)
    (ha : ∀ r x, (Struct.view v s).lowerAt .ideal q f r = some x →
      ∃ u, (v.sem .ideal (s.sem .ideal)).sub f = some u ∧ s.lowerAt .ideal q' u r = some x)
    (hm : (Struct.view v s).unmoved q → s.unmoved q') : (Struct.view v s).Bounded up q f := by
  cases h : (v.sem .ideal (s.sem .ideal)).sub f with
  | none =>
    have h1 : ∀ r, (Struct.view v s).lower .ideal q f r = none := by
      intro r
      cases h2 : (Struct.view v s).lower .ideal q f r with
      | none => rfl
      | some x => obtain ⟨u, hu, -⟩ := hl r x h2; rw [h] at hu; simp at hu
    have h1' : ∀ r, (Struct.view v s).lowerAt .ideal q f r = none := by
      intro r
      cases h2 : (Struct.view v s).lowerAt .ideal q f r with
      | none => rfl
      | some x => obtain ⟨u, hu, -⟩ := ha r x h2; rw [h] at hu; simp at hu
    refine ⟨fun _ => ⟨.none h1 h1', fun _ y hy => ?_⟩, fun _ => .none h1 h1'⟩
    obtain ⟨u, hu, -⟩ := hC 0 y hy
    rw [h] at hu; simp at hu
  | some u =>
    have hC' : ∀ i y, Contributes (.view v s) q f i y → Contributes s q' u i y := by
      intro i y hy
      obtain ⟨u', h1, h2⟩ := hC i y hy
      rw [h] at h1; cases h1; exact h2
    have hl' : ∀ r x, (Struct.view v s).lower .ideal q f r = some x → s.lower .ideal q' u r = some x := by
      intro i y hy
      obtain ⟨u', h1, h2⟩ := hl i y hy
      rw [h] at h1; cases h1; exact h2
    have ha' : ∀ r x, (Struct.view v s).lowerAt .ideal q f r = some x → s.lowerAt .ideal q' u r = some x := by
      intro i y hy
      obtain ⟨u', h1, h2⟩ := ha i y hy
      rw [h] at h1; cases h1; exact h2
    obtain ⟨b1, b2⟩ := hu u h
    exact ⟨fun e => ⟨(b1 e).1.mono hC' hl' ha', fun hz y hy => (b1 e).2 (hm hz) y (hC' 0 y hy)⟩,
      fun e => (b2 e).mono hC' hl' ha'⟩

theorem follows_of_not_dims {v : View} {q : Dim} (h : q ∉ v.dims) : v.follows q := by
  cases v <;> simp only [View.dims, View.follows, List.mem_cons, List.not_mem_nil, or_false, not_or,
    List.mem_append] at h ⊢ <;> grind

theorem not_blocksOf {v : View} {q : Dim} (h : q ∉ v.dims) : ¬ v.blocksOf q := by
  cases v <;> simp only [View.dims, View.blocksOf, List.mem_cons, List.not_mem_nil, or_false, not_or,
    List.mem_append] at h ⊢ <;> grind

/-- A view that does not deal with the dimension. -/
theorem bounded_other {up : Bool} {v : View} {s : Struct} {q : Dim} {f : State} (hq : q ∉ v.dims)
    (ht : (Struct.view v s).tame) (hs : (Struct.view v s).sane .ideal) (hh : ¬ s.hard q)
    (hu : ∀ u, (v.sem .ideal (s.sem .ideal)).sub f = some u → s.Bounded up q u) :
    (Struct.view v s).Bounded up q f := by
  refine bounded_pass (q' := q) hu ?_ (fun r x => lower_pass hq) (fun r x => lowerAt_pass hq) ?_
  · intro i y hy
    exact con_pass (reads_oa hq) ht hs hh (inner_of_not_dims hq) (follows_of_not_dims hq)
      (fun g u h => sub_idx hq h) hy
  · intro h
    exact h.2 (not_blocksOf hq) q (inner_of_not_dims hq)

/-- A view that adds something to the index. -/
theorem con_shift {v : View} {s : Struct} {d : Dim} {start : Val} {S : Nat} {f u : State}
    (hR : Reads v s (s.offAlong .ideal d) ((Struct.view v s).offAlong .ideal d))
    (ht : (Struct.view v s).tame) (hs : (Struct.view v s).sane .ideal) (hh : ¬ s.hard d)
    (hi : v.inner d = some d) (hf : v.follows d) (hS : start.Num S)
    (hx : ∀ g u, (v.sem .ideal (s.sem .ideal)).sub g = some u →
      u (.idx d) = (g (.idx d)).map (·.add .ideal start))
    (hu : (v.sem .ideal (s.sem .ideal)).sub f = some u) {i y : Nat}
    (h : Contributes (.view v s) d f i y) : ∃ S, start.Num S ∧ Contributes s d u (i + S) y := by
  obtain ⟨g, u', w, a, hg, hw, hn, hu1, hu2, ha, hy⟩ := con_view hR ht hs hh hi hf h
  rw [hu] at hu2
  cases hu2
  exact ⟨S, hS, u', w.add .ideal start, a, rfl, by rw [hx g u' hu1, hw]; rfl, Val.num_add hn hS, ha, hy⟩

end Noarr
