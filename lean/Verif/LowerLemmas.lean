import Verif.LowerBound

/-
What `lower_bound_along` and `lower_bound_at` mean for dimensions along which the offset grows, or gets
smaller, with the index. Used for C41.
-/

set_option linter.unusedVariables false
set_option linter.unusedSimpArgs false

namespace Noarr

/-- The number `y` is what the index `i` in the dimension `q` adds to the offset; `f` has the other
indices. -/
def Contributes (s : Struct) (q : Dim) (f : State) (i y : Nat) : Prop :=
  ∃ (g : State) (v a : Val), g.remove (.idx q) = f ∧ g (.idx q) = some v ∧ v.Num i ∧
    s.offAlong .ideal q g = some a ∧ a.Num y

/-- The dimension comes from a vector or tuple, not through `into_blocks_static`. -/
def Struct.stored : Struct → Dim → Prop
  | .scalar _ _, _ => True
  | .union _ _, _ => True
  | .tuple t _ fs, q => q = t ∨ ∀ i, (fs i).stored q
  | .vector d s, q => q = d ∨ s.stored q
  | .view v s, q => (v.follows q ∧ ∀ d border maj min nl, v = .intoBlocksStat d border maj min nl → q ∉ v.dims) ∧
    ∃ q', v.inner q = some q' ∧ s.stored q'

/-- The dimension is handed down to a vector, tuple or `bcast` by views that add something to the index
or, `up = false`, are reversed once. Blocks must be those of a dimension whose index 0 is that of the
vector; for `into_blocks_static` see `Struct.inBody`. -/
def Struct.goes : Bool → Struct → Dim → Prop
  | _, .scalar _ _, _ => True
  | _, .union _ _, _ => True
  | up, .tuple t _ fs, q => (q = t ∧ up = true) ∨ (q ≠ t ∧ ∀ i, (fs i).goes up q)
  | up, .vector d s, q => (q = d ∧ up = true) ∨ (q ≠ d ∧ s.goes up q)
  | up, .view v s, q =>
    match v with
    | .bcast d => (q = d ∧ up = true) ∨ (q ≠ d ∧ ¬ s.hard q ∧ s.goes up q)
    | .fix d _ => q ≠ d ∧ ¬ s.hard q ∧ s.goes up q
    | .setLength _ _ => ¬ s.hard q ∧ s.goes up q
    | .hoist _ => ¬ s.hard q ∧ s.goes up q
    | .shift _ start => ¬ s.hard q ∧ s.goes up q ∧ ∃ k, start.Num k
    | .slice _ start _ => ¬ s.hard q ∧ s.goes up q ∧ ∃ k, start.Num k
    | .span _ start _ => ¬ s.hard q ∧ s.goes up q ∧ ∃ k, start.Num k
    | .rename ps => (q ∈ ps.map Prod.fst → q ∈ ps.map Prod.snd) ∧
      ¬ s.hard (Sig.renameDim (ps.map Prod.swap) q) ∧ s.goes up (Sig.renameDim (ps.map Prod.swap) q)
    | .reverse d => ¬ s.hard q ∧ ((q = d ∧ up = false ∧ s.goes true d ∧ s.stored d) ∨
      (q ≠ d ∧ s.goes up q))
    | .intoBlocks d maj min =>
      ((q = maj ∨ q = min) ∧ up = true ∧ s.goes true d ∧ s.unmoved d ∧ s.stored d) ∨
      (q ∉ [d, maj, min] ∧ ¬ s.hard q ∧ s.goes up q)
    | .intoBlocksDyn d maj min pres =>
      ((q = maj ∨ q = min) ∧ up = true ∧ s.goes true d ∧ s.unmoved d ∧ s.stored d) ∨
      (q ∉ [d, maj, min, pres] ∧ ¬ s.hard q ∧ s.goes up q)
    | .intoBlocksStat d border maj min _ =>
      ((q = maj ∨ q = min) ∧ (maj ≠ border ∧ min ≠ border) ∧ up = true ∧ s.goes true d ∧ s.unmoved d ∧
        s.stored d) ∨
      (q ∉ [d, border, maj, min] ∧ ¬ s.hard q ∧ s.goes up q)
    | .mergeBlocks maj min d => q ∉ [maj, min, d] ∧ ¬ s.hard q ∧ s.goes up q
    | _ => False

/-- If the dimension is one of the two of `into_blocks_static`, the blocks are those of the body: the index
in `DimIsBorder` is the constant 0. -/
def Struct.inBody : Struct → Dim → State → Prop
  | .scalar _ _, _, _ => True
  | .union _ _, _, _ => True
  | .tuple t _ fs, q, st => ∀ i, (fs i).inBody q (st.remove (.idx t))
  | .vector d s, q, st => q = d ∨ s.inBody q (st.removeAll [.idx d, .len d])
  | .view v s, q, st =>
    (∀ d border maj min nl, v = .intoBlocksStat d border maj min nl → q = maj ∨ q = min →
      st (.idx border) = some (.lit 0)) ∧
    ∀ q' u, v.inner q = some q' → (v.sem .ideal (s.sem .ideal)).sub st = some u → s.inBody q' u

/-- The answers `lw` (`lower_bound_along`) and `la` (`lower_bound_at`) for contributions `C` that grow with
the index. -/
structure Rising (C : Nat → Nat → Prop) (lw la : Option (Val × Val) → Option Val) : Prop where
  low : ∀ lo hi x X, lw (some (lo, hi)) = some x → x.Num X → ∀ L, lo.Num L →
    (∀ i y, L ≤ i → C i y → X ≤ y) ∧ ∀ y, C L y → y = X
  bad : ∀ lo hi x X, lw (some (lo, hi)) = some x → x.Num X → lo.nat? = none → X = 0
  here : ∀ lo hi z M, la (some (lo, hi)) = some z → z.Num M → lo.Num M
  low0 : ∀ x X, lw none = some x → x.Num X → (∀ i y, C i y → X ≤ y) ∧ ∀ y, C 0 y → y = X
  here0 : ∀ z M, la none = some z → z.Num M → M = 0

/-- The answers for contributions that get smaller with the index. -/
structure Falling (C : Nat → Nat → Prop) (lw la : Option (Val × Val) → Option Val) : Prop where
  low : ∀ lo hi x X, lw (some (lo, hi)) = some x → x.Num X → ∀ H, hi.Num H → 0 < H →
    (∀ i y, i < H → C i y → X ≤ y) ∧ ∀ y, C (H - 1) y → y = X
  here : ∀ lo hi z M, la (some (lo, hi)) = some z → z.Num M → ∀ H, hi.Num H → 0 < H → M = H - 1

section
variable {C C' : Nat → Nat → Prop} {lw lw' la la' : Option (Val × Val) → Option Val}

theorem Rising.mono (h : Rising C lw la) (hC : ∀ i y, C' i y → C i y)
    (hw : ∀ r x, lw' r = some x → lw r = some x) (ha : ∀ r x, la' r = some x → la r = some x) :
    Rising C' lw' la' where
  low lo hi x X h1 h2 L hL := by
    obtain ⟨a, b⟩ := h.low lo hi x X (hw _ _ h1) h2 L hL
    exact ⟨fun i y hi hy => a i y hi (hC _ _ hy), fun y hy => b y (hC _ _ hy)⟩
  bad lo hi x X h1 h2 hL := h.bad lo hi x X (hw _ _ h1) h2 hL
  here lo hi z M h1 h2 := h.here lo hi z M (ha _ _ h1) h2
  low0 x X h1 h2 := by
    obtain ⟨a, b⟩ := h.low0 x X (hw _ _ h1) h2
    exact ⟨fun i y hy => a i y (hC _ _ hy), fun y hy => b y (hC _ _ hy)⟩
  here0 z M h1 h2 := h.here0 z M (ha _ _ h1) h2

theorem Falling.mono (h : Falling C lw la) (hC : ∀ i y, C' i y → C i y)
    (hw : ∀ r x, lw' r = some x → lw r = some x) (ha : ∀ r x, la' r = some x → la r = some x) :
    Falling C' lw' la' where
  low lo hi x X h1 h2 H hH h0 := by
    obtain ⟨a, b⟩ := h.low lo hi x X (hw _ _ h1) h2 H hH h0
    exact ⟨fun i y hi hy => a i y hi (hC _ _ hy), fun y hy => b y (hC _ _ hy)⟩
  here lo hi z M h1 h2 := h.here lo hi z M (ha _ _ h1) h2

theorem Rising.none (hw : ∀ r, lw r = none) (ha : ∀ r, la r = none) : Rising C lw la where
  low lo hi x X h1 := by simp [hw] at h1
  bad lo hi x X h1 := by simp [hw] at h1
  here lo hi x X h1 := by simp [ha] at h1
  low0 x X h1 := by simp [hw] at h1
  here0 x X h1 := by simp [ha] at h1

theorem Falling.none (hw : ∀ r, lw r = none) (ha : ∀ r, la r = none) : Falling C lw la where
  low lo hi x X h1 := by simp [hw] at h1
  here lo hi x X h1 := by simp [ha] at h1

/-- The unranged answers are the ranged ones with the range starting at `start`. -/
theorem Rising.shift (h : Rising C lw la) {start : Val}
    (hC : ∀ i y, C' i y → ∃ S, start.Num S ∧ C (i + S) y)
    (hw : ∀ lo hi x, lw' (some (lo, hi)) = some x →
      lw (some (lo.add .ideal start, hi.add .ideal start)) = some x)
    (hw0 : ∀ x, lw' .none = some x → ∃ e, lw (some (start, e)) = some x)
    (ha : ∀ lo hi x, la' (some (lo, hi)) = some x →
      ∃ z, la (some (lo.add .ideal start, hi.add .ideal start)) = some z ∧ x = z.sub .ideal start)
    (ha0 : ∀ x, la' .none = some x → ∃ e z, la (some (start, e)) = some z ∧ x = z.sub .ideal start) :
    Rising C' lw' la' where
  low lo hi x X h1 h2 L hL := by
    have key : ∀ i y, C' i y → L ≤ i → X ≤ y ∧ (i = L → y = X) := by
      intro i y hy hi
      obtain ⟨S, hS, hy⟩ := hC i y hy
      obtain ⟨a, b⟩ := h.low _ _ x X (hw _ _ _ h1) h2 (L + S) (Val.num_add hL hS)
      exact ⟨a _ _ (by omega) hy, by rintro rfl; exact b _ hy⟩
    exact ⟨fun i y hi hy => (key i y hy hi).1, fun y hy => (key L y hy (Nat.le_refl _)).2 rfl⟩
  bad lo hi x X h1 h2 hL := by
    refine h.bad _ _ x X (hw _ _ _ h1) h2 ?_
    cases lo <;> simp at hL
    cases start <;> rfl
  here lo hi z M h1 h2 := by
    obtain ⟨w, hw, rfl⟩ := ha _ _ _ h1
    obtain ⟨a, b, h3, h4, h5, rfl⟩ := Val.nat?_sub.1 h2
    have := h.here _ _ _ _ hw h3
    obtain ⟨L, S, hL, hS, rfl⟩ := Val.nat?_add.1 this
    have := Val.Num.eq h4 hS
    subst this
    rw [Nat.add_sub_cancel]; exact hL
  low0 x X h1 h2 := by
    obtain ⟨e, he⟩ := hw0 x h1
    have key : ∀ i y, C' i y → X ≤ y ∧ (i = 0 → y = X) := by
      intro i y hy
      obtain ⟨S, hS, hy⟩ := hC i y hy
      obtain ⟨a, b⟩ := h.low _ _ x X he h2 S hS
      exact ⟨a _ _ (by omega) hy, by rintro rfl; exact b _ (by simpa using hy)⟩
    exact ⟨fun i y hy => (key i y hy).1, fun y hy => (key 0 y hy).2 rfl⟩
  here0 z M h1 h2 := by
    obtain ⟨e, w, hw, rfl⟩ := ha0 _ h1
    obtain ⟨a, b, h3, h4, h5, rfl⟩ := Val.nat?_sub.1 h2
    have := Val.Num.eq (h.here _ _ _ _ hw h3) h4
    omega

theorem Falling.shift (h : Falling C lw la) {start : Val}
    (hC : ∀ i y, C' i y → ∃ S, start.Num S ∧ C (i + S) y)
    (hw : ∀ lo hi x, lw' (some (lo, hi)) = some x →
      lw (some (lo.add .ideal start, hi.add .ideal start)) = some x)
    (ha : ∀ lo hi x, la' (some (lo, hi)) = some x →
      ∃ z, la (some (lo.add .ideal start, hi.add .ideal start)) = some z ∧ x = z.sub .ideal start) :
    Falling C' lw' la' where
  low lo hi x X h1 h2 H hH h0 := by
    have key : ∀ i y, C' i y → i < H → X ≤ y ∧ (i + 1 = H → y = X) := by
      intro i y hy hi
      obtain ⟨S, hS, hy⟩ := hC i y hy
      obtain ⟨a, b⟩ := h.low _ _ x X (hw _ _ _ h1) h2 (H + S) (Val.num_add hH hS) (by omega)
      refine ⟨a _ _ (by omega) hy, fun he => b _ ?_⟩
      have : H + S - 1 = i + S := by omega
      rw [this]; exact hy
    exact ⟨fun i y hi hy => (key i y hy hi).1, fun y hy => (key (H - 1) y hy (by omega)).2 (by omega)⟩
  here lo hi z M h1 h2 H hH h0 := by
    obtain ⟨w, hw, rfl⟩ := ha _ _ _ h1
    obtain ⟨a, b, h3, h4, h5, rfl⟩ := Val.nat?_sub.1 h2
    have := h.here _ _ _ _ hw h3 (H + b) (Val.num_add hH h4) (by omega)
    omega

/-- The reversed dimension, `l` the length. -/
theorem Rising.reverse (h : Rising C lw la) {l : Val}
    (hC : ∀ i y, C' i y → ∃ N, l.Num N ∧ i < N ∧ C (N - 1 - i) y)
    (hw : ∀ lo hi x, lw' (some (lo, hi)) = some x → ∃ e, lw (some (l.sub .ideal hi, e)) = some x)
    (ha : ∀ lo hi x, la' (some (lo, hi)) = some x →
      ∃ e z, la (some (l.sub .ideal hi, e)) = some z ∧ x = (l.sub .ideal (.lit 1)).sub .ideal z) :
    Falling C' lw' la' where
  low lo hi x X h1 h2 H hH h0 := by
    obtain ⟨e, he⟩ := hw _ _ _ h1
    have key : ∀ i y, C' i y → i < H → X ≤ y ∧ (i + 1 = H → y = X) := by
      intro i y hy hi
      obtain ⟨N, hN, hiN, hy⟩ := hC i y hy
      by_cases hle : H ≤ N
      · obtain ⟨a, b⟩ := h.low _ _ x X he h2 (N - H) (Val.nat?_sub.2 ⟨N, H, hN, hH, hle, rfl⟩)
        refine ⟨a _ _ (by omega) hy, fun hh => b _ ?_⟩
        have : N - H = N - 1 - i := by omega
        rw [this]; exact hy
      · have : X = 0 := by
          refine h.bad _ _ x X he h2 ?_
          cases hn : (l.sub .ideal _).nat? with
          | none => rfl
          | some n =>
            obtain ⟨a, b, h3, h4, h5, -⟩ := Val.nat?_sub.1 hn
            have := Val.Num.eq h3 hN
            have := Val.Num.eq h4 hH
            omega
        exact ⟨by omega, fun hh => by omega⟩
    exact ⟨fun i y hi hy => (key i y hy hi).1, fun y hy => (key (H - 1) y hy (by omega)).2 (by omega)⟩
  here lo hi z M h1 h2 H hH h0 := by
    obtain ⟨e, w, hw, rfl⟩ := ha _ _ _ h1
    obtain ⟨a, b, h3, h4, h5, rfl⟩ := Val.nat?_sub.1 h2
    obtain ⟨N, o, h6, h7, h8, rfl⟩ := Val.nat?_sub.1 h3
    have := h.here _ _ _ _ hw h4
    obtain ⟨N', H', h9, h10, h11, rfl⟩ := Val.nat?_sub.1 this
    have := Val.Num.eq h9 h6
    have := Val.Num.eq h10 hH
    have : (1 : Nat) = o := Val.Num.eq (v := .lit 1) rfl h7
    omega

end

/-! ### Contributions of views -/

theorem con_view {v : View} {s : Struct} {q q' : Dim}
    (hR : Reads v s (s.offAlong .ideal q') ((Struct.view v s).offAlong .ideal q))
    (ht : (Struct.view v s).tame) (hs : (Struct.view v s).sane .ideal) (hh : ¬ s.hard q')
    (hi : v.inner q = some q') (hf : v.follows q) {f : State} {i y : Nat}
    (h : Contributes (.view v s) q f i y) :
    ∃ g u w a, g.remove (.idx q) = f ∧ g (.idx q) = some w ∧ w.Num i ∧
      (v.sem .ideal (s.sem .ideal)).sub g = some u ∧
      (v.sem .ideal (s.sem .ideal)).sub f = some (u.remove (.idx q')) ∧
      s.offAlong .ideal q' u = some a ∧ a.Num y := by
  obtain ⟨g, w, a, rfl, hw, hn, ha, hy⟩ := h
  obtain ⟨u, hu, ho⟩ := hR g a ha
  refine ⟨g, u, w, a, rfl, hw, hn, hu, ?_, ho, hy⟩
  refine sub_erase ht hs (fun hq => ?_) hi hf hu
  have : q' = q := by rw [inner_of_not_dims hq] at hi; exact (Option.some.inj hi).symm
  rw [← this]; exact hh

theorem con_pass {v : View} {s : Struct} {q q' : Dim}
    (hR : Reads v s (s.offAlong .ideal q') ((Struct.view v s).offAlong .ideal q))
    (ht : (Struct.view v s).tame) (hs : (Struct.view v s).sane .ideal) (hh : ¬ s.hard q')
    (hi : v.inner q = some q') (hf : v.follows q) {f : State} {i y : Nat}
    (hx : ∀ g u, (v.sem .ideal (s.sem .ideal)).sub g = some u → u (.idx q') = g (.idx q))
    (h : Contributes (.view v s) q f i y) :
    ∃ u, (v.sem .ideal (s.sem .ideal)).sub f = some u ∧ Contributes s q' u i y := by
  obtain ⟨g, u, w, a, hg, hw, hn, hu, hu', ha, hy⟩ := con_view hR ht hs hh hi hf h
  exact ⟨_, hu', u, w, a, rfl, (hx g u hu).trans hw, hn, ha, hy⟩

theorem rename_idx {ps : List (Dim × Dim)} (h1 : (ps.map Prod.fst).Nodup) (h2 : (ps.map Prod.snd).Nodup)
    {q : Dim} (hq : q ∈ ps.map Prod.fst → q ∈ ps.map Prod.snd) (g : State) :
    renameState ps g (.idx (Sig.renameDim (ps.map Prod.swap) q)) = g (.idx q) := by
  rw [renameState_idx]
  by_cases hm : q ∈ ps.map Prod.snd
  · obtain ⟨⟨n, e⟩, hne, rfl⟩ := List.mem_map.1 hm
    have hsw : (e, n) ∈ ps.map Prod.swap := List.mem_map.2 ⟨_, hne, rfl⟩
    have hnd : ((ps.map Prod.swap).map Prod.fst).Nodup := by
      simpa [List.map_map, Function.comp_def] using h2
    rw [renameDim_of_mem hnd hsw]
    rw [if_pos (.inl (List.mem_map.2 ⟨_, hne, rfl⟩)), renameDim_of_mem h1 hne]
  · have hn : q ∉ ps.map Prod.fst := fun h => hm (hq h)
    have e : Sig.renameDim (ps.map Prod.swap) q = q := renameDim_of_not_mem (by simpa using hm)
    rw [e, if_pos (.inr hm), renameDim_of_not_mem hn]

theorem reads_rename {ps : List (Dim × Dim)} {s : Struct} {q : Dim}
    (hq : q ∈ ps.map Prod.fst → q ∈ ps.map Prod.snd) :
    Reads (.rename ps) s (s.offAlong .ideal (Sig.renameDim (ps.map Prod.swap) q))
      ((Struct.view (.rename ps) s).offAlong .ideal q) := by
  intro g o ho
  have hn : ¬ (q ∈ ps.map Prod.fst ∧ q ∉ ps.map Prod.snd) := fun h => h.2 (hq h.1)
  simp only [Struct.offAlong, hn, if_false, bind, Option.bind_eq_some_iff, Option.some.injEq] at ho
  obtain ⟨o', ⟨u, hu, h⟩, rfl⟩ := ho
  exact ⟨u, hu, h⟩

/-! ### Answers of views -/

/-- A dimension that the view does not deal with. -/
theorem lower_pass {v : View} {s : Struct} {q : Dim} (hq : q ∉ v.dims) {f : State} {r : Option (Val × Val)}
    {x : Val} (h : (Struct.view v s).lower .ideal q f r = some x) :
    ∃ u, (v.sem .ideal (s.sem .ideal)).sub f = some u ∧ s.lower .ideal q u r = some x := by
  simp only [Struct.lower] at h
  split at h
  · simp at h
  split at h
  · simp at h
  next u hu =>
  refine ⟨u, hu, ?_⟩
  cases v <;> simp only [View.dims, List.mem_cons, List.not_mem_nil, or_false, not_or,
    List.mem_append] at hq <;> simp only [hq, if_false, reduceCtorEq, or_self] at h <;>
    first | exact h | skip
  next ps _ =>
    have e1 : Sig.renameDim (ps.map Prod.swap) q = q := renameDim_of_not_mem (by simpa using hq.2)
    rwa [e1] at h

theorem lowerAt_pass {v : View} {s : Struct} {q : Dim} (hq : q ∉ v.dims) {f : State} {r : Option (Val × Val)}
    {x : Val} (h : (Struct.view v s).lowerAt .ideal q f r = some x) :
    ∃ u, (v.sem .ideal (s.sem .ideal)).sub f = some u ∧ s.lowerAt .ideal q u r = some x := by
  simp only [Struct.lowerAt] at h
  split at h
  · simp at h
  split at h
  · simp at h
  next u hu =>
  refine ⟨u, hu, ?_⟩
  cases v <;> simp only [View.dims, List.mem_cons, List.not_mem_nil, or_false, not_or,
    List.mem_append] at hq <;> simp only [hq, if_false, reduceCtorEq, or_self] at h <;>
    first | exact h | skip
  next ps _ =>
    have e1 : Sig.renameDim (ps.map Prod.swap) q = q := renameDim_of_not_mem (by simpa using hq.2)
    rwa [e1] at h
  next =>
    split at h
    · simp at h
    · exact h

theorem lower_rename {ps : List (Dim × Dim)} {s : Struct} {q : Dim} {f : State} {r : Option (Val × Val)}
    {x : Val} (h : (Struct.view (.rename ps) s).lower .ideal q f r = some x) :
    s.lower .ideal (Sig.renameDim (ps.map Prod.swap) q) (renameState ps f) r = some x := by
  simp only [Struct.lower] at h
  split at h
  · simp at h
  exact h

theorem lowerAt_rename {ps : List (Dim × Dim)} {s : Struct} {q : Dim} {f : State} {r : Option (Val × Val)}
    {x : Val} (h : (Struct.view (.rename ps) s).lowerAt .ideal q f r = some x) :
    s.lowerAt .ideal (Sig.renameDim (ps.map Prod.swap) q) (renameState ps f) r = some x := by
  simp only [Struct.lowerAt] at h
  split at h
  · simp at h
  exact h

/-! ### Dimensions whose contribution reads an index -/

theorem offAlong_idx {s : Struct} (ht : s.tame) (hs : s.sane .ideal) {q : Dim} (hst : s.stored q)
    {f : State} {a : Val} {y : Nat} (h : s.offAlong .ideal q f = some a) (hy : a.Num y) :
    ∃ w n, f (.idx q) = some w ∧ w.Num n := by
  induction s generalizing q f a y with
  | scalar => simp [Struct.offAlong] at h
  | union => simp [Struct.offAlong] at h
  | tuple t n fs ih =>
    simp only [Struct.offAlong, bind, Option.bind_eq_some_iff] at h
    obtain ⟨k, hk, h⟩ := h
    split at h
    rotate_left
    · simp at h
    by_cases hq : q = t
    · subst hq; exact ⟨_, k, constIdx_eq hk, rfl⟩
    · simp only [hq, if_false] at h
      have := ih _ (ht _) (hs.1 _) (hst.resolve_left hq _) h hy
      simpa [State.remove, hq] using this
  | vector d s ih =>
    simp only [Struct.offAlong] at h
    by_cases hq : q = d
    · subst hq
      simp only [if_true, bind, Option.bind_eq_some_iff, Option.some.injEq] at h
      obtain ⟨-, -, i, hi, sz, -, rfl⟩ := h
      obtain ⟨I, N, hI, hN, rfl⟩ := Val.nat?_mul.1 hy
      exact ⟨i, I, hi, hI⟩
    · simp only [hq, if_false] at h
      have := ih ht hs (hst.resolve_left hq) h hy
      simpa [State.removeAll, hq] using this
  | view v s ih =>
    obtain ⟨hfo, q', hi, hst⟩ := hst
    have key : ∀ u b n, s.offAlong .ideal q' u = some b → b.Num n →
        ∃ w n, u (.idx q') = some w ∧ w.Num n := fun u b n hb hn => ih ht.1 hs.1 hst hb hn
    have hmap : ∀ (st : State) d k, (∃ w n, (st.mapAt (.idx d) k) (.idx d) = some w ∧ w.Num n) →
        ∃ i w n, st (.idx d) = some i ∧ k i = w ∧ w.Num n := by
      rintro st d k ⟨w, n, h1, h2⟩
      simp only [State.mapAt, if_true, Option.map_eq_some_iff] at h1
      obtain ⟨i, h3, h4⟩ := h1
      exact ⟨i, w, n, h3, h4, h2⟩
    by_cases hq : q ∉ v.dims
    · have : q' = q := by rw [inner_of_not_dims hq] at hi; exact (Option.some.inj hi).symm
      subst this
      obtain ⟨u, hu, ho⟩ := reads_oa hq f a h
      rw [← sub_idx hq hu]
      exact key u a y ho hy
    have hq := Classical.not_not.1 hq
    have hbl : ∀ (e maj min x : Dim), ((q = maj ∧ x = min) ∨ (q = min ∧ x = maj)) → maj ≠ min → q' = e →
        (∀ g u w, (v.sem .ideal (s.sem .ideal)).sub g = some u → u (.idx e) = some w → ∃ i j nl,
          g (.idx maj) = some i ∧ g (.idx min) = some j ∧ w = (i.mul .ideal nl).add .ideal j) →
        (∃ b c, ((v.sem .ideal (s.sem .ideal)).sub (f.set (.idx x) (.lit 0))).bind (s.offAlong .ideal e) = some b ∧
          a = b.sub .ideal c) → ∃ w n, f (.idx q) = some w ∧ w.Num n := by
      rintro e maj min x hxy hne rfl hlin ⟨b, c, hb, rfl⟩
      obtain ⟨u, hu, hb⟩ := Option.bind_eq_some_iff.1 hb
      obtain ⟨n, m, hn, -⟩ := Val.nat?_sub.1 hy
      obtain ⟨w, k, hw, hk⟩ := key u b n hb hn
      obtain ⟨i, j, nl, h1, h2, rfl⟩ := hlin _ u w hu hw
      obtain ⟨p, J, hp, hJ, -⟩ := Val.nat?_add.1 hk
      obtain ⟨I, K, hI, hK, -⟩ := Val.nat?_mul.1 hp
      rcases hxy with ⟨rfl, rfl⟩ | ⟨rfl, rfl⟩
      · refine ⟨i, I, ?_, hI⟩
        simpa [State.set, hne] using h1
      · refine ⟨j, J, ?_, hJ⟩
        simpa [State.set, Ne.symm hne] using h2
    cases v with
    | bcast e => simp [View.dims] at hq; simp [View.inner, hq] at hi
    | fix e i => simp [View.dims] at hq; exact absurd hq hfo.1
    | setLength e l => simp [View.dims] at hq
    | reorder ds => simp [View.dims] at hq
    | hoist e => simp [View.dims] at hq
    | shift e k =>
      simp [View.dims] at hq; subst hq; cases hi
      simp only [Struct.offAlong] at h
      obtain ⟨u, hu, h⟩ := Option.bind_eq_some_iff.1 h
      have := key u a y h hy
      cases hu
      have e : ((f.mapAt (.idx q) (·.add .ideal k)).mapAt (.len q) (·.add .ideal k)) (.idx q) =
        (f.mapAt (.idx q) (·.add .ideal k)) (.idx q) := by simp [State.mapAt]
      have this : ∃ w n, (f.mapAt (.idx q) (·.add .ideal k)) (.idx q) = some w ∧ w.Num n := by
        rw [← e]; exact this
      obtain ⟨i, w, n, h1, rfl, h2⟩ := hmap f q (·.add .ideal k) this
      obtain ⟨I, K, hI, -⟩ := Val.nat?_add.1 h2
      exact ⟨i, I, h1, hI⟩
    | slice e k l =>
      simp [View.dims] at hq; subst hq; cases hi
      simp only [Struct.offAlong] at h
      obtain ⟨u, hu, h⟩ := Option.bind_eq_some_iff.1 h
      have := key u a y h hy
      cases hu
      obtain ⟨i, w, n, h1, rfl, h2⟩ := hmap f q (·.add .ideal k) this
      obtain ⟨I, K, hI, -⟩ := Val.nat?_add.1 h2
      exact ⟨i, I, h1, hI⟩
    | span e k l =>
      simp [View.dims] at hq; subst hq; cases hi
      simp only [Struct.offAlong] at h
      obtain ⟨u, hu, h⟩ := Option.bind_eq_some_iff.1 h
      have := key u a y h hy
      cases hu
      obtain ⟨i, w, n, h1, rfl, h2⟩ := hmap f q (·.add .ideal k) this
      obtain ⟨I, K, hI, -⟩ := Val.nat?_add.1 h2
      exact ⟨i, I, h1, hI⟩
    | step e k l =>
      simp [View.dims] at hq; subst hq; cases hi
      simp only [Struct.offAlong] at h
      obtain ⟨u, hu, h⟩ := Option.bind_eq_some_iff.1 h
      have := key u a y h hy
      cases hu
      obtain ⟨i, w, n, h1, rfl, h2⟩ := hmap f q (fun i => (i.mul .ideal l).add .ideal k) this
      obtain ⟨I, K, hI, -⟩ := Val.nat?_add.1 h2
      obtain ⟨I, K, hI, -⟩ := Val.nat?_mul.1 hI
      exact ⟨i, I, h1, hI⟩
    | reverse e =>
      simp [View.dims] at hq; subst hq; cases hi
      simp only [Struct.offAlong] at h
      obtain ⟨u, hu, h⟩ := Option.bind_eq_some_iff.1 h
      obtain ⟨w, n, hw, hn⟩ := key u a y h hy
      simp only [View.sem, reverseSem] at hu
      split at hu
      · cases hu; exact ⟨w, n, hw, hn⟩
      · next i hi =>
        split at hu
        · simp at hu
        · cases hu; simp [State.remove] at hw
        · simp only [bind, Option.bind_eq_some_iff, Option.some.injEq] at hu
          obtain ⟨l, -, rfl⟩ := hu
          simp only [State.set, if_true, Option.some.injEq] at hw
          subst hw
          obtain ⟨A, I, -, hI, -⟩ := Val.nat?_sub.1 hn
          exact ⟨i, I, hi, hI⟩
    | rename ps =>
      cases hi
      obtain ⟨u, hu, h⟩ := reads_rename hfo.1 f a h
      have := key u a y h hy
      cases hu
      rwa [rename_idx ht.2.1 ht.2.2 hfo.1 f] at this
    | join a b e => simp [View.dims] at hq; simp [View.follows] at hfo; grind
    | mergeBlocks maj min e => simp [View.dims] at hq; simp [View.follows] at hfo; grind
    | mergeZ sl gl ds e => simp [View.dims] at hq; simp [View.follows] at hfo; grind
    | intoBlocks e maj min =>
      have hdm : q = maj ∨ q = min := by
        simp [View.dims] at hq; simp [View.follows] at hfo; grind
      simp only [View.inner, hdm, ↓reduceIte, Option.some.injEq] at hi
      have hlin := fun g u w (h1 : ((View.intoBlocks e maj min).sem .ideal (s.sem .ideal)).sub g = some u)
        (h2 : u (.idx e) = some w) => ib_lin h1 h2
      simp only [Struct.offAlong] at h
      by_cases hqm : q = maj
      · simp only [hqm, if_true, bind, Option.bind_eq_some_iff, Option.some.injEq] at h
        obtain ⟨-, -, b, hb, c, hc, rfl⟩ := h
        refine hbl e maj min min (.inl ⟨hqm, rfl⟩) hs.2 hi.symm ?_ ⟨b, c, Option.bind_eq_some_iff.2 hb, rfl⟩
        intro g u w h1 h2
        obtain ⟨i, j, nl, h3, h4, -, h5⟩ := hlin g u w h1 h2
        exact ⟨i, j, nl, h3, h4, h5⟩
      · have hqn := hdm.resolve_left hqm
        have hne : min ≠ maj := Ne.symm hs.2
        simp only [hqn, hne, if_true, if_false, bind, Option.bind_eq_some_iff, Option.some.injEq] at h
        obtain ⟨-, -, b, hb, c, hc, rfl⟩ := h
        refine hbl e maj min maj (.inr ⟨hqn, rfl⟩) hs.2 hi.symm ?_ ⟨b, c, Option.bind_eq_some_iff.2 hb, rfl⟩
        intro g u w h1 h2
        obtain ⟨i, j, nl, h3, h4, -, h5⟩ := hlin g u w h1 h2
        exact ⟨i, j, nl, h3, h4, h5⟩
    | intoBlocksDyn e maj min pres =>
      have hdm : q = maj ∨ q = min := by
        simp [View.dims] at hq; simp [View.follows] at hfo; simp [View.inner] at hi; grind
      simp only [View.inner, hdm, ↓reduceIte, Option.some.injEq] at hi
      have hlin := fun g u w (h1 : ((View.intoBlocksDyn e maj min pres).sem .ideal (s.sem .ideal)).sub g = some u)
        (h2 : u (.idx e) = some w) => ibd_lin h1 h2
      simp only [Struct.offAlong] at h
      by_cases hqm : q = maj
      · simp only [hqm, if_true, bind, Option.bind_eq_some_iff, Option.some.injEq] at h
        obtain ⟨-, -, b, hb, c, hc, rfl⟩ := h
        refine hbl e maj min min (.inl ⟨hqm, rfl⟩) hs.2.1 hi.symm ?_ ⟨b, c, Option.bind_eq_some_iff.2 hb, rfl⟩
        intro g u w h1 h2
        obtain ⟨i, j, nl, h3, h4, -, h5⟩ := hlin g u w h1 h2
        exact ⟨i, j, nl, h3, h4, h5⟩
      · have hqn := hdm.resolve_left hqm
        have hne : min ≠ maj := Ne.symm hs.2.1
        simp only [hqn, hne, if_true, if_false, bind, Option.bind_eq_some_iff, Option.some.injEq] at h
        obtain ⟨-, -, b, hb, c, hc, rfl⟩ := h
        refine hbl e maj min maj (.inr ⟨hqn, rfl⟩) hs.2.1 hi.symm ?_ ⟨b, c, Option.bind_eq_some_iff.2 hb, rfl⟩
        intro g u w h1 h2
        obtain ⟨i, j, nl, h3, h4, -, h5⟩ := hlin g u w h1 h2
        exact ⟨i, j, nl, h3, h4, h5⟩
    | intoBlocksStat e border maj min nl =>
      exact absurd hq (hfo.2 e border maj min nl rfl)

end Noarr
