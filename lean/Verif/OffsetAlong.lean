import Verif.AlongStride

/-
The introspection query `offset_along`. `none`: not available, or does not compile. The class template is
specialised for the structures below; all others, in particular `scalar`, `reorder_t`,
`merge_zcurve_t` and the structure of a traverser, inherit `std::false_type`
(introspection/offset_along.hpp:22-24).
-/

set_option linter.unusedVariables false
set_option linter.unusedSimpArgs false

namespace Noarr

/-- `helpers::has_offset_along<QDim, T, State>` (introspection/offset_along.hpp:22-457), `value` and
`offset` folded into one partial function. -/
def Struct.offAlong (A : Arith) : Struct → Dim → State → Option Val
  | .scalar _ _, _, _ => none
  | .union _ _, _, _ => none
  -- lines 79-112; the length is needed but not used
  | .vector d s, q, st =>
    let sub := st.removeAll [.idx d, .len d]
    if q = d then do
      let _ ← st (.len d)
      let i ← st (.idx d)
      let sz ← (s.sem A).size sub
      some (i.mul A sz)
    else s.offAlong A q sub
  -- lines 114-157
  | .tuple t n fs, q, st => do
    let k ← constIdx (st (.idx t))
    if h : k < n then
      if q = t then do
        let before ← sizeAcc A (st.remove (.idx t)) ((List.ofFn fun i => (fs i).sem A).take k) (.lit 0)
        some (before.add A (.lit 0))
      else (fs ⟨k, h⟩).offAlong A q (st.remove (.idx t))
    else none
  | .view v s, q, st =>
    let below (d : Dim) (st : State) : Option Val :=
      ((v.sem A (s.sem A)).sub st).bind (s.offAlong A d)
    match v with
    -- lines 46-78
    | .bcast d => if q = d then some (.lit 0) else below q st
    -- lines 26-45, 159-168, 240-257
    | .fix _ _ => below q st
    | .setLength _ _ => below q st
    | .hoist _ => below q st
    | .shift _ _ => below q st
    | .slice _ _ _ => below q st
    | .span _ _ _ => below q st
    | .step _ _ _ => below q st
    | .reverse _ => below q st
    -- lines 170-199; `false` is the number 0
    | .rename ps => do
      let o ← below (Sig.renameDim (ps.map Prod.swap) q) st
      if q ∈ ps.map Prod.fst ∧ q ∉ ps.map Prod.snd then some (.dyn 0) else some o
    -- lines 201-238; the operands of the built-in `+` are converted to numbers
    | .join a b d =>
      if q = d then do
        let x ← below a st
        let y ← below b st
        some (x.toDyn.add A y.toDyn)
      else if q = a ∨ q = b then none
      else below q st
    -- lines 259-303
    | .intoBlocks d maj min =>
      let base := (st.set (.idx maj) (.lit 0)).set (.idx min) (.lit 0)
      if q = maj then do
        let _ ← below d st
        let x ← below d (st.set (.idx min) (.lit 0))
        let y ← below d base
        some (x.sub A y)
      else if q = min then do
        let _ ← below d st
        let x ← below d (st.set (.idx maj) (.lit 0))
        let y ← below d base
        some (x.sub A y)
      else if q = d then none
      else below q st
    -- lines 305-366
    | .intoBlocksStat d border maj min _ =>
      let base := (st.set (.idx maj) (.lit 0)).set (.idx min) (.lit 0)
      if q = maj then do
        let _ ← below d st
        let x ← below d (st.set (.idx min) (.lit 0))
        let y ← below d base
        some (x.sub A y)
      else if q = min then do
        let _ ← below d st
        let x ← below d (st.set (.idx maj) (.lit 0))
        let y ← below d base
        some (x.sub A y)
      else if q = border then do
        let _ ← below d st
        let x ← below d base
        let y ← below d (base.set (.idx border) (.lit 0))
        some (x.sub A y)
      else if q = d then none
      else below q st
    -- lines 368-425
    | .intoBlocksDyn d maj min pres =>
      let base := (st.set (.idx maj) (.lit 0)).set (.idx min) (.lit 0)
      if q = maj then do
        let _ ← below d st
        let x ← below d (st.set (.idx min) (.lit 0))
        let y ← below d base
        some (x.sub A y)
      else if q = min then do
        let _ ← below d st
        let x ← below d (st.set (.idx maj) (.lit 0))
        let y ← below d base
        some (x.sub A y)
      else if q = pres then do
        let _ ← below d st
        some (.lit 0)
      else if q = d then none
      else below q st
    -- lines 427-457; again the built-in `+`
    | .mergeBlocks maj min d =>
      if q = d then do
        let x ← below maj st
        let y ← below min st
        some (x.toDyn.add A y.toDyn)
      else if q = maj ∨ q = min then none
      else below q st
    | .reorder _ => none
    | .mergeZ _ _ _ _ => none

/-- The index in `d` is handed down to a vector by an affine translation: the dimension is not fixed,
joined, merged or the index of a tuple, and, if it is divided into blocks, it is not the index of the border
part. And the vector does not have the constant length 1 (its offset ignores the index then). -/
def Struct.linear (A : Arith) : Struct → Dim → State → Prop
  | .scalar _ _, _, _ => True
  | .union _ _, _, _ => True
  | .tuple t _ fs, d, st => d ≠ t ∧ ∀ i, (fs i).linear A d (st.remove (.idx t))
  | .vector e s, d, st => (d = e ∧ st (.len e) ≠ some (.lit 1)) ∨
    (d ≠ e ∧ s.linear A d (st.removeAll [.idx e, .len e]))
  | .view v s, d, st => v.follows d ∧ v.straight d st ∧
    ∀ d' u, v.inner d = some d' → (v.sem A (s.sem A)).sub st = some u → s.linear A d' u

/-- No `shift`, `slice`, `span`, `step` or `reverse` in the dimension, unless below a division into
blocks. -/
def View.keepsZero (d : Dim) : View → Prop
  | .shift e _ => d ≠ e
  | .slice e _ _ => d ≠ e
  | .span e _ _ => d ≠ e
  | .step e _ _ => d ≠ e
  | .reverse e => d ≠ e
  | _ => True

/-- The dimension is one of the blocks, or of the elements of a block. -/
def View.blocksOf (d : Dim) : View → Prop
  | .intoBlocks _ maj min => d = maj ∨ d = min
  | .intoBlocksDyn _ maj min _ => d = maj ∨ d = min
  | .intoBlocksStat _ _ maj min _ => d = maj ∨ d = min
  | _ => False

/-- `View.keepsZero` for all the views between the dimension and the vector or division it comes from. -/
def Struct.unmoved : Struct → Dim → Prop
  | .scalar _ _, _ => True
  | .union _ _, _ => True
  | .tuple _ _ fs, d => ∀ i, (fs i).unmoved d
  | .vector e s, d => d = e ∨ s.unmoved d
  | .view v s, d => v.keepsZero d ∧ (¬ v.blocksOf d → ∀ d', v.inner d = some d' → s.unmoved d')

/-- Nothing is contributed by the index 0. -/
def ZeroFn (F : State → Option Val) (d : Dim) (f : State) : Prop :=
  ∀ (g : State) (i o : Val) (n : Nat), g.remove (.idx d) = f → g (.idx d) = some i → i.Num 0 →
    F g = some o → o.Num n → n = 0

theorem zero_view {v : View} {s : Struct} {F F' : State → Option Val} {d d' : Dim} {f : State}
    (hR : Reads v s F F')
    (hsub : ∀ g u, g.remove (.idx d) = f → (v.sem .ideal (s.sem .ideal)).sub g = some u →
      (v.sem .ideal (s.sem .ideal)).sub f = some (u.remove (.idx d')) ∧ u (.idx d') = g (.idx d))
    (H : ∀ uf, (v.sem .ideal (s.sem .ideal)).sub f = some uf → ZeroFn F d' uf) : ZeroFn F' d f := by
  intro g i o n hg hi h0 ho hn
  obtain ⟨u, hu, ho⟩ := hR g o ho
  obtain ⟨e1, e2⟩ := hsub g u hg hu
  exact H _ e1 u i o n rfl (e2.trans hi) h0 ho hn

/-! ### Both are affine with the same slope -/

theorem sizeAcc_firm {n : Nat} {fs : Fin n → Struct} {g h : State} {k : Nat} {x y : Val}
    (hf : ∀ i, Firm (fs i) g) (hl : SameLens g h)
    (h1 : sizeAcc .ideal g ((List.ofFn fun i => (fs i).sem .ideal).take k) (.lit 0) = some x)
    (h2 : sizeAcc .ideal h ((List.ofFn fun i => (fs i).sem .ideal).take k) (.lit 0) = some y) : x = y := by
  have key : ∀ (l : List Sem), (∀ S ∈ l, ∀ x y, S.size g = some x → S.size h = some y → x = y) →
      (∀ S ∈ l, ∀ x y, S.align g = some x → S.align h = some y → x = y) →
      ∀ start x y, sizeAcc .ideal g l start = some x → sizeAcc .ideal h l start = some y → x = y := by
    intro l hl hl2
    induction l with
    | nil => intro start x y h1 h2; simp [sizeAcc] at h1 h2; rw [← h1, ← h2]
    | cons S l ihl =>
      intro start x y h1 h2
      simp only [sizeAcc, bind, Option.bind_eq_some_iff] at h1 h2
      obtain ⟨a, ha, b, hb, he⟩ := h1
      obtain ⟨a', ha', b', hb', he'⟩ := h2
      cases hl S (by simp) _ _ hb hb'
      cases hl2 S (by simp) _ _ ha ha'
      exact ihl (fun S h => hl S (by simp [h])) (fun S h => hl2 S (by simp [h])) _ _ _ he he'
  refine key _ ?_ ?_ _ _ _ h1 h2
  · intro S hS x y h1 h3
    have := List.mem_of_mem_take hS
    rw [List.mem_ofFn] at this
    obtain ⟨i, rfl⟩ := this
    exact Struct.size_det .ideal _ (hf i).rigid hl h1 h3
  · intro S hS x y h1 h3
    have := List.mem_of_mem_take hS
    rw [List.mem_ofFn] at this
    obtain ⟨i, rfl⟩ := this
    exact Struct.align_det .ideal _ h1 h3

theorem oa_vector {d : Dim} {s : Struct} {f : State} {Z : Int}
    (hZ : ∀ sz N, (s.sem .ideal).size (f.removeAll [.idx d, .len d]) = some sz → sz.Num N → Z = N) :
    AffineFn ((Struct.vector d s).offAlong .ideal d) d f Z := by
  rintro g h o o' m n rfl hh ho ho' hm hn
  have e1 : h.removeAll [.idx d, .len d] = g.removeAll [.idx d, .len d] := by
    funext tag
    have := congrFun hh tag
    simp only [State.remove, State.removeAll, List.mem_cons, List.not_mem_nil, or_false] at this ⊢
    grind
  have e2 : (g.remove (.idx d)).removeAll [.idx d, .len d] = g.removeAll [.idx d, .len d] := by state_eq
  rw [e2] at hZ
  simp only [Struct.offAlong, if_true, bind, Option.bind_eq_some_iff, Option.some.injEq, e1] at ho ho'
  obtain ⟨-, -, i, hi, sz, hsz, rfl⟩ := ho
  obtain ⟨-, -, j, hj, sz', hsz', rfl⟩ := ho'
  rw [hsz] at hsz'
  obtain rfl := Option.some.inj hsz'
  obtain ⟨I, N, hI, hN, rfl⟩ := Val.nat?_mul.1 hm
  obtain ⟨J, N', hJ, hN', rfl⟩ := Val.nat?_mul.1 hn
  have := Val.Num.eq hN hN'
  subst this
  refine .inl ⟨i, j, I, J, hi, hj, hI, hJ, ?_⟩
  rw [hZ sz N hsz hN]
  grind

theorem oa_vector_ne {d e : Dim} (hne : d ≠ e) {s : Struct} {f : State} {Z : Int}
    (H : AffineFn (s.offAlong .ideal d) d (f.removeAll [.idx e, .len e]) Z) :
    AffineFn ((Struct.vector e s).offAlong .ideal d) d f Z := by
  rintro g h o o' m n rfl hh ho ho' hm hn
  have hcom : ∀ g : State, (g.removeAll [.idx e, .len e]).remove (.idx d) =
      (g.remove (.idx d)).removeAll [.idx e, .len e] := by
    intro g; state_eq
  simp only [Struct.offAlong, hne, if_false] at ho ho'
  have := H _ _ o o' m n (hcom g) ((hcom h).trans (by rw [hh])) ho ho' hm hn
  have x1 : ∀ g : State, (g.removeAll [.idx e, .len e]) (.idx d) = g (.idx d) := by
    intro g; simp [State.removeAll, hne]
  rwa [x1, x1] at this

theorem oa_tuple {d t : Dim} (hne : d ≠ t) {n : Nat} {fs : Fin n → Struct} {f : State}
    (hf : ∀ i, Firm (fs i) (f.remove (.idx t)))
    (H : ∀ i, ∃ Z, AffineAt (fs i) d (f.remove (.idx t)) Z ∧
      AffineFn ((fs i).offAlong .ideal d) d (f.remove (.idx t)) Z ∧
      ((fs i).unmoved d → ZeroFn ((fs i).offAlong .ideal d) d (f.remove (.idx t)))) :
    ∃ Z, AffineAt (.tuple t n fs) d f Z ∧ AffineFn ((Struct.tuple t n fs).offAlong .ideal d) d f Z ∧
      ((Struct.tuple t n fs).unmoved d → ZeroFn ((Struct.tuple t n fs).offAlong .ideal d) d f) := by
  have hcom : ∀ g : State, (g.remove (.idx t)).remove (.idx d) = (g.remove (.idx d)).remove (.idx t) := by
    intro g; state_eq
  have hidx : ∀ g : State, g.remove (.idx d) = f → g (.idx t) = f (.idx t) := by
    rintro g rfl; simp [State.remove, Ne.symm hne]
  have x1 : ∀ g : State, (g.remove (.idx t)) (.idx d) = g (.idx d) := by
    intro g; simp [State.remove, hne]
  have hlen : ∀ g : State, g.remove (.idx d) = f → SameLens (f.remove (.idx t)) (g.remove (.idx t)) := by
    rintro g rfl e; simp [State.remove]
  by_cases hk : ∃ k, constIdx (f (.idx t)) = some k ∧ k < n
  · obtain ⟨k, hk, hkn⟩ := hk
    obtain ⟨Z, h1, h2, h3⟩ := H ⟨k, hkn⟩
    refine ⟨Z, ?_, ?_, ?_⟩
    · intro g h start o o' m n' hg hh ho ho' hm hn
      simp only [Struct.sem, tupleSem, hidx g hg, hidx h hh, hk, bind, Option.bind_some, hkn, dif_pos,
        Option.bind_eq_some_iff] at ho ho'
      obtain ⟨b, hb, ho⟩ := ho
      obtain ⟨b', hb', ho'⟩ := ho'
      have hf' : ∀ i, Firm (fs i) (g.remove (.idx t)) := fun i => Firm.congr (hlen g hg) (hf i)
      have hl' : SameLens (g.remove (.idx t)) (h.remove (.idx t)) := by
        intro e; rw [← hlen g hg e, ← hlen h hh e]
      have := sizeAcc_firm hf' hl' hb hb'
      subst this
      have := h1 _ _ _ o o' m n' ((hcom g).trans (by rw [hg])) ((hcom h).trans (by rw [hh])) ho ho' hm hn
      rwa [x1, x1] at this
    · intro g h o o' m n' hg hh ho ho' hm hn
      simp only [Struct.offAlong, hidx g hg, hidx h hh, hk, bind, Option.bind_some, hkn, dif_pos, hne,
        if_false] at ho ho'
      have := h2 _ _ o o' m n' ((hcom g).trans (by rw [hg])) ((hcom h).trans (by rw [hh])) ho ho' hm hn
      rwa [x1, x1] at this
    · intro hz g i o m hg hi h0 ho hm
      simp only [Struct.offAlong, hidx g hg, hk, bind, Option.bind_some, hkn, dif_pos, hne,
        if_false] at ho
      exact h3 (hz _) _ i o m ((hcom g).trans (by rw [hg])) ((x1 g).trans hi) h0 ho hm
  · refine ⟨0, ?_, ?_, ?_⟩
    · intro g h start o o' m n' hg hh ho ho' hm hn
      simp only [Struct.sem, tupleSem, hidx g hg, bind, Option.bind_eq_some_iff] at ho
      obtain ⟨k, hk', S, ⟨k', hk2, hd⟩, -⟩ := ho
      split at hd
      · next h => exact absurd ⟨k', hk2, h⟩ hk
      · simp at hd
    · intro g h o o' m n' hg hh ho ho' hm hn
      simp only [Struct.offAlong, hidx g hg, bind, Option.bind_eq_some_iff] at ho
      obtain ⟨k, hk', hd⟩ := ho
      split at hd
      · next h => exact absurd ⟨k, hk', h⟩ hk
      · simp at hd
    · intro hz g i o m hg hi h0 ho hm
      simp only [Struct.offAlong, hidx g hg, bind, Option.bind_eq_some_iff] at ho
      obtain ⟨k, hk', hd⟩ := ho
      split at hd
      · next h => exact absurd ⟨k, hk', h⟩ hk
      · simp at hd

/-- What `offset_along` of a view is for a dimension that the view does not translate. -/
theorem reads_oa {v : View} {s : Struct} {d : Dim} (hq : d ∉ v.dims) :
    Reads v s (s.offAlong .ideal d) ((Struct.view v s).offAlong .ideal d) := by
  intro g o ho
  rw [← Option.bind_eq_some_iff]
  cases v <;> simp only [View.dims, List.mem_cons, List.not_mem_nil, or_false, not_or,
    List.mem_append] at hq <;> simp only [Struct.offAlong, hq, if_false, reduceCtorEq, or_self] at ho <;>
    first | exact ho | skip
  next ps =>
    have e1 : Sig.renameDim (ps.map Prod.swap) d = d := renameDim_of_not_mem (by simpa using hq.2)
    simp only [e1, hq, false_and, if_false, bind, Option.bind_eq_some_iff, Option.some.injEq] at ho
    obtain ⟨o', ⟨u, hu, h⟩, rfl⟩ := ho
    exact Option.bind_eq_some_iff.2 ⟨u, hu, h⟩

theorem reads_below {v : View} {s : Struct} (F : State → Option Val) :
    Reads v s F (fun st => ((v.sem .ideal (s.sem .ideal)).sub st).bind F) := by
  intro g o ho
  exact Option.bind_eq_some_iff.1 ho

/-- `offset_along` of a block index: the difference to the first block. -/
theorem oa_blocks {G F' : State → Option Val} {d x : Dim} (hx : d ≠ x) {f : State} {Z : Int}
    (H : AffineFn G d (f.set (.idx x) (.lit 0)) Z) (C : State → Option Val)
    (hF : ∀ g o, F' g = some o → ∃ a c, G (g.set (.idx x) (.lit 0)) = some a ∧ C (g.remove (.idx d)) = some c ∧
      o = a.sub .ideal c) : AffineFn F' d f Z := by
  intro g h o o' m n hg hh ho ho' hm hn
  obtain ⟨a, c, ha, hc, rfl⟩ := hF g o ho
  obtain ⟨a', c', ha', hc', rfl⟩ := hF h o' ho'
  rw [hg] at hc
  rw [hh, hc] at hc'
  obtain rfl := Option.some.inj hc'
  obtain ⟨p, q, hp, hq, hle, rfl⟩ := Val.nat?_sub.1 hm
  obtain ⟨p', q', hp', hq', hle', rfl⟩ := Val.nat?_sub.1 hn
  have := Val.Num.eq hq hq'
  subst this
  have hs : ∀ g : State, g.remove (.idx d) = f →
      (g.set (.idx x) (.lit 0)).remove (.idx d) = f.set (.idx x) (.lit 0) := by
    rintro g rfl; state_eq
  have x1 : ∀ g : State, (g.set (.idx x) (.lit 0)) (.idx d) = g (.idx d) := by
    intro g; simp [State.set, hx]
  have := H _ _ a a' p p' (hs g hg) (hs h hh) ha ha' hp hp'
  rw [x1, x1] at this
  rcases this with ⟨i, j, I, J, h1, h2, h3, h4, h5⟩ | ⟨h1, h2⟩
  · exact .inl ⟨i, j, I, J, h1, h2, h3, h4, by omega⟩
  · exact .inr ⟨h1, by omega⟩

theorem oa_blocks_zero {G F' : State → Option Val} {d x : Dim} (hx : d ≠ x) {f : State} {Z : Int}
    (H : AffineFn G d (f.set (.idx x) (.lit 0)) Z)
    (hF : ∀ g o, F' g = some o → ∃ a c, G (g.set (.idx x) (.lit 0)) = some a ∧
      G ((g.set (.idx d) (.lit 0)).set (.idx x) (.lit 0)) = some c ∧ o = a.sub .ideal c) :
    ZeroFn F' d f := by
  intro g i o n hg hi h0 ho hn
  obtain ⟨a, c, ha, hc, rfl⟩ := hF g o ho
  obtain ⟨p, q, hp, hq, hle, rfl⟩ := Val.nat?_sub.1 hn
  have e1 : (g.set (.idx x) (.lit 0)).remove (.idx d) = f.set (.idx x) (.lit 0) := by
    rw [← hg]; state_eq
  have e2 : ((g.set (.idx d) (.lit 0)).set (.idx x) (.lit 0)).remove (.idx d) = f.set (.idx x) (.lit 0) := by
    rw [← hg]; state_eq
  rcases H _ _ a c p q e1 e2 ha hc hp hq with ⟨i', j', I, J, h1, h2, h3, h4, h5⟩ | ⟨h1, h2⟩
  · simp only [State.set, Tag.idx.injEq, hx, if_false, hi, Option.some.injEq, if_true] at h1 h2
    subst h1; subst h2
    have := Val.Num.eq h0 h3
    subst this
    cases h4
    simp at h5
    omega
  · omega

theorem oa_blocks_both {P : Prop} {G F' : State → Option Val} {d x : Dim} (hx : d ≠ x) {f : State} {Z : Int}
    (H : AffineFn G d (f.set (.idx x) (.lit 0)) Z)
    (hF : ∀ g o, F' g = some o → ∃ a c, G (g.set (.idx x) (.lit 0)) = some a ∧
      G ((g.set (.idx d) (.lit 0)).set (.idx x) (.lit 0)) = some c ∧ o = a.sub .ideal c) :
    AffineFn F' d f Z ∧ (P → ZeroFn F' d f) := by
  refine ⟨oa_blocks hx H (fun st => G ((st.set (.idx d) (.lit 0)).set (.idx x) (.lit 0))) ?_,
    fun _ => oa_blocks_zero hx H hF⟩
  intro g o ho
  obtain ⟨a, c, h1, h2, h3⟩ := hF g o ho
  refine ⟨a, c, h1, ?_, h3⟩
  have : (g.remove (.idx d)).set (.idx d) (.lit 0) = g.set (.idx d) (.lit 0) := by state_eq
  simp only [this]
  exact h2

/-- An index of a block without the index within, or the other way round, is ignored. -/
theorem ib_ignore {e maj min x y : Dim} (hxy : (x = maj ∧ y = min) ∨ (x = min ∧ y = maj)) (hne : maj ≠ min)
    {S : Sem} {f : State} (hf : f (.idx x) = none) (c : Val) :
    intoBlocksSub .ideal e maj min S (f.set (.idx y) c) = intoBlocksSub .ideal e maj min S f ∧
    ibLen e maj min S (f.set (.idx y) c) = ibLen e maj min S f := by
  have e0 : blocksClean e maj min (f.set (.idx y) c) = blocksClean e maj min f := by
    rcases hxy with ⟨rfl, rfl⟩ | ⟨rfl, rfl⟩ <;> state_eq
  have e1 : (f.set (.idx y) c) (.len maj) = f (.len maj) := by simp [State.set]
  have e2 : (f.set (.idx y) c) (.len min) = f (.len min) := by simp [State.set]
  have e3 : (f.set (.idx y) c) (.idx x) = none := by
    rcases hxy with ⟨rfl, rfl⟩ | ⟨rfl, rfl⟩ <;> simp [State.set, hf, hne, Ne.symm hne]
  refine ⟨?_, ?_⟩
  · simp only [intoBlocksSub, e0, e1, e2]
    rcases hxy with ⟨rfl, rfl⟩ | ⟨rfl, rfl⟩
    · rw [e3, hf]; cases f (.len y) <;> cases f (.len x) <;> rfl
    · rw [e3, hf]
      have k : ∀ (a : Option Val) (X : Val → Val → Option State) (Y : Option State),
        (match a, (none : Option Val) with | some i, some j => X i j | _, _ => Y) = Y := by
        intro a X Y; cases a <;> rfl
      cases f (.len x) <;> cases f (.len y) <;> cases f (.idx y) <;> cases (f.set (.idx y) c) (.idx y) <;> rfl
  · simp only [ibLen, e0, e1, e2]

theorem ibd_ignore {e maj min pres x y : Dim} (hxy : (x = maj ∧ y = min) ∨ (x = min ∧ y = maj)) (hne : maj ≠ min)
    {S : Sem} {f : State} (hf : f (.idx x) = none) (c : Val) :
    intoBlocksDynSub .ideal e maj min pres S (f.set (.idx y) c) = intoBlocksDynSub .ideal e maj min pres S f ∧
    ibdLen e maj min pres S (f.set (.idx y) c) = ibdLen e maj min pres S f := by
  have e0 : dynClean e maj min pres (f.set (.idx y) c) = dynClean e maj min pres f := by
    unfold dynClean
    rcases hxy with ⟨rfl, rfl⟩ | ⟨rfl, rfl⟩ <;> state_eq
  have e1 : (f.set (.idx y) c) (.len maj) = f (.len maj) := by simp [State.set]
  have e2 : (f.set (.idx y) c) (.len min) = f (.len min) := by simp [State.set]
  have e4 : (f.set (.idx y) c).has (.len pres) = f.has (.len pres) := by simp [State.set, State.has]
  have e3 : (f.set (.idx y) c) (.idx x) = none := by
    rcases hxy with ⟨rfl, rfl⟩ | ⟨rfl, rfl⟩ <;> simp [State.set, hf, hne, Ne.symm hne]
  refine ⟨?_, ?_⟩
  · simp only [intoBlocksDynSub, blocksDynClean_eq, e0, e1, e2, e4]
    rcases hxy with ⟨rfl, rfl⟩ | ⟨rfl, rfl⟩
    · rw [e3, hf]; cases f (.len y) <;> cases f (.len x) <;> rfl
    · rw [e3, hf]
      cases f (.len x) <;> cases f (.len y) <;> cases f (.idx y) <;> cases (f.set (.idx y) c) (.idx y) <;> rfl
  · simp only [ibdLen, e0, e1, e2]

theorem ibs_ignore {e border maj min x y : Dim} {nl : Val}
    (hxy : (x = maj ∧ y = min) ∨ (x = min ∧ y = maj)) (hne : maj ≠ min) (hb : y ≠ border)
    {S : Sem} {f : State} (hf : f (.idx x) = none) (c : Val) :
    intoBlocksStatSub .ideal e border maj min nl S (f.set (.idx y) c) =
      intoBlocksStatSub .ideal e border maj min nl S f := by
  have e0 : statClean e border maj min (f.set (.idx y) c) = statClean e border maj min f := by
    unfold statClean
    rcases hxy with ⟨rfl, rfl⟩ | ⟨rfl, rfl⟩ <;> state_eq
  have e1 : (f.set (.idx y) c).has (.len maj) = f.has (.len maj) := by simp [State.set, State.has]
  have e2 : (f.set (.idx y) c).has (.len min) = f.has (.len min) := by simp [State.set, State.has]
  have e4 : (f.set (.idx y) c).has (.len border) = f.has (.len border) := by simp [State.set, State.has]
  have e5 : (f.set (.idx y) c).has (.idx border) = f.has (.idx border) := by
    simp [State.set, State.has, Ne.symm hb]
  have e3 : (f.set (.idx y) c) (.idx x) = none := by
    rcases hxy with ⟨rfl, rfl⟩ | ⟨rfl, rfl⟩ <;> simp [State.set, hf, hne, Ne.symm hne]
  simp only [intoBlocksStatSub, blocksStatClean_eq, e0, e1, e2, e4, e5]
  rcases hxy with ⟨rfl, rfl⟩ | ⟨rfl, rfl⟩
  · rw [e3, hf]
  · rw [e3, hf]
    cases f (.idx y) <;> cases (f.set (.idx y) c) (.idx y) <;> rfl

/-- Offsets and `offset_along` are affine in the index, with the same slope. -/
theorem along_affine {s : Struct} (ht : s.tame) (hs : s.sane .ideal) {d : Dim} {f : State}
    (hd : ¬ s.hard d) (hst : s.linear .ideal d f) (hf : Firm s f) (hfd : f (.idx d) = none) :
    ∃ Z, AffineAt s d f Z ∧ AffineFn (s.offAlong .ideal d) d f Z ∧
      (s.unmoved d → ZeroFn (s.offAlong .ideal d) d f) := by
  induction s generalizing d f with
  | scalar z a =>
    refine ⟨0, ?_, ?_, ?_⟩
    · intro g h start o o' m n hg hh ho ho' hm hn
      cases ho; cases ho'
      exact .inr ⟨rfl, Val.Num.eq hn hm⟩
    · intro g h o o' m n hg hh ho; simp [Struct.offAlong] at ho
    · intro hz g i o n hg hi h0 ho; simp [Struct.offAlong] at ho
  | union n ss =>
    refine ⟨0, ?_, ?_, ?_⟩
    · intro g h start o o' m n hg hh ho ho' hm hn
      simp [Struct.sem, unionSem] at ho
    · intro g h o o' m n hg hh ho; simp [Struct.offAlong] at ho
    · intro hz g i o n hg hi h0 ho; simp [Struct.offAlong] at ho
  | tuple t n fs ih =>
    have hf' : ∀ i, Firm (fs i) (f.remove (.idx t)) := by
      intro i; refine Firm.of_pat ?_ (hf i); lens_tac
    refine oa_tuple hst.1 hf' fun i => ?_
    refine ih i (ht i) (hs.1 i) (fun h => hd ?_) (hst.2 i) (hf' i) ?_
    · simp only [Struct.hard]; exact .inr ⟨i, h⟩
    · simp [State.remove, hfd]
  | vector e s ih =>
    have hf' : Firm s (f.removeAll [.idx e, .len e]) := by
      refine Firm.of_pat ?_ hf; lens_tac
    rcases hst with ⟨rfl, hl⟩ | ⟨he, hst⟩
    · have hz : ZeroFn ((Struct.vector d s).offAlong .ideal d) d f := by
        intro g i o n hg hi h0 ho hn
        simp only [Struct.offAlong, if_true, bind, Option.bind_eq_some_iff, Option.some.injEq] at ho
        obtain ⟨-, -, i', hi', sz, -, rfl⟩ := ho
        rw [hi] at hi'
        obtain rfl := Option.some.inj hi'
        obtain ⟨I, N, hI, hN, rfl⟩ := Val.nat?_mul.1 hn
        rw [← Val.Num.eq h0 hI]; simp
      cases hsz : ((s.sem .ideal).size (f.removeAll [.idx d, .len d])).bind Val.nat? with
      | none =>
        have : ∀ sz N, (s.sem .ideal).size (f.removeAll [.idx d, .len d]) = some sz → sz.Num N → (0 : Int) = N := by
          intro sz N h1 h2
          simp only [h1, Option.bind_some] at hsz
          rw [Val.Num] at h2
          rw [h2] at hsz; simp at hsz
        exact ⟨0, affine_vector fun l hl' => ⟨fun _ => rfl, fun _ => this⟩, oa_vector this, fun _ => hz⟩
      | some N =>
        have : ∀ sz N', (s.sem .ideal).size (f.removeAll [.idx d, .len d]) = some sz → sz.Num N' → (N : Int) = N' := by
          intro sz N' h1 h2
          simp only [h1, Option.bind_some] at hsz
          rw [Val.Num.eq h2 hsz]
        exact ⟨N, affine_vector fun l hl' => ⟨fun h => absurd (h ▸ hl') hl, fun _ => this⟩, oa_vector this, fun _ => hz⟩
    · obtain ⟨Z, h1, h2, h3⟩ := ih ht hs (fun h => hd ⟨he, h⟩) hst hf' (by simp [State.removeAll, hfd])
      refine ⟨Z, affine_vector_ne he hf' h1, oa_vector_ne he h2, ?_⟩
      rintro hz g i o n rfl hi h0 ho hn
      simp only [Struct.offAlong, he, if_false] at ho
      refine h3 (hz.resolve_left he) _ i o n ?_ ?_ h0 ho hn
      · state_eq
      · simpa [State.removeAll, he] using hi
  | view v s ih =>
    obtain ⟨hfo, hstr, hst⟩ := hst
    have hfix : ∀ e i, v = .fix e i → d ≠ e := by rintro e i rfl; exact hfo
    have hren : ∀ ps, v = .rename ps → d ∈ ps.map Prod.fst → d ∈ ps.map Prod.snd := by rintro ps rfl; exact hfo
    have HH : ∀ d', v.inner d = some d' → ∃ Z,
        (∀ uf, (v.sem .ideal (s.sem .ideal)).sub f = some uf → AffineAt s d' uf Z) ∧
        (∀ uf, (v.sem .ideal (s.sem .ideal)).sub f = some uf → AffineFn (s.offAlong .ideal d') d' uf Z) ∧
        (s.unmoved d' → ∀ uf, (v.sem .ideal (s.sem .ideal)).sub f = some uf →
          ZeroFn (s.offAlong .ideal d') d' uf) := by
      intro d' hi
      cases huf : (v.sem .ideal (s.sem .ideal)).sub f with
      | none => exact ⟨0, nofun, nofun, fun _ => nofun⟩
      | some uf =>
        have hn : uf (.idx d') = none := by
          have h1 : f.remove (.idx d) = f := State.remove_absent _ _ hfd
          have := sub_erase ht hs (d := d) (fun hnd => ?_) hi hfo huf
          · rw [h1, huf] at this
            rw [Option.some.inj this]; simp [State.remove]
          · exact not_hard_inner ht hd (inner_of_not_dims hnd) hfix hren
        obtain ⟨Z, h1, h2, h3⟩ := ih ht.1 hs.1 (not_hard_inner ht hd hi hfix hren)
          (hst d' uf hi huf) (firm_sub hf huf) hn
        exact ⟨Z, fun _ h' => by cases h'; exact h1, fun _ h' => by cases h'; exact h2,
          fun hz _ h' => by cases h'; exact h3 hz⟩
    have nh := fun d' hi => not_hard_inner (d' := d') ht hd hi hfix hren
    by_cases hq : d ∉ v.dims
    · have hi := inner_of_not_dims hq
      obtain ⟨Z, h1, h2, h3⟩ := HH d hi
      refine ⟨Z, affine_pass ht hs (nh d hi) hq h1, afn_pass (reads_oa hq) ht hs (nh d hi) hq h2, ?_⟩
      intro hz
      refine zero_view (reads_oa hq) ?_ (h3 (hz.2 ?_ d hi))
      · rintro g u rfl hu
        exact ⟨sub_erase ht hs (fun _ => nh d hi) hi hfo hu, sub_idx hq hu⟩
      · intro hb
        cases v <;> simp [View.blocksOf, View.dims] at hb hq <;> grind
    have hq := Classical.not_not.1 hq
    cases v with
    | setLength e l => simp [View.dims] at hq
    | hoist e => simp [View.dims] at hq
    | reorder ds => simp [View.dims] at hq
    | fix e i => simp [View.dims] at hq; exact absurd hq hfo
    | join a b e => simp [View.dims] at hq; simp [View.follows] at hfo; grind
    | mergeBlocks maj min e => simp [View.dims] at hq; simp [View.follows] at hfo; grind
    | mergeZ sl gl ds e => simp [View.dims] at hq; simp [View.follows] at hfo; grind
    | bcast e =>
      simp [View.dims] at hq
      subst hq
      refine ⟨0, affine_bcast, ?_, ?_⟩
      rotate_left
      · intro hz g i o n hg hi h0 ho hn
        simp only [Struct.offAlong, if_true, Option.some.injEq] at ho
        subst ho; cases hn; rfl
      intro g h o o' m n hg hh ho ho' hm hn
      simp only [Struct.offAlong, if_true, Option.some.injEq] at ho ho'
      subst ho; subst ho'
      exact .inr ⟨rfl, Val.Num.eq hn hm⟩
    | shift e a =>
      simp [View.dims] at hq; subst hq
      obtain ⟨Z, h1, h2, h3⟩ := HH d rfl
      exact ⟨Z, affine_shift ht hs (nh d rfl) h1, afn_shift (reads_below _) ht hs (nh d rfl) h2,
        fun hz => absurd rfl hz.1⟩
    | slice e a l =>
      simp [View.dims] at hq; subst hq
      obtain ⟨Z, h1, h2, h3⟩ := HH d rfl
      exact ⟨Z, affine_slice ht hs (nh d rfl) h1, afn_slice (reads_below _) ht hs (nh d rfl) h2,
        fun hz => absurd rfl hz.1⟩
    | span e a l =>
      simp [View.dims] at hq; subst hq
      obtain ⟨Z, h1, h2, h3⟩ := HH d rfl
      exact ⟨Z, affine_span ht hs (nh d rfl) h1, afn_span (reads_below _) ht hs (nh d rfl) h2,
        fun hz => absurd rfl hz.1⟩
    | step e a k =>
      simp [View.dims] at hq; subst hq
      obtain ⟨Z, h1, h2, h3⟩ := HH d rfl
      have e1 : ∀ K, k.Num K → Z * ((k.nat?.getD 0 : Nat) : Int) = Z * K := by
        intro K hK; rw [Val.Num] at hK; rw [hK]; rfl
      have e2 : Z = 0 → Z * ((k.nat?.getD 0 : Nat) : Int) = 0 := by rintro rfl; simp
      exact ⟨Z * ((k.nat?.getD 0 : Nat) : Int), affine_step ht hs (nh d rfl) e1 e2 h1,
        afn_step (reads_below _) ht hs (nh d rfl) e1 e2 h2, fun hz => absurd rfl hz.1⟩
    | reverse e =>
      simp [View.dims] at hq; subst hq
      obtain ⟨Z, h1, h2, h3⟩ := HH d rfl
      exact ⟨-Z, affine_reverse ht hs (nh d rfl) h1, afn_reverse (reads_below _) ht hs (nh d rfl) h2,
        fun hz => absurd rfl hz.1⟩
    | rename ps =>
      obtain ⟨Z, h1, h2, h3⟩ := HH _ rfl
      have hR : Reads (.rename ps) s (s.offAlong .ideal (Sig.renameDim (ps.map Prod.swap) d))
          ((Struct.view (.rename ps) s).offAlong .ideal d) := by
        intro g o ho
        simp only [Struct.offAlong] at ho
        have hc : ¬ (d ∈ ps.map Prod.fst ∧ d ∉ ps.map Prod.snd) := fun h => h.2 (hfo h.1)
        simp only [hc, if_false, bind, Option.bind_eq_some_iff, Option.some.injEq] at ho
        obtain ⟨_, h, rfl⟩ := ho
        exact h
      refine ⟨Z, affine_rename ht hs (fun hnd => nh d (inner_of_not_dims hnd)) hfo h1,
        afn_rename hR ht hs (fun hnd => nh d (inner_of_not_dims hnd)) hfo h2, ?_⟩
      intro hz
      refine zero_view hR ?_ (h3 (hz.2 id _ rfl))
      rintro g u rfl hu
      refine ⟨sub_erase ht hs (fun hnd => nh d (inner_of_not_dims hnd)) rfl hfo hu, ?_⟩
      cases hu
      rw [renameState_idx]
      have hm : d ∈ ps.map Prod.snd := by
        simp only [View.dims, List.mem_append] at hq
        exact hq.elim hfo id
      obtain ⟨⟨n, e⟩, hne, rfl⟩ := List.mem_map.1 hm
      have hsw : (e, n) ∈ ps.map Prod.swap := List.mem_map.2 ⟨_, hne, rfl⟩
      have hnd : ((ps.map Prod.swap).map Prod.fst).Nodup := by
        simpa [List.map_map, Function.comp_def] using ht.2.2
      rw [renameDim_of_mem hnd hsw, if_pos (.inl (List.mem_map.2 ⟨_, hne, rfl⟩)), renameDim_of_mem ht.2.1 hne]
    | intoBlocks e maj min =>
      have hne : maj ≠ min := hs.2
      have hl : ∀ d f, d = maj ∨ d = min → Lin (.intoBlocks e maj min) (s.sem .ideal) e maj min d f
            ((ibLen e maj min (s.sem .ideal) f).getD (.lit 0)) :=
        fun d f hd => lin_ib hd (fun nl' h => by rw [h]; rfl)
      have hdm : d = maj ∨ d = min := by
        simp [View.dims] at hq; simp [View.follows] at hfo; grind
      have hi : (View.intoBlocks e maj min).inner d = some e := by simp [View.inner, hdm]
      obtain ⟨Z, h1, h2, h3⟩ := HH e hi
      rcases hdm with rfl | rfl
      · obtain ⟨g1, g2⟩ := ib_ignore (e := e) (.inl ⟨rfl, rfl⟩) hne (S := s.sem .ideal) hfd (.lit 0)
        have e1 : ∀ K, ((ibLen e d min (s.sem .ideal) f).getD (.lit 0)).Num K →
            Z * ((((ibLen e d min (s.sem .ideal) f).getD (.lit 0)).nat?.getD 0 : Nat) : Int) = Z * K := by
          intro K hK; rw [Val.Num] at hK; rw [hK]; rfl
        have e2 : Z = 0 → Z * ((((ibLen e d min (s.sem .ideal) f).getD (.lit 0)).nat?.getD 0 : Nat) : Int) = 0 := by
          rintro rfl; simp
        refine ⟨_, affine_major ht hs hne ht.2.2.1 hi hfo (hl d f (.inl rfl)) e1 e2 h1,
          oa_blocks_both hne (afn_major (reads_below (s.offAlong .ideal e)) ht hs hne ht.2.2.1 hi hfo
            (f := f.set (.idx min) (.lit 0)) (hl d _ (.inl rfl)) ?_ e2 ?_) ?_⟩
        · rw [g2]; exact e1
        · intro uf huf
          refine h2 uf ?_
          simp only [View.sem, intoBlocksSem] at huf ⊢
          rw [← g1]; exact huf
        · intro g o ho
          simp only [Struct.offAlong, if_true, bind, Option.bind_eq_some_iff, Option.some.injEq] at ho
          obtain ⟨-, -, a, ha, c, hc, rfl⟩ := ho
          exact ⟨a, c, Option.bind_eq_some_iff.2 ha, Option.bind_eq_some_iff.2 hc, rfl⟩
      · obtain ⟨g1, g2⟩ := ib_ignore (e := e) (.inr ⟨rfl, rfl⟩) hne (S := s.sem .ideal) hfd (.lit 0)
        refine ⟨_, affine_minor ht hs ht.2.2.2 hi hfo ((hl d f (.inr rfl)).min hne) h1,
          oa_blocks_both (Ne.symm hne) (afn_minor (reads_below (s.offAlong .ideal e)) ht hs ht.2.2.2 hi hfo
            (f := f.set (.idx maj) (.lit 0)) ((hl d _ (.inr rfl)).min hne) ?_) ?_⟩
        · intro uf huf
          refine h2 uf ?_
          simp only [View.sem, intoBlocksSem] at huf ⊢
          rw [← g1]; exact huf
        · intro g o ho
          simp only [Struct.offAlong, if_true, Ne.symm hne, if_false, bind, Option.bind_eq_some_iff,
            Option.some.injEq] at ho
          obtain ⟨-, -, a, ha, c, hc, rfl⟩ := ho
          refine ⟨a, c, Option.bind_eq_some_iff.2 ha, ?_, rfl⟩
          have : (g.set (.idx d) (.lit 0)).set (.idx maj) (.lit 0) = (g.set (.idx maj) (.lit 0)).set (.idx d) (.lit 0) := by
            state_eq
          simp only [this]; exact Option.bind_eq_some_iff.2 hc
    | intoBlocksDyn e maj min pres =>
      obtain ⟨hne, hmp, hpM⟩ := hs.2
      have hl : ∀ d f, d = maj ∨ d = min → Lin (.intoBlocksDyn e maj min pres) (s.sem .ideal) e maj min d f
            ((ibdLen e maj min pres (s.sem .ideal) f).getD (.lit 0)) :=
        fun d f hd => lin_ibd hd (fun nl' h => by rw [h]; rfl)
      by_cases hdm : d = maj ∨ d = min
      · have hi : (View.intoBlocksDyn e maj min pres).inner d = some e := by simp [View.inner, hdm]
        obtain ⟨Z, h1, h2, h3⟩ := HH e hi
        rcases hdm with rfl | rfl
        · obtain ⟨g1, g2⟩ := ibd_ignore (e := e) (pres := pres) (.inl ⟨rfl, rfl⟩) hne (S := s.sem .ideal) hfd (.lit 0)
          have e1 : ∀ K, ((ibdLen e d min pres (s.sem .ideal) f).getD (.lit 0)).Num K →
              Z * ((((ibdLen e d min pres (s.sem .ideal) f).getD (.lit 0)).nat?.getD 0 : Nat) : Int) = Z * K := by
            intro K hK; rw [Val.Num] at hK; rw [hK]; rfl
          have e2 : Z = 0 → Z * ((((ibdLen e d min pres (s.sem .ideal) f).getD (.lit 0)).nat?.getD 0 : Nat) : Int) = 0 := by
            rintro rfl; simp
          refine ⟨_, affine_major ht hs hne ht.2.2.1 hi hfo (hl d f (.inl rfl)) e1 e2 h1,
            oa_blocks_both hne (afn_major (reads_below (s.offAlong .ideal e)) ht hs hne ht.2.2.1 hi hfo
              (f := f.set (.idx min) (.lit 0)) (hl d _ (.inl rfl)) ?_ e2 ?_) ?_⟩
          · rw [g2]; exact e1
          · intro uf huf
            refine h2 uf ?_
            simp only [View.sem, intoBlocksDynSem] at huf ⊢
            rw [← g1]; exact huf
          · intro g o ho
            simp only [Struct.offAlong, if_true, bind, Option.bind_eq_some_iff, Option.some.injEq] at ho
            obtain ⟨-, -, a, ha, c, hc, rfl⟩ := ho
            exact ⟨a, c, Option.bind_eq_some_iff.2 ha, Option.bind_eq_some_iff.2 hc, rfl⟩
        · obtain ⟨g1, g2⟩ := ibd_ignore (e := e) (pres := pres) (.inr ⟨rfl, rfl⟩) hne (S := s.sem .ideal) hfd (.lit 0)
          refine ⟨_, affine_minor ht hs ht.2.2.2.1 hi hfo ((hl d f (.inr rfl)).min hne) h1,
            oa_blocks_both (Ne.symm hne) (afn_minor (reads_below (s.offAlong .ideal e)) ht hs ht.2.2.2.1 hi hfo
              (f := f.set (.idx maj) (.lit 0)) ((hl d _ (.inr rfl)).min hne) ?_) ?_⟩
          · intro uf huf
            refine h2 uf ?_
            simp only [View.sem, intoBlocksDynSem] at huf ⊢
            rw [← g1]; exact huf
          · intro g o ho
            simp only [Struct.offAlong, if_true, Ne.symm hne, if_false, bind, Option.bind_eq_some_iff,
              Option.some.injEq] at ho
            obtain ⟨-, -, a, ha, c, hc, rfl⟩ := ho
            refine ⟨a, c, Option.bind_eq_some_iff.2 ha, ?_, rfl⟩
            have : (g.set (.idx d) (.lit 0)).set (.idx maj) (.lit 0) = (g.set (.idx maj) (.lit 0)).set (.idx d) (.lit 0) := by
              state_eq
            simp only [this]; exact Option.bind_eq_some_iff.2 hc
      · have hp : d = pres := by
          simp [View.dims] at hq; simp [View.follows] at hfo; grind
        subst hp
        simp only [not_or] at hdm
        refine ⟨0, affine_pres hdm.1 hdm.2, ?_, ?_⟩
        rotate_left
        · intro hz g i o n hg hi h0 ho hn
          simp only [Struct.offAlong, if_true, hdm.1, hdm.2, if_false, bind, Option.bind_eq_some_iff,
            Option.some.injEq] at ho
          obtain ⟨-, -, rfl⟩ := ho
          cases hn; rfl
        intro g h o o' m n hg hh ho ho' hm hn
        simp only [Struct.offAlong, if_true, hdm.1, hdm.2, if_false, bind, Option.bind_eq_some_iff,
          Option.some.injEq] at ho ho'
        obtain ⟨-, -, rfl⟩ := ho
        obtain ⟨-, -, rfl⟩ := ho'
        exact .inr ⟨rfl, Val.Num.eq hn hm⟩
    | intoBlocksStat e border maj min nl0 =>
      have hne : maj ≠ min := hs.2
      obtain ⟨h8, k3, k4, h5, h6⟩ := ht.2
      obtain ⟨h7, h8'⟩ := hstr
      have hdm : d = maj ∨ d = min := by
        simp [View.dims] at hq; simp [View.follows] at hfo; grind
      have hi : (View.intoBlocksStat e border maj min nl0).inner d = some e := by simp [View.inner, hdm]
      obtain ⟨Z, h1, h2, h3⟩ := HH e hi
      rcases hdm with rfl | rfl
      · have hb : isBody border f = some true := by simp [isBody, h8' rfl]
        have hb' : isBody border (f.set (.idx min) (.lit 0)) = some true := by
          rw [← hb]; exact isBody_congr (by simp [State.set, h6])
        have g1 := ibs_ignore (e := e) (border := border) (nl := nl0) (.inl ⟨rfl, rfl⟩) hne (Ne.symm h6)
          (S := s.sem .ideal) hfd (.lit 0)
        have e1 : ∀ K, nl0.Num K → Z * ((nl0.nat?.getD 0 : Nat) : Int) = Z * K := by
          intro K hK; rw [Val.Num] at hK; rw [hK]; rfl
        have e2 : Z = 0 → Z * ((nl0.nat?.getD 0 : Nat) : Int) = 0 := by
          rintro rfl; simp
        refine ⟨_, affine_major ht hs hne k3 hi hfo (lin_ibs h7 hb) e1 e2 h1,
          oa_blocks_both hne (afn_major (reads_below (s.offAlong .ideal e)) ht hs hne k3 hi hfo
            (f := f.set (.idx min) (.lit 0)) (lin_ibs h7 hb') e1 e2 ?_) ?_⟩
        · intro uf huf
          refine h2 uf ?_
          simp only [View.sem, intoBlocksStatSem] at huf ⊢
          rw [← g1]; exact huf
        · intro g o ho
          simp only [Struct.offAlong, if_true, bind, Option.bind_eq_some_iff, Option.some.injEq] at ho
          obtain ⟨-, -, a, ha, c, hc, rfl⟩ := ho
          exact ⟨a, c, Option.bind_eq_some_iff.2 ha, Option.bind_eq_some_iff.2 hc, rfl⟩
      · have g1 := ibs_ignore (e := e) (border := border) (nl := nl0) (.inr ⟨rfl, rfl⟩) hne (Ne.symm h5)
          (S := s.sem .ideal) hfd (.lit 0)
        obtain ⟨b, hl⟩ := linMin_ibs (e := e) (border := border) (maj := maj) (nl := nl0)
          (S := s.sem .ideal) (f := f) h7 hne
        obtain ⟨b', hl'⟩ := linMin_ibs (e := e) (border := border) (maj := maj) (nl := nl0)
          (S := s.sem .ideal) (f := f.set (.idx maj) (.lit 0)) h7 hne
        refine ⟨_, affine_minor ht hs k4 hi hfo hl h1,
          oa_blocks_both (Ne.symm hne) (afn_minor (reads_below (s.offAlong .ideal e)) ht hs k4 hi hfo
            (f := f.set (.idx maj) (.lit 0)) hl' ?_) ?_⟩
        · intro uf huf
          refine h2 uf ?_
          simp only [View.sem, intoBlocksStatSem] at huf ⊢
          rw [← g1]; exact huf
        · intro g o ho
          simp only [Struct.offAlong, if_true, Ne.symm hne, if_false, bind, Option.bind_eq_some_iff,
            Option.some.injEq] at ho
          obtain ⟨-, -, a, ha, c, hc, rfl⟩ := ho
          refine ⟨a, c, Option.bind_eq_some_iff.2 ha, ?_, rfl⟩
          have : (g.set (.idx d) (.lit 0)).set (.idx maj) (.lit 0) = (g.set (.idx maj) (.lit 0)).set (.idx d) (.lit 0) := by
            state_eq
          simp only [this]; exact Option.bind_eq_some_iff.2 hc

end Noarr
