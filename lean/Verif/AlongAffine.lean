import Verif.AlongLemmas

/-
The views that a stride query passes, one by one. Used for C38, C39.
-/

set_option linter.unusedVariables false
set_option linter.unusedSimpArgs false

namespace Noarr

/-! ### Translated indices -/

/-- A view that translates the index. -/
theorem afn_index {v : View} {s : Struct} {F F' : State → Option Val} (hR : Reads v s F F') (ht : (Struct.view v s).tame)
    (hs : (Struct.view v s).sane .ideal) {d d' : Dim} (hd : d ∉ v.dims → ¬ s.hard d) (hi : v.inner d = some d')
    (hf : v.follows d) {f : State} {Z Z' : Int} (G : Val → Val)
    (hF : ∀ g u, (v.sem .ideal (s.sem .ideal)).sub g = some u → g.remove (.idx d) = f →
      ∀ x, u (.idx d') = some x → ∃ i, g (.idx d) = some i ∧ x = G i)
    (hZ : ∀ i j a b, (G i).Num a → (G j).Num b → ∃ a' b', i.Num a' ∧ j.Num b' ∧
        ((b : Int) - a) * Z = ((b' : Int) - a') * Z')
    (h0 : Z = 0 → Z' = 0)
    (H : ∀ uf, (v.sem .ideal (s.sem .ideal)).sub f = some uf → AffineFn F d' uf Z) :
    AffineFn F' d f Z' := by
  refine afn_view (d' := d') (Z := Z) hR ?_ H ?_ h0
  · rintro g u rfl hu
    exact sub_erase ht hs hd hi hf hu
  · intro g h u w hg hh hu hw i j a b hi hj ha hb
    obtain ⟨i', h1, rfl⟩ := hF g u hu hg i hi
    obtain ⟨j', h2, rfl⟩ := hF h w hw hh j hj
    obtain ⟨a', b', h3, h4, h5⟩ := hZ i' j' a b ha hb
    exact ⟨i', j', a', b', h1, h2, h3, h4, h5⟩

theorem affine_bcast {d : Dim} {s : Struct} {f : State} : AffineAt (.view (.bcast d) s) d f 0 := by
  rintro g h start o o' m n rfl hh ho ho' hm hn
  refine .inr ⟨rfl, ?_⟩
  have : h.removeAll [.idx d, .len d] = g.removeAll [.idx d, .len d] := by
    funext tag
    have := congrFun hh tag
    simp only [State.remove, State.removeAll, List.mem_cons, List.not_mem_nil, or_false] at this ⊢
    grind
  simp only [Struct.sem, ViewSem.toSem, View.sem, bcastSem, if_true, Option.bind_some, this] at ho ho'
  rw [ho] at ho'
  cases ho'
  exact Val.Num.eq hn hm

theorem affine_pres {d e maj min : Dim} (h1 : d ≠ maj) (h2 : d ≠ min) {s : Struct} {f : State} :
    AffineAt (.view (.intoBlocksDyn e maj min d) s) d f 0 := by
  rintro g h start o o' m n rfl hh ho ho' hm hn
  refine .inr ⟨rfl, ?_⟩
  have e1 : ∀ tag, tag ≠ .idx d → h tag = g tag := by
    intro tag ht
    have := congrFun hh tag
    simpa [State.remove, ht] using this
  have hc : dynClean e maj min d h = dynClean e maj min d g := by
    funext tag
    have := e1 tag
    simp only [dynClean, State.removeAll, List.mem_cons, List.not_mem_nil, or_false] at this ⊢
    grind
  have hsub : intoBlocksDynSub .ideal e maj min d (s.sem .ideal) h =
      intoBlocksDynSub .ideal e maj min d (s.sem .ideal) g := by
    have e2 : h.has (.len d) = g.has (.len d) := by simp [State.has, e1 (.len d)]
    simp only [intoBlocksDynSub, blocksDynClean_eq]
    rw [hc, e1 (.len min) (by simp), e1 (.len maj) (by simp), e2,
      e1 (.idx maj) (by simp [Ne.symm h1]), e1 (.idx min) (by simp [Ne.symm h2])]
  simp only [Struct.sem, ViewSem.toSem, View.sem, intoBlocksDynSem, hsub] at ho ho'
  split at ho
  · split at ho'
    · rw [ho] at ho'
      cases ho'
      exact Val.Num.eq hn hm
    · simp at ho'
  · simp at ho

theorem Num.sub1 {i s : Val} {a b : Nat} {j : Val} (h1 : (i.add .ideal s).Num a)
    (h2 : (j.add .ideal s).Num b) : ∃ a' b', i.Num a' ∧ j.Num b' ∧ (b : Int) - a = b' - a' := by
  obtain ⟨x, y, hx, hy, rfl⟩ := Val.nat?_add.1 h1
  obtain ⟨x', y', hx', hy', rfl⟩ := Val.nat?_add.1 h2
  have := Val.Num.eq hy hy'
  subst this
  exact ⟨x, x', hx, hx', by omega⟩

theorem afn_shift {d : Dim} {a : Val} {s : Struct} {F F' : State → Option Val} (hR : Reads (.shift d a) s F F') (ht : (Struct.view (.shift d a) s).tame)
    (hs : (Struct.view (.shift d a) s).sane .ideal) (hd : ¬ s.hard d) {f : State} {Z : Int}
    (H : ∀ uf, ((View.shift d a).sem .ideal (s.sem .ideal)).sub f = some uf → AffineFn F d uf Z) :
    AffineFn F' d f Z := by
  refine afn_index hR ht hs (fun _ => hd) rfl trivial (fun i => i.add .ideal a) ?_ ?_ id H
  · intro g u hu hg x hx
    cases hu
    simp only [State.mapAt, reduceCtorEq, if_true, if_false, Option.map_eq_some_iff] at hx
    obtain ⟨i, h1, h2⟩ := hx
    exact ⟨i, h1, h2.symm⟩
  · intro i j x y hx hy
    obtain ⟨a', b', h1, h2, h3⟩ := Num.sub1 hx hy
    exact ⟨a', b', h1, h2, by rw [h3]⟩

theorem affine_shift {d : Dim} {a : Val} {s : Struct} (ht : (Struct.view (.shift d a) s).tame)
    (hs : (Struct.view (.shift d a) s).sane .ideal) (hd : ¬ s.hard d) {f : State} {Z : Int}
    (H : ∀ uf, ((View.shift d a).sem .ideal (s.sem .ideal)).sub f = some uf → AffineAt s d uf Z) :
    AffineAt (.view (.shift d a) s) d f Z :=
  .of_fn fun start => afn_shift (reads_off start) ht hs hd fun uf h => (H uf h).fn start

theorem afn_slice {d : Dim} {a l : Val} {s : Struct} {F F' : State → Option Val} (hR : Reads (.slice d a l) s F F') (ht : (Struct.view (.slice d a l) s).tame)
    (hs : (Struct.view (.slice d a l) s).sane .ideal) (hd : ¬ s.hard d) {f : State} {Z : Int}
    (H : ∀ uf, ((View.slice d a l).sem .ideal (s.sem .ideal)).sub f = some uf → AffineFn F d uf Z) :
    AffineFn F' d f Z := by
  refine afn_index hR ht hs (fun _ => hd) rfl trivial (fun i => i.add .ideal a) ?_ ?_ id H
  · intro g u hu hg x hx
    cases hu
    simp only [State.mapAt, reduceCtorEq, if_true, if_false, Option.map_eq_some_iff] at hx
    obtain ⟨i, h1, h2⟩ := hx
    exact ⟨i, h1, h2.symm⟩
  · intro i j x y hx hy
    obtain ⟨a', b', h1, h2, h3⟩ := Num.sub1 hx hy
    exact ⟨a', b', h1, h2, by rw [h3]⟩

theorem affine_slice {d : Dim} {a l : Val} {s : Struct} (ht : (Struct.view (.slice d a l) s).tame)
    (hs : (Struct.view (.slice d a l) s).sane .ideal) (hd : ¬ s.hard d) {f : State} {Z : Int}
    (H : ∀ uf, ((View.slice d a l).sem .ideal (s.sem .ideal)).sub f = some uf → AffineAt s d uf Z) :
    AffineAt (.view (.slice d a l) s) d f Z :=
  .of_fn fun start => afn_slice (reads_off start) ht hs hd fun uf h => (H uf h).fn start

theorem afn_span {d : Dim} {a l : Val} {s : Struct} {F F' : State → Option Val} (hR : Reads (.span d a l) s F F') (ht : (Struct.view (.span d a l) s).tame)
    (hs : (Struct.view (.span d a l) s).sane .ideal) (hd : ¬ s.hard d) {f : State} {Z : Int}
    (H : ∀ uf, ((View.span d a l).sem .ideal (s.sem .ideal)).sub f = some uf → AffineFn F d uf Z) :
    AffineFn F' d f Z := by
  refine afn_index hR ht hs (fun _ => hd) rfl trivial (fun i => i.add .ideal a) ?_ ?_ id H
  · intro g u hu hg x hx
    cases hu
    simp only [State.mapAt, reduceCtorEq, if_true, if_false, Option.map_eq_some_iff] at hx
    obtain ⟨i, h1, h2⟩ := hx
    exact ⟨i, h1, h2.symm⟩
  · intro i j x y hx hy
    obtain ⟨a', b', h1, h2, h3⟩ := Num.sub1 hx hy
    exact ⟨a', b', h1, h2, by rw [h3]⟩

theorem affine_span {d : Dim} {a l : Val} {s : Struct} (ht : (Struct.view (.span d a l) s).tame)
    (hs : (Struct.view (.span d a l) s).sane .ideal) (hd : ¬ s.hard d) {f : State} {Z : Int}
    (H : ∀ uf, ((View.span d a l).sem .ideal (s.sem .ideal)).sub f = some uf → AffineAt s d uf Z) :
    AffineAt (.view (.span d a l) s) d f Z :=
  .of_fn fun start => afn_span (reads_off start) ht hs hd fun uf h => (H uf h).fn start

/-- Whatever the step, there is a slope; it is the product if the step is a number. -/
theorem afn_step {d : Dim} {a k : Val} {s : Struct} {F F' : State → Option Val} (hR : Reads (.step d a k) s F F') (ht : (Struct.view (.step d a k) s).tame)
    (hs : (Struct.view (.step d a k) s).sane .ideal) (hd : ¬ s.hard d) {f : State} {Z Z' : Int}
    (hk : ∀ K, k.Num K → Z' = Z * K) (h0 : Z = 0 → Z' = 0)
    (H : ∀ uf, ((View.step d a k).sem .ideal (s.sem .ideal)).sub f = some uf → AffineFn F d uf Z) :
    AffineFn F' d f Z' := by
  refine afn_index hR ht hs (fun _ => hd) rfl trivial (fun i => (i.mul .ideal k).add .ideal a) ?_ ?_ h0 H
  · intro g u hu hg x hx
    cases hu
    simp only [State.mapAt, reduceCtorEq, if_true, if_false, Option.map_eq_some_iff] at hx
    obtain ⟨i, h1, h2⟩ := hx
    exact ⟨i, h1, h2.symm⟩
  · intro i j x y hx hy
    obtain ⟨a', b', h1, h2, h3⟩ := Num.sub1 hx hy
    obtain ⟨I, K, hI, hK, rfl⟩ := Val.nat?_mul.1 h1
    obtain ⟨J, K', hJ, hK', rfl⟩ := Val.nat?_mul.1 h2
    have := Val.Num.eq hK hK'
    subst this
    refine ⟨I, J, hI, hJ, ?_⟩
    rw [h3, hk K hK]
    grind

theorem affine_step {d : Dim} {a k : Val} {s : Struct} (ht : (Struct.view (.step d a k) s).tame)
    (hs : (Struct.view (.step d a k) s).sane .ideal) (hd : ¬ s.hard d) {f : State} {Z Z' : Int}
    (hk : ∀ K, k.Num K → Z' = Z * K) (h0 : Z = 0 → Z' = 0)
    (H : ∀ uf, ((View.step d a k).sem .ideal (s.sem .ideal)).sub f = some uf → AffineAt s d uf Z) :
    AffineAt (.view (.step d a k) s) d f Z' :=
  .of_fn fun start => afn_step (reads_off start) ht hs hd hk h0 fun uf h => (H uf h).fn start

theorem afn_reverse {d : Dim} {s : Struct} {F F' : State → Option Val} (hR : Reads (.reverse d) s F F') (ht : (Struct.view (.reverse d) s).tame)
    (hs : (Struct.view (.reverse d) s).sane .ideal) (hd : ¬ s.hard d) {f : State} {Z : Int}
    (H : ∀ uf, ((View.reverse d).sem .ideal (s.sem .ideal)).sub f = some uf → AffineFn F d uf Z) :
    AffineFn F' d f (-Z) := by
  refine afn_index hR ht hs (fun _ => hd) rfl trivial
    (fun i => ((((s.sem .ideal).len d f).getD (.lit 0)).sub .ideal (.lit 1)).sub .ideal i) ?_ ?_ ?_ H
  · intro g u hu hg x hx
    simp only [View.sem, reverseSem] at hu
    cases hi : g (.idx d) with
    | none => simp only [hi, Option.some.injEq] at hu; subst hu; rw [hi] at hx; simp at hx
    | some i =>
      refine ⟨i, rfl, ?_⟩
      simp only [hi, hg] at hu
      split at hu
      · simp at hu
      · cases hu; rw [← hg] at hx; simp [State.remove] at hx
      · simp only [bind, Option.bind_eq_some_iff, Option.some.injEq] at hu
        obtain ⟨l, hl, rfl⟩ := hu
        simp only [State.set, if_true, Option.some.injEq] at hx
        rw [← hx, hl]; rfl
  · intro i j x y hx hy
    obtain ⟨L, I, hL, hI, hle, rfl⟩ := Val.nat?_sub.1 hx
    obtain ⟨L', J, hL', hJ, hle', rfl⟩ := Val.nat?_sub.1 hy
    have := Val.Num.eq hL hL'
    subst this
    refine ⟨I, J, hI, hJ, ?_⟩
    have : ((L - J : Nat) : Int) - (L - I : Nat) = -((J : Int) - I) := by omega
    rw [this]; grind
  · intro h; rw [h]; rfl

theorem affine_reverse {d : Dim} {s : Struct} (ht : (Struct.view (.reverse d) s).tame)
    (hs : (Struct.view (.reverse d) s).sane .ideal) (hd : ¬ s.hard d) {f : State} {Z : Int}
    (H : ∀ uf, ((View.reverse d).sem .ideal (s.sem .ideal)).sub f = some uf → AffineAt s d uf Z) :
    AffineAt (.view (.reverse d) s) d f (-Z) :=
  .of_fn fun start => afn_reverse (reads_off start) ht hs hd fun uf h => (H uf h).fn start

theorem afn_rename {ps : List (Dim × Dim)} {s : Struct}
    {F F' : State → Option Val} (hR : Reads (.rename ps) s F F') (ht : (Struct.view (.rename ps) s).tame) (hs : (Struct.view (.rename ps) s).sane .ideal) {d : Dim}
    (hd : d ∉ (View.rename ps).dims → ¬ s.hard d) (hq : d ∈ ps.map Prod.fst → d ∈ ps.map Prod.snd) {f : State} {Z : Int}
    (H : ∀ uf, ((View.rename ps).sem .ideal (s.sem .ideal)).sub f = some uf →
      AffineFn F (Sig.renameDim (ps.map Prod.swap) d) uf Z) :
    AffineFn F' d f Z := by
  refine afn_index hR ht hs hd rfl hq id ?_ ?_ id H
  · intro g u hu hg x hx
    cases hu
    refine ⟨x, ?_, rfl⟩
    rw [renameState_idx] at hx
    by_cases hm : d ∈ ps.map Prod.snd
    · obtain ⟨⟨n, e⟩, hne, rfl⟩ := List.mem_map.1 hm
      have hsw : (e, n) ∈ ps.map Prod.swap := List.mem_map.2 ⟨_, hne, rfl⟩
      have hnd : ((ps.map Prod.swap).map Prod.fst).Nodup := by
        simpa [List.map_map, Function.comp_def] using ht.2.2
      rw [renameDim_of_mem hnd hsw] at hx
      rw [if_pos (.inl (List.mem_map.2 ⟨_, hne, rfl⟩)), renameDim_of_mem ht.2.1 hne] at hx
      exact hx
    · have h1 : d ∉ ps.map Prod.fst := fun h => hm (hq h)
      have : Sig.renameDim (ps.map Prod.swap) d = d := by
        refine renameDim_of_not_mem ?_
        simpa [List.map_map, Function.comp_def] using hm
      rw [this, if_pos (.inr hm), renameDim_of_not_mem h1] at hx
      exact hx
  · intro i j x y hx hy
    exact ⟨x, y, hx, hy, rfl⟩

theorem affine_rename {ps : List (Dim × Dim)} {s : Struct}
    (ht : (Struct.view (.rename ps) s).tame) (hs : (Struct.view (.rename ps) s).sane .ideal) {d : Dim}
    (hd : d ∉ (View.rename ps).dims → ¬ s.hard d) (hq : d ∈ ps.map Prod.fst → d ∈ ps.map Prod.snd) {f : State} {Z : Int}
    (H : ∀ uf, ((View.rename ps).sem .ideal (s.sem .ideal)).sub f = some uf →
      AffineAt s (Sig.renameDim (ps.map Prod.swap) d) uf Z) :
    AffineAt (.view (.rename ps) s) d f Z :=
  .of_fn fun start => afn_rename (reads_off start) ht hs hd hq fun uf h => (H uf h).fn start

/-! ### Blocks -/

/-- The translated index of a block and an index within it, `nl` the length of a block. -/
def Lin (v : View) (S : Sem) (e maj min d : Dim) (f : State) (nl : Val) : Prop :=
  ∀ g u x, g.remove (.idx d) = f → (v.sem .ideal S).sub g = some u → u (.idx e) = some x →
    ∃ i j, g (.idx maj) = some i ∧ g (.idx min) = some j ∧ x = (i.mul .ideal nl).add .ideal j

theorem afn_major {v : View} {s : Struct} {F F' : State → Option Val} (hR : Reads v s F F') (ht : (Struct.view v s).tame)
    (hs : (Struct.view v s).sane .ideal) {e maj min : Dim} (hne : maj ≠ min) (hd : ¬ s.hard maj)
    (hi : v.inner maj = some e) (hf : v.follows maj) {f : State} {nl : Val} {Z Z' : Int}
    (hl : Lin v (s.sem .ideal) e maj min maj f nl) (hk : ∀ K, nl.Num K → Z' = Z * K)
    (h0 : Z = 0 → Z' = 0)
    (H : ∀ uf, (v.sem .ideal (s.sem .ideal)).sub f = some uf → AffineFn F e uf Z) :
    AffineFn F' maj f Z' := by
  refine afn_index hR ht hs (fun _ => hd) hi hf
    (fun i => (i.mul .ideal nl).add .ideal ((f (.idx min)).getD (.lit 0))) ?_ ?_ h0 H
  · rintro g u hu rfl x hx
    obtain ⟨i, j, h1, h2, rfl⟩ := hl g u x rfl hu hx
    refine ⟨i, h1, ?_⟩
    simp [State.remove, Ne.symm hne, h2]
  · intro i j x y hx hy
    obtain ⟨a', b', h1, h2, h3⟩ := Num.sub1 hx hy
    obtain ⟨I, K, hI, hK, rfl⟩ := Val.nat?_mul.1 h1
    obtain ⟨J, K', hJ, hK', rfl⟩ := Val.nat?_mul.1 h2
    have := Val.Num.eq hK hK'
    subst this
    refine ⟨I, J, hI, hJ, ?_⟩
    rw [h3, hk K hK]
    grind

theorem affine_major {v : View} {s : Struct} (ht : (Struct.view v s).tame)
    (hs : (Struct.view v s).sane .ideal) {e maj min : Dim} (hne : maj ≠ min) (hd : ¬ s.hard maj)
    (hi : v.inner maj = some e) (hf : v.follows maj) {f : State} {nl : Val} {Z Z' : Int}
    (hl : Lin v (s.sem .ideal) e maj min maj f nl) (hk : ∀ K, nl.Num K → Z' = Z * K)
    (h0 : Z = 0 → Z' = 0)
    (H : ∀ uf, (v.sem .ideal (s.sem .ideal)).sub f = some uf → AffineAt s e uf Z) :
    AffineAt (.view v s) maj f Z' :=
  .of_fn fun start => afn_major (reads_off start) ht hs hne hd hi hf hl hk h0 fun uf h => (H uf h).fn start

/-- The index within a block is added to something. -/
def LinMin (v : View) (S : Sem) (e min : Dim) (f : State) (b : Val) : Prop :=
  ∀ g u x, g.remove (.idx min) = f → (v.sem .ideal S).sub g = some u → u (.idx e) = some x →
    ∃ j, g (.idx min) = some j ∧ x = b.add .ideal j

theorem afn_minor {v : View} {s : Struct} {F F' : State → Option Val} (hR : Reads v s F F') (ht : (Struct.view v s).tame)
    (hs : (Struct.view v s).sane .ideal) {e min : Dim} (hd : ¬ s.hard min)
    (hi : v.inner min = some e) (hf : v.follows min) {f : State} {b : Val} {Z : Int}
    (hl : LinMin v (s.sem .ideal) e min f b)
    (H : ∀ uf, (v.sem .ideal (s.sem .ideal)).sub f = some uf → AffineFn F e uf Z) :
    AffineFn F' min f Z := by
  refine afn_index hR ht hs (fun _ => hd) hi hf (fun i => b.add .ideal i) ?_ ?_ id H
  · rintro g u hu rfl x hx
    exact hl g u x rfl hu hx
  · intro i j x y hx hy
    obtain ⟨X, I, hX, hI, rfl⟩ := Val.nat?_add.1 hx
    obtain ⟨X', J, hX', hJ, rfl⟩ := Val.nat?_add.1 hy
    have := Val.Num.eq hX hX'
    subst this
    exact ⟨I, J, hI, hJ, by grind⟩

theorem affine_minor {v : View} {s : Struct} (ht : (Struct.view v s).tame)
    (hs : (Struct.view v s).sane .ideal) {e min : Dim} (hd : ¬ s.hard min)
    (hi : v.inner min = some e) (hf : v.follows min) {f : State} {b : Val} {Z : Int}
    (hl : LinMin v (s.sem .ideal) e min f b)
    (H : ∀ uf, (v.sem .ideal (s.sem .ideal)).sub f = some uf → AffineAt s e uf Z) :
    AffineAt (.view v s) min f Z :=
  .of_fn fun start => afn_minor (reads_off start) ht hs hd hi hf hl fun uf h => (H uf h).fn start

theorem Lin.min {v : View} {S : Sem} {e maj min : Dim} (hne : maj ≠ min) {f : State} {nl : Val}
    (h : Lin v S e maj min min f nl) :
    LinMin v S e min f ((((f (.idx maj)).getD (.lit 0)).mul .ideal nl)) := by
  rintro g u x rfl hu hx
  obtain ⟨i, j, h1, h2, h3⟩ := h g u x rfl hu hx
  refine ⟨j, h2, ?_⟩
  simp [State.remove, hne, h1, h3]

/-- The length of a block, if the lengths suffice to tell it. -/
def ibLen (e maj min : Dim) (S : Sem) (st : State) : Option Val :=
  match st (.len min) with
  | some nl => some nl
  | none => match st (.len maj), S.len e (blocksClean e maj min st) with
    | some ml, some l => some (l.div .ideal ml)
    | _, _ => none

theorem ib_lin {e maj min : Dim} {S : Sem} {g u : State} {x : Val}
    (hu : intoBlocksSub .ideal e maj min S g = some u) (hx : u (.idx e) = some x) :
    ∃ i j nl, g (.idx maj) = some i ∧ g (.idx min) = some j ∧ ibLen e maj min S g = some nl ∧
      x = (i.mul .ideal nl).add .ideal j := by
  have hc : blocksClean e maj min g (.idx e) = none := by simp [blocksClean, State.removeAll]
  simp only [intoBlocksSub] at hu
  cases hl : g (.len min) with
  | some nl =>
    simp only [hl] at hu
    cases hm : g (.len maj) <;> cases hI : g (.idx maj) <;> cases hJ : g (.idx min) <;>
      simp only [hm, hI, hJ, Option.some.injEq] at hu <;> subst hu <;>
      simp [State.set, hc] at hx <;> simp [ibLen, hl, hx]
  | none =>
    simp only [hl] at hu
    split at hu
    · simp at hu
    · cases hu; rw [hc] at hx; simp at hx
    · cases hm : g (.len maj) <;> cases hI : g (.idx maj) <;> cases hJ : g (.idx min) <;>
        simp only [hm, hI, hJ, Option.some.injEq, bind, Option.bind_eq_some_iff] at hu <;>
        first
        | (subst hu; rw [hc] at hx; simp at hx; done)
        | skip
      obtain ⟨l, hl', rfl⟩ := hu
      simp [State.set] at hx
      simp [ibLen, hl, hm, hl', hx]

def ibdLen (e maj min pres : Dim) (S : Sem) (st : State) : Option Val :=
  match st (.len min) with
  | some nl => some nl
  | none => match st (.len maj), S.len e (dynClean e maj min pres st) with
    | some ml, some l => some (ceilDiv .ideal l ml)
    | _, _ => none

theorem ibd_lin {e maj min pres : Dim} {S : Sem} {g u : State} {x : Val}
    (hu : intoBlocksDynSub .ideal e maj min pres S g = some u) (hx : u (.idx e) = some x) :
    ∃ i j nl, g (.idx maj) = some i ∧ g (.idx min) = some j ∧ ibdLen e maj min pres S g = some nl ∧
      x = (i.mul .ideal nl).add .ideal j := by
  have hc : dynClean e maj min pres g (.idx e) = none := by simp [dynClean, State.removeAll]
  simp only [intoBlocksDynSub, blocksDynClean_eq] at hu
  split at hu
  · simp at hu
  simp only [bind, Option.bind_some] at hu
  cases hl : g (.len min) with
  | some nl =>
    simp only [hl] at hu
    cases hm : g (.len maj) <;> cases hI : g (.idx maj) <;> cases hJ : g (.idx min) <;>
      simp only [hm, hI, hJ, Option.some.injEq] at hu <;> subst hu <;>
      simp [State.set, hc] at hx <;> simp [ibdLen, hl, hx]
  | none =>
    simp only [hl] at hu
    cases hm : g (.len maj) <;> cases hI : g (.idx maj) <;> cases hJ : g (.idx min) <;>
      simp only [hm, hI, hJ, Option.some.injEq, bind, Option.bind_eq_some_iff] at hu <;>
      first
      | (subst hu; rw [hc] at hx; simp at hx; done)
      | skip
    obtain ⟨l, hl', rfl⟩ := hu
    simp [State.set] at hx
    simp [ibdLen, hl, hm, hl', hx]

theorem ibs_lin {e border maj min : Dim} {nl : Val} {S : Sem} {g u : State} {x : Val}
    (hu : intoBlocksStatSub .ideal e border maj min nl S g = some u) (hx : u (.idx e) = some x) :
    ∃ i j, g (.idx maj) = some i ∧ g (.idx min) = some j ∧
      ((isBody border g = some true ∧ x = (i.mul .ideal nl).add .ideal j) ∨
       (isBody border g = some false ∧ ∃ l, S.len e (statClean e border maj min g) = some l ∧
         x = ((l.div .ideal nl).mul .ideal nl).add .ideal j)) := by
  have hc : statClean e border maj min g (.idx e) = none := by simp [statClean, State.removeAll]
  simp only [intoBlocksStatSub, blocksStatClean_eq] at hu
  split at hu
  · simp at hu
  simp only [bind, Option.bind_some] at hu
  split at hu
  · cases hI : g (.idx maj) <;> cases hJ : g (.idx min) <;>
      simp only [hI, hJ, Option.some.injEq, Option.bind_eq_some_iff] at hu <;>
      first
      | (subst hu; rw [hc] at hx; simp at hx; done)
      | skip
    obtain ⟨b, hb, hu⟩ := hu
    cases b with
    | false =>
      simp only [Bool.false_eq_true, ↓reduceIte, Option.bind_eq_some_iff, Option.some.injEq] at hu
      obtain ⟨l, hl, rfl⟩ := hu
      simp [State.set] at hx
      exact ⟨_, _, rfl, rfl, .inr ⟨hb, l, hl, hx.symm⟩⟩
    | true =>
      simp only [↓reduceIte, Option.some.injEq] at hu
      subst hu
      simp [State.set] at hx
      exact ⟨_, _, rfl, rfl, .inl ⟨hb, hx.symm⟩⟩
  · cases hu; rw [hc] at hx; simp at hx

theorem ibLen_remove {e maj min : Dim} {S : Sem} {st : State} {d : Dim} (hd : d = maj ∨ d = min) :
    ibLen e maj min S (st.remove (.idx d)) = ibLen e maj min S st := by
  have e0 : blocksClean e maj min (st.remove (.idx d)) = blocksClean e maj min st := by
    rcases hd with rfl | rfl <;> state_eq
  simp only [ibLen, e0]
  simp [State.remove]

theorem ibdLen_remove {e maj min pres : Dim} {S : Sem} {st : State} {d : Dim}
    (hd : d = maj ∨ d = min) :
    ibdLen e maj min pres S (st.remove (.idx d)) = ibdLen e maj min pres S st := by
  have e0 : dynClean e maj min pres (st.remove (.idx d)) = dynClean e maj min pres st := by
    unfold dynClean
    rcases hd with rfl | rfl <;> state_eq
  simp only [ibdLen, e0]
  simp [State.remove]

theorem lin_ib {e maj min d : Dim} {S : Sem} {f : State} (hd : d = maj ∨ d = min) {nl : Val}
    (h : ∀ nl', ibLen e maj min S f = some nl' → nl = nl') :
    Lin (.intoBlocks e maj min) S e maj min d f nl := by
  rintro g u x rfl hu hx
  obtain ⟨i, j, nl', h1, h2, h3, h4⟩ := ib_lin hu hx
  rw [ibLen_remove hd] at h
  obtain rfl := h nl' h3
  exact ⟨i, j, h1, h2, h4⟩

theorem lin_ibd {e maj min pres d : Dim} {S : Sem} {f : State} (hd : d = maj ∨ d = min) {nl : Val}
    (h : ∀ nl', ibdLen e maj min pres S f = some nl' → nl = nl') :
    Lin (.intoBlocksDyn e maj min pres) S e maj min d f nl := by
  rintro g u x rfl hu hx
  obtain ⟨i, j, nl', h1, h2, h3, h4⟩ := ibd_lin hu hx
  rw [ibdLen_remove hd] at h
  obtain rfl := h nl' h3
  exact ⟨i, j, h1, h2, h4⟩

theorem isBody_congr {border : Dim} {g f : State} (h : g (.idx border) = f (.idx border)) :
    isBody border g = isBody border f := by simp [isBody, h]

theorem lin_ibs {e border maj min d : Dim} {nl : Val} {S : Sem} {f : State} (hd : d ≠ border)
    (hb : isBody border f = some true) :
    Lin (.intoBlocksStat e border maj min nl) S e maj min d f nl := by
  rintro g u x rfl hu hx
  have hb' : isBody border g = some true := by
    rw [← hb]; exact isBody_congr (by simp [State.remove, Ne.symm hd])
  obtain ⟨i, j, h1, h2, h3⟩ := ibs_lin hu hx
  simp only [hb', true_and, Option.some.injEq, Bool.true_eq_false, false_and, or_false] at h3
  exact ⟨i, j, h1, h2, h3⟩

theorem linMin_ibs {e border maj min : Dim} {nl : Val} {S : Sem} {f : State} (hd : min ≠ border)
    (hne : maj ≠ min) : ∃ b, LinMin (.intoBlocksStat e border maj min nl) S e min f b := by
  by_cases hb : isBody border f = some true
  · exact ⟨_, (lin_ibs hd hb).min hne⟩
  · refine ⟨((((S.len e (statClean e border maj min f)).getD (.lit 0)).div .ideal nl).mul .ideal nl), ?_⟩
    rintro g u x rfl hu hx
    obtain ⟨i, j, h1, h2, h3⟩ := ibs_lin hu hx
    have hb' : isBody border g ≠ some true := by
      rw [isBody_congr (f := g.remove (.idx min)) (by simp [State.remove, Ne.symm hd])]; exact hb
    simp only [hb', false_and, false_or] at h3
    obtain ⟨-, l, hl, rfl⟩ := h3
    have e0 : statClean e border maj min (g.remove (.idx min)) = statClean e border maj min g := by
      unfold statClean; state_eq
    refine ⟨j, h2, ?_⟩
    rw [e0, hl]; rfl

end Noarr
