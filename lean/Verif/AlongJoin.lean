import Verif.AlongAffine

/-
Joined dimensions, and states that agree on the lengths and the hard indices. Used for C38, C39, C40.
-/

set_option linter.unusedVariables false
set_option linter.unusedSimpArgs false

namespace Noarr

/-- The same lengths, and the same indices in the dimensions that lengths depend on. -/
def Alike (s : Struct) (f f' : State) : Prop :=
  SameLens f f' ∧ ∀ e, s.hard e → f (.idx e) = f' (.idx e)

theorem Alike.symm {s : Struct} {f f' : State} (h : Alike s f f') : Alike s f' f :=
  ⟨fun e => (h.1 e).symm, fun e he => (h.2 e he).symm⟩

theorem Alike.vector {d : Dim} {s : Struct} {f f' : State} (h : Alike (.vector d s) f f') :
    Alike s (f.removeAll [.idx d, .len d]) (f'.removeAll [.idx d, .len d]) := by
  refine ⟨fun e => ?_, fun e he => ?_⟩
  · simp only [State.removeAll]; rw [h.1 e]
  · by_cases hd : e = d
    · subst hd; simp [State.removeAll]
    · simp only [State.removeAll]; rw [h.2 e ⟨hd, he⟩]

theorem Alike.tuple {t : Dim} {n : Nat} {fs : Fin n → Struct} {f f' : State} (h : Alike (.tuple t n fs) f f')
    (i : Fin n) : Alike (fs i) (f.remove (.idx t)) (f'.remove (.idx t)) := by
  refine ⟨fun e => ?_, fun e he => ?_⟩
  · simp only [State.remove]; rw [h.1 e]
  · simp only [State.remove]; rw [h.2 e (by simp only [Struct.hard]; exact .inr ⟨i, he⟩)]

theorem Alike.sub {v : View} {s : Struct} {f f' u u' : State} (ht : (Struct.view v s).tame)
    (hs : (Struct.view v s).sane .ideal) (h : Alike (.view v s) f f') (hr : (Struct.view v s).rigid .ideal f)
    (hu : (v.sem .ideal (s.sem .ideal)).sub f = some u) (hu' : (v.sem .ideal (s.sem .ideal)).sub f' = some u') :
    Alike s u u' := by
  refine ⟨sameLens_sub h.1 hr hu hu', fun e he => ?_⟩
  have hh := h.2 e
  simp only [Struct.hard] at hh
  by_cases hq : e ∉ v.dims
  · rw [sub_idx hq hu, sub_idx hq hu']
    refine hh ?_
    cases v <;> simp only [View.dims, List.mem_cons, List.not_mem_nil, or_false, not_or, List.mem_append] at hq <;>
      simp only [View.hard] <;> first | exact he | exact ⟨hq, he⟩ | exact .inr he | skip
    next ps => exact ⟨e, he, .inr hq.2, renameDim_of_not_mem hq.1⟩
  have hq := Classical.not_not.1 hq
  cases v with
  | bcast d => simp [View.dims] at hq; subst hq; cases hu; cases hu'; simp [State.removeAll]
  | fix d i => simp [View.dims] at hq; subst hq; cases hu; cases hu'; simp [State.set]
  | setLength d l => simp [View.dims] at hq
  | reorder ds => simp [View.dims] at hq
  | hoist d => simp [View.dims] at hq
  | shift d a =>
    simp [View.dims] at hq; subst hq; cases hu; cases hu'
    simp only [State.mapAt, if_true, hh he, reduceCtorEq, if_false]
  | slice d a n =>
    simp [View.dims] at hq; subst hq; cases hu; cases hu'
    simp only [State.mapAt, if_true, hh he]
  | span d a n =>
    simp [View.dims] at hq; subst hq; cases hu; cases hu'
    simp only [State.mapAt, if_true, hh he]
  | step d a n =>
    simp [View.dims] at hq; subst hq; cases hu; cases hu'
    simp only [State.mapAt, if_true, hh he]
  | reverse d => simp [View.dims] at hq; subst hq; exact absurd he hs.2.1
  | rename ps =>
    cases hu; cases hu'
    simp only [renameState_idx]
    split
    · next hc => exact h.2 _ ⟨e, he, hc, rfl⟩
    · rfl
  | join a b d =>
    exfalso
    simp [View.dims] at hq
    rcases hq with rfl | rfl | rfl
    · first | exact ht.2.1.1 he | exact ht.2.2.1 he | exact hs.2 he
    · first | exact ht.2.1.1 he | exact ht.2.2.1 he | exact hs.2 he
    · first | exact ht.2.1.1 he | exact ht.2.2.1 he | exact hs.2 he
  | intoBlocks d maj min =>
    exfalso
    simp [View.dims] at hq
    rcases hq with rfl | rfl | rfl
    · exact ht.2.1.1 he
    · exact ht.2.2.1 he
    · exact ht.2.2.2 he
  | intoBlocksDyn d maj min pres =>
    exfalso
    simp [View.dims] at hq
    rcases hq with rfl | rfl | rfl | rfl
    · exact ht.2.1.1 he
    · exact ht.2.2.1 he
    · exact ht.2.2.2.1 he
    · exact ht.2.2.2.2 he
  | intoBlocksStat d border maj min nl =>
    have hb : e = border := by
      simp [View.dims] at hq
      rcases hq with rfl | rfl | rfl | rfl
      · exact absurd he ht.2.1.1
      · first | rfl | exact absurd he ht.2.2.1
      · first | rfl | exact absurd he ht.2.2.1 | exact absurd he ht.2.2.2.1
      · first | rfl | exact absurd he ht.2.2.1 | exact absurd he ht.2.2.2.1
    subst hb
    have hde : e ≠ d := by rintro rfl; exact ht.2.1.1 he
    have key : ∀ st u, intoBlocksStatSub .ideal d e maj min nl (s.sem .ideal) st = some u → u (.idx e) = none := by
      intro st u hu
      have hc : statClean d e maj min st (.idx e) = none := by simp [statClean, State.removeAll]
      simp only [intoBlocksStatSub, blocksStatClean_eq] at hu
      split at hu
      · simp at hu
      simp only [bind, Option.bind_some] at hu
      split at hu
      · cases hI : st (.idx maj) <;> cases hJ : st (.idx min) <;>
          simp only [hI, hJ, Option.some.injEq, Option.bind_eq_some_iff] at hu <;>
          first
          | (subst hu; exact hc)
          | skip
        obtain ⟨b, hb, hu⟩ := hu
        cases b with
        | false =>
          simp only [Bool.false_eq_true, ↓reduceIte, Option.bind_eq_some_iff, Option.some.injEq] at hu
          obtain ⟨l, hl, rfl⟩ := hu
          simpa [State.set, hde] using hc
        | true =>
          simp only [↓reduceIte, Option.some.injEq] at hu
          subst hu
          simpa [State.set, hde] using hc
      · cases hu; exact hc
    rw [key _ _ hu, key _ _ hu']
  | mergeBlocks maj min d =>
    exfalso
    simp [View.dims] at hq
    rcases hq with rfl | rfl | rfl
    · first | exact ht.2.1.1 he | exact ht.2.2.1 he | exact hs.2.2 he
    · first | exact ht.2.1.1 he | exact ht.2.2.1 he | exact hs.2.2 he
    · first | exact ht.2.1.1 he | exact ht.2.2.1 he | exact hs.2.2 he
  | mergeZ sl gl ds d =>
    exfalso
    simp [View.dims] at hq
    rcases hq with rfl | hq
    · exact hs.2 he
    · exact (ht.2 e hq).1 he

theorem ibLen_alike {e maj min : Dim} {s : Struct} (ht : (Struct.view (.intoBlocks e maj min) s).tame)
    {f f' : State} (h : Alike (.view (.intoBlocks e maj min) s) f f') {nl nl' : Val}
    (h1 : ibLen e maj min (s.sem .ideal) f = some nl) (h2 : ibLen e maj min (s.sem .ideal) f' = some nl') :
    nl = nl' := by
  simp only [ibLen, ← h.1 _] at h1 h2
  cases hm : f (.len min) with
  | some l => simp only [hm, Option.some.injEq] at h1 h2; rw [← h1, ← h2]
  | none =>
    simp only [hm] at h1 h2
    cases hM : f (.len maj) with
    | none => simp [hM] at h1
    | some ml =>
      cases k1 : (s.sem .ideal).len e (blocksClean e maj min f) with
      | none => simp [hM, k1] at h1
      | some l =>
        cases k2 : (s.sem .ideal).len e (blocksClean e maj min f') with
        | none => simp [hM, k2] at h2
        | some l' =>
          have := (lens_agree (Struct.length_dep .ideal s ht.1) ht.2.1 (a := blocksClean e maj min f)
            (b := blocksClean e maj min f') h.1.clean (by
              intro x hx
              simp only [blocksClean, State.removeAll]
              rw [h.2 x hx]) (by simp [blocksClean, State.removeAll]) (by simp [blocksClean, State.removeAll])).1
            l l' k1 k2
          subst this
          simp only [hM, k1, k2, Option.some.injEq] at h1 h2
          rw [← h1, ← h2]

theorem ibdLen_alike {e maj min pres : Dim} {s : Struct} (ht : (Struct.view (.intoBlocksDyn e maj min pres) s).tame)
    {f f' : State} (h : Alike (.view (.intoBlocksDyn e maj min pres) s) f f') {nl nl' : Val}
    (h1 : ibdLen e maj min pres (s.sem .ideal) f = some nl)
    (h2 : ibdLen e maj min pres (s.sem .ideal) f' = some nl') : nl = nl' := by
  simp only [ibdLen, ← h.1 _] at h1 h2
  cases hm : f (.len min) with
  | some l => simp only [hm, Option.some.injEq] at h1 h2; rw [← h1, ← h2]
  | none =>
    simp only [hm] at h1 h2
    cases hM : f (.len maj) with
    | none => simp [hM] at h1
    | some ml =>
      cases k1 : (s.sem .ideal).len e (dynClean e maj min pres f) with
      | none => simp [hM, k1] at h1
      | some l =>
        cases k2 : (s.sem .ideal).len e (dynClean e maj min pres f') with
        | none => simp [hM, k2] at h2
        | some l' =>
          have := (lens_agree (Struct.length_dep .ideal s ht.1) ht.2.1 (a := dynClean e maj min pres f)
            (b := dynClean e maj min pres f') (by
              intro x
              simp only [dynClean, State.removeAll]
              rw [h.1 x]) (by
              intro x hx
              simp only [dynClean, State.removeAll]
              rw [h.2 x hx]) (by simp [dynClean, State.removeAll]) (by simp [dynClean, State.removeAll])).1
            l l' k1 k2
          subst this
          simp only [hM, k1, k2, Option.some.injEq] at h1 h2
          rw [← h1, ← h2]

/-- The states in `P` agree on a partial function: there is a common value. -/
theorem common {α : Type} (P : State → Prop) (F : State → Option α)
    (h : ∀ f f', P f → P f' → ∀ x y, F f = some x → F f' = some y → x = y) (d : α) :
    ∃ x, ∀ f, P f → ∀ y, F f = some y → x = y := by
  by_cases hx : ∃ f x, P f ∧ F f = some x
  · obtain ⟨f, x, hf, hx⟩ := hx
    exact ⟨x, fun f' hf' y hy => h f f' hf hf' x y hx hy⟩
  · exact ⟨d, fun f hf y hy => absurd ⟨f, y, hf, hy⟩ hx⟩

/-! ### Joined dimensions -/

/-- What is handed down by `join`. -/
theorem join_parts {a b e : Dim} (hab : a ≠ b) {S : Sem} {g u : State} (hu : ((View.join a b e).sem .ideal S).sub g = some u) :
    ((View.join a b e).sem .ideal S).sub (g.remove (.idx e)) = some (u.removeAll [.idx a, .idx b]) ∧
    u (.idx a) = g (.idx e) ∧ u (.idx b) = g (.idx e) := by
  have e0 : ∀ ts, .idx e ∈ ts → (g.remove (.idx e)).removeAll ts = g.removeAll ts := by
    intro ts h
    funext tag
    simp only [State.removeAll, State.remove]
    grind
  have e1 : (g.remove (.idx e)) (.idx e) = none := by simp [State.remove]
  have e2 : (g.remove (.idx e)) (.len e) = g (.len e) := by simp [State.remove]
  simp only [View.sem, joinSem, bind, Option.bind_eq_some_iff, e1, e2] at hu ⊢
  rw [e0 _ (by simp)]
  obtain ⟨x, hx, y, hy, hu⟩ := hu
  split at hu
  · simp at hu
  next hne =>
  simp only [hx, hy, Option.bind_some, hne, if_false, Bool.false_eq_true, ↓reduceIte]
  cases hl : g (.len e) <;> cases hi : g (.idx e) <;> simp only [hl, hi, Option.some.injEq] at hu ⊢
  · subst hu
    refine ⟨?_, ?_, ?_⟩
    · exact ⟨x, rfl, y, rfl, by rw [if_neg hne]; congr 1; state_eq⟩
    · simp [State.removeAll]
    · simp [State.removeAll]
  · subst hu
    refine ⟨?_, ?_, ?_⟩
    · exact ⟨x, rfl, y, rfl, by rw [if_neg hne]; congr 1; state_eq⟩
    · simp [State.set, hab]
    · simp [State.set]
  · split at hu
    · simp at hu
    next hxy =>
    simp only [Option.some.injEq] at hu
    subst hu
    refine ⟨?_, ?_, ?_⟩
    · exact ⟨x, rfl, y, rfl, by rw [if_neg hne, if_neg hxy]; congr 1; state_eq⟩
    · simp [State.removeAll, State.set]
    · simp [State.removeAll, State.set]
  · split at hu
    · simp at hu
    next hxy =>
    simp only [Option.some.injEq] at hu
    subst hu
    refine ⟨?_, ?_, ?_⟩
    · exact ⟨x, rfl, y, rfl, by rw [if_neg hne, if_neg hxy]; congr 1; state_eq⟩
    · simp [State.set, hab]
    · simp [State.set]

theorem afn_join {a b e : Dim} {s : Struct} {F F' : State → Option Val} (hR : Reads (.join a b e) s F F')
    (hab : a ≠ b) {f : State} {Z Z' : Int}
    (H : ∀ uf, ((View.join a b e).sem .ideal (s.sem .ideal)).sub f = some uf →
      (∀ w, w.remove (.idx b) = uf → AffineFn F a w Z) ∧ (∀ w, w.remove (.idx a) = uf → AffineFn F b w Z') ∧
      Crosses F a b uf) :
    AffineFn F' e f (Z + Z') := by
  rintro g h o o' m n hg hh ho ho' hm hn
  obtain ⟨u, hu, ho⟩ := hR g o ho
  obtain ⟨w, hw, ho'⟩ := hR h o' ho'
  obtain ⟨u1, u2, u3⟩ := join_parts hab hu
  obtain ⟨w1, w2, w3⟩ := join_parts hab hw
  rw [hg] at u1
  rw [hh] at w1
  have hwu : w.removeAll [.idx a, .idx b] = u.removeAll [.idx a, .idx b] := by
    rw [u1] at w1; exact (Option.some.inj w1).symm
  obtain ⟨H1, H2, H3⟩ := H _ u1
  obtain ⟨o'', k, c1, c2⟩ := H3 u w o o' m n rfl hwu (u2.trans u3.symm) (w2.trans w3.symm) ho ho' hm hn
  have ev : ∀ tag, tag ≠ .idx a → tag ≠ .idx b → w tag = u tag := by
    intro tag h1 h2
    have := congrFun hwu tag
    simpa [State.removeAll, h1, h2] using this
  have d1 : (State.cross b u w).remove (.idx a) = u.remove (.idx a) := by
    funext tag
    have := ev tag
    simp only [State.cross, State.remove]
    grind
  have d2 : (State.cross b u w).remove (.idx b) = w.remove (.idx b) := by
    funext tag
    simp only [State.cross, State.remove]
    grind
  have s1 := H1 (u.remove (.idx a)) (by funext tag; simp only [State.remove, State.removeAll]; grind)
    u (State.cross b u w) o o'' m k rfl d1 ho c1 hm c2
  have s2 := H2 (w.remove (.idx b)) (by rw [← hwu]; funext tag; simp only [State.remove, State.removeAll]; grind)
    (State.cross b u w) w o'' o' k n d2 rfl c1 ho' c2 hn
  have x1 : State.cross b u w (.idx a) = h (.idx e) := by simp [State.cross, hab, w2]
  have x2 : State.cross b u w (.idx b) = g (.idx e) := by simp [State.cross, u3]
  rw [u2, x1] at s1
  rw [w3, x2] at s2
  rcases s1 with ⟨i, j, I, J, h1, h2, h3, h4, h5⟩ | ⟨h1, h2⟩
  · refine .inl ⟨i, j, I, J, h1, h2, h3, h4, ?_⟩
    rcases s2 with ⟨i', j', I', J', k1, k2, k3, k4, k5⟩ | ⟨k1, k2⟩
    · rw [h1] at k1; cases k1
      rw [h2] at k2; cases k2
      rw [Val.Num.eq k3 h3, Val.Num.eq k4 h4] at k5
      rw [Int.mul_add]; omega
    · rw [k1, Int.add_zero]; omega
  · rcases s2 with ⟨i', j', I', J', k1, k2, k3, k4, k5⟩ | ⟨k1, k2⟩
    · refine .inl ⟨i', j', I', J', k1, k2, k3, k4, ?_⟩
      rw [h1, Int.zero_add]; omega
    · exact .inr ⟨by omega, by omega⟩

theorem affine_join {a b e : Dim} {s : Struct} (hab : a ≠ b) {f : State} {Z Z' : Int}
    (H : ∀ uf, ((View.join a b e).sem .ideal (s.sem .ideal)).sub f = some uf →
      (∀ w, w.remove (.idx b) = uf → AffineAt s a w Z) ∧ (∀ w, w.remove (.idx a) = uf → AffineAt s b w Z') ∧
      ∀ start, Crosses (fun st => (s.sem .ideal).off st start) a b uf) :
    AffineAt (.view (.join a b e) s) e f (Z + Z') :=
  .of_fn fun start => afn_join (reads_off start) hab fun uf h =>
    ⟨fun w hw => ((H uf h).1 w hw).fn start, fun w hw => ((H uf h).2.1 w hw).fn start, (H uf h).2.2 start⟩

theorem Alike.of_remove {s : Struct} {b : Dim} (hb : ¬ s.hard b) {w w' : State}
    (h : Alike s (w.remove (.idx b)) (w'.remove (.idx b))) : Alike s w w' := by
  refine ⟨fun x => ?_, fun x hx => ?_⟩
  · have := h.1 x; simpa [State.remove] using this
  · have hxb : x ≠ b := by rintro rfl; exact hb hx
    have := h.2 x hx; simpa [State.remove, hxb] using this

theorem Firm.of_remove {s : Struct} {b : Dim} {w : State} (h : Firm s (w.remove (.idx b))) : Firm s w :=
  Firm.congr (fun d => by simp [State.remove]) h

theorem Grow.of_remove {b : Dim} {u w : State} (h : Grow u (w.remove (.idx b))) : Grow u w := by
  refine ⟨fun x => ?_, fun x v hx => ?_⟩
  · rw [← h.lens x]; simp [State.remove]
  · have := h.idxs x v hx
    simp only [State.remove] at this
    split at this
    · simp at this
    · exact this

theorem Stride.int?_add {z z' : Stride} {Z : Int} (h : (z.add .ideal z').int? = some Z) :
    ∃ Z1 Z2, z.int? = some Z1 ∧ z'.int? = some Z2 ∧ Z = Z1 + Z2 := by
  have key : ∀ z z' : Stride, (Stride.uns (z.toUns.toDyn.add .ideal z'.toUns.toDyn)).int? = some Z →
      ∃ Z1 Z2, z.int? = some Z1 ∧ z'.int? = some Z2 ∧ Z = Z1 + Z2 := by
    intro z z' h
    have one : ∀ (z : Stride) (x : Nat), z.toUns.toDyn.nat? = some x → z.int? = some (x : Int) := by
      intro z x hx
      cases z with
      | uns v => cases v <;> simp_all [Stride.toUns, Val.toDyn, Val.nat?, Stride.int?]
      | sgn i =>
        cases i with
        | ofNat n => simp_all [Stride.toUns, Val.toDyn, Val.nat?, Stride.int?]
        | negSucc n => simp [Stride.toUns, Val.toDyn, Val.nat?] at hx
    simp only [Stride.int?, Option.map_eq_some_iff] at h
    obtain ⟨n, hn, rfl⟩ := h
    obtain ⟨x, y, hx, hy, rfl⟩ := Val.nat?_add.1 hn
    exact ⟨x, y, one z x hx, one z' y hy, by simp⟩
  cases z <;> cases z' <;> first
    | exact key _ _ h
    | (simp only [Stride.add, Stride.int?, Option.some.injEq] at h
       exact ⟨_, _, rfl, rfl, h.symm⟩)

end Noarr
