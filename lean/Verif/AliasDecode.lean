import Verif.AliasNeeds
import Verif.AliasSpec
import Verif.SizeDet

/-
The index of a view can be computed back from the indices handed down. Used for C06.
-/

set_option linter.unusedVariables false
set_option linter.unusedSimpArgs false

namespace Noarr

local notation "A" => Arith.ideal

theorem SameNum.symm {a b : Option Val} (h : SameNum a b) : SameNum b a := by
  obtain ⟨i, j, n, h1, h2, h3, h4⟩ := h
  exact ⟨j, i, n, h2, h1, h4, h3⟩

/-- Lengths of ordinary dimensions agree in states that agree on the hard indices. -/
theorem lens_agree {B : Arith} {s : Struct} (ih : LD B s) {x : Dim} (hx : s.plain x) {a b : State}
    (hl : SameLens a b) (hh : ∀ e, s.hard e → a (.idx e) = b (.idx e)) (ha : a (.idx x) = none)
    (hb : b (.idx x) = none) :
    (∀ l l', (s.sem B).len x a = some l → (s.sem B).len x b = some l' → l = l') ∧
    ∀ l l', (s.sem B).hasLen x a = some l → (s.sem B).hasLen x b = some l' → l = l' := by
  classical
  obtain ⟨h1, h2, h3⟩ := hx
  let m : State := fun t => match t with
    | .len d => a (.len d)
    | .idx e => if s.hard e then a (.idx e) else none
  have ra : Rel s x a m := by
    constructor
    · intro d; rfl
    · intro e he; simp only [m]; split; exact he; rfl
    · intro _; exact ha
    · intro e he; simp only [m, he, if_true]
    · intro h; exact absurd h h2
    · intro h; exact absurd h h3
  have rb : Rel s x b m := by
    constructor
    · intro d; exact (hl d).symm
    · intro e he; simp only [m]; split
      · next h => rw [hh e h]; exact he
      · rfl
    · intro _; exact hb
    · intro e he; simp only [m, he, if_true]; exact (hh e he).symm
    · intro h; exact absurd h h2
    · intro h; exact absurd h h3
  have ia := ih _ _ _ ra
  have ib := ih _ _ _ rb
  constructor
  · intro l l' h h'
    have := ia.2 l h
    rw [ib.2 l' h'] at this
    exact (Option.some.inj this).symm
  · intro l l' h h'
    have := ia.1 l h
    rw [ib.1 l' h'] at this
    exact (Option.some.inj this).symm

theorem block_inj {i j i' j' n : Nat} (hj : j < n) (hj' : j' < n) (h : i * n + j = i' * n + j') :
    i = i' ∧ j = j' := by
  have h0 : 0 < n := by omega
  have e1 : (i * n + j) / n = i := by
    rw [Nat.mul_comm, Nat.mul_add_div h0, Nat.div_eq_of_lt hj]; omega
  have e2 : (i' * n + j') / n = i' := by
    rw [Nat.mul_comm, Nat.mul_add_div h0, Nat.div_eq_of_lt hj']; omega
  have : i = i' := by rw [← e1, ← e2, h]
  subst this
  exact ⟨rfl, by omega⟩

/-- the two halves of a block index -/
theorem block_decode {I J I' J' nl : Val} {n : Nat}
    (h : ((I.mul A nl).add A J).Num n) (h' : ((I'.mul A nl).add A J').Num n)
    (hj : LtVal J nl) (hj' : LtVal J' nl) :
    (∃ i, I.Num i ∧ I'.Num i) ∧ ∃ j, J.Num j ∧ J'.Num j := by
  obtain ⟨x, j, hx, hj1, rfl⟩ := Val.nat?_add.1 h
  obtain ⟨i, m, hi, hm, rfl⟩ := Val.nat?_mul.1 hx
  obtain ⟨x', j', hx', hj1', he⟩ := Val.nat?_add.1 h'
  obtain ⟨i', m', hi', hm', rfl⟩ := Val.nat?_mul.1 hx'
  obtain ⟨a, b, ha, hb, hab⟩ := hj
  obtain ⟨a', b', ha', hb', hab'⟩ := hj'
  have e1 := Val.Num.eq ha hj1
  have e2 := Val.Num.eq hb hm
  have e3 := Val.Num.eq ha' hj1'
  have e4 := Val.Num.eq hb' hm
  have e5 := Val.Num.eq hm hm'
  subst e1; subst e2; subst e3; subst e4; subst e5
  obtain ⟨rfl, rfl⟩ := block_inj hab hab' he
  exact ⟨⟨i, hi, hi'⟩, a, hj1, hj1'⟩

section parts
variable {s : Struct} (ih : LD A s)

/-- what `into_blocks` computes the index from -/
theorem ib_parts {d maj min : Dim} {st u : State} {x : Val} (hne : maj ≠ min)
    (hp : (View.intoBlocks d maj min).pre A (s.sem A) st u)
    (hu : intoBlocksSub A d maj min (s.sem A) st = some u) (hx : u (.idx d) = some x) :
    ∃ I J nl, st (.idx maj) = some I ∧ st (.idx min) = some J ∧ x = (I.mul A nl).add A J ∧
      ((Struct.view (.intoBlocks d maj min) s).sem A).len min (st.remove (.idx min)) = some nl ∧
      (st (.len min) = some nl ∨ (st (.len min) = none ∧ ∃ ml l, st (.len maj) = some ml ∧
        (s.sem A).len d (blocksClean d maj min st) = some l ∧ nl = l.div A ml)) := by
  have cM : blocksClean d maj min (st.remove (.idx min)) = blocksClean d maj min st := by state_eq
  have e4 : (st.remove (.idx min)) (.idx min) = none := by state_val
  have e5 : ∀ x y, (st.remove (.idx x)) (.len y) = st (.len y) := by intros; state_val
  have e6 : blocksClean d maj min st (.idx d) = none := by state_val
  cases hnl : st (.len min) with
  | some nl =>
    have hlm : ((Struct.view (.intoBlocks d maj min) s).sem A).len min (st.remove (.idx min)) =
        some nl := by
      cases hml : st (.len maj) with
      | none =>
        simp only [Struct.sem, View.sem, ViewSem.toSem, intoBlocksSem, State.has]
        simp [e4, e5, hnl, hml, guardTrue]
      | some ml =>
        obtain ⟨hfalse, -⟩ := hp ml nl hml hnl
        simp only [Struct.sem, View.sem, ViewSem.toSem, intoBlocksSem, State.has]
        simp [e4, e5, hnl, hml, cM, hfalse, guardTrue]
    cases hml : st (.len maj) <;> cases hI : st (.idx maj) <;> cases hJ : st (.idx min) <;>
      simp only [intoBlocksSub, hnl, hml, hI, hJ, Option.some.injEq] at hu <;> subst hu <;>
      first
      | (simp [State.set, e6] at hx; done)
      | (refine ⟨_, _, nl, rfl, rfl, ?_, hlm, .inl rfl⟩; simpa [State.set, eq_comm] using hx)
  | none =>
    simp only [intoBlocksSub, hnl] at hu
    cases hb : (s.sem A).hasLen d (blocksClean d maj min st) with
    | none => simp [hb] at hu
    | some b =>
      cases b with
      | false => simp only [hb, Option.some.injEq] at hu; subst hu; simp [e6] at hx
      | true =>
        simp only [hb] at hu
        cases hml : st (.len maj) <;> cases hI : st (.idx maj) <;> cases hJ : st (.idx min) <;>
          simp only [hml, hI, hJ, bind, Option.bind_eq_some_iff, Option.some.injEq] at hu <;>
          first
          | (subst hu; simp [State.set, e6] at hx; done)
          | skip
        next ml I J =>
        obtain ⟨l, hl, rfl⟩ := hu
        refine ⟨_, _, l.div A ml, rfl, rfl, by simpa [State.set, eq_comm] using hx, ?_,
          .inr ⟨rfl, ml, l, rfl, hl, rfl⟩⟩
        simp only [Struct.sem, View.sem, ViewSem.toSem, intoBlocksSem, State.has,
          intoBlocksSub]
        simp [e4, e5, hnl, hml, cM, hb, hl, guardTrue]

/-- what `into_blocks_dynamic` computes the index from -/
theorem ibd_parts {d maj min pres : Dim} {st u : State} {x : Val} (hne : maj ≠ min) (hne1 : min ≠ pres)
    (hp : (View.intoBlocksDyn d maj min pres).pre A (s.sem A) st u)
    (hu : intoBlocksDynSub A d maj min pres (s.sem A) st = some u) (hx : u (.idx d) = some x) :
    ∃ I J nl, st (.idx maj) = some I ∧ st (.idx min) = some J ∧ x = (I.mul A nl).add A J ∧
      ((Struct.view (.intoBlocksDyn d maj min pres) s).sem A).len min (st.remove (.idx min)) = some nl ∧
      (st (.len min) = some nl ∨ (st (.len min) = none ∧ ∃ ml l, st (.len maj) = some ml ∧
        (s.sem A).len d (dynClean d maj min pres st) = some l ∧ nl = ceilDiv A l ml)) := by
  have cM : dynClean d maj min pres (st.remove (.idx min)) = dynClean d maj min pres st := by
    unfold dynClean; state_eq
  have e4 : (st.remove (.idx min)) (.idx min) = none := by state_val
  have e5 : ∀ x y, (st.remove (.idx x)) (.len y) = st (.len y) := by intros; state_val
  have e6 : dynClean d maj min pres st (.idx d) = none := by unfold dynClean; state_val
  simp only [intoBlocksDynSub, blocksDynClean_eq] at hu
  split at hu
  · simp at hu
  next hlp =>
  have hlp' : st (.len pres) = none := by simpa [State.has] using hlp
  simp only [bind, Option.bind_some] at hu
  cases hnl : st (.len min) with
  | some nl =>
    have hlm : ((Struct.view (.intoBlocksDyn d maj min pres) s).sem A).len min (st.remove (.idx min)) =
        some nl := by
      cases hml : st (.len maj) with
      | none =>
        simp only [Struct.sem, View.sem, ViewSem.toSem, intoBlocksDynSem, State.has]
        simp [e4, e5, hnl, hml, guardTrue, hne1]
      | some ml =>
        obtain ⟨hfalse, -⟩ := hp.2 ml nl hml hnl
        rw [blocksDynClean_eq] at hfalse
        simp only [hlp, Bool.false_eq_true, ↓reduceIte, Option.bind_some] at hfalse
        simp only [Struct.sem, View.sem, ViewSem.toSem, intoBlocksDynSem, State.has, blocksDynClean_eq]
        simp [e4, e5, hnl, hml, cM, hlp', hfalse, guardTrue, hne1]
    cases hml : st (.len maj) <;> cases hI : st (.idx maj) <;> cases hJ : st (.idx min) <;>
      simp only [hnl, hml, hI, hJ, Option.some.injEq] at hu <;> subst hu <;>
      first
      | (simp [State.set, e6] at hx; done)
      | (refine ⟨_, _, nl, rfl, rfl, ?_, hlm, .inl rfl⟩; simpa [State.set, eq_comm] using hx)
  | none =>
    simp only [hnl] at hu
    cases hml : st (.len maj) <;> cases hI : st (.idx maj) <;> cases hJ : st (.idx min) <;>
      simp only [hml, hI, hJ, bind, Option.bind_eq_some_iff, Option.some.injEq] at hu <;>
      first
      | (subst hu; simp [State.set, e6] at hx; done)
      | skip
    next ml I J =>
    obtain ⟨l, hl, rfl⟩ := hu
    refine ⟨_, _, ceilDiv A l ml, rfl, rfl, by simpa [State.set, eq_comm] using hx, ?_,
      .inr ⟨rfl, ml, l, rfl, hl, rfl⟩⟩
    have hh := Struct.hasLen_of_len hl
    simp only [Struct.sem, View.sem, ViewSem.toSem, intoBlocksDynSem, State.has,
      intoBlocksDynSub, blocksDynClean_eq]
    simp [e4, e5, hnl, hml, cM, hlp', hh, hl, guardTrue, hne1]

/-- what `into_blocks_static` computes the index from -/
theorem ibs_parts {d border maj min : Dim} {nl : Val} {st u : State} {x : Val} (hne : maj ≠ min)
    (hbM : border ≠ maj) (hbm : border ≠ min)
    (hp : (View.intoBlocksStat d border maj min nl).pre A (s.sem A) st u)
    (hu : intoBlocksStatSub A d border maj min nl (s.sem A) st = some u) (hx : u (.idx d) = some x) :
    ∃ I J m, st (.idx maj) = some I ∧ st (.idx min) = some J ∧
      (s.sem A).len d (statClean d border maj min st) = some m ∧
      ((st (.idx border) = some (.lit 0) ∧ x = (I.mul A nl).add A J ∧
        ((Struct.view (.intoBlocksStat d border maj min nl) s).sem A).len min (st.remove (.idx min)) =
          some nl ∧
        ((Struct.view (.intoBlocksStat d border maj min nl) s).sem A).len maj (st.remove (.idx maj)) =
          some (m.div A nl)) ∨
       (st (.idx border) = some (.lit 1) ∧ x = ((m.div A nl).mul A nl).add A J ∧
        ((Struct.view (.intoBlocksStat d border maj min nl) s).sem A).len maj (st.remove (.idx maj)) =
          some (.lit 1))) := by
  have cM : ∀ x, (x = maj ∨ x = min) → statClean d border maj min (st.remove (.idx x)) =
      statClean d border maj min st := by
    intro x hx; unfold statClean; rcases hx with rfl | rfl <;> state_eq
  have e1 : (st.remove (.idx maj)) (.idx border) = st (.idx border) := by state_val
  have e2 : (st.remove (.idx min)) (.idx border) = st (.idx border) := by state_val
  have e3 : (st.remove (.idx maj)) (.idx maj) = none := by state_val
  have e4 : (st.remove (.idx min)) (.idx min) = none := by state_val
  have e5 : ∀ x y, (st.remove (.idx x)) (.len y) = st (.len y) := by intros; state_val
  have e6 : statClean d border maj min st (.idx d) = none := by unfold statClean; state_val
  have b1 : isBody border (st.remove (.idx maj)) = isBody border st := by unfold isBody; rw [e1]
  have b2 : isBody border (st.remove (.idx min)) = isBody border st := by unfold isBody; rw [e2]
  simp only [intoBlocksStatSub, blocksStatClean_eq] at hu
  split at hu
  · simp at hu
  next hlp =>
  have hlp' : st (.len border) = none ∧ st (.len maj) = none ∧ st (.len min) = none := by
    simpa [State.has, and_assoc] using hlp
  simp only [bind, Option.bind_some] at hu
  split at hu
  · next hbi =>
    have hbi' : st (.idx border) ≠ none := by
      intro h; simp [State.has, h] at hbi
    obtain ⟨m, hm⟩ := hp hbi'
    rw [blocksStatClean_eq, if_neg hlp] at hm
    simp only [Option.bind_some] at hm
    have hh := Struct.hasLen_of_len hm
    cases hI : st (.idx maj) with
    | none => simp only [hI, Option.some.injEq] at hu; subst hu; simp [e6] at hx
    | some I =>
      cases hJ : st (.idx min) with
      | none => simp only [hI, hJ, Option.some.injEq] at hu; subst hu; simp [e6] at hx
      | some J =>
        simp only [hI, hJ, Option.bind_eq_some_iff] at hu
        obtain ⟨b, hb, hu⟩ := hu
        have hsubM : intoBlocksStatSub A d border maj min nl (s.sem A) (st.remove (.idx maj)) =
            some (statClean d border maj min st) := by
          simp [intoBlocksStatSub, blocksStatClean_eq, State.has, e5, hlp', cM, e3]
        refine ⟨I, J, m, rfl, rfl, hm, ?_⟩
        cases b with
        | true =>
          left
          simp only [↓reduceIte, Option.some.injEq] at hu
          subst hu
          have hb0 : st (.idx border) = some (.lit 0) := by
            unfold isBody at hb; split at hb <;> simp_all
          refine ⟨hb0, by simpa [State.set, eq_comm] using hx, ?_, ?_⟩
          · simp only [Struct.sem, View.sem, ViewSem.toSem, intoBlocksStatSem, State.has]
            simp [e4, b2, hb, guardTrue, Ne.symm hne, Ne.symm hbm]
          · simp only [Struct.sem, View.sem, ViewSem.toSem, intoBlocksStatSem, State.has]
            simp [e3, b1, hb, hsubM, hh, hm, guardTrue, hne, Ne.symm hbM]
        | false =>
          right
          simp only [Bool.false_eq_true, ↓reduceIte, Option.bind_eq_some_iff,
            Option.some.injEq, hm, exists_eq_left'] at hu
          subst hu
          have hb0 : st (.idx border) = some (.lit 1) := by
            unfold isBody at hb; split at hb <;> simp_all
          refine ⟨hb0, by simpa [State.set, eq_comm] using hx, ?_⟩
          simp only [Struct.sem, View.sem, ViewSem.toSem, intoBlocksStatSem, State.has]
          simp [e3, b1, hb, guardTrue, hne, Ne.symm hbM]
  · cases hu; simp [e6] at hx

/-- what `merge_blocks` computes the indices from -/
theorem mb_parts {d maj min : Dim} {st u : State} {x : Val} (hne : maj ≠ min)
    (hu : mergeBlocksSub A maj min d (s.sem A) st = some u) (hx : u (.idx maj) = some x) :
    ∃ I nl, st (.idx d) = some I ∧ u (.idx maj) = some (I.div A nl) ∧ u (.idx min) = some (I.mod A nl) ∧
      (((s.sem A).hasLen min (blocksClean d maj min st) = some true ∧
        (s.sem A).len min (blocksClean d maj min st) = some nl) ∨
       ((s.sem A).hasLen min (blocksClean d maj min st) = some false ∧ ∃ ml l,
        (s.sem A).len maj (blocksClean d maj min st) = some ml ∧ st (.len d) = some l ∧
        nl = l.div A ml)) := by
  have c1 : blocksClean d maj min st (.idx maj) = none := by unfold blocksClean; state_val
  have c2 : blocksClean d maj min st (.idx min) = none := by unfold blocksClean; state_val
  simp only [mergeBlocksSub, bind, Option.bind_eq_some_iff] at hu
  obtain ⟨hmin, h1, hmaj, h2, hu⟩ := hu
  cases hmin with
  | true =>
    cases hI : st (.idx d) <;> cases hl : st (.len d) <;> cases hmaj <;>
    simp only [hI, hl, Bool.false_eq_true, ↓reduceIte, Option.some.injEq,
      Option.bind_eq_some_iff] at hu <;> obtain ⟨nl, hnl, rfl⟩ := hu <;>
    first
    | (simp [State.set, c1] at hx; done)
    | exact ⟨_, nl, rfl, by simp [State.set, hne], by simp [State.set], .inl ⟨h1, hnl⟩⟩
  | false =>
    cases hI : st (.idx d) <;> cases hl : st (.len d) <;> cases hmaj <;>
    simp only [hI, hl, Bool.false_eq_true, ↓reduceIte, Option.some.injEq,
      Option.bind_eq_some_iff] at hu <;>
    first
    | (subst hu; simp [State.set, c1] at hx; done)
    | (obtain ⟨nl, hnl, rfl⟩ := hu; simp [State.set, c1] at hx; done)
    | (obtain ⟨ml, hml, rfl⟩ := hu
       exact ⟨_, _, rfl, by simp [State.set, hne], by simp [State.set], .inr ⟨h1, ml, _, hml, rfl, rfl⟩⟩)

end parts

end Noarr
