import Verif.ValidSub

/-
Valid indices stay valid: the block views and the merging views.
-/

set_option linter.unusedVariables false
set_option linter.unusedSimpArgs false

namespace Noarr

theorem Val.num_add {a b : Val} {x y : Nat} (ha : a.Num x) (hb : b.Num y) :
    (a.add .ideal b).Num (x + y) := Val.nat?_add.2 ⟨x, y, ha, hb, rfl⟩

theorem Val.num_mul {a b : Val} {x y : Nat} (ha : a.Num x) (hb : b.Num y) :
    (a.mul .ideal b).Num (x * y) := Val.nat?_mul.2 ⟨x, y, ha, hb, rfl⟩

theorem Val.num_div {a b : Val} {x y : Nat} (ha : a.Num x) (hb : b.Num y) (h : 0 < y) :
    (a.div .ideal b).Num (x / y) := Val.nat?_div.2 ⟨x, y, ha, hb, Or.inl (by omega), rfl⟩

theorem Val.num_mod {a b : Val} {x y : Nat} (ha : a.Num x) (hb : b.Num y) (h : 0 < y) :
    (a.mod .ideal b).Num (x % y) := Val.nat?_mod.2 ⟨x, y, ha, hb, Or.inl (by omega), rfl⟩

theorem block_lt {i j m n : Nat} (hi : i < m) (hj : j < n) : i * n + j < m * n := by
  have := Nat.mul_le_mul_right n hi
  rw [Nat.succ_mul] at this
  omega

theorem ibSub_idx {B : Arith} {S : Sem} {d maj min : Dim} {st u : State}
    (hu : intoBlocksSub B d maj min S st = some u) {e : Dim} (he : e ≠ d) :
    u (.idx e) = blocksClean d maj min st (.idx e) := by
  simp only [intoBlocksSub] at hu
  cases hnl : st (.len min) with
  | some nl =>
    simp only [hnl] at hu
    cases hml : st (.len maj) <;> cases hI : st (.idx maj) <;> cases hJ : st (.idx min) <;>
      simp only [hml, hI, hJ, Option.some.injEq] at hu <;> subst hu <;> simp [State.set, he]
  | none =>
    simp only [hnl] at hu
    cases hb : S.hasLen d (blocksClean d maj min st) with
    | none => simp [hb] at hu
    | some b =>
      cases b with
      | false => simp only [hb, Option.some.injEq] at hu; subst hu; rfl
      | true =>
        simp only [hb] at hu
        cases hml : st (.len maj) <;> cases hI : st (.idx maj) <;> cases hJ : st (.idx min) <;>
          simp only [hml, hI, hJ, Option.some.injEq, bind, Option.bind_eq_some_iff] at hu <;>
          first
          | (subst hu; simp [State.set, he]; done)
          | (obtain ⟨l, hl, rfl⟩ := hu; simp [State.set, he])

theorem ibdSub_idx {B : Arith} {S : Sem} {d maj min pres : Dim} {st u : State}
    (hu : intoBlocksDynSub B d maj min pres S st = some u) {e : Dim} (he : e ≠ d) :
    u (.idx e) = dynClean d maj min pres st (.idx e) := by
  simp only [intoBlocksDynSub, blocksDynClean_eq] at hu
  split at hu
  · simp at hu
  simp only [bind, Option.bind_some] at hu
  cases hnl : st (.len min) <;> cases hml : st (.len maj) <;> cases hI : st (.idx maj) <;>
    cases hJ : st (.idx min) <;>
    simp only [hnl, hml, hI, hJ, Option.some.injEq, Option.bind_eq_some_iff] at hu <;>
    first
    | (subst hu; simp [State.set, he]; done)
    | (obtain ⟨l, hl, rfl⟩ := hu; simp [State.set, he])

theorem ibsSub_idx {B : Arith} {S : Sem} {d border maj min : Dim} {nl : Val} {st u : State}
    (hu : intoBlocksStatSub B d border maj min nl S st = some u) {e : Dim} (he : e ≠ d) :
    u (.idx e) = statClean d border maj min st (.idx e) := by
  simp only [intoBlocksStatSub, blocksStatClean_eq] at hu
  split at hu
  · simp at hu
  simp only [bind, Option.bind_some] at hu
  split at hu
  · cases hI : st (.idx maj) <;> cases hJ : st (.idx min) <;>
      simp only [hI, hJ, Option.some.injEq, Option.bind_eq_some_iff] at hu
    · subst hu; rfl
    · subst hu; rfl
    · subst hu; rfl
    · obtain ⟨b, hb, hu⟩ := hu
      cases b with
      | true =>
        simp only [↓reduceIte, Option.some.injEq] at hu
        subst hu; simp [State.set, he]
      | false =>
        simp only [Bool.false_eq_true, ↓reduceIte, Option.bind_eq_some_iff,
          Option.some.injEq] at hu
        obtain ⟨l, hl, rfl⟩ := hu
        simp [State.set, he]
  · cases hu; rfl

section
variable {s : Struct} (ih : LD .ideal s)
include ih

local notation "A" => Arith.ideal

theorem valid_ib {d maj min : Dim} {st u : State} (ht : (View.intoBlocks d maj min).tame s)
    (hne : maj ≠ min)
    (hV : ValidR A (.view (.intoBlocks d maj min) s) st)
    (hp : (View.intoBlocks d maj min).pre A (s.sem A) st u)
    (hu : intoBlocksSub A d maj min (s.sem A) st = some u) : ValidR A s u := by
  intro q i n hq hi hn
  have hh := Struct.hasLen_of_len hn
  obtain ⟨pd, pM, pm⟩ := ht
  by_cases hqd : q = d
  · subst hqd
    have cM : ∀ x, (x = maj ∨ x = min) → blocksClean q maj min (st.remove (.idx x)) =
        blocksClean q maj min st := by
      intro x hx; rcases hx with rfl | rfl <;> state_eq
    have e1 : (st.remove (.idx maj)) (.idx min) = st (.idx min) := by state_val
    have e2 : (st.remove (.idx min)) (.idx maj) = st (.idx maj) := by state_val
    have e3 : (st.remove (.idx maj)) (.idx maj) = none := by state_val
    have e4 : (st.remove (.idx min)) (.idx min) = none := by state_val
    have e5 : ∀ x y, (st.remove (.idx x)) (.len y) = st (.len y) := by intros; state_val
    have e6 : blocksClean q maj min st (.idx q) = none := by state_val
    -- the lengths of the two block dimensions
    cases hnl : st (.len min) with
    | some nl =>
      cases hml : st (.len maj) with
      | none =>
        simp only [intoBlocksSub, hnl, hml] at hu
        cases hI : st (.idx maj) with
        | none => simp only [hI, Option.some.injEq] at hu; subst hu; simp [e6] at hi
        | some I =>
          cases hJ : st (.idx min) with
          | none => simp only [hI, hJ, Option.some.injEq] at hu; subst hu; simp [e6] at hi
          | some J =>
            simp only [hI, hJ, Option.some.injEq] at hu; subst hu
            have : i = (I.mul A nl).add A J := by simpa [State.set, eq_comm] using hi
            subst this
            have hun : ((blocksClean q maj min st).set (.idx q) ((I.mul A nl).add A J)).remove
              (.idx q) = blocksClean q maj min st := by state_eq
            rw [hun] at hn hh
            have hsub : intoBlocksSub A q maj min (s.sem A) (st.remove (.idx maj)) =
                some (blocksClean q maj min st) := by
              simp only [intoBlocksSub, e1, e3, e5, hnl, hml, cM maj (.inl rfl)]
            have hlM : ((Struct.view (.intoBlocks q maj min) s).sem A).len maj (st.remove (.idx maj)) =
                some (n.div A nl) := by
              simp only [Struct.sem, View.sem, ViewSem.toSem, intoBlocksSem, State.has]
              simp [e3, e5, hnl, hml, hne, hsub, hh, hn, guardTrue]
            have hlm : ((Struct.view (.intoBlocks q maj min) s).sem A).len min (st.remove (.idx min)) =
                some nl := by
              simp only [Struct.sem, View.sem, ViewSem.toSem, intoBlocksSem, State.has]
              simp [e4, e5, hnl, hml, guardTrue]
            obtain ⟨x, y, hx, hy, hlt⟩ := hV maj I _ pM hI hlM
            obtain ⟨x', y', hx', hy', hlt'⟩ := hV min J _ pm hJ hlm
            obtain ⟨p, r, hp1, hr, hor, rfl⟩ := Val.nat?_div.1 hy
            have := Val.Num.eq hr hy'
            subst this
            refine ⟨x * r + x', p, Val.num_add (Val.num_mul hx hy') hx', hp1, ?_⟩
            have h3 := block_lt hlt hlt'
            have h4 := Nat.div_mul_le_self p r
            omega
      | some ml =>
        simp only [intoBlocksSub, hnl, hml] at hu
        cases hI : st (.idx maj) with
        | none => simp only [hI, Option.some.injEq] at hu; subst hu; simp [State.set, e6] at hi
        | some I =>
          cases hJ : st (.idx min) with
          | none => simp only [hI, hJ, Option.some.injEq] at hu; subst hu; simp [State.set, e6] at hi
          | some J =>
            simp only [hI, hJ, Option.some.injEq] at hu
            have : i = (I.mul A nl).add A J := by subst hu; simpa [State.set, eq_comm] using hi
            subst this
            obtain ⟨hfalse, hle⟩ := hp ml nl hml hnl
            obtain ⟨P, R, hP, hR, hle⟩ := hle n hn
            have hlM : ((Struct.view (.intoBlocks q maj min) s).sem A).len maj (st.remove (.idx maj)) =
                some ml := by
              simp only [Struct.sem, View.sem, ViewSem.toSem, intoBlocksSem, State.has]
              simp [e3, e5, hnl, hml, hne, cM maj (.inl rfl), hfalse, guardTrue]
            have hlm : ((Struct.view (.intoBlocks q maj min) s).sem A).len min (st.remove (.idx min)) =
                some nl := by
              simp only [Struct.sem, View.sem, ViewSem.toSem, intoBlocksSem, State.has]
              simp [e4, e5, hnl, hml, cM min (.inr rfl), hfalse, guardTrue]
            obtain ⟨x, y, hx, hy, hlt⟩ := hV maj I _ pM hI hlM
            obtain ⟨x', y', hx', hy', hlt'⟩ := hV min J _ pm hJ hlm
            have := Val.Num.eq hP (Val.num_mul hy hy')
            refine ⟨x * y' + x', R, Val.num_add (Val.num_mul hx hy') hx', hR, ?_⟩
            have h3 := block_lt hlt hlt'
            omega
    | none =>
      simp only [intoBlocksSub, hnl] at hu
      cases hb : (s.sem A).hasLen q (blocksClean q maj min st) with
      | none => simp [hb] at hu
      | some b =>
        cases b with
        | false => simp only [hb, Option.some.injEq] at hu; subst hu; simp [e6] at hi
        | true =>
          simp only [hb] at hu
          cases hml : st (.len maj) with
          | none => simp only [hml, Option.some.injEq] at hu; subst hu; simp [e6] at hi
          | some ml =>
            cases hI : st (.idx maj) with
            | none => simp only [hml, hI, Option.some.injEq] at hu; subst hu; simp [e6] at hi
            | some I =>
              cases hJ : st (.idx min) with
              | none => simp only [hml, hI, hJ, Option.some.injEq] at hu; subst hu; simp [e6] at hi
              | some J =>
                simp only [hml, hI, hJ, bind, Option.bind_eq_some_iff, Option.some.injEq] at hu
                obtain ⟨l, hl, rfl⟩ := hu
                have : i = (I.mul A (l.div A ml)).add A J := by simpa [State.set, eq_comm] using hi
                subst this
                have hun : ((blocksClean q maj min st).set (.idx q)
                  ((I.mul A (l.div A ml)).add A J)).remove (.idx q) = blocksClean q maj min st := by
                  state_eq
                rw [hun, hl] at hn
                obtain rfl := Option.some.inj hn
                have hlM : ((Struct.view (.intoBlocks q maj min) s).sem A).len maj
                    (st.remove (.idx maj)) = some ml := by
                  simp only [Struct.sem, View.sem, ViewSem.toSem, intoBlocksSem, State.has]
                  simp [e3, e5, hnl, hml, hne, guardTrue]
                have hlm : ((Struct.view (.intoBlocks q maj min) s).sem A).len min
                    (st.remove (.idx min)) = some (l.div A ml) := by
                  simp only [Struct.sem, View.sem, ViewSem.toSem, intoBlocksSem, State.has,
                    intoBlocksSub]
                  simp [e4, e5, hnl, hml, cM min (.inr rfl), hb, hl, guardTrue]
                obtain ⟨x, y, hx, hy, hlt⟩ := hV maj I _ pM hI hlM
                obtain ⟨x', y', hx', hy', hlt'⟩ := hV min J _ pm hJ hlm
                obtain ⟨p, r, hp1, hr, hor, hy2⟩ := Val.nat?_div.1 hy'
                have := Val.Num.eq hr hy
                subst this
                refine ⟨x * y' + x', p, Val.num_add (Val.num_mul hx hy') hx', hp1, ?_⟩
                have h3 := block_lt hlt hlt'
                have h4 := Nat.mul_div_le p r
                subst hy2
                omega
  · rw [ibSub_idx hu hqd] at hi
    by_cases hqM : q = maj ∨ q = min
    · rcases hqM with rfl | rfl <;> simp [blocksClean, State.removeAll] at hi
    · refine valid_other (v := .intoBlocks d maj min) ih ⟨pd, pM, pm⟩ hV (by simp) (by simp) hu
        (by simp only [View.dims, List.mem_cons, List.not_mem_nil]; grind) hq hq ?_ hn
      rw [← hi]; state_val

theorem valid_ibd {d maj min pres : Dim} {st u : State}
    (ht : (View.intoBlocksDyn d maj min pres).tame s) (hne : maj ≠ min) (hne1 : min ≠ pres)
    (hne2 : pres ≠ maj) (hV : ValidR A (.view (.intoBlocksDyn d maj min pres) s) st)
    (hp : (View.intoBlocksDyn d maj min pres).pre A (s.sem A) st u)
    (hoff : (intoBlocksDynSem A d maj min pres (s.sem A)).offOk st = true)
    (hu : intoBlocksDynSub A d maj min pres (s.sem A) st = some u) : ValidR A s u := by
  intro q i n hq hi hn
  have hh := Struct.hasLen_of_len hn
  obtain ⟨pd, pM, pm, pP⟩ := ht
  simp only [intoBlocksDynSem, State.has, Bool.and_eq_true, Option.isSome_iff_exists] at hoff
  obtain ⟨⟨⟨I, hI⟩, ⟨J, hJ⟩⟩, ⟨K, hK⟩⟩ := hoff
  by_cases hqd : q = d
  · subst hqd
    have hclean : dynClean q maj min pres (st.remove (.idx pres)) = dynClean q maj min pres st := by
      unfold dynClean; state_eq
    have e1 : (st.remove (.idx pres)) (.idx min) = st (.idx min) := by state_val
    have e2 : (st.remove (.idx pres)) (.idx maj) = st (.idx maj) := by state_val
    have e5 : ∀ x y, (st.remove (.idx x)) (.len y) = st (.len y) := by intros; state_val
    have e6 : dynClean q maj min pres st (.idx q) = none := by unfold dynClean; state_val
    have e7 : (dynClean q maj min pres st).remove (.idx q) = dynClean q maj min pres st := by
      unfold dynClean; state_eq
    simp only [intoBlocksDynSub, blocksDynClean_eq] at hu
    split at hu
    · simp at hu
    next hlp =>
    simp only [bind, Option.bind_some, hI, hJ] at hu
    have hlp' : st (.len pres) = none := by simpa [State.has] using hlp
    -- a number below a length that is at most the length of `q`
    have fin : ∀ i l : Val, ((Struct.view (.intoBlocksDyn q maj min pres) s).sem A).len pres
        (st.remove (.idx pres)) = some (i.ltVal l) → (∀ x, l.Num x → LeVal l n) → LtVal i n := by
      intro i l hlen hle
      obtain ⟨x, y, hx, hy, hlt⟩ := hV pres K _ pP hK hlen
      cases hil : i.nat? with
      | none => cases i <;> simp [Val.nat?] at hil; simp [Val.ltVal, Val.Num] at hy
      | some i' =>
        cases hll : l.nat? with
        | none =>
          cases l <;> simp [Val.nat?] at hll
          cases i <;> simp [Val.ltVal, Val.Num] at hy
        | some l' =>
          have hy' : y = if i' < l' then 1 else 0 := by
            cases i <;> cases l <;> simp_all [Val.nat?, Val.ltVal, Val.Num]
          obtain ⟨a, b, ha, hb, hab⟩ := hle l' hll
          have := Val.Num.eq ha hll
          refine ⟨i', b, hil, hb, ?_⟩
          split at hy' <;> omega
    have hsame : ∀ x, n.Num x → LeVal n n := fun x h => ⟨x, x, h, h, by omega⟩
    cases hnl : st (.len min) with
    | some nl =>
      cases hml : st (.len maj) with
      | none =>
        simp only [hnl, hml, Option.some.injEq] at hu
        subst hu
        have : i = (I.mul A nl).add A J := by simpa [State.set, eq_comm] using hi
        subst this
        have hun : ((dynClean q maj min pres st).set (.idx q) ((I.mul A nl).add A J)).remove
          (.idx q) = dynClean q maj min pres st := by unfold dynClean; state_eq
        rw [hun] at hn hh
        refine fin _ n ?_ hsame
        simp only [Struct.sem, View.sem, ViewSem.toSem, intoBlocksDynSem, State.has, blocksDynClean_eq]
        simp [e1, e2, e5, hnl, hml, hI, hJ, hlp', hclean, hh, hn, guardTrue]
      | some ml =>
        simp only [hnl, hml, Option.some.injEq] at hu
        have : i = (I.mul A nl).add A J := by subst hu; simpa [State.set, eq_comm] using hi
        subst this
        obtain ⟨hfalse, hle⟩ := hp.2 ml nl hml hnl
        obtain ⟨P, R, hP, hR, hle⟩ := hle n hn
        rw [blocksDynClean_eq] at hfalse
        simp only [hlp, Bool.false_eq_true, ↓reduceIte, Option.bind_some] at hfalse
        refine fin _ (nl.mul A ml) ?_ (fun x hx => ⟨P, R, hP, hR, hle⟩)
        simp only [Struct.sem, View.sem, ViewSem.toSem, intoBlocksDynSem, State.has, blocksDynClean_eq]
        simp [e1, e2, e5, hnl, hml, hI, hJ, hlp', hclean, hfalse, guardTrue]
    | none =>
      cases hml : st (.len maj) with
      | none => simp only [hnl, hml, Option.some.injEq] at hu; subst hu; simp [e6] at hi
      | some ml =>
        simp only [hnl, hml, Option.bind_eq_some_iff, Option.some.injEq] at hu
        obtain ⟨l, hl, rfl⟩ := hu
        have : i = (I.mul A (ceilDiv A l ml)).add A J := by simpa [State.set, eq_comm] using hi
        subst this
        have hun : ((dynClean q maj min pres st).set (.idx q)
          ((I.mul A (ceilDiv A l ml)).add A J)).remove (.idx q) = dynClean q maj min pres st := by
          unfold dynClean; state_eq
        rw [hun] at hn hh
        rw [hl] at hn
        obtain rfl := Option.some.inj hn
        refine fin _ l ?_ hsame
        simp only [Struct.sem, View.sem, ViewSem.toSem, intoBlocksDynSem, State.has, blocksDynClean_eq]
        simp [e1, e2, e5, hnl, hml, hI, hJ, hlp', hclean, hh, hl, guardTrue]
  · rw [ibdSub_idx hu hqd] at hi
    by_cases hqM : q = maj ∨ q = min ∨ q = pres
    · rcases hqM with rfl | rfl | rfl <;> simp [dynClean, State.removeAll] at hi
    · refine valid_other (v := .intoBlocksDyn d maj min pres) ih ⟨pd, pM, pm, pP⟩ hV (by simp) (by simp) hu
        (by simp only [View.dims, List.mem_cons, List.not_mem_nil]; grind) hq hq ?_ hn
      rw [← hi]; unfold dynClean; state_val

theorem valid_ibs {d border maj min : Dim} {nl : Val} {st u : State}
    (ht : (View.intoBlocksStat d border maj min nl).tame s) (hne : maj ≠ min)
    (hV : ValidR A (.view (.intoBlocksStat d border maj min nl) s) st)
    (hu : intoBlocksStatSub A d border maj min nl (s.sem A) st = some u) : ValidR A s u := by
  intro q i n hq hi hn
  have hh := Struct.hasLen_of_len hn
  obtain ⟨pd, pM, pm, hbM, hbm⟩ := ht
  have pM' : ¬ (Struct.view (.intoBlocksStat d border maj min nl) s).hard maj := by
    simp only [Struct.hard, View.hard]; grind
  have pm' : ¬ (Struct.view (.intoBlocksStat d border maj min nl) s).hard min := by
    simp only [Struct.hard, View.hard]; grind
  by_cases hqd : q = d
  · subst hqd
    have cM : ∀ x, (x = maj ∨ x = min) → statClean q border maj min (st.remove (.idx x)) =
        statClean q border maj min st := by
      intro x hx; unfold statClean; rcases hx with rfl | rfl <;> state_eq
    have e1 : (st.remove (.idx maj)) (.idx border) = st (.idx border) := by state_val
    have e2 : (st.remove (.idx min)) (.idx border) = st (.idx border) := by state_val
    have e3 : (st.remove (.idx maj)) (.idx maj) = none := by state_val
    have e4 : (st.remove (.idx min)) (.idx min) = none := by state_val
    have e5 : ∀ x y, (st.remove (.idx x)) (.len y) = st (.len y) := by intros; state_val
    have e6 : statClean q border maj min st (.idx q) = none := by unfold statClean; state_val
    have b1 : isBody border (st.remove (.idx maj)) = isBody border st := by unfold isBody; rw [e1]
    have b2 : isBody border (st.remove (.idx min)) = isBody border st := by unfold isBody; rw [e2]
    simp only [intoBlocksStatSub, blocksStatClean_eq] at hu
    split at hu
    · simp at hu
    next hlp =>
    have hlp' : st (.len border) = none ∧ st (.len maj) = none ∧ st (.len min) = none := by
      simpa [State.has, and_assoc] using hlp
    simp only [bind, Option.bind_some] at hu
    split at hu
    · next hbi =>
      cases hI : st (.idx maj) with
      | none => simp only [hI, Option.some.injEq] at hu; subst hu; simp [e6] at hi
      | some I =>
        cases hJ : st (.idx min) with
        | none => simp only [hI, hJ, Option.some.injEq] at hu; subst hu; simp [e6] at hi
        | some J =>
          simp only [hI, hJ, Option.bind_eq_some_iff] at hu
          obtain ⟨b, hb, hu⟩ := hu
          have hsubM : intoBlocksStatSub A q border maj min nl (s.sem A) (st.remove (.idx maj)) =
              some (statClean q border maj min st) := by
            simp [intoBlocksStatSub, blocksStatClean_eq, State.has, e5, hlp', cM, e3]
          have hsubm : intoBlocksStatSub A q border maj min nl (s.sem A) (st.remove (.idx min)) =
              some (statClean q border maj min st) := by
            simp only [intoBlocksStatSub, blocksStatClean_eq, State.has, e5, hlp', cM min (.inr rfl), e4]
            simp only [Option.isSome_none, Bool.or_self, Bool.false_eq_true, ↓reduceIte, bind,
              Option.bind_some]
            split
            · split
              · next h => simp at h
              · rfl
            · rfl
          cases b with
          | true =>
            simp only [↓reduceIte, Option.some.injEq] at hu
            subst hu
            have : i = (I.mul A nl).add A J := by simpa [State.set, eq_comm] using hi
            subst this
            have hun : ((statClean q border maj min st).set (.idx q) ((I.mul A nl).add A J)).remove
              (.idx q) = statClean q border maj min st := by unfold statClean; state_eq
            rw [hun] at hn hh
            have hlM : ((Struct.view (.intoBlocksStat q border maj min nl) s).sem A).len maj
                (st.remove (.idx maj)) = some (n.div A nl) := by
              simp only [Struct.sem, View.sem, ViewSem.toSem, intoBlocksStatSem, State.has]
              simp [e3, b1, hb, hsubM, hh, hn, guardTrue, hne, Ne.symm hbM]
            have hlm : ((Struct.view (.intoBlocksStat q border maj min nl) s).sem A).len min
                (st.remove (.idx min)) = some nl := by
              simp only [Struct.sem, View.sem, ViewSem.toSem, intoBlocksStatSem, State.has]
              simp [e4, b2, hb, guardTrue, Ne.symm hne, Ne.symm hbm]
            obtain ⟨x, y, hx, hy, hlt⟩ := hV maj I _ pM' hI hlM
            obtain ⟨x', y', hx', hy', hlt'⟩ := hV min J _ pm' hJ hlm
            obtain ⟨p, r, hp1, hr, hor, rfl⟩ := Val.nat?_div.1 hy
            have := Val.Num.eq hr hy'
            subst this
            refine ⟨x * r + x', p, Val.num_add (Val.num_mul hx hy') hx', hp1, ?_⟩
            have h3 := block_lt hlt hlt'
            have h4 := Nat.div_mul_le_self p r
            omega
          | false =>
            simp only [Bool.false_eq_true, ↓reduceIte, Option.bind_eq_some_iff,
              Option.some.injEq] at hu
            obtain ⟨l, hl, rfl⟩ := hu
            have : i = (((l.div A nl).mul A nl).add A J) := by simpa [State.set, eq_comm] using hi
            subst this
            have hun : ((statClean q border maj min st).set (.idx q)
              (((l.div A nl).mul A nl).add A J)).remove (.idx q) = statClean q border maj min st := by
              unfold statClean; state_eq
            rw [hun] at hn hh
            rw [hl] at hn
            obtain rfl := Option.some.inj hn
            have hlm : ((Struct.view (.intoBlocksStat q border maj min nl) s).sem A).len min
                (st.remove (.idx min)) = some (l.mod A nl) := by
              simp only [Struct.sem, View.sem, ViewSem.toSem, intoBlocksStatSem, State.has]
              simp [e4, b2, hb, hsubm, hh, hl, guardTrue, Ne.symm hne, Ne.symm hbm]
            obtain ⟨x', y', hx', hy', hlt'⟩ := hV min J _ pm' hJ hlm
            obtain ⟨p, r, hp1, hr, hor, rfl⟩ := Val.nat?_mod.1 hy'
            have hr0 : 0 < r := by
              rcases Nat.eq_zero_or_pos r with h | h
              · rcases hor with h' | ⟨rfl, -⟩
                · omega
                · simp at hp1; subst hp1; simp at hlt'
              · exact h
            refine ⟨p / r * r + x', p, Val.num_add (Val.num_mul (Val.num_div hp1 hr hr0) hr) hx', hp1, ?_⟩
            have := Nat.div_add_mod p r
            rw [Nat.mul_comm] at this
            omega
    · cases hu; simp [e6] at hi
  · rw [ibsSub_idx hu hqd] at hi
    by_cases hqM : q = maj ∨ q = min ∨ q = border
    · rcases hqM with rfl | rfl | rfl <;> simp [statClean, State.removeAll] at hi
    · refine valid_other (v := .intoBlocksStat d border maj min nl) ih ⟨pd, pM, pm, hbM, hbm⟩ hV (by simp) (by simp) hu
        (by simp only [View.dims, List.mem_cons, List.not_mem_nil]; grind) ?_ hq ?_ hn
      · simp only [Struct.hard, View.hard]; grind
      · rw [← hi]; unfold statClean; state_val

end

end Noarr
