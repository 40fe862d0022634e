import Verif.ValidBlocks

/-
Valid indices stay valid when `merge_blocks` and `merge_zcurve` hand them down.
-/

set_option linter.unusedVariables false
set_option linter.unusedSimpArgs false

namespace Noarr

theorem mbSub_idx {B : Arith} {S : Sem} {d maj min : Dim} {st u : State}
    (hu : mergeBlocksSub B maj min d S st = some u) {e : Dim} (he : e ≠ maj) (he' : e ≠ min) :
    u (.idx e) = blocksClean d maj min st (.idx e) := by
  simp only [mergeBlocksSub, bind, Option.bind_eq_some_iff] at hu
  obtain ⟨hmin, h1, hmaj, h2, hu⟩ := hu
  cases hmin <;> cases hmaj <;> cases hI : st (.idx d) <;> cases hl : st (.len d) <;>
    simp only [hI, hl, Bool.false_eq_true, ↓reduceIte, Option.some.injEq,
      Option.bind_eq_some_iff] at hu <;>
    first
    | (subst hu; simp [State.set, he, he']; done)
    | (obtain ⟨l, hl, rfl⟩ := hu; simp [State.set, he, he'])

section
variable {s : Struct} (ih : LD .ideal s)
include ih

local notation "A" => Arith.ideal

theorem valid_mb {maj min d : Dim} {st u : State} (ht : (View.mergeBlocks maj min d).tame s)
    (hne : maj ≠ min) (hd : ¬ s.hard d)
    (hV : ValidR A (.view (.mergeBlocks maj min d) s) st)
    (hp : (View.mergeBlocks maj min d).pre A (s.sem A) st u)
    (hu : mergeBlocksSub A maj min d (s.sem A) st = some u) : ValidR A s u := by
  intro q i n hq hi hn
  have hh := Struct.hasLen_of_len hn
  obtain ⟨pM, pm⟩ := ht
  by_cases hqb : q = maj ∨ q = min
  · have hclean : blocksClean d maj min (st.remove (.idx d)) = blocksClean d maj min st := by
      unfold blocksClean; state_eq
    have c1 : blocksClean d maj min st (.idx maj) = none := by unfold blocksClean; state_val
    have c2 : blocksClean d maj min st (.idx min) = none := by unfold blocksClean; state_val
    have c3 : blocksClean d maj min st (.len min) = none := by unfold blocksClean; state_val
    have e1 : (st.remove (.idx d)) (.idx d) = none := by state_val
    have e2 : ∀ x y, (st.remove (.idx x)) (.len y) = st (.len y) := by intros; state_val
    cases hI : st (.idx d) with
    | none =>
      exfalso
      simp only [mergeBlocksSub, bind, Option.bind_eq_some_iff] at hu
      obtain ⟨hmin, h1, hmaj, h2, hu⟩ := hu
      have : u (.idx q) = none := by
        cases hmin <;> cases hmaj <;> cases hl : st (.len d) <;>
          simp only [hI, hl, Bool.false_eq_true, ↓reduceIte, Option.some.injEq,
            Option.bind_eq_some_iff] at hu <;>
          rcases hqb with rfl | rfl <;>
          first
          | (subst hu; simp [State.set, c1, c2]; done)
          | (obtain ⟨l, hl, rfl⟩ := hu; simp [State.set, c1, c2])
      rw [this] at hi; simp at hi
    | some I =>
      obtain ⟨⟨N, hN⟩, hp⟩ := hp I hI
      have hhas : (mergeBlocksSem A maj min d (s.sem A)).hasLen d (st.remove (.idx d)) = some true :=
        (guardLen_eq_some.1 hN).1
      have hu0 := hu
      simp only [mergeBlocksSub, bind, Option.bind_eq_some_iff] at hu
      obtain ⟨hmin, h1, hmaj, h2, hu⟩ := hu
      cases hl : st (.len d) with
      | none =>
        have hb : hmin = true ∧ hmaj = true := by
          simp only [mergeBlocksSem, mergeBlocksSub, State.has, e1, e2, hl, hclean, bind, h1, h2,
            Option.bind_some, Option.isSome_none, Bool.false_eq_true, ↓reduceIte,
            Option.bind_eq_some_iff] at hhas
          obtain ⟨x, hx, b1, hb1, b2, hb2, hb⟩ := hhas
          have : x = blocksClean d maj min st := by
            cases hmin <;> cases hmaj <;>
              simp only [Bool.false_eq_true, ↓reduceIte, Option.bind_eq_some_iff,
                Option.some.injEq] at hx
            · exact hx.symm
            · obtain ⟨_, -, rfl⟩ := hx; rfl
            · obtain ⟨_, -, rfl⟩ := hx; rfl
            · obtain ⟨_, -, rfl⟩ := hx; rfl
          subst this
          rw [h1] at hb2; rw [h2] at hb1
          cases hb1; cases hb2
          simp only [Option.some.injEq, Bool.and_eq_true] at hb
          exact ⟨hb.2, hb.1⟩
        obtain ⟨rfl, rfl⟩ := hb
        simp only [↓reduceIte, hI, Option.bind_eq_some_iff, Option.some.injEq] at hu
        obtain ⟨nl, hnl, rfl⟩ := hu
        -- the lengths below
        have rel : ∀ x y, (x = maj ∧ y = min ∨ x = min ∧ y = maj) → ∀ m,
            (s.sem A).len x ((((blocksClean d maj min st).set (.idx maj) (I.div A nl)).set
              (.idx min) (I.mod A nl)).remove (.idx x)) = some m →
            (s.sem A).len x (blocksClean d maj min st) = some m := by
          intro x y hxy m hm
          have := (dep_remove ih (d := x) (q := y) (by rcases hxy with ⟨rfl, rfl⟩ | ⟨rfl, rfl⟩ <;> assumption)
            (by rcases hxy with ⟨rfl, rfl⟩ | ⟨rfl, rfl⟩; exact pm.1; exact pM.1)
            (by rcases hxy with ⟨rfl, rfl⟩ | ⟨rfl, rfl⟩; exact Ne.symm hne; exact hne) _).2 m hm
          rw [← this]
          congr 1
          funext t
          cases t with
          | len e => simp [State.set, State.remove]
          | idx e =>
            rcases hxy with ⟨rfl, rfl⟩ | ⟨rfl, rfl⟩ <;> simp only [State.set, State.remove, Tag.idx.injEq] <;>
              split <;> first | grind | (split <;> first | grind | (subst_vars; assumption))
        have hlen : ∀ ml, (s.sem A).len maj (blocksClean d maj min st) = some ml →
            ((Struct.view (.mergeBlocks maj min d) s).sem A).len d (st.remove (.idx d)) =
              some (ml.mul A nl) := by
          intro ml hml
          have hsub : mergeBlocksSub A maj min d (s.sem A) (st.remove (.idx d)) =
              some (blocksClean d maj min st) := by
            simp only [mergeBlocksSub, hclean, bind, h1, h2, Option.bind_some, hnl, e1, ↓reduceIte]
          simp only [Struct.sem, View.sem, ViewSem.toSem, mergeBlocksSem, State.has, e1, e2, hl, hsub,
            bind, Option.bind_some, h1, h2, Bool.and_self, Option.isSome_none, Bool.false_eq_true,
            ↓reduceIte, guardTrue, hml, hnl]
        have hmlE : ∃ ml, (s.sem A).len maj (blocksClean d maj min st) = some ml := by
          have hsub : mergeBlocksSub A maj min d (s.sem A) (st.remove (.idx d)) =
              some (blocksClean d maj min st) := by
            simp only [mergeBlocksSub, hclean, bind, h1, h2, Option.bind_some, hnl, e1, ↓reduceIte]
          have := (guardLen_eq_some.1 hN).2
          simp only [↓reduceIte, e2, hl, hsub, bind, Option.bind_some, Option.bind_eq_some_iff] at this
          obtain ⟨ml, hml, -⟩ := this
          exact ⟨ml, hml⟩
        obtain ⟨ml, hml⟩ := hmlE
        obtain ⟨x, y, hx, hy, hlt⟩ := hV d I _ hd hI (hlen ml hml)
        obtain ⟨m', n', hm', hn', rfl⟩ := Val.nat?_mul.1 hy
        have hn0 : 0 < n' := by exact Nat.pos_of_ne_zero (by rintro rfl; simp at hlt)
        rcases hqb with rfl | rfl
        · have := rel _ _ (.inl ⟨rfl, rfl⟩) n hn
          rw [hml] at this
          obtain rfl := Option.some.inj this
          have : i = I.div A nl := by simpa [State.set, hne, Ne.symm hne, eq_comm] using hi
          subst this
          exact ⟨x / n', m', Val.num_div hx hn' hn0, hm', (Nat.div_lt_iff_lt_mul hn0).2 hlt⟩
        · have := rel _ _ (.inr ⟨rfl, rfl⟩) n hn
          rw [hnl] at this
          obtain rfl := Option.some.inj this
          have : i = I.mod A nl := by simpa [State.set, hne, eq_comm] using hi
          subst this
          exact ⟨x % n', n', Val.num_mod hx hn' hn0, hn', Nat.mod_lt _ hn0⟩
      | some l =>
        obtain ⟨ml, nl, hml, hnl, hle, hor⟩ := hp l hl
        have hlen : ((Struct.view (.mergeBlocks maj min d) s).sem A).len d (st.remove (.idx d)) =
            some l := by
          have hN' := (guardLen_eq_some.1 hN).2
          simp only [↓reduceIte, e2, hl, Option.some.injEq] at hN'
          subst hN'
          exact hN
        obtain ⟨x, y, hx, hy, hlt⟩ := hV d I _ hd hI hlen
        obtain ⟨y', p, hy', hp', hle⟩ := hle
        obtain ⟨m', n', hm', hn', rfl⟩ := Val.nat?_mul.1 hp'
        have := Val.Num.eq hy hy'
        subst this
        have hlt' : x < m' * n' := by omega
        have hn0 : 0 < n' := by exact Nat.pos_of_ne_zero (by rintro rfl; simp at hlt')
        -- whichever way the block length is found, it is `nl`
        have key : u (.idx maj) = some (I.div A nl) ∧ u (.idx min) = some (I.mod A nl) ∨
            u (.idx q) = none := by
          cases hmin with
          | true =>
            simp only [↓reduceIte, hI, Option.bind_eq_some_iff] at hu
            obtain ⟨nl0, hnl0, hu⟩ := hu
            have hul : u (.len min) = none := by
              cases hmaj <;> simp only [hl, ↓reduceIte, Bool.false_eq_true, Option.some.injEq] at hu <;>
                subst hu <;> simp [State.set, c3, Ne.symm hne]
            have : nl0 = nl := by
              rcases hor with h | h
              · rw [hnl0] at h; exact Option.some.inj h
              · rw [hul] at h; simp at h
            subst this
            left
            cases hmaj <;> simp only [hl, ↓reduceIte, Bool.false_eq_true, Option.some.injEq] at hu <;>
              subst hu <;> simp [State.set, hne]
          | false =>
            cases hmaj with
            | true =>
              simp only [↓reduceIte, Bool.false_eq_true, hI, hl, Option.bind_eq_some_iff,
                Option.some.injEq] at hu
              obtain ⟨ml0, hml0, rfl⟩ := hu
              have : l.div A ml0 = nl := by
                rcases hor with h | h
                · have := Struct.hasLen_of_len h; rw [h1] at this; simp at this
                · simpa [State.set] using h
              rw [this]
              left; simp [State.set, hne]
            | false =>
              simp only [↓reduceIte, Bool.false_eq_true, Option.some.injEq] at hu
              subst hu
              right; rcases hqb with rfl | rfl <;> assumption
        rcases key with ⟨k1, k2⟩ | k
        · rcases hqb with rfl | rfl
          · rw [hml] at hn
            obtain rfl := Option.some.inj hn
            rw [k1] at hi
            obtain rfl := Option.some.inj hi
            exact ⟨x / n', m', Val.num_div hx hn' hn0, hm', (Nat.div_lt_iff_lt_mul hn0).2 hlt'⟩
          · rw [hnl] at hn
            obtain rfl := Option.some.inj hn
            rw [k2] at hi
            obtain rfl := Option.some.inj hi
            exact ⟨x % n', n', Val.num_mod hx hn' hn0, hn', Nat.mod_lt _ hn0⟩
        · rw [k] at hi; simp at hi
  · rw [not_or] at hqb
    rw [mbSub_idx hu hqb.1 hqb.2] at hi
    by_cases hqd : q = d
    · subst hqd; simp [blocksClean, State.removeAll] at hi
    · refine valid_other (v := .mergeBlocks maj min d) ih ⟨pM, pm⟩ hV (by simp) (by simp) hu
        (by simp only [View.dims, List.mem_cons, List.not_mem_nil]; grind) hq hq ?_ hn
      rw [← hi]; unfold blocksClean; state_val

theorem valid_mz {sl gl : Nat} {ds : List Dim} {d : Dim} {st u : State}
    (ht : (View.mergeZ sl gl ds d).tame s) (hd : ¬ s.hard d)
    (hV : ValidR A (.view (.mergeZ sl gl ds d) s) st)
    (hp : (View.mergeZ sl gl ds d).pre A (s.sem A) st u)
    (hu : mergeZSub A sl gl ds d (s.sem A) st = some u) : ValidR A s u := by
  intro q i n hq hi hn
  cases hI : st (.idx d) with
  | none =>
    have : u = zClean ds d st := by
      simp only [mergeZSub, hI, Option.some.injEq] at hu
      exact hu.symm
    subst this
    have hqd : q ≠ d := by rintro rfl; simp [zClean, State.removeAll] at hi
    have hqs : q ∉ ds := by intro h; simp [zClean, State.removeAll, h] at hi
    refine valid_other (v := .mergeZ sl gl ds d) ih ht hV (by simp) (by simp) hu
      (by simp only [View.dims, List.mem_cons]; grind) hq hq ?_ hn
    simpa [zClean, State.removeAll, hqd, hqs] using hi
  | some z =>
    obtain ⟨h2, hnd, hsg, h32, hlens⟩ := hp z hI
    have hL : ∀ j, ∃ L, ∀ hj : j < ds.length, ∃ v, (s.sem A).len ds[j] (zClean ds d st) = some v ∧
        v.Num L ∧ 2 ^ sl ∣ L ∧ L ≤ 2 ^ gl := by
      intro j
      by_cases hj : j < ds.length
      · obtain ⟨l, n, h1, h2, h3, h4⟩ := hlens ds[j] (List.getElem_mem hj)
        exact ⟨n, fun _ => ⟨l, h1, h2, h3, h4⟩⟩
      · exact ⟨0, fun h => absurd h hj⟩
    obtain ⟨L, hL⟩ := Classical.axiomOfChoice hL
    have hclean : zClean ds d (st.remove (.idx d)) = zClean ds d st := by
      unfold zClean
      funext t
      cases t <;> simp only [State.removeAll, State.remove, List.mem_cons] <;> grind
    obtain ⟨v, hv, hvn⟩ := mergeZ_len (S := s.sem A) (sl := sl) (gl := gl) (ds := ds) (d := d)
      (st := st.remove (.idx d)) (L := L) (by rintro rfl; simp at h2) (by simp [State.remove])
      (fun _ _ _ h => Struct.hasLen_of_len h) (fun j hj => by
        obtain ⟨v, h1, h2, -⟩ := hL j hj
        exact ⟨v, by rw [hclean]; exact h1, h2⟩)
    obtain ⟨k, y, hk, hy, hlt⟩ := hV d z v hd hI hv
    have := Val.Num.eq hy hvn
    subst this
    obtain ⟨r, hr⟩ := ZC.index_ok (n := ds.length) (sl := sl) (gl := gl) (len := L) h2 (by omega) hsg
      (fun j hj => (hL j hj).choose_spec.2.2.1) (fun j hj => (hL j hj).choose_spec.2.2.2) hlt
    obtain ⟨u', hu', hul, hui, huj⟩ := mergeZSub_eq (S := s.sem A) (d := d) (T := r) hnd hI hk
      (fun j hj => by obtain ⟨v, h1, h2, -⟩ := hL j hj; exact ⟨v, h1, h2⟩) (fun j hj => (hr j hj).1)
    rw [hu] at hu'
    obtain rfl := Option.some.inj hu'
    by_cases hqs : q ∈ ds
    · obtain ⟨j, hj, rfl⟩ := List.getElem_of_mem hqs
      have hpl := ht _ hqs
      have hrel : Rel s ds[j] (u.remove (.idx ds[j])) (zClean ds d st) := by
        constructor
        · intro e; rw [← hul]; simp [State.remove]
        · intro e he
          by_cases h : e ∈ ds
          · simp [zClean, State.removeAll, h]
          · rw [← hui e h]
            have : e ≠ ds[j] := by rintro rfl; exact h hqs
            simpa [State.remove, this] using he
        · intro _; simp [State.remove]
        · intro e he
          have h : e ∉ ds := fun h => (ht e h).1 he
          have : e ≠ ds[j] := by rintro rfl; exact h hqs
          rw [← hui e h]; simp [State.remove, this]
        · intro h; exact absurd h hpl.2.1
        · intro h; exact absurd h hpl.2.2
      have := (ih _ _ _ hrel).2 n hn
      obtain ⟨v, h1, h2, -⟩ := hL j hj
      rw [h1] at this
      obtain rfl := Option.some.inj this
      rw [huj j hj] at hi
      obtain rfl := Option.some.inj hi
      exact ⟨r j, L j, rfl, h2, (hr j hj).2⟩
    · rw [hui q hqs] at hi
      have hqd : q ≠ d := by rintro rfl; simp [zClean, State.removeAll] at hi
      refine valid_other (v := .mergeZ sl gl ds d) ih ht hV (by simp) (by simp) hu
        (by simp only [View.dims, List.mem_cons]; grind) hq hq ?_ hn
      simpa [zClean, State.removeAll, hqd, hqs] using hi

end

end Noarr
