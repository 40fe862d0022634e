import Verif.Bounds

/-
Valid indices stay valid when a view hands them down, view by view.
-/

set_option linter.unusedVariables false
set_option linter.unusedSimpArgs false

namespace Noarr

theorem guardTrue (x : Option Val) : guardLen (some true) x = x := rfl

/-- numbers behind `LtVal` etc. -/
theorem Val.Num.eq {v : Val} {m n : Nat} (h : v.Num m) (h' : v.Num n) : m = n := by
  unfold Val.Num at h h'; rw [h] at h'; exact Option.some.inj h'

/-- the dimensions a view leaves alone -/
theorem valid_other {A : Arith} {v : View} {s : Struct} (ih : LD A s) (ht : v.tame s) {st u : State}
    (hV : ValidR A (.view v s) st) (hrev : ∀ d, v ≠ .reverse d)
    (hreo : ∀ ds, v = .reorder ds → ((s.sem A).sig.reassemble ds State.empty).complete = true)
    (hu : (v.sem A (s.sem A)).sub st = some u) {q : Dim} {i n : Val} (hq : q ∉ v.dims)
    (hh : ¬ (Struct.view v s).hard q) (hs : ¬ s.hard q) (hi : st (.idx q) = some i)
    (hn : (s.sem A).len q (u.remove (.idx q)) = some n) : LtVal i n := by
  refine hV q i n hh hi ?_
  exact len_of_sub hq (by simp [State.remove]) hrev hreo
    (sub_remove ih ht hs hq (fun d h => absurd h (hrev d)) hu) hn

section
variable {s : Struct} (ih : LD .ideal s)
include ih

local notation "A" => Arith.ideal

theorem valid_bcast {d : Dim} {st u : State} (hV : ValidR A (.view (.bcast d) s) st)
    (hu : (bcastSem d (s.sem A)).sub st = some u) : ValidR A s u := by
  intro q i n hq hi hn
  by_cases hqd : q = d
  · cases hu; simp [State.removeAll, hqd] at hi
  · refine valid_other (v := (.bcast d)) ih (by trivial) hV (by simp) (by simp) hu (by simpa [View.dims] using hqd)
      (by simp only [Struct.hard, View.hard]; exact fun h => hq h.2) hq ?_ hn
    cases hu
    simpa [State.removeAll, hqd] using hi

theorem valid_fix {d : Dim} {x : Val} {st u : State} (hV : ValidR A (.view (.fix d x) s) st)
    (hp : (View.fix d x).pre A (s.sem A) st u)
    (hu : (fixSem d x (s.sem A)).sub st = some u) : ValidR A s u := by
  intro q i n hq hi hn
  by_cases hqd : q = d
  · subst hqd
    have : i = x := by cases hu; simpa [State.set, eq_comm] using hi
    subst this
    exact hp n hn
  · refine valid_other (v := (.fix d x)) ih (by trivial) hV (by simp) (by simp) hu (by simpa [View.dims] using hqd)
      (by simp only [Struct.hard, View.hard]; exact fun h => hq h.2) hq ?_ hn
    cases hu
    simpa [State.set, State.remove, hqd] using hi

theorem valid_setLength {d : Dim} {x : Val} {st u : State}
    (hV : ValidR A (.view (.setLength d x) s) st)
    (hu : (setLengthSem d x (s.sem A)).sub st = some u) : ValidR A s u := by
  intro q i n hq hi hn
  refine valid_other (v := (.setLength d x)) ih (by trivial) hV (by simp) (by simp) hu (by simp [View.dims]) hq hq ?_ hn
  cases hu
  simpa [State.set] using hi

theorem valid_shift {d : Dim} {a : Val} {st u : State}
    (hV : ValidR A (.view (.shift d a) s) st) (hp : (View.shift d a).pre A (s.sem A) st u)
    (hu : (shiftSem A d a (s.sem A)).sub st = some u) : ValidR A s u := by
  intro q i n hq hi hn
  by_cases hqd : q = d
  · subst hqd
    have hh := Struct.hasLen_of_len hn
    have hsub : (shiftSem A q a (s.sem A)).sub (st.remove (.idx q)) = some (u.remove (.idx q)) := by
      cases hu; simp only [shiftSem, Option.some.injEq]; state_eq
    obtain ⟨j, hj, rfl⟩ : ∃ j, st (.idx q) = some j ∧ i = j.add A a := by
      cases hu
      simp only [State.mapAt, reduceCtorEq, ↓reduceIte, Option.map_eq_some_iff] at hi
      obtain ⟨j, hj, rfl⟩ := hi
      exact ⟨j, hj, rfl⟩
    have hsub' := Option.some.inj hsub
    have hlq : (st.remove (.idx q)) (.len q) = st (.len q) := by state_val
    cases hl : st (.len q) with
    | none =>
      have hlen : ((Struct.view (.shift q a) s).sem A).len q (st.remove (.idx q)) =
          some (n.sub A a) := by
        simp only [Struct.sem, View.sem, ViewSem.toSem, shiftSem] at hsub' ⊢
        rw [hsub']
        simp [State.has, hlq, hl, hh, hn, guardTrue]
      obtain ⟨x, y, hx, hy, hlt⟩ := hV q j _ hq hj hlen
      obtain ⟨p, r, hp', hr, hle, rfl⟩ := Val.nat?_sub.1 hy
      exact ⟨x + r, p, Val.nat?_add.2 ⟨x, r, hx, hr, rfl⟩, hp', by omega⟩
    | some l =>
      have hlen : ((Struct.view (.shift q a) s).sem A).len q (st.remove (.idx q)) = some l := by
        simp only [Struct.sem, View.sem, ViewSem.toSem, shiftSem]
        simp [State.has, hlq, hl, guardTrue]
      obtain ⟨x, y, hx, hy, hlt⟩ := hV q j _ hq hj hlen
      obtain ⟨p, r, hp', hr, hle⟩ := hp l n hl hn
      obtain ⟨p1, p2, h1, h2, rfl⟩ := Val.nat?_add.1 hp'
      have := Val.Num.eq hy h1
      exact ⟨x + p2, r, Val.nat?_add.2 ⟨x, p2, hx, h2, rfl⟩, hr, by omega⟩
  · refine valid_other (v := (.shift d a)) ih (by trivial) hV (by simp) (by simp) hu (by simpa [View.dims] using hqd) hq hq ?_ hn
    cases hu
    simpa [State.mapAt, hqd] using hi

theorem valid_slice {d : Dim} {a l : Val} {st u : State}
    (hV : ValidR A (.view (.slice d a l) s) st) (hp : (View.slice d a l).pre A (s.sem A) st u)
    (hu : (sliceSem A d a l (s.sem A)).sub st = some u) : ValidR A s u := by
  intro q i n hq hi hn
  by_cases hqd : q = d
  · subst hqd
    have hh := Struct.hasLen_of_len hn
    have hsub : (sliceSem A q a l (s.sem A)).sub (st.remove (.idx q)) = some (u.remove (.idx q)) := by
      cases hu; simp only [sliceSem, Option.some.injEq]; state_eq
    obtain ⟨j, hj, rfl⟩ : ∃ j, st (.idx q) = some j ∧ i = j.add A a := by
      cases hu
      simp only [State.mapAt, reduceCtorEq, ↓reduceIte, Option.map_eq_some_iff] at hi
      obtain ⟨j, hj, rfl⟩ := hi
      exact ⟨j, hj, rfl⟩
    have hsub' := Option.some.inj hsub
    have hlen : ((Struct.view (.slice q a l) s).sem A).len q (st.remove (.idx q)) = some l := by
      simp only [Struct.sem, View.sem, ViewSem.toSem, sliceSem] at hsub' ⊢
      rw [hsub']
      simp [hh, guardTrue]
    obtain ⟨x, y, hx, hy, hlt⟩ := hV q j _ hq hj hlen
    obtain ⟨p, r, hp', hr, hle⟩ := hp n hn
    obtain ⟨p1, p2, h1, h2, rfl⟩ := Val.nat?_add.1 hp'
    have := Val.Num.eq hy h2
    exact ⟨x + p1, r, Val.nat?_add.2 ⟨x, p1, hx, h1, rfl⟩, hr, by omega⟩
  · refine valid_other (v := (.slice d a l)) ih (by trivial) hV (by simp) (by simp) hu (by simpa [View.dims] using hqd) hq hq ?_ hn
    cases hu
    simpa [State.mapAt, hqd] using hi

theorem valid_span {d : Dim} {a e : Val} {st u : State}
    (hV : ValidR A (.view (.span d a e) s) st) (hp : (View.span d a e).pre A (s.sem A) st u)
    (hu : (spanSem A d a e (s.sem A)).sub st = some u) : ValidR A s u := by
  intro q i n hq hi hn
  by_cases hqd : q = d
  · subst hqd
    have hh := Struct.hasLen_of_len hn
    have hsub : (spanSem A q a e (s.sem A)).sub (st.remove (.idx q)) = some (u.remove (.idx q)) := by
      cases hu; simp only [spanSem, Option.some.injEq]; state_eq
    obtain ⟨j, hj, rfl⟩ : ∃ j, st (.idx q) = some j ∧ i = j.add A a := by
      cases hu
      simp only [State.mapAt, reduceCtorEq, ↓reduceIte, Option.map_eq_some_iff] at hi
      obtain ⟨j, hj, rfl⟩ := hi
      exact ⟨j, hj, rfl⟩
    have hsub' := Option.some.inj hsub
    have hlen : ((Struct.view (.span q a e) s).sem A).len q (st.remove (.idx q)) =
        some (e.sub A a) := by
      simp only [Struct.sem, View.sem, ViewSem.toSem, spanSem] at hsub' ⊢
      rw [hsub']
      simp [hh, guardTrue]
    obtain ⟨x, y, hx, hy, hlt⟩ := hV q j _ hq hj hlen
    obtain ⟨p1, p2, h1, h2, hle2, rfl⟩ := Val.nat?_sub.1 hy
    obtain ⟨p, r, hp', hr, hle⟩ := hp n hn
    have := Val.Num.eq hp' h1
    exact ⟨x + p2, r, Val.nat?_add.2 ⟨x, p2, hx, h2, rfl⟩, hr, by omega⟩
  · refine valid_other (v := (.span d a e)) ih (by trivial) hV (by simp) (by simp) hu (by simpa [View.dims] using hqd) hq hq ?_ hn
    cases hu
    simpa [State.mapAt, hqd] using hi

theorem valid_step {d : Dim} {a k : Val} {st u : State}
    (hV : ValidR A (.view (.step d a k) s) st)
    (hu : (stepSem A d a k (s.sem A)).sub st = some u) : ValidR A s u := by
  intro q i n hq hi hn
  by_cases hqd : q = d
  · subst hqd
    have hh := Struct.hasLen_of_len hn
    have hsub : (stepSem A q a k (s.sem A)).sub (st.remove (.idx q)) = some (u.remove (.idx q)) := by
      cases hu; simp only [stepSem, Option.some.injEq]; state_eq
    obtain ⟨j, hj, rfl⟩ : ∃ j, st (.idx q) = some j ∧ i = (j.mul A k).add A a := by
      cases hu
      simp only [State.mapAt, reduceCtorEq, ↓reduceIte, Option.map_eq_some_iff] at hi
      obtain ⟨j, hj, rfl⟩ := hi
      exact ⟨j, hj, rfl⟩
    have hun : u.remove (.idx q) = st.remove (.idx q) := by cases hu; state_eq
    have hsub' := Option.some.inj hsub
    have hlen : ((Struct.view (.step q a k) s).sem A).len q (st.remove (.idx q)) =
        some ((((n.add A k).sub A a).sub A (.lit 1)).div A k) := by
      simp only [Struct.sem, View.sem, ViewSem.toSem, stepSem] at hsub' ⊢
      rw [hsub', ← hun]
      simp [hh, hn, guardTrue]
    obtain ⟨x, y, hx, hy, hlt⟩ := hV q j _ hq hj hlen
    obtain ⟨p1, k', h1, hk, hor, rfl⟩ := Val.nat?_div.1 hy
    obtain ⟨p2, one, h2, h1', hle1, rfl⟩ := Val.nat?_sub.1 h1
    have hone : one = 1 := by simpa using h1'.symm
    subst hone
    obtain ⟨p3, a', h3, ha', hle2, rfl⟩ := Val.nat?_sub.1 h2
    obtain ⟨n', k'', hn', hk'', rfl⟩ := Val.nat?_add.1 h3
    have : k'' = k' := by rw [hk] at hk''; exact (Option.some.inj hk'').symm
    subst this
    have hkpos : 0 < k'' := by
      rcases Nat.eq_zero_or_pos k'' with h | h
      · subst h; simp at hlt
      · exact h
    refine ⟨x * k'' + a', n', Val.nat?_add.2 ⟨_, a', Val.nat?_mul.2 ⟨x, k'', hx, hk, rfl⟩, ha', rfl⟩,
      hn', ?_⟩
    have h5 := (Nat.le_div_iff_mul_le hkpos).1 hlt
    rw [Nat.succ_mul] at h5
    omega
  · refine valid_other (v := (.step d a k)) ih (by trivial) hV (by simp) (by simp) hu (by simpa [View.dims] using hqd) hq hq ?_ hn
    cases hu
    simpa [State.mapAt, hqd] using hi

theorem valid_reverse {d : Dim} {st u : State} (ht : (View.reverse d).tame s)
    (hd : ¬ s.hard d ∧ ¬ s.drive d)
    (hV : ValidR A (.view (.reverse d) s) st) (hp : (View.reverse d).pre A (s.sem A) st u)
    (hu : (reverseSem A d (s.sem A)).sub st = some u) : ValidR A s u := by
  intro q i n hq hi hn
  have hh := Struct.hasLen_of_len hn
  by_cases hqd : q = d
  · subst hqd
    simp only [reverseSem] at hu
    cases hj : st (.idx q) with
    | none => simp only [hj, Option.some.injEq] at hu; subst hu; rw [hj] at hi; simp at hi
    | some j =>
      simp only [hj] at hu
      have hp := hp (by simp [hj])
      cases hb : (s.sem A).hasLen q (st.remove (.idx q)) with
      | none => simp [hb] at hu
      | some b =>
        cases b with
        | false => exact absurd hb hp
        | true =>
          simp only [hb, bind, Option.bind_eq_some_iff, Option.some.injEq] at hu
          obtain ⟨l, hl, rfl⟩ := hu
          have hun : ((st.remove (.idx q)).set (.idx q) ((l.sub A (.lit 1)).sub A j)).remove (.idx q) =
            st.remove (.idx q) := by state_eq
          rw [hun, hl] at hn
          obtain rfl := Option.some.inj hn
          have : i = (l.sub A (.lit 1)).sub A j := by simpa [State.set, eq_comm] using hi
          subst this
          have hlen : ((Struct.view (.reverse q) s).sem A).len q (st.remove (.idx q)) = some l := by
            simp only [Struct.sem, View.sem, ViewSem.toSem, reverseSem]
            have : (st.remove (.idx q)) (.idx q) = none := by simp [State.remove]
            simp [this, hb, hl, guardTrue]
          obtain ⟨x, y, hx, hy, hlt⟩ := hV q j _ hq hj hlen
          refine ⟨y - 1 - x, y, ?_, hy, by omega⟩
          have hy1 : (l.sub A (.lit 1)).nat? = some (y - 1) :=
            Val.nat?_sub.2 ⟨y, 1, hy, rfl, by omega, rfl⟩
          exact Val.nat?_sub.2 ⟨y - 1, x, hy1, hx, by omega, rfl⟩
  · have hsub := sub_remove (v := .reverse d) ih ht hq (by simpa [View.dims] using hqd)
      (fun d' h => by cases h; exact hd.1) hu
    have hsub' : (reverseSem A d (s.sem A)).sub (st.remove (.idx q)) = some (u.remove (.idx q)) := hsub
    have hst : st (.idx q) = some i ∧ Rel s q (u.remove (.idx q)) (st.remove (.idx q)) := by
      simp only [reverseSem] at hu
      cases hj : st (.idx d) with
      | none =>
        simp only [hj, Option.some.injEq] at hu; subst hu
        exact ⟨hi, ⟨fun _ => rfl, fun _ h => h, fun h => h, fun _ _ => rfl, fun _ _ _ => rfl,
          fun _ _ h => h⟩⟩
      | some j =>
        simp only [hj] at hu
        have hp := hp (by simp [hj])
        cases hb : (s.sem A).hasLen d (st.remove (.idx d)) with
        | none => simp [hb] at hu
        | some b =>
          cases b with
          | false => exact absurd hb hp
          | true =>
            simp only [hb, bind, Option.bind_eq_some_iff, Option.some.injEq] at hu
            obtain ⟨l, hl, rfl⟩ := hu
            refine ⟨by simpa [State.set, State.remove, hqd] using hi, ?_⟩
            obtain ⟨hd1, hd2⟩ := hd
            constructor <;> intros <;> simp only [State.remove, State.set] at * <;> grind
    refine hV q i n hq hst.1 ?_
    have h2 := (ih q _ _ hst.2).2 n hn
    show guardLen (((reverseSem A d (s.sem A)).sub (st.remove (.idx q))).bind ((s.sem A).hasLen q))
      ((s.sem A).len q (st.remove (.idx q))) = some n
    rw [hsub']
    simp only [Option.bind_some, hh, h2, guardTrue]

theorem valid_same {v : View} {st : State} (hv : (∃ ds, v = .reorder ds ∧
      ((s.sem A).sig.reassemble ds State.empty).complete = true) ∨ ∃ d, v = .hoist d)
    (hV : ValidR A (.view v s) st) : ValidR A s st := by
  intro q i n hq hi hn
  rcases hv with ⟨ds, rfl, hc⟩ | ⟨d, rfl⟩
  · exact valid_other (v := .reorder ds) ih (by trivial) hV (by simp) (fun ds' h => by cases h; exact hc) rfl
      (by simp [View.dims]) hq hq hi hn
  · exact valid_other (v := .hoist d) ih (by trivial) hV (by simp) (by simp) rfl (by simp [View.dims]) hq hq hi hn

theorem valid_rename {ps : List (Dim × Dim)} {st : State} (ht : (View.rename ps).tame s)
    (hV : ValidR A (.view (.rename ps) s) st) : ValidR A s (renameState ps st) := by
  intro q i n hq hi hn
  have hh := Struct.hasLen_of_len hn
  rw [renameState_idx] at hi
  split at hi
  · next hk =>
    have hback : Sig.renameDim (ps.map Prod.swap) (Sig.renameDim ps q) = q := by
      exact renameDim_swap ht.1 ht.2 q (by grind)
    have hst : renameState ps (st.remove (.idx (Sig.renameDim ps q))) =
        (renameState ps st).remove (.idx q) := by
      funext tag
      cases tag with
      | len x => simp only [renameState_len, State.remove, reduceCtorEq, if_false]
      | idx x =>
        simp only [renameState_idx, State.remove, Tag.idx.injEq]
        by_cases hx : x = q
        · subst hx; simp
        · simp only [hx, if_false]
          by_cases hkx : x ∈ ps.map Prod.fst ∨ x ∉ ps.map Prod.snd
          · have : Sig.renameDim ps x ≠ Sig.renameDim ps q := by
              intro h
              have hb' : Sig.renameDim (ps.map Prod.swap) (Sig.renameDim ps x) = x :=
                renameDim_swap ht.1 ht.2 x (by grind)
              rw [h, hback] at hb'
              exact hx hb'.symm
            simp [this]
          · rw [if_neg hkx, if_neg hkx]
    refine hV (Sig.renameDim ps q) i n ?_ hi ?_
    · rintro ⟨x, hx1, hx2, hx3⟩
      have hb' : Sig.renameDim (ps.map Prod.swap) (Sig.renameDim ps x) = x :=
        renameDim_swap ht.1 ht.2 x (by grind)
      rw [hx3, hback] at hb'
      exact hq (hb' ▸ hx1)
    · simp only [Struct.sem, View.sem, ViewSem.toSem, renameSem, hback, hst, hh, hn, guardTrue]
  · simp at hi

theorem valid_join {a b d : Dim} {st u : State} (ht : (View.join a b d).tame s)
    (hV : ValidR A (.view (.join a b d) s) st) (hp : (View.join a b d).pre A (s.sem A) st u)
    (hu : (joinSem a b d (s.sem A)).sub st = some u) : ValidR A s u := by
  intro q i n hq hi hn
  obtain ⟨x, h1, h2, h3⟩ := join_sub_eq_some hu
  have hidx : ∀ e, u (.idx e) = if e = a ∨ e = b then st (.idx d) else if e = d then none
      else st (.idx e) := by
    intro e
    rcases h3 with ⟨l, hl, hx, rfl⟩ | ⟨hl, rfl⟩ <;> cases st (.idx d) <;>
      simp [joinClean, State.removeAll, State.set] <;> grind
  rw [hidx] at hi
  by_cases hab : q = a ∨ q = b
  · rw [if_pos hab] at hi
    refine hp i n hi ?_
    rcases hab with rfl | rfl
    · exact .inl hn
    · exact .inr hn
  · rw [if_neg hab] at hi
    split at hi
    · simp at hi
    · next hd =>
      exact valid_other (v := (.join a b d)) ih ht hV (by simp) (by simp) hu (by simp [View.dims]; grind) hq hq hi hn

end

end Noarr
