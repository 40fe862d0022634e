import Verif.TraverseSpec
import Verif.Grow
import Verif.Inside
import Verif.SigHard

set_option linter.unusedVariables false
set_option linter.unusedSimpArgs false

namespace Noarr

theorem seqAll_map_some {α β : Type} {f : α → Option (List β)} {l : List α} {r : List β}
    (h : seqAll (l.map f) = some r) : ∀ i ∈ l, ∃ a, f i = some a := by
  induction l generalizing r with
  | nil => simp
  | cons i l ih =>
    simp only [List.map_cons, seqAll, bind, Option.bind_eq_some_iff] at h
    obtain ⟨a, ha, b, hb, -⟩ := h
    intro j hj
    rcases List.mem_cons.1 hj with rfl | hj
    · exact ⟨a, ha⟩
    · exact ih hb j hj

theorem seqAll_mem {α β : Type} {f : α → Option (List β)} {l : List α} {r : List β} {x : β}
    (h : seqAll (l.map f) = some r) : x ∈ r ↔ ∃ i ∈ l, ∃ a, f i = some a ∧ x ∈ a := by
  induction l generalizing r with
  | nil => simp [seqAll] at h; subst h; simp
  | cons i l ih =>
    simp only [List.map_cons, seqAll, bind, Option.bind_eq_some_iff, Option.some.injEq] at h
    obtain ⟨a, ha, b, hb, rfl⟩ := h
    rw [List.mem_append, ih hb]
    constructor
    · rintro (h | ⟨j, hj, c, hc, h⟩)
      · exact ⟨i, by simp, a, ha, h⟩
      · exact ⟨j, by simp [hj], c, hc, h⟩
    · rintro ⟨j, hj, c, hc, h⟩
      rcases List.mem_cons.1 hj with rfl | hj
      · rw [ha] at hc; cases hc; exact .inl h
      · exact .inr ⟨j, hj, c, hc, h⟩

theorem seqAll_pairwise {α β : Type} {R : β → β → Prop} {Q : α → α → Prop} {f : α → Option (List β)}
    {l : List α} {r : List β} (h : seqAll (l.map f) = some r) (hl : l.Pairwise Q)
    (h1 : ∀ i ∈ l, ∀ a, f i = some a → a.Pairwise R)
    (h2 : ∀ i ∈ l, ∀ j ∈ l, Q i j → ∀ a b, f i = some a → f j = some b → ∀ x ∈ a, ∀ y ∈ b, R x y) :
    r.Pairwise R := by
  induction l generalizing r with
  | nil => simp [seqAll] at h; subst h; simp
  | cons i l ih =>
    simp only [List.map_cons, seqAll, bind, Option.bind_eq_some_iff, Option.some.injEq] at h
    obtain ⟨a, ha, b, hb, rfl⟩ := h
    rw [List.pairwise_cons] at hl
    rw [List.pairwise_append]
    refine ⟨h1 i (by simp) a ha, ih hb hl.2 (fun j hj => h1 j (by simp [hj]))
      (fun j hj k hk => h2 j (by simp [hj]) k (by simp [hk])), ?_⟩
    intro x hx y hy
    obtain ⟨j, hj, c, hc, hy⟩ := (seqAll_mem hb).1 hy
    exact h2 i (by simp) j (by simp [hj]) (hl.1 j hj) a c ha hc x hx y hy

/-- The walk visits in lexicographic order, for any tree of dimensions. -/
theorem walk_sorted (S : Sem) {t : DimTree} {st : State} {ps : List Path} (h : walk S t st = some ps) :
    ps.Pairwise PathLt := by
  induction t generalizing st ps with
  | leaf => simp [walk] at h; subst h; simp
  | bad => simp [walk] at h
  | node d n bs ih =>
    have hmap : ∀ {di : Dim × Val} {ps : List Path}, ps.Pairwise PathLt →
        (ps.map fun p => di :: p).Pairwise PathLt := by
      intro di ps h
      rw [List.pairwise_map]
      exact h.imp fun h => .tail h
    simp only [walk] at h
    split at h
    · refine seqAll_pairwise h (Q := fun i j => i < j) (List.pairwise_lt_finRange n) ?_ ?_
      · intro i _ a ha
        simp only [Option.map_eq_some_iff] at ha
        obtain ⟨ps, hps, rfl⟩ := ha
        exact hmap (ih i hps)
      · intro i _ j _ hij a b ha hb x hx y hy
        simp only [Option.map_eq_some_iff] at ha hb
        obtain ⟨pa, -, rfl⟩ := ha
        obtain ⟨pb, -, rfl⟩ := hb
        obtain ⟨x, -, rfl⟩ := List.mem_map.1 hx
        obtain ⟨y, -, rfl⟩ := List.mem_map.1 hy
        exact .head (a := i) (b := j) rfl rfl hij
    · split at h
      · simp only [bind, Option.bind_eq_some_iff] at h
        obtain ⟨l, hl, m, hm, h⟩ := h
        refine seqAll_pairwise h (Q := fun i j => i < j) List.pairwise_lt_range ?_ ?_
        · intro i _ a ha
          simp only [Option.map_eq_some_iff] at ha
          obtain ⟨ps, hps, rfl⟩ := ha
          exact hmap (ih _ hps)
        · intro i _ j _ hij a b ha hb x hx y hy
          simp only [Option.map_eq_some_iff] at ha hb
          obtain ⟨pa, -, rfl⟩ := ha
          obtain ⟨pb, -, rfl⟩ := hb
          obtain ⟨x, -, rfl⟩ := List.mem_map.1 hx
          obtain ⟨y, -, rfl⟩ := List.mem_map.1 hy
          exact .head (a := i) (b := j) rfl rfl hij
      · simp at h
    · simp at h

namespace Sig

theorem At.find {st : State} {S N : Sig} (h : At st S N) (hu : S.uniq) {d : Dim} (hd : Starts [d] N) :
    S.find d st = N := by
  have hacc : N.anyAccept d = true := by
    rcases hd with ⟨e, l, r, rfl, he⟩ | ⟨e, n, rs, rfl, he⟩ <;> simp at he <;> simp [anyAccept, he]
  induction h with
  | refl =>
    rcases hd with ⟨e, l, r, rfl, he⟩ | ⟨e, n, rs, rfl, he⟩ <;> simp at he <;> simp [Sig.find, he]
  | @fn e l r N hr ih =>
    have h1 := hr.accept hacc
    have : e ≠ d := by rintro rfl; rw [hu.1] at h1; simp at h1
    simp only [Sig.find, this, if_false]
    exact ih hu.2 hd hacc
  | @dep e n rs k N hk hr ih =>
    have h1 := hr.accept hacc
    have : e ≠ d := by rintro rfl; rw [(hu k).1] at h1; simp at h1
    simp only [Sig.find, this, if_false, hk]
    exact ih (hu k).2 hd hacc

theorem At.congr {st st' : State} {S N : Sig} (h : At st S N) (hu : S.uniq)
    (hs : ∀ e, N.anyAccept e = false → st (.idx e) = st' (.idx e)) : At st' S N := by
  induction h with
  | refl => exact .refl _
  | fn hr ih => exact .fn (ih hu.2 hs)
  | @dep e n rs k N hk hr ih =>
    refine .dep ?_ (ih (hu k).2 hs)
    rw [← hs e, hk]
    cases h : N.anyAccept e with
    | false => rfl
    | true =>
      have := hr.accept h
      rw [(hu k).1] at this
      simp at this

theorem At.needs_below {st : State} {S N : Sig} (h : At st S N) (hu : S.uniq) {q : Dim}
    (hq : S.needs st q) (hN : N.anyAccept q = true) : N.needs st q := by
  induction h with
  | refl => exact hq
  | @fn e l r N hr ih =>
    rcases hq with rfl | hq
    · have := hr.accept hN; rw [hu.1] at this; simp at this
    · exact ih hu.2 hq hN
  | @dep e n rs k N hk hr ih =>
    rcases hq with rfl | ⟨j, hj, hq⟩
    · have := hr.accept hN; rw [(hu k).1] at this; simp at this
    · rw [hk] at hj; cases hj; exact ih (hu k).2 hq hN

end Sig

/-- What the walk over the dimensions of a signature visits. -/
theorem walk_mem (S : Sem) (hu : S.sig.uniq) {N : Sig} {st : State} {ps : List Path} (hA : Sig.At st S.sig N)
    (h : walk S N.tree st = some ps) (p : Path) : p ∈ ps ↔ Nested S N st p := by
  induction N generalizing st ps p with
  | scalar s =>
    simp [Sig.tree, walk] at h; subst h
    simp only [List.mem_singleton]
    exact ⟨fun h => h ▸ .scalar, fun h => by cases h; rfl⟩
  | void =>
    simp [Sig.tree, walk] at h; subst h
    simp only [List.mem_singleton]
    exact ⟨fun h => h ▸ .void, fun h => by cases h; rfl⟩
  | ill => simp [Sig.tree, walk] at h
  | fn d l r ih =>
    have hf := hA.find hu (d := d) (.inl ⟨d, l, r, rfl, by simp⟩)
    have hr : ∀ v, Sig.At (st.set (.idx d) v) S.sig r := by
      intro v
      refine Sig.At.trans (hA.congr hu ?_) (.fn (.refl _))
      intro e he
      simp only [Sig.anyAccept, Bool.or_eq_false_iff, beq_eq_false_iff_ne] at he
      simp [State.set, Ne.symm he.1]
    simp only [Sig.tree, walk, hf, ↓reduceDIte, bind, Option.bind_eq_some_iff] at h
    obtain ⟨v, hv, m, hm, h⟩ := h
    rw [seqAll_mem h]
    constructor
    · rintro ⟨i, hi, a, ha, hp⟩
      simp only [Option.map_eq_some_iff] at ha
      obtain ⟨qs, hqs, rfl⟩ := ha
      obtain ⟨q, hq, rfl⟩ := List.mem_map.1 hp
      exact .fn i hv hm (by simpa using hi) ((ih (hr _) hqs q).1 hq)
    · intro hp
      cases hp with
      | @fn _ _ _ _ l' m' q i h1 h2 h3 h4 =>
        rw [hv] at h1; cases h1
        rw [show v.nat? = some m' from h2] at hm; cases hm
        obtain ⟨a, ha⟩ := seqAll_map_some h i (by simpa using h3)
        refine ⟨i, by simpa using h3, a, ha, ?_⟩
        simp only [Option.map_eq_some_iff] at ha
        obtain ⟨qs, hqs, rfl⟩ := ha
        exact List.mem_map.2 ⟨q, (ih (hr _) hqs q).2 h4, rfl⟩
  | dep d n rs ih =>
    have hf := hA.find hu (d := d) (.inr ⟨d, n, rs, rfl, by simp⟩)
    have hr : ∀ k : Fin n, Sig.At (st.set (.idx d) (.lit k)) S.sig (rs k) := by
      intro k
      refine Sig.At.trans (hA.congr hu ?_) (.dep (k := k) ?_ (.refl _))
      · intro e he
        simp only [Sig.anyAccept, Bool.or_eq_false_iff, beq_eq_false_iff_ne] at he
        simp [State.set, Ne.symm he.1]
      · simp [State.set, Sig.litIdx]
    simp only [Sig.tree, walk, hf] at h
    rw [seqAll_mem h]
    constructor
    · rintro ⟨k, hk, a, ha, hp⟩
      simp only [Option.map_eq_some_iff] at ha
      obtain ⟨qs, hqs, rfl⟩ := ha
      obtain ⟨q, hq, rfl⟩ := List.mem_map.1 hp
      exact .dep k ((ih k (hr _) hqs q).1 hq)
    · intro hp
      cases hp with
      | @dep _ _ _ _ q k h4 =>
        obtain ⟨a, ha⟩ := seqAll_map_some h k (List.mem_finRange _)
        refine ⟨k, List.mem_finRange _, a, ha, ?_⟩
        simp only [Option.map_eq_some_iff] at ha
        obtain ⟨qs, hqs, rfl⟩ := ha
        exact List.mem_map.2 ⟨q, (ih k (hr _) hqs q).2 h4, rfl⟩

/-- What is known about one index of a visited state `f`. -/
def Visited (S : Sem) (f : State) (q : Dim) : Prop :=
  match S.sig.find q f with
  | .dep _ n _ => ∃ k, k < n ∧ f (.idx q) = some (.lit k)
  | _ => ∃ k l m pre, f (.idx q) = some (.dyn k) ∧ S.len q pre = some l ∧ l.Num m ∧ k < m ∧
      Grow pre (f.remove (.idx q))

/-- What is known about the state of a path. -/
structure Facts (S : Sem) (N : Sig) (st f : State) (p : Path) : Prop where
  loc : Sig.At f S.sig N
  outside : ∀ e, N.anyAccept e = false → f (.idx e) = st (.idx e)
  lens : ∀ e, f (.len e) = st (.len e)
  ok : ∀ q, N.needs f q → Visited S f q
  only : ∀ e, N.anyAccept e = true → (f (.idx e)).isSome → N.needs f e
  dims : ∀ di ∈ p, N.anyAccept di.1 = true
  nodup : (p.map Prod.fst).Nodup

theorem Nested.facts {S : Sem} (hu : S.sig.uniq) {N : Sig} {st : State} {p : Path}
    (hA : Sig.At st S.sig N) (hno : ∀ e, N.anyAccept e = true → st (.idx e) = none)
    (h : Nested S N st p) : Facts S N st (p.state st) p := by
  induction h with
  | @scalar s st => exact ⟨hA, fun _ _ => rfl, fun _ => rfl, fun q h => absurd h id,
      fun e h => by simp [Sig.anyAccept] at h, by simp, by simp⟩
  | @void st => exact ⟨hA, fun _ _ => rfl, fun _ => rfl, fun q h => absurd h id,
      fun e h => by simp [Sig.anyAccept] at h, by simp, by simp⟩
  | @fn d a r st l m p i hl hm hi hp ih =>
    have hN := hA.uniq hu
    have hr : Sig.At (st.set (.idx d) (.dyn i)) S.sig r := by
      refine Sig.At.trans (hA.congr hu ?_) (.fn (.refl _))
      intro e he
      simp only [Sig.anyAccept, Bool.or_eq_false_iff, beq_eq_false_iff_ne] at he
      simp [State.set, Ne.symm he.1]
    have hd : st (.idx d) = none := hno d (by simp [Sig.anyAccept])
    have ih := ih hr (by
      intro e he
      have : e ≠ d := by rintro rfl; rw [hN.1] at he; simp at he
      simp [State.set, this, hno e (by simp [Sig.anyAccept, he])])
    rw [show Path.state ((d, .dyn i) :: p) st = p.state (st.set (.idx d) (.dyn i)) from rfl]
    generalize Path.state p (st.set (.idx d) (.dyn i)) = f at ih ⊢
    have hfd : f (.idx d) = some (.dyn i) := by rw [ih.outside d hN.1]; simp [State.set]
    have hout : ∀ e, (Sig.fn d a r).anyAccept e = false → f (.idx e) = st (.idx e) := by
      intro e he
      simp only [Sig.anyAccept, Bool.or_eq_false_iff, beq_eq_false_iff_ne] at he
      rw [ih.outside e he.2]; simp [State.set, Ne.symm he.1]
    have hloc : Sig.At f S.sig (.fn d a r) := hA.congr hu fun e he => (hout e he).symm
    refine ⟨hloc, hout, fun e => by rw [ih.lens]; simp [State.set], ?_, ?_, ?_, ?_⟩
    · rintro q (rfl | hq)
      · simp only [Visited, hloc.find hu (d := q) (.inl ⟨q, a, r, rfl, by simp⟩)]
        refine ⟨i, l, m, st, hfd, hl, hm, hi, ?_, ?_⟩
        · intro e; simp [State.remove, ih.lens, State.set]
        · intro e v hv
          have : e ≠ q := by rintro rfl; rw [hd] at hv; simp at hv
          have h2 : (Sig.fn q a r).anyAccept e = false := by
            cases h : (Sig.fn q a r).anyAccept e with
            | false => rfl
            | true => rw [hno e h] at hv; simp at hv
          simp only [State.remove, Tag.idx.injEq, this, if_false]
          rw [hout e h2, hv]
      · exact ih.ok q hq
    · intro e he hs
      by_cases h : r.anyAccept e = true
      · exact .inr (ih.only e h hs)
      · simp only [Sig.anyAccept, Bool.or_eq_true, beq_iff_eq] at he
        rcases he with rfl | he
        · exact .inl rfl
        · exact absurd he h
    · intro di hdi
      rcases List.mem_cons.1 hdi with rfl | hdi
      · simp [Sig.anyAccept]
      · simp [Sig.anyAccept, ih.dims di hdi]
    · rw [List.map_cons, List.nodup_cons]
      refine ⟨?_, ih.nodup⟩
      intro h
      obtain ⟨di, h1, h2⟩ := List.mem_map.1 h
      have := ih.dims di h1
      rw [h2] at this
      simp only [hN.1] at this
      simp at this
  | @dep d n rs st p k hp ih =>
    have hN := hA.uniq hu
    have hr : Sig.At (st.set (.idx d) (.lit k)) S.sig (rs k) := by
      refine Sig.At.trans (hA.congr hu ?_) (.dep (k := k) ?_ (.refl _))
      · intro e he
        simp only [Sig.anyAccept, Bool.or_eq_false_iff, beq_eq_false_iff_ne] at he
        simp [State.set, Ne.symm he.1]
      · simp [State.set, Sig.litIdx]
    have hsub : ∀ e, (rs k).anyAccept e = true → (Sig.dep d n rs).anyAccept e = true := by
      intro e he
      simp only [Sig.anyAccept, Bool.or_eq_true, decide_eq_true_eq]
      exact .inr ⟨k, he⟩
    have hd : st (.idx d) = none := hno d (by simp [Sig.anyAccept])
    have ih := ih hr (by
      intro e he
      have : e ≠ d := by rintro rfl; rw [(hN k).1] at he; simp at he
      simp [State.set, this, hno e (hsub e he)])
    rw [show Path.state ((d, .lit k) :: p) st = p.state (st.set (.idx d) (.lit k)) from rfl]
    generalize Path.state p (st.set (.idx d) (.lit k)) = f at ih ⊢
    have hfd : f (.idx d) = some (.lit k) := by rw [ih.outside d (hN k).1]; simp [State.set]
    have hfk : Sig.litIdx n (f (.idx d)) = some k := by rw [hfd]; simp [Sig.litIdx]
    have hout : ∀ e, (Sig.dep d n rs).anyAccept e = false → f (.idx e) = st (.idx e) := by
      intro e he
      have h1 : e ≠ d := by rintro rfl; simp [Sig.anyAccept] at he
      have h2 : (rs k).anyAccept e = false := by
        cases h : (rs k).anyAccept e with
        | false => rfl
        | true => rw [hsub e h] at he; simp at he
      rw [ih.outside e h2]; simp [State.set, h1]
    have hloc : Sig.At f S.sig (.dep d n rs) := hA.congr hu fun e he => (hout e he).symm
    refine ⟨hloc, hout, fun e => by rw [ih.lens]; simp [State.set], ?_, ?_, ?_, ?_⟩
    · rintro q (rfl | ⟨j, hj, hq⟩)
      · simp only [Visited, hloc.find hu (d := q) (.inr ⟨q, n, rs, rfl, by simp⟩)]
        exact ⟨k, k.2, hfd⟩
      · rw [hfk] at hj; cases hj
        exact ih.ok q hq
    · intro e he hs
      by_cases h : (rs k).anyAccept e = true
      · exact .inr ⟨k, hfk, ih.only e h hs⟩
      · by_cases hed : e = d
        · exact .inl hed
        · rw [ih.outside e (by simpa using h)] at hs
          simp [State.set, hed, hno e he] at hs
    · intro di hdi
      rcases List.mem_cons.1 hdi with rfl | hdi
      · simp [Sig.anyAccept]
      · exact hsub _ (ih.dims di hdi)
    · rw [List.map_cons, List.nodup_cons]
      refine ⟨?_, ih.nodup⟩
      intro h
      obtain ⟨di, h1, h2⟩ := List.mem_map.1 h
      have := ih.dims di h1
      rw [h2] at this
      simp only [(hN k).1] at this
      simp at this

/-- A state that addresses an element is visited. -/
theorem walk_complete (A : Arith) (s : Struct) (ht : s.tame) (hf : s.firm fun _ => false)
    (hu : (s.sem A).sig.uniq) {N : Sig} {st f : State} {ps : List Path} (hA : Sig.At st (s.sem A).sig N)
    (hno : ∀ e, N.anyAccept e = true → st (.idx e) = none)
    (hout : ∀ e, N.anyAccept e = false → f (.idx e) = st (.idx e)) (hlen : ∀ e, st (.len e) = none)
    (had : Addresses (s.sem A) f) (h : walk (s.sem A) N.tree st = some ps) :
    ∃ p ∈ ps, p.state st = f := by
  have hAf : Sig.At f (s.sem A).sig N := hA.congr hu fun e he => (hout e he).symm
  induction N generalizing st ps with
  | scalar z =>
    simp [Sig.tree, walk] at h; subst h
    refine ⟨[], by simp, ?_⟩
    funext t
    cases t with
    | idx e => exact (hout e rfl).symm
    | len e => rw [had.noLen e]; exact hlen e
  | void =>
    simp [Sig.tree, walk] at h; subst h
    refine ⟨[], by simp, ?_⟩
    funext t
    cases t with
    | idx e => exact (hout e rfl).symm
    | len e => rw [had.noLen e]; exact hlen e
  | ill => simp [Sig.tree, walk] at h
  | fn d a r ih =>
    have hN := hA.uniq hu
    have hfd := hA.find hu (d := d) (.inl ⟨d, a, r, rfl, by simp⟩)
    have hfd' := hAf.find hu (d := d) (.inl ⟨d, a, r, rfl, by simp⟩)
    have hneed : (s.sem A).sig.needs f d := hAf.needs (.inl rfl)
    have hok := had.ok d hneed
    simp only [IndexOk, hfd'] at hok
    obtain ⟨k, l, m, hk, hl, hm, hkm⟩ := hok
    simp only [Sig.tree, walk, hfd, ↓reduceDIte, bind, Option.bind_eq_some_iff] at h
    obtain ⟨v, hv, m', hm', h⟩ := h
    have hg : Grow st (f.remove (.idx d)) := by
      constructor
      · intro e; simp [State.remove, hlen e, had.noLen e]
      · intro e x hx
        have h1 : (Sig.fn d a r).anyAccept e = false := by
          cases h : (Sig.fn d a r).anyAccept e with
          | false => rfl
          | true => rw [hno e h] at hx; simp at hx
        have h2 : e ≠ d := by rintro rfl; simp [Sig.anyAccept] at h1
        simp [State.remove, h2, hout e h1, hx]
    have hfirm : Firm s (f.remove (.idx d)) := by
      have : (fun e => (f.remove (.idx d)).has (.len e)) = fun _ => false := by
        funext e; simp [State.has, State.remove, had.noLen e]
      unfold Firm; rw [this]; exact hf
    have := (s.grows A ht).len _ _ d v l hg hfirm hv hl
    subst this
    rw [show v.nat? = some m from hm] at hm'; cases hm'
    obtain ⟨qs, hqs⟩ := seqAll_map_some h k (by simpa using hkm)
    have hqs' := hqs
    simp only [Option.map_eq_some_iff] at hqs'
    obtain ⟨qs', hw, rfl⟩ := hqs'
    have hr : ∀ {st : State}, Sig.At st (s.sem A).sig (.fn d a r) → Sig.At st (s.sem A).sig r :=
      fun h => h.trans (.fn (.refl _))
    obtain ⟨p, hp, hps⟩ := ih (st := st.set (.idx d) (.dyn k)) (hr (hA.congr hu (by
        intro e he
        simp only [Sig.anyAccept, Bool.or_eq_false_iff, beq_eq_false_iff_ne] at he
        simp [State.set, Ne.symm he.1])))
      (by
        intro e he
        have : e ≠ d := by rintro rfl; rw [hN.1] at he; simp at he
        simp [State.set, this, hno e (by simp [Sig.anyAccept, he])])
      (by
        intro e he
        by_cases hed : e = d
        · subst hed; simp [State.set, hk]
        · simp only [State.set, Tag.idx.injEq, hed, if_false]
          exact hout e (by simp [Sig.anyAccept, he, Ne.symm hed]))
      (by intro e; simp [State.set, hlen e]) hw (hr hAf)
    refine ⟨(d, .dyn k) :: p, ?_, hps⟩
    rw [seqAll_mem h]
    exact ⟨k, by simpa using hkm, _, hqs, List.mem_map.2 ⟨p, hp, rfl⟩⟩
  | dep d n rs ih =>
    have hN := hA.uniq hu
    have hfd := hA.find hu (d := d) (.inr ⟨d, n, rs, rfl, by simp⟩)
    have hfd' := hAf.find hu (d := d) (.inr ⟨d, n, rs, rfl, by simp⟩)
    have hneed : (s.sem A).sig.needs f d := hAf.needs (.inl rfl)
    have hok := had.ok d hneed
    simp only [IndexOk, hfd'] at hok
    obtain ⟨k, hkn, hk⟩ := hok
    simp only [Sig.tree, walk, hfd] at h
    obtain ⟨qs, hqs⟩ := seqAll_map_some h ⟨k, hkn⟩ (List.mem_finRange _)
    have hqs' := hqs
    simp only [Option.map_eq_some_iff] at hqs'
    obtain ⟨qs', hw, rfl⟩ := hqs'
    have hr : ∀ {st : State}, st (.idx d) = some (.lit k) → Sig.At st (s.sem A).sig (.dep d n rs) →
        Sig.At st (s.sem A).sig (rs ⟨k, hkn⟩) :=
      fun h1 h => h.trans (.dep (k := ⟨k, hkn⟩) (by rw [h1]; simp [Sig.litIdx, hkn]) (.refl _))
    have hsub : ∀ e, (rs ⟨k, hkn⟩).anyAccept e = true → (Sig.dep d n rs).anyAccept e = true := by
      intro e he
      simp only [Sig.anyAccept, Bool.or_eq_true, decide_eq_true_eq]
      exact .inr ⟨_, he⟩
    obtain ⟨p, hp, hps⟩ := ih ⟨k, hkn⟩ (st := st.set (.idx d) (.lit k)) (hr (by simp [State.set]) (hA.congr hu (by
        intro e he
        have h1 : e ≠ d := by rintro rfl; simp [Sig.anyAccept] at he
        simp [State.set, h1])))
      (by
        intro e he
        have : e ≠ d := by rintro rfl; rw [(hN _).1] at he; simp at he
        simp [State.set, this, hno e (hsub e he)])
      (by
        intro e he
        by_cases hed : e = d
        · subst hed; simp [State.set, hk]
        · simp only [State.set, Tag.idx.injEq, hed, if_false]
          by_cases hacc : (Sig.dep d n rs).anyAccept e = true
          · -- accepted by another field only: not needed, so not set
            rw [hno e hacc]
            cases hfe : f (.idx e) with
            | none => rfl
            | some x =>
              exfalso
              have h1 := had.only e (by simp [hfe])
              have h2 := hAf.needs_below hu h1 hacc
              rcases h2 with h2 | ⟨j, hj, h2⟩
              · exact hed h2
              · rw [hk] at hj
                simp only [Sig.litIdx, hkn, ↓reduceDIte, Option.some.injEq] at hj
                subst hj
                rw [Sig.needs_anyAccept h2] at he
                simp at he
          · exact hout e (by simpa using hacc))
      (by intro e; simp [State.set, hlen e]) hw (hr hk hAf)
    refine ⟨(d, .lit k) :: p, ?_, hps⟩
    rw [seqAll_mem h]
    exact ⟨⟨k, hkn⟩, List.mem_finRange _, _, hqs, List.mem_map.2 ⟨p, hp, rfl⟩⟩

theorem Struct.apply_append (s : Struct) (vs ws : List View) :
    s.apply (vs ++ ws) = (s.apply vs).apply ws := by
  induction vs generalizing s with
  | nil => rfl
  | cons v vs ih => exact ih _

theorem stateAt_append (A : Arith) (s : Struct) (vs ws : List View) (st : State) :
    stateAt A s (vs ++ ws) st = (stateAt A (s.apply vs) ws st).bind (stateAt A s vs) := by
  induction vs generalizing s with
  | nil =>
    simp only [List.nil_append, Struct.apply]
    cases stateAt A s ws st <;> rfl
  | cons v vs ih =>
    simp only [List.cons_append, stateAt, ih, Struct.apply, bind]
    cases stateAt A ((Struct.view v s).apply vs) ws st <;> rfl

/-- setting a further index does not affect the others -/
theorem Path.state_set {p : Path} {d : Dim} {v : Val} {st : State} (h : d ∉ p.map Prod.fst) :
    p.state (st.set (.idx d) v) = (p.state st).set (.idx d) v := by
  induction p generalizing st with
  | nil => rfl
  | cons di p ih =>
    simp only [List.map_cons, List.mem_cons, not_or] at h
    show Path.state p ((st.set (.idx d) v).set (.idx di.1) di.2) = _
    have : (st.set (.idx d) v).set (.idx di.1) di.2 = (st.set (.idx di.1) di.2).set (.idx d) v := by
      funext t
      simp only [State.set]
      grind
    rw [this, ih h.2]
    rfl

theorem Path.state_len (p : Path) (st : State) (d : Dim) : p.state st (.len d) = st (.len d) := by
  induction p generalizing st with
  | nil => rfl
  | cons di p ih => exact (ih _).trans (by simp [State.set])

/-- The state at the structure below `fix` for all the indices of a path. -/
theorem stateAt_fix (A : Arith) (s : Struct) (p : Path) (h : (p.map Prod.fst).Nodup) :
    stateAt A s (p.map fun di => .fix di.1 di.2) .empty = some (p.state .empty) := by
  induction p generalizing s with
  | nil => rfl
  | cons di p ih =>
    rw [List.map_cons, List.nodup_cons] at h
    simp only [List.map_cons, stateAt, ih _ h.2, bind, Option.bind_some, View.sem, fixSem]
    congr 1
    show _ = Path.state p (State.empty.set (.idx di.1) di.2)
    rw [Path.state_set h.1]
    funext t
    cases t with
    | idx e => simp [State.set, State.remove]
    | len e => simp [State.set, State.remove, Path.state_len, State.empty]

theorem mapM_some {α β : Type} {f : α → Option β} {l : List α} {r : List β} (h : l.mapM f = some r) :
    r.map some = l.map f := by
  induction l generalizing r with
  | nil => simp at h; subst h; rfl
  | cons a l ih =>
    simp only [List.mapM_cons, bind, Option.bind_eq_some_iff, pure, Option.some.injEq] at h
    obtain ⟨b, hb, bs, hbs, rfl⟩ := h
    simp [hb, ih hbs]

theorem Nested.nodup {S : Sem} (hu : S.sig.uniq) {p : Path} (h : Nested S S.sig .empty p) :
    (p.map Prod.fst).Nodup :=
  (Nested.facts hu (.refl _) (fun _ _ => rfl) h).nodup

/-- The states passed to the function of `for_each`. -/
theorem forEach_states {A : Arith} {t : Traverser} (hu : (t.top.sem A).sig.uniq) {sts : List State}
    (h : t.forEach A [] = some sts) :
    ∃ ps, walk (t.top.sem A) (t.top.sem A).sig.tree .empty = some ps ∧
      sts.map some = ps.map fun p => stateAt A t.base t.views (p.state .empty) := by
  simp only [Traverser.forEach, Traverser.forSections, Traverser.run, bind, Option.bind_eq_some_iff,
    Option.map_eq_some_iff] at h
  obtain ⟨ts, ⟨ps, hps, rfl⟩, h⟩ := h
  refine ⟨ps, hps, ?_⟩
  rw [mapM_some h, List.map_map]
  apply List.map_congr_left
  intro p hp
  have hn := Nested.nodup hu ((walk_mem _ hu (.refl _) hps p).1 hp)
  simp only [Function.comp, Traverser.visit, Traverser.state, Traverser.order, stateAt_append]
  rw [stateAt_fix _ _ _ hn, Option.bind_some]

theorem Nested.dims {S : Sem} {N : Sig} {st : State} {p : Path} (h : Nested S N st p) :
    ∀ di ∈ p, N.anyAccept di.1 = true := by
  induction h with
  | scalar => simp
  | void => simp
  | fn i hl hm hi hp ih =>
    intro di h
    rcases List.mem_cons.1 h with rfl | h
    · simp [Sig.anyAccept]
    · simp [Sig.anyAccept, ih di h]
  | dep k hp ih =>
    intro di h
    rcases List.mem_cons.1 h with rfl | h
    · simp [Sig.anyAccept]
    · simp only [Sig.anyAccept, Bool.or_eq_true, decide_eq_true_eq]
      exact .inr ⟨_, ih di h⟩

/-- Different paths lead to different states. -/
theorem Nested.inj {S : Sem} {N : Sig} (hN : N.uniq) {st : State} {p p' : Path}
    (h : Nested S N st p) (h' : Nested S N st p') (he : p.state st = p'.state st) : p = p' := by
  induction h generalizing p' with
  | scalar => cases h'; rfl
  | void => cases h'; rfl
  | @fn d a r st l m p i hl hm hi hp ih =>
    cases h' with
    | @fn _ _ _ _ l' m' p' i' hl' hm' hi' hp' =>
      have hd : ∀ (v : Val) (p : Path), Nested S r (st.set (.idx d) v) p → d ∉ p.map Prod.fst := by
        intro v p hp hmem
        obtain ⟨di, h1, h2⟩ := List.mem_map.1 hmem
        have := Nested.dims hp di h1
        rw [h2, hN.1] at this
        cases this
      have e1 : Path.state ((d, .dyn i) :: p) st (.idx d) = some (.dyn i) := by
        show Path.state p (st.set (.idx d) (.dyn i)) (.idx d) = _
        rw [Path.state_set (hd _ _ hp)]; simp [State.set]
      have e2 : Path.state ((d, .dyn i') :: p') st (.idx d) = some (.dyn i') := by
        show Path.state p' (st.set (.idx d) (.dyn i')) (.idx d) = _
        rw [Path.state_set (hd _ _ hp')]; simp [State.set]
      rw [he, e2] at e1
      cases e1
      rw [ih hN.2 hp' he]
  | @dep d n rs st p k hp ih =>
    cases h' with
    | @dep _ _ _ _ p' k' hp' =>
      have hd : ∀ (k : Fin n) (v : Val) (p : Path), Nested S (rs k) (st.set (.idx d) v) p →
          d ∉ p.map Prod.fst := by
        intro k v p hp hmem
        obtain ⟨di, h1, h2⟩ := List.mem_map.1 hmem
        have := Nested.dims hp di h1
        rw [h2, (hN k).1] at this
        cases this
      have e1 : Path.state ((d, .lit k) :: p) st (.idx d) = some (.lit k) := by
        show Path.state p (st.set (.idx d) (.lit k)) (.idx d) = _
        rw [Path.state_set (hd k _ _ hp)]; simp [State.set]
      have e2 : Path.state ((d, .lit k') :: p') st (.idx d) = some (.lit k') := by
        show Path.state p' (st.set (.idx d) (.lit k')) (.idx d) = _
        rw [Path.state_set (hd k' _ _ hp')]; simp [State.set]
      rw [he, e2] at e1
      have : k' = k := by cases k; cases k'; simp at e1; simp [e1]
      subst this
      rw [ih (hN _).2 hp' he]

theorem firm_noLen {s : Struct} (h : s.firm fun _ => false) {st : State} (hl : ∀ e, st (.len e) = none) :
    Firm s st := by
  have : (fun e => st.has (.len e)) = fun _ => false := by
    funext e; simp [State.has, hl e]
  unfold Firm; rw [this]; exact h

/-- Visited states are valid. -/
theorem Nested.validR {A : Arith} {s : Struct} (ht : s.tame) (hf : s.firm fun _ => false) (hw : s.wf A)
    (hd : s.noDup A) {p : Path} (h : Nested (s.sem A) (s.sem A).sig .empty p) :
    ValidR A s (p.state .empty) := by
  have F := Nested.facts hd.uniq (.refl _) (fun _ _ => rfl) h
  generalize Path.state p .empty = f at F
  intro q i n hq hi hn
  have hacc : (s.sem A).sig.anyAccept q = true := by
    cases h : (s.sem A).sig.anyAccept q with
    | true => rfl
    | false => rw [F.outside q h] at hi; simp [State.empty] at hi
  have hv := F.ok q (F.only q hacc (by simp [hi]))
  unfold Visited at hv
  split at hv
  · next hfind => exact absurd (Struct.hard_of_hasDep A s hw hd (Sig.find_hasDep hfind)) hq
  · obtain ⟨k, l, m, pre, h1, h2, h3, h4, h5⟩ := hv
    rw [hi] at h1
    cases h1
    have hfirm : Firm s (f.remove (.idx q)) :=
      firm_noLen hf fun e => by simp [State.remove, F.lens, State.empty]
    have := (s.grows A ht).len _ _ q l n h5 hfirm h2 hn
    subst this
    exact ⟨k, m, rfl, h3, h4⟩

/-- The views of the order hand down valid states. -/
theorem validR_order {s : Struct} {vs : List View} {st u : State} (ht : (s.apply vs).tame)
    (hs : (s.apply vs).sane .ideal) (hV : ValidR .ideal (s.apply vs) st) (hp : OrderPre .ideal s vs st)
    (ho : OrderOk .ideal s vs st) (hu : stateAt .ideal s vs st = some u) :
    s.tame ∧ s.sane .ideal ∧ ValidR .ideal s u := by
  induction vs generalizing s u with
  | nil => cases hu; exact ⟨ht, hs, hV⟩
  | cons v vs ih =>
    simp only [stateAt, bind, Option.bind_eq_some_iff] at hu
    obtain ⟨w, hw, hu⟩ := hu
    obtain ⟨h1, h2, h3⟩ := ih ht hs hV hp.1 ho.1 hw
    exact ⟨h1.1, h2.1, validR_sub h1 h2 h3 (hp.2 w u hw hu) (ho.2 w hw) hu⟩

theorem Nested.addresses {A : Arith} {s : Struct} (ht : s.tame) (hf : s.firm fun _ => false)
    (hu : (s.sem A).sig.uniq) {p : Path} (h : Nested (s.sem A) (s.sem A).sig .empty p)
    (hl : LengthsKnown (s.sem A) (p.state .empty)) : Addresses (s.sem A) (p.state .empty) := by
  have F := Nested.facts hu (.refl _) (fun _ _ => rfl) h
  generalize Path.state p .empty = f at F hl
  refine ⟨?_, ?_, fun q => F.lens q⟩
  · intro q hq
    have hv := F.ok q hq
    have hl := hl q hq
    unfold Visited at hv
    unfold IndexOk
    cases hfind : (s.sem A).sig.find q f with
    | dep d n rs => simpa [hfind] using hv
    | _ =>
      simp only [hfind] at hv ⊢
      obtain ⟨k, l, m, pre, h1, h2, h3, h4, h5⟩ := hv
      have hfirm : Firm s (f.remove (.idx q)) :=
        firm_noLen hf fun e => by simp [State.remove, F.lens, State.empty]
      obtain ⟨v, hv⟩ := Option.isSome_iff_exists.1 (hl (by simp [hfind]))
      have := (s.grows A ht).len _ _ q l v h5 hfirm h2 hv
      subst this
      exact ⟨k, l, m, h1, hv, h3, h4⟩
  · intro q hq
    have hacc : (s.sem A).sig.anyAccept q = true := by
      cases h : (s.sem A).sig.anyAccept q with
      | true => rfl
      | false => rw [F.outside q h] at hq; simp [State.empty] at hq
    exact F.only q hacc hq

theorem Addresses.lengthsKnown {S : Sem} {st : State} (h : Addresses S st) : LengthsKnown S st := by
  intro q hq hnd
  have := h.ok q hq
  unfold IndexOk at this
  split at this
  · next hfind => exact absurd hfind (hnd _ _ _)
  · obtain ⟨k, l, m, -, h2, -⟩ := this
    simp [h2]

end Noarr
