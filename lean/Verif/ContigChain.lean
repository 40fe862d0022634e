import Verif.ContigLemmas

/-
Given indices and contiguous ranges. Used for C42.
-/

set_option linter.unusedVariables false
set_option linter.unusedSimpArgs false

namespace Noarr

/-- `u` has the index that is given in `p` for `q`. -/
def GivenAt (p u : State) (q : Dim) : Prop := ∀ i, p (.idx q) = some i → u (.idx q) = some i

/-- `u` has the indices given in `p`. -/
def Given (p u : State) : Prop := ∀ q, GivenAt p u q

/-- The elements with the indices in `p` lie together, in the order of the index in `nx`. -/
structure Rng (s : Struct) (p : State) (nx : Option Dim) : Prop where
  total : Total s p.lens (Given p)
  range : IsRange s p.lens (Given p)
  has : ∀ d, nx = some d → ∀ u, Addr (s.sem .ideal) p.lens u → Given p u → ∃ i, u (.idx d) = some (.dyn i)
  inner : ∀ d, nx = some d → ∀ a b, IsRange s p.lens fun u => Given p u ∧ In u d a b

theorem Total.mono {s : Struct} {L : Lens} {R R' : State → Prop} (h : Total s L R)
    (hR : ∀ u, Addr (s.sem .ideal) L u → R' u → R u) : Total s L R' := fun u hu h' => h u hu (hR u hu h')

theorem Rng.empty {s : Struct} {p : State} {nx : Option Dim}
    (h : ∀ u, Addr (s.sem .ideal) p.lens u → ¬ Given p u) : Rng s p nx :=
  ⟨fun u hu hg => absurd hg (h u hu), .empty h, fun d _ u hu hg => absurd hg (h u hu), fun d _ a b => .empty fun u hu hg => h u hu hg.1⟩

theorem Rng.weaken {s : Struct} {p : State} {nx : Option Dim} (h : Rng s p nx) : Rng s p none :=
  ⟨h.total, h.range, fun _ h => by simp at h, fun _ h => by simp at h⟩

theorem given_iff {ds : List Dim} {p p' st u : State} (h : ∀ q, q ∉ ds → p' (.idx q) = p (.idx q))
    (h' : ∀ q, q ∉ ds → u (.idx q) = st (.idx q)) (hd : (∀ q ∈ ds, GivenAt p st q) ↔ ∀ q ∈ ds, GivenAt p' u q) :
    Given p st ↔ Given p' u := by
  constructor
  · intro hg q
    by_cases hq : q ∈ ds
    · exact hd.1 (fun q _ => hg q) q hq
    · have := hg q
      simp only [GivenAt, h q hq, h' q hq]; exact this
  · intro hg q
    by_cases hq : q ∈ ds
    · exact hd.2 (fun q _ => hg q) q hq
    · have := hg q
      simp only [GivenAt, h q hq, h' q hq] at this; exact this

/-- The ranges in a view from those in the structure below. -/
theorem Rng.of_corr {s s' : Struct} {p : State} {L' : Lens} {R R' : State → Prop} {nx : Option Dim} {c : Nat}
    {M : State → State → Prop} (hc : Corr s p.lens R s' L' R' c M)
    (hR : ∀ st, Addr (s.sem .ideal) p.lens st → Given p st → R st)
    (h1 : ∃ Q' : State → Prop, (∀ st u, M st u → Addr (s.sem .ideal) p.lens st → Addr (s'.sem .ideal) L' u → R' u →
      (Given p st ↔ Q' u)) ∧ (Total s' L' fun u => R' u ∧ Q' u) ∧ IsRange s' L' fun u => R' u ∧ Q' u)
    (h2 : ∀ e, nx = some e → (∀ st u, M st u → Addr (s.sem .ideal) p.lens st → Addr (s'.sem .ideal) L' u →
        R' u → Given p st → ∃ i, st (.idx e) = some (.dyn i)) ∧
      ∀ a b, ∃ Q' : State → Prop, (∀ st u, M st u → Addr (s.sem .ideal) p.lens st → Addr (s'.sem .ideal) L' u → R' u →
        (Given p st ∧ In st e a b ↔ Q' u)) ∧ IsRange s' L' fun u => R' u ∧ Q' u) : Rng s p nx := by
  refine ⟨?_, ?_, fun e he st hst hg => ?_, fun e he a b => ?_⟩
  · obtain ⟨Q', hQ, ht, -⟩ := h1
    exact ((hc.and (Q := Given p) fun st u h1 h2 h3 _ h4 => hQ st u h1 h2 h3 h4).total ht).mono
      fun st hst h => ⟨hR st hst h, h⟩
  · obtain ⟨Q', hQ, -, hr⟩ := h1
    refine ((hc.and (Q := Given p) fun st u h1 h2 h3 _ h4 => hQ st u h1 h2 h3 h4).range hr).congr ?_
    intro st hst
    exact ⟨fun h => h.2, fun h => ⟨hR st hst h, h⟩⟩
  · obtain ⟨u, hM, hu, hR'⟩ := hc.fwd st hst (hR st hst hg)
    exact (h2 e he).1 st u hM hst hu hR' hg
  · obtain ⟨Q', hQ, hr⟩ := (h2 e he).2 a b
    refine ((hc.and (Q := fun st => Given p st ∧ In st e a b) fun st u h1 h2 h3 _ h4 => hQ st u h1 h2 h3 h4).range
      hr).congr ?_
    intro st hst
    exact ⟨fun h => h.2, fun h => ⟨hR st hst h.1, h⟩⟩

/-- The simple case: the indices correspond one to one. -/
theorem Rng.of_same {s s' : Struct} {p p' : State} {R R' : State → Prop} {nx nx' : Option Dim} {c : Nat}
    {M : State → State → Prop} (hc : Corr s p.lens R s' p'.lens R' c M) (h : Rng s' p' nx')
    (hR : ∀ st, Addr (s.sem .ideal) p.lens st → Given p st → R st)
    (hR' : ∀ u, Addr (s'.sem .ideal) p'.lens u → Given p' u → R' u)
    (hg : ∀ st u, M st u → Addr (s.sem .ideal) p.lens st → Addr (s'.sem .ideal) p'.lens u → R' u →
      (Given p st ↔ Given p' u))
    (hnx : ∀ e, nx = some e → ∃ e', nx' = some e' ∧
      (∀ st u i, M st u → Addr (s.sem .ideal) p.lens st → Addr (s'.sem .ideal) p'.lens u → Given p st → R' u →
        u (.idx e') = some (.dyn i) → ∃ j, st (.idx e) = some (.dyn j)) ∧
      ∀ a b, ∃ a' b', ∀ st u, M st u → Addr (s.sem .ideal) p.lens st → Addr (s'.sem .ideal) p'.lens u →
        Given p st → R' u → (∃ i, u (.idx e') = some (.dyn i)) → (In st e a b ↔ In u e' a' b')) :
    Rng s p nx := by
  refine .of_corr hc hR ⟨Given p', hg, h.total.mono fun u _ h => h.2, h.range.congr fun u hu => ⟨fun h => ⟨hR' u hu h, h⟩, fun h => h.2⟩⟩ ?_
  intro e he
  obtain ⟨e', he', h1, h2⟩ := hnx e he
  refine ⟨fun st u hM hst hu hr hG => ?_, fun a b => ?_⟩
  · obtain ⟨i, hi⟩ := h.has e' he' u hu ((hg st u hM hst hu hr).1 hG)
    exact h1 st u i hM hst hu hG hr hi
  · obtain ⟨a', b', hab⟩ := h2 a b
    refine ⟨fun u => Given p' u ∧ In u e' a' b', fun st u hM hst hu hr => ?_, ?_⟩
    · constructor
      · rintro ⟨h1, h2⟩
        have h3 := (hg st u hM hst hu hr).1 h1
        exact ⟨h3, (hab st u hM hst hu h1 hr (h.has e' he' u hu h3)).1 h2⟩
      · rintro ⟨h1, h2⟩
        have h3 := (hg st u hM hst hu hr).2 h1
        exact ⟨h3, (hab st u hM hst hu h3 hr (h.has e' he' u hu h1)).2 h2⟩
    · exact (h.inner e' he' a' b').congr fun u hu => ⟨fun h => ⟨hR' u hu h.1, h⟩, fun h => h.2⟩

/-! ### Layouts -/

theorem given_noIdx {p u : State} (h : p.noIdx) : Given p u := fun q i hi => by rw [h q] at hi; cases hi

theorem Fills.range {s : Struct} {L : Lens} (h : Fills s L) : IsRange s L fun _ => True := by
  obtain ⟨-, Z, -, -, h⟩ := h
  exact ⟨0, Z, fun b => by rw [h]; omega⟩

theorem rng_scalar {z a : Nat} {p : State} {nx : Option Dim} (h : nx = none) : Rng (.scalar z a) p nx := by
  subst h
  by_cases hp : p.noIdx
  · refine ⟨fun u _ _ => ⟨0, z, lies_scalar⟩, (Fills.scalar z a p.lens).range.congr fun u hu => ⟨fun _ => given_noIdx hp, fun _ => trivial⟩,
      fun _ h => by simp at h, fun _ h => by simp at h⟩
  · refine .empty fun u hu hg => hp fun q => ?_
    cases hq : p (.idx q) with
    | none => rfl
    | some x =>
      have := (addr_scalar.1 hu).2 q
      rw [hg q x hq] at this; cases this

theorem rng_vector_whole {s : Struct} {d : Dim} {p : State} {nx : Option Dim}
    (ha : (s.sem .ideal).sig.anyAccept d = false) (hL : ∀ l, p.lens d = some l → ∃ n, l.Num n)
    (hf : Fills s (p.lens.remove [d])) (hp : p.noIdx) (hnx : nx = none ∨ nx = some d) :
    Rng (.vector d s) p nx := by
  have hv := Fills.vector ha hL hf
  have hg : ∀ u, Given p u := fun u => given_noIdx hp
  suffices Rng (.vector d s) p (some d) by
    rcases hnx with rfl | rfl
    · exact this.weaken
    · exact this
  refine ⟨hv.total.mono fun _ _ _ => trivial, hv.range.congr fun u hu => ⟨fun _ => hg u, fun _ => trivial⟩, ?_, ?_⟩
  · rintro e h u hu -
    cases h
    obtain ⟨-, i, l', n', hi, -⟩ := (addr_vector ha).1 hu
    exact ⟨i, hi⟩
  · rintro e h a b
    cases h
    cases hl : p.lens d with
    | none =>
      refine .empty fun u hu => ?_
      obtain ⟨-, i, l', n', -, hl', -⟩ := (addr_vector ha).1 hu
      rw [hl] at hl'; cases hl'
    | some l =>
      obtain ⟨n, hn⟩ := hL l hl
      obtain ⟨-, Z, h1, h2, h3⟩ := hf
      have hz : ∀ u, Addr (s.sem .ideal) (p.lens.remove [d]) u → ∃ z, (s.sem .ideal).size u = some z ∧ z.Num Z := by
        intro u hu
        obtain ⟨z, hz⟩ := h2 u hu
        exact ⟨z, hz, h1 u z hu.lens hz⟩
      have key : ∀ y, IsRange (.vector d s) p.lens fun u => In u d a (some y) :=
        fun y => ⟨_, _, vector_byte ha hl hn hz h3 a y⟩
      cases b with
      | some y => exact (key y).congr fun u hu => ⟨fun h => ⟨hg u, h⟩, fun h => h.2⟩
      | none =>
        refine (key n).congr fun u hu => ⟨fun ⟨i, h1, h2, _⟩ => ⟨hg u, i, h1, h2, fun y hy => by cases hy⟩, ?_⟩
        rintro ⟨-, i, h1, h2, -⟩
        obtain ⟨-, j, l', n', hj, hl', hn', hlt, -⟩ := (addr_vector ha).1 hu
        rw [h1] at hj; cases hj
        rw [hl] at hl'; cases hl'
        rw [← Val.Num.eq hn hn'] at hlt
        exact ⟨i, h1, h2, fun y hy => by cases hy; exact hlt⟩

/-- An index in another dimension. -/
theorem In.congr {st u : State} {e : Dim} (h : u (.idx e) = st (.idx e)) (a : Nat) (b : Option Nat) :
    In st e a b ↔ In u e a b := by simp only [In, h]

theorem rng_vector_given {s : Struct} {d : Dim} {p : State} {nx : Option Dim}
    (ha : (s.sem .ideal).sig.anyAccept d = false) (hu : (s.sem .ideal).sig.uniq)
    (hp : p.has (.idx d) = true) (hnx : nx ≠ some d) (hz : s.fixedSize (p.lens.remove [d]))
    (h : Rng s (p.removeAll [.idx d, .len d]) nx) : Rng (.vector d s) p nx := by
  by_cases hne : ∃ st, Addr ((Struct.vector d s).sem .ideal) p.lens st ∧ Given p st
  · obtain ⟨st0, hst0, hg0⟩ := hne
    obtain ⟨-, i, l, n, hi, hl, hn, hin, -⟩ := (addr_vector ha).1 hst0
    obtain ⟨x, hx⟩ : ∃ x, p (.idx d) = some x := by
      simp only [State.has] at hp
      exact Option.isSome_iff_exists.1 hp
    obtain rfl : x = .dyn i := by
      have := hg0 d x hx
      rw [hi] at this; exact (Option.some.inj this).symm
    obtain ⟨Z, hZ⟩ := hz
    have hlens : (p.removeAll [.idx d, .len d]).lens = p.lens.remove [d] := by
      funext q; simp [State.lens, State.removeAll, Lens.remove]
    have hc := vector_corr (Z := Z) ha hl hn hin fun u hu' => hZ u ((addr_iff' hu).1 hu')
    rw [← hlens] at hc
    refine .of_same (p' := p.removeAll [.idx d, .len d]) hc h (fun st hst hg => hg d _ hx) (fun _ _ _ => trivial) ?_ ?_
    · rintro st u ⟨h1, rfl⟩ hst hu' -
      refine given_iff (ds := [d]) (fun q hq => ?_) (fun q hq => ?_) ?_
      · simp at hq; simp [State.removeAll, hq]
      · simp at hq; simp [State.removeAll, hq]
      · simp only [List.mem_singleton, forall_eq, GivenAt, hx, h1, State.removeAll]
        simp
    · intro e he
      refine ⟨e, he, ?_, fun a b => ⟨a, b, ?_⟩⟩
      · rintro st u j ⟨h1, rfl⟩ hst hu' _ _ hj
        have : e ≠ d := by rintro rfl; exact hnx he
        exact ⟨j, by simpa [State.removeAll, this] using hj⟩
      · rintro st u ⟨h1, rfl⟩ hst hu' _ _ _
        have : e ≠ d := by rintro rfl; exact hnx he
        exact In.congr (by simp [State.removeAll, this]) a b
  · exact .empty fun st hst hg => hne ⟨st, hst, hg⟩

/-- A broadcast dimension. -/
theorem rng_bcast {s : Struct} {d : Dim} {p : State} {nx : Option Dim}
    (ha : (s.sem .ideal).sig.anyAccept d = false) (hnx : nx ≠ some d)
    (h : Rng s (p.removeAll [.idx d, .len d]) nx) : Rng (.view (.bcast d) s) p nx := by
  by_cases hne : ∃ st, Addr ((Struct.view (.bcast d) s).sem .ideal) p.lens st ∧ Given p st
  · obtain ⟨st0, hst0, hg0⟩ := hne
    obtain ⟨-, i, l, n, hi, hl, hn, hin, -⟩ := (addr_bcast ha).1 hst0
    have hlens : (p.removeAll [.idx d, .len d]).lens = p.lens.remove [d] := by
      funext q; simp [State.lens, State.removeAll, Lens.remove]
    have hc := bcast_corr (R := fun st => GivenAt p st d) ha hl hn hin (by
      intro st hst x hx
      have := hg0 d x hx
      rw [hi] at this; rw [hst, this])
    rw [← hlens] at hc
    refine .of_same (p' := p.removeAll [.idx d, .len d]) hc h (fun st hst hg => hg d) (fun _ _ _ => trivial) ?_ ?_
    · rintro st u ⟨h1, rfl⟩ hst hu' -
      refine given_iff (ds := [d]) (fun q hq => ?_) (fun q hq => ?_) ?_
      · simp at hq; simp [State.removeAll, hq]
      · simp at hq; simp [State.removeAll, hq]
      · simp only [List.mem_singleton, forall_eq]
        exact ⟨fun _ x hx => by simp [State.removeAll] at hx, fun _ => h1⟩
    · intro e he
      have hed : e ≠ d := by rintro rfl; exact hnx he
      refine ⟨e, he, ?_, fun a b => ⟨a, b, ?_⟩⟩
      · rintro st u j ⟨h1, rfl⟩ hst hu' _ _ hj
        exact ⟨j, by simpa [State.removeAll, hed] using hj⟩
      · rintro st u ⟨h1, rfl⟩ hst hu' _ _ _
        exact In.congr (by simp [State.removeAll, hed]) a b
  · exact .empty fun st hst hg => hne ⟨st, hst, hg⟩

theorem sizeAcc_fixed {l : List Sem} {U : State → Prop} {als zs : List Nat} (hla : als.length = l.length)
    (hlz : zs.length = l.length)
    (h : ∀ i (h : i < l.length) u, U u → 0 < als[i] ∧ (l[i]).align u = some als[i] ∧
      ∃ v, (l[i]).size u = some v ∧ v.Num zs[i]) (a : Nat) :
    ∃ B, ∀ start, start.Num a → ∀ u, U u → ∃ b, sizeAcc .ideal u l start = some b ∧ b.Num B := by
  induction l generalizing als zs a with
  | nil => exact ⟨a, fun start ha u _ => ⟨start, rfl, ha⟩⟩
  | cons S l ih =>
    obtain ⟨al, als, rfl⟩ : ∃ x xs, als = x :: xs := by cases als with | nil => simp at hla | cons x xs => exact ⟨x, xs, rfl⟩
    obtain ⟨z, zs, rfl⟩ : ∃ x xs, zs = x :: xs := by cases zs with | nil => simp at hlz | cons x xs => exact ⟨x, xs, rfl⟩
    obtain ⟨B, hB⟩ := ih (als := als) (zs := zs) (by simpa using hla) (by simpa using hlz) (fun i hi u hU => by
      have := h (i + 1) (by simp; omega) u hU
      simpa using this) ((a + al - 1) / al * al + z)
    refine ⟨B, fun start ha u hU => ?_⟩
    obtain ⟨h1, h2, v, h3, h4⟩ := h 0 (by simp) u hU
    simp only [List.getElem_cons_zero] at h1 h2 h3 h4
    have hs : ((start.add .ideal (.lit al)).sub .ideal (.lit 1)).Num (a + al - 1) :=
      Val.nat?_sub.2 ⟨_, 1, Val.num_add ha rfl, rfl, by omega, rfl⟩
    have hs2 := Val.num_mul (Val.num_div hs (show (Val.lit al).Num al from rfl) h1)
      (show (Val.lit al).Num al from rfl)
    obtain ⟨b, hb, hn⟩ := hB _ (Val.num_add hs2 h4) u hU
    refine ⟨b, ?_, hn⟩
    simp only [sizeAcc, h2, h3, bind, Option.bind_some]
    exact hb

theorem rng_tuple_given {t : Dim} {n : Nat} {fs : Fin n → Struct} {p : State} {nx : Option Dim} {k : Nat}
    (hk : k < n) (ha : ∀ i, ((fs i).sem .ideal).sig.anyAccept t = false)
    (hu : ((fs ⟨k, hk⟩).sem .ideal).sig.uniq)
    (hp : p (.idx t) = some (.lit k)) (hnx : nx ≠ some t) {als zs : Fin n → Nat}
    (hz : ∀ i : Fin n, i < k → ∀ u, AddressesWith ((fs ⟨k, hk⟩).sem .ideal) p.lens u →
        0 < als i ∧ ((fs i).sem .ideal).align u = some (als i) ∧
        ∃ v, ((fs i).sem .ideal).size u = some v ∧ v.Num (zs i))
    (h : Rng (fs ⟨k, hk⟩) (p.remove (.idx t)) nx) : Rng (.tuple t n fs) p nx := by
  have hlens : (p.remove (.idx t)).lens = p.lens := by
    funext q; simp [State.lens, State.remove]
  obtain ⟨B, hB⟩ := sizeAcc_fixed (l := (List.ofFn fun i => (fs i).sem .ideal).take k)
    (U := AddressesWith ((fs ⟨k, hk⟩).sem .ideal) p.lens) (als := (List.ofFn als).take k)
    (zs := (List.ofFn zs).take k) (by simp) (by simp) (fun i hi u hU => by
      simp only [List.length_take, List.length_ofFn] at hi
      simpa using hz ⟨i, by omega⟩ (by simp; omega) u hU) 0
  have hc := tuple_corr (t := t) (L := p.lens) hk ha (B := B) fun u hu' => hB (.lit 0) rfl u ((addr_iff' hu).1 hu')
  have hc' : Corr (.tuple t n fs) p.lens (fun st => st (.idx t) = some (.lit k)) (fs ⟨k, hk⟩)
      (p.remove (.idx t)).lens (fun _ => True) B
      fun st u => st (.idx t) = some (.lit k) ∧ st.remove (.idx t) = u := by rw [hlens]; exact hc
  refine .of_same (p' := p.remove (.idx t)) hc' h (fun st hst hg => hg t _ hp) (fun _ _ _ => trivial) ?_ ?_
  · rintro st u ⟨h1, rfl⟩ hst hu' -
    refine given_iff (ds := [t]) (fun q hq => ?_) (fun q hq => ?_) ?_
    · simp at hq; simp [State.remove, hq]
    · simp at hq; simp [State.remove, hq]
    · simp only [List.mem_singleton, forall_eq, GivenAt, hp, h1, State.remove]
      simp
  · intro e he
    refine ⟨e, he, ?_, fun a b => ⟨a, b, ?_⟩⟩
    · rintro st u j ⟨h1, rfl⟩ hst hu' _ _ hj
      have : e ≠ t := by rintro rfl; exact hnx he
      exact ⟨j, by simpa [State.remove, this] using hj⟩
    · rintro st u ⟨h1, rfl⟩ hst hu' _ _ _
      have : e ≠ t := by rintro rfl; exact hnx he
      exact In.congr (by simp [State.remove, this]) a b

/-! ### Intervals -/

theorem In.inter (a a' : Nat) (b b' : Option Nat) :
    ∃ a'' b'', ∀ u d, In u d a b ∧ In u d a' b' ↔ In u d a'' b'' := by
  refine ⟨max a a', match b, b' with
    | none, y => y
    | x, none => x
    | some x, some y => some (min x y), fun u d => ?_⟩
  constructor
  · rintro ⟨⟨i, h1, h2, h3⟩, j, h4, h5, h6⟩
    rw [h1] at h4; cases h4
    refine ⟨i, h1, by omega, ?_⟩
    cases b <;> cases b' <;> simp_all <;> omega
  · rintro ⟨i, h1, h2, h3⟩
    refine ⟨⟨i, h1, by omega, ?_⟩, i, h1, by omega, ?_⟩ <;> cases b <;> cases b' <;> simp_all <;> omega

/-! ### Views that change one index -/

theorem rng_map_given {s : Struct} {v : View} {p p' : State} {nx : Option Dim} {d : Dim} {P : State → Prop}
    {Q : Nat → Prop} {f : Nat → Nat}
    (hc : Corr (.view v s) p.lens (fun _ => True) s p'.lens P 0
      fun st u => (v.sem .ideal (s.sem .ideal)).sub st = some u)
    (hd : v.dims = [d])
    (hst : ∀ st u, (v.sem .ideal (s.sem .ideal)).sub st = some u → Addr ((Struct.view v s).sem .ideal) p.lens st →
      (st (.idx d) = none ∧ u (.idx d) = none) ∨ ∃ k, st (.idx d) = some (.dyn k) ∧ u (.idx d) = some (.dyn (f k)))
    (hP : ∀ u k, u (.idx d) = some (.dyn k) → (P u ↔ Q k)) (hf : ∀ k k', f k = f k' → k = k')
    (hp : (v.sem .ideal (s.sem .ideal)).sub p = some p')
    (hpd : ∀ st u k, (v.sem .ideal (s.sem .ideal)).sub st = some u → Addr ((Struct.view v s).sem .ideal) p.lens st →
      st (.idx d) = some (.dyn k) → p (.idx d) = some (.dyn k) → p' (.idx d) = some (.dyn (f k)))
    (hg : p.has (.idx d) = true) (hnx : nx ≠ some d) (h : Rng s p' nx) : Rng (.view v s) p nx := by
  by_cases hne : ∃ st, Addr ((Struct.view v s).sem .ideal) p.lens st ∧ Given p st
  · obtain ⟨st0, hst0, hg0⟩ := hne
    obtain ⟨x, hx⟩ : ∃ x, p (.idx d) = some x := by
      simp only [State.has] at hg
      exact Option.isSome_iff_exists.1 hg
    obtain ⟨u0, hu0, hA0, hP0⟩ := hc.fwd st0 hst0 trivial
    have hx0 := hg0 d x hx
    obtain ⟨k, hk, hk'⟩ : ∃ k, st0 (.idx d) = some (.dyn k) ∧ u0 (.idx d) = some (.dyn (f k)) := by
      rcases hst st0 u0 hu0 hst0 with h | h
      · rw [h.1] at hx0; cases hx0
      · exact h
    obtain rfl : x = .dyn k := by rw [hk] at hx0; exact (Option.some.inj hx0).symm
    have hQ : Q (f k) := (hP u0 _ hk').1 hP0
    have hp'd := hpd st0 u0 k hu0 hst0 hk hx
    have hout : ∀ {w w' : State}, (v.sem .ideal (s.sem .ideal)).sub w = some w' → ∀ q, q ∉ [d] →
        w' (.idx q) = w (.idx q) := fun hw q hq => sub_idx (by rw [hd]; exact hq) hw
    refine .of_same hc h (fun _ _ _ => trivial) (fun u hu hg => (hP u _ (hg d _ hp'd)).2 hQ) ?_ ?_
    · intro st u hM hA hA' _
      refine given_iff (ds := [d]) (hout hp) (hout hM) ?_
      simp only [List.mem_singleton, forall_eq, GivenAt, hx, hp'd, Option.some.injEq, forall_eq']
      rcases hst st u hM hA with ⟨h1, h2⟩ | ⟨j, h1, h2⟩
      · simp [h1, h2]
      · simp only [h1, h2, Option.some.injEq, Val.dyn.injEq]
        exact ⟨fun h => by rw [h], hf _ _⟩
    · intro e he
      have hed : e ∉ [d] := by simp; rintro rfl; exact hnx he
      refine ⟨e, he, ?_, fun a b => ⟨a, b, ?_⟩⟩
      · intro st u j hM _ _ _ _ hj
        exact ⟨j, by rw [← hout hM e hed]; exact hj⟩
      · intro st u hM _ _ _ _ _
        exact In.congr (hout hM e hed) a b
  · exact .empty fun st hst hg => hne ⟨st, hst, hg⟩

theorem rng_map_open {s : Struct} {v : View} {p p' : State} {nx : Option Dim} {d : Dim} {P : State → Prop}
    {x : Nat} {y : Option Nat}
    (hc : Corr (.view v s) p.lens (fun _ => True) s p'.lens P 0
      fun st u => (v.sem .ideal (s.sem .ideal)).sub st = some u)
    (hd : v.dims = [d])
    (hst : ∀ st u, (v.sem .ideal (s.sem .ideal)).sub st = some u → Addr ((Struct.view v s).sem .ideal) p.lens st →
      (st (.idx d) = none ∧ u (.idx d) = none) ∨ ∃ k, st (.idx d) = some (.dyn k) ∧ u (.idx d) = some (.dyn (k + x)))
    (hP : ∀ u k, u (.idx d) = some (.dyn k) → (P u ↔ In u d x y))
    (hp : (v.sem .ideal (s.sem .ideal)).sub p = some p') (hpd : p (.idx d) = none → p' (.idx d) = none)
    (hg : p.has (.idx d) = false) (hnx : nx = none ∨ nx = some d) (h : Rng s p' (some d)) :
    Rng (.view v s) p nx := by
  suffices Rng (.view v s) p (some d) by
    rcases hnx with rfl | rfl
    · exact this.weaken
    · exact this
  have hx : p (.idx d) = none := by simpa [State.has] using hg
  have hx' := hpd hx
  have hout : ∀ {w w' : State}, (v.sem .ideal (s.sem .ideal)).sub w = some w' → ∀ q, q ∉ [d] →
      w' (.idx q) = w (.idx q) := fun hw q hq => sub_idx (by rw [hd]; exact hq) hw
  have hgiv : ∀ st u, (v.sem .ideal (s.sem .ideal)).sub st = some u → (Given p st ↔ Given p' u) := by
    intro st u hM
    refine given_iff (ds := [d]) (hout hp) (hout hM) ?_
    simp [GivenAt, hx, hx']
  have hPi : ∀ u, Addr (s.sem .ideal) p'.lens u → Given p' u → (P u ↔ In u d x y) := by
    intro u hu hg
    obtain ⟨k, hk⟩ := h.has d rfl u hu hg
    exact hP u k hk
  refine .of_corr hc (fun _ _ _ => trivial) ⟨Given p', fun st u hM _ _ _ => hgiv st u hM,
    h.total.mono fun u _ h => h.2, ?_⟩ ?_
  · refine (h.inner d rfl x y).congr fun u hu => ?_
    constructor
    · rintro ⟨h1, h2⟩; exact ⟨(hPi u hu h1).2 h2, h1⟩
    · rintro ⟨h1, h2⟩; exact ⟨h2, (hPi u hu h2).1 h1⟩
  · intro e he
    cases he
    refine ⟨fun st u hM hA hA' _ hg => ?_, fun a b => ?_⟩
    · obtain ⟨k, hk⟩ := h.has d rfl u hA' ((hgiv st u hM).1 hg)
      rcases hst st u hM hA with h | ⟨j, h, -⟩
      · rw [h.2] at hk; cases hk
      · exact ⟨j, h⟩
    · obtain ⟨a'', b'', hi⟩ := In.inter x (a + x) y (b.map (· + x))
      refine ⟨fun u => Given p' u ∧ In u d (a + x) (b.map (· + x)), fun st u hM hA hA' _ => ?_, ?_⟩
      · rw [hgiv st u hM]
        refine and_congr_right fun hg => ?_
        rcases hst st u hM hA with h' | ⟨j, h1, h2⟩
        · obtain ⟨k, hk⟩ := h.has d rfl u hA' hg
          rw [h'.2] at hk; cases hk
        · simp only [In, h1, h2, dyn_inj, exists_eq_left']
          cases b <;> simp <;> omega
      · refine (h.inner d rfl a'' b'').congr fun u hu => ?_
        constructor
        · rintro ⟨h1, h2⟩
          have := (hi u d).2 h2
          exact ⟨(hPi u hu h1).2 this.1, h1, this.2⟩
        · rintro ⟨h1, h2, h3⟩
          exact ⟨h2, (hi u d).1 ⟨(hPi u hu h2).1 h1, h3⟩⟩

/-- The index in an ordinary dimension that is kept by a view. -/
theorem idx_dyn {S : Sem} {T : Sig} {L : Lens} {st u : State} {d : Dim} (h : Addr S L st)
    (he : ∀ o, S.sig.entry st d o ↔ T.entry u d o) (hd : ¬ T.hasDep d) :
    st (.idx d) = none ∨ ∃ k l m, st (.idx d) = some (.dyn k) ∧ S.len d (st.remove (.idx d)) = some l ∧
      l.Num m ∧ k < m := by
  cases hi : st (.idx d) with
  | none => exact .inl rfl
  | some x =>
    obtain ⟨o, ho⟩ := h.only d (by simp [hi])
    cases o with
    | some n => exact absurd ((he _).1 ho) (nodep_entry hd u n)
    | none =>
      obtain ⟨k, l, m, h1, h2⟩ := h.ok d none ho
      rw [hi] at h1
      exact .inr ⟨k, l, m, h1, h2⟩

/-- What is needed of a view. -/
theorem view_corr {s : Struct} {v : View} {p p' : State} (ht : (Struct.view v s).tame)
    (hw : ((Struct.view v s).sem .ideal).sig.wf = true) (hu : (s.sem .ideal).sig.uniq)
    (huv : ((Struct.view v s).sem .ideal).sig.uniq) (hm : s.unmixed .ideal) (ha : v.admits .ideal s p.lens)
    (hv : v.unmerged) (hall : ∀ d maj min pres, v = .intoBlocksDyn d maj min pres →
      (s.sem .ideal).sig.allAccept d = true)
    (hp : (v.sem .ideal (s.sem .ideal)).sub p = some p') :
    Corr (.view v s) p.lens (fun _ => True) s p'.lens v.keeps 0
      fun st u => (v.sem .ideal (s.sem .ideal)).sub st = some u := by
  have hs := select_view ht hw hu huv hm ha
  have hoff := offOk_view hu hw ha hs (by
    rintro d maj min pres rfl u hu' -
    exact hu'.has_of_all (hall _ _ _ _ rfl))
  have hL : p'.lens = v.lens .ideal p.lens := funext fun q => sub_lens (fun q => rfl) hw hv hp q
  rw [hL]
  exact hs.corr hoff

section
variable {s : Struct} {d : Dim} {p p' : State} {nx : Option Dim}

theorem sub_map_idx {st u : State} {a : Val} {x : Nat} (ha : a.Num x)
    (h : st (.idx d) = none ∨ ∃ k, st (.idx d) = some (.dyn k))
    (hu : u (.idx d) = (st (.idx d)).map (·.add .ideal a)) :
    (st (.idx d) = none ∧ u (.idx d) = none) ∨
      ∃ k, st (.idx d) = some (.dyn k) ∧ u (.idx d) = some (.dyn (k + x)) := by
  rcases h with h | ⟨k, h⟩
  · exact .inl ⟨h, by rw [hu, h]; rfl⟩
  · exact .inr ⟨k, h, by rw [hu, h, Option.map_some, Val.dyn_add ha]⟩

theorem rng_add {v : View} {a : Val} {x : Nat} {y : Option Nat} (ht : (Struct.view v s).tame)
    (hw : ((Struct.view v s).sem .ideal).sig.wf = true) (hu : (s.sem .ideal).sig.uniq)
    (huv : ((Struct.view v s).sem .ideal).sig.uniq) (hm : s.unmixed .ideal)
    (ha : v.admits .ideal s p.lens) (hv : v.unmerged) (hdim : v.dims = [d])
    (hd : ¬ (s.sem .ideal).sig.hasDep d) (hx : a.Num x)
    (hsub : ∀ st u, (v.sem .ideal (s.sem .ideal)).sub st = some u →
      u (.idx d) = (st (.idx d)).map (·.add .ideal a))
    (hent : ∀ st u, (v.sem .ideal (s.sem .ideal)).sub st = some u → ∀ o,
      ((Struct.view v s).sem .ideal).sig.entry st d o ↔ (s.sem .ideal).sig.entry u d o)
    (hP : ∀ u k, u (.idx d) = some (.dyn k) → (v.keeps u ↔ In u d x y))
    (hp : (v.sem .ideal (s.sem .ideal)).sub p = some p')
    (h : (p.has (.idx d) = true ∧ nx ≠ some d ∧ Rng s p' nx) ∨
      (p.has (.idx d) = false ∧ (nx = none ∨ nx = some d) ∧ Rng s p' (some d))) :
    Rng (.view v s) p nx := by
  have hc := view_corr ht hw hu huv hm ha hv (by rintro d maj min pres rfl; simp [View.dims] at hdim) hp
  have hst : ∀ st u, (v.sem .ideal (s.sem .ideal)).sub st = some u →
      Addr ((Struct.view v s).sem .ideal) p.lens st → (st (.idx d) = none ∧ u (.idx d) = none) ∨
      ∃ k, st (.idx d) = some (.dyn k) ∧ u (.idx d) = some (.dyn (k + x)) := by
    intro st u h hA
    refine sub_map_idx hx ?_ (hsub st u h)
    rcases idx_dyn hA (hent st u h) hd with h | ⟨k, _, _, h, -⟩
    · exact .inl h
    · exact .inr ⟨k, h⟩
  rcases h with ⟨h1, h2, h3⟩ | ⟨h1, h2, h3⟩
  · exact rng_map_given (f := (· + x)) (Q := fun k => x ≤ k ∧ ∀ z, y = some z → k < z) hc hdim hst (fun u k hk => by
      rw [hP u k hk]; simp [In, hk]) (fun k k' h => by simpa using h) hp
      (fun st u k _ _ _ h => by rw [hsub _ _ hp, h, Option.map_some, Val.dyn_add hx]) h1 h2 h3
  · exact rng_map_open hc hdim hst hP hp (fun h => by rw [hsub _ _ hp, h]; rfl) h1 h2 h3

theorem rng_slice {a n : Val} (ht : (Struct.view (.slice d a n) s).tame)
    (hw : ((Struct.view (.slice d a n) s).sem .ideal).sig.wf = true) (hu : (s.sem .ideal).sig.uniq)
    (huv : ((Struct.view (.slice d a n) s).sem .ideal).sig.uniq) (hm : s.unmixed .ideal)
    (ha : (View.slice d a n).admits .ideal s p.lens)
    (hp : ((View.slice d a n).sem .ideal (s.sem .ideal)).sub p = some p')
    (h : (p.has (.idx d) = true ∧ nx ≠ some d ∧ Rng s p' nx) ∨
      (p.has (.idx d) = false ∧ (nx = none ∨ nx = some d) ∧ Rng s p' (some d))) :
    Rng (.view (.slice d a n) s) p nx := by
  obtain ⟨hd, x, m, hx, hmm, hin⟩ := id ha
  refine rng_add (a := a) (x := x) (y := some (x + m)) ht hw hu huv hm ha trivial rfl hd hx ?_ ?_ ?_ hp h
  · intro st u h; cases h; simp [State.mapAt]
  · intro st u h o; cases h
    exact Sig.entry_keep (R := Sig.sliceRepl a n) (fun e he _ => by simp [State.mapAt, he]) hu hw
      (fun n rs h _ => nodep_at hd h) (fun l' r _ => ⟨_, rfl⟩) d o
  · intro u k hk
    simp only [In, hk, Option.some.injEq, forall_eq', Val.dyn.injEq, exists_eq_left']
    constructor
    · intro h; exact h k x m hk hx hmm
    · intro h k' x' m' hk' hx' hm'
      rw [hk] at hk'; cases hk'
      cases Val.Num.eq hx hx'; cases Val.Num.eq hmm hm'
      exact h

theorem rng_span {a n : Val} (ht : (Struct.view (.span d a n) s).tame)
    (hw : ((Struct.view (.span d a n) s).sem .ideal).sig.wf = true) (hu : (s.sem .ideal).sig.uniq)
    (huv : ((Struct.view (.span d a n) s).sem .ideal).sig.uniq) (hm : s.unmixed .ideal)
    (ha : (View.span d a n).admits .ideal s p.lens)
    (hp : ((View.span d a n).sem .ideal (s.sem .ideal)).sub p = some p')
    (h : (p.has (.idx d) = true ∧ nx ≠ some d ∧ Rng s p' nx) ∨
      (p.has (.idx d) = false ∧ (nx = none ∨ nx = some d) ∧ Rng s p' (some d))) :
    Rng (.view (.span d a n) s) p nx := by
  obtain ⟨hd, x, m, hx, hmm, -, hin⟩ := id ha
  refine rng_add (a := a) (x := x) (y := some m) ht hw hu huv hm ha trivial rfl hd hx ?_ ?_ ?_ hp h
  · intro st u h; cases h; simp [State.mapAt]
  · intro st u h o; cases h
    exact Sig.entry_keep (R := Sig.spanRepl a n) (fun e he _ => by simp [State.mapAt, he]) hu hw
      (fun n rs h _ => nodep_at hd h) (fun l' r _ => ⟨_, rfl⟩) d o
  · intro u k hk
    simp only [In, hk, Option.some.injEq, forall_eq', Val.dyn.injEq, exists_eq_left']
    constructor
    · intro h; exact h k x m hk hx hmm
    · intro h k' x' m' hk' hx' hm'
      rw [hk] at hk'; cases hk'
      cases Val.Num.eq hx hx'; cases Val.Num.eq hmm hm'
      exact h

theorem rng_shift {a : Val} (ht : (Struct.view (.shift d a) s).tame)
    (hw : ((Struct.view (.shift d a) s).sem .ideal).sig.wf = true) (hu : (s.sem .ideal).sig.uniq)
    (huv : ((Struct.view (.shift d a) s).sem .ideal).sig.uniq) (hm : s.unmixed .ideal)
    (ha : (View.shift d a).admits .ideal s p.lens)
    (hp : ((View.shift d a).sem .ideal (s.sem .ideal)).sub p = some p')
    (h : (p.has (.idx d) = true ∧ nx ≠ some d ∧ Rng s p' nx) ∨
      (p.has (.idx d) = false ∧ (nx = none ∨ nx = some d) ∧ Rng s p' (some d))) :
    Rng (.view (.shift d a) s) p nx := by
  obtain ⟨hd, -, x, hx⟩ := id ha
  refine rng_add (a := a) (x := x) (y := none) ht hw hu huv hm ha trivial rfl hd hx ?_ ?_ ?_ hp h
  · intro st u h; cases h; simp [State.mapAt]
  · intro st u h o; cases h
    exact Sig.entry_keep (R := Sig.shiftRepl a) (fun e he _ => by simp [State.mapAt, he]) hu hw
      (fun n rs h _ => nodep_at hd h) (fun l' r _ => ⟨_, rfl⟩) d o
  · intro u k hk
    simp only [In, hk, dyn_inj, exists_eq_left', reduceCtorEq, false_implies, implies_true, and_true]
    constructor
    · intro h; exact h k x hk hx
    · intro h k' x' hk' hx'
      rw [hk] at hk'; cases hk'
      cases Val.Num.eq hx hx'
      exact h

theorem rng_step {a n : Val} (ht : (Struct.view (.step d a n) s).tame)
    (hw : ((Struct.view (.step d a n) s).sem .ideal).sig.wf = true) (hu : (s.sem .ideal).sig.uniq)
    (huv : ((Struct.view (.step d a n) s).sem .ideal).sig.uniq) (hm : s.unmixed .ideal)
    (ha : (View.step d a n).admits .ideal s p.lens)
    (hp : ((View.step d a n).sem .ideal (s.sem .ideal)).sub p = some p')
    (hg : p.has (.idx d) = true) (hnx : nx ≠ some d) (h : Rng s p' nx) :
    Rng (.view (.step d a n) s) p nx := by
  have hc := view_corr ht hw hu huv hm ha trivial (by intros; contradiction) hp
  obtain ⟨hd, x, y, hx, hy, hy0⟩ := ha
  have hsub : ∀ st u k, ((View.step d a n).sem .ideal (s.sem .ideal)).sub st = some u →
      st (.idx d) = some (.dyn k) → u (.idx d) = some (.dyn (k * y + x)) := by
    intro st u k h hk; cases h
    simp [State.mapAt, hk, Val.dyn_mul hy hy0, Val.dyn_add hx]
  refine rng_map_given (f := fun k => k * y + x) (Q := fun k => ∃ j, k = j * y + x) hc rfl ?_ ?_ ?_ hp ?_ hg hnx h
  · intro st u h hA
    rcases idx_dyn hA (T := (s.sem .ideal).sig) (u := u) (fun o => by
      cases h
      exact Sig.entry_keep (R := Sig.stepRepl a n) (fun e he _ => by simp [State.mapAt, he]) hu hw
        (fun n rs h _ => nodep_at hd h) (fun l' r _ => ⟨_, rfl⟩) d o) hd with h' | ⟨k, _, _, h', -⟩
    · exact .inl ⟨h', by cases h; simp [State.mapAt, h']⟩
    · exact .inr ⟨k, h', hsub st u k h h'⟩
  · intro u k hk
    constructor
    · intro h; exact h k x y hk hx hy
    · intro h k' x' m' hk' hx' hm'
      rw [hk] at hk'; cases hk'
      cases Val.Num.eq hx hx'; cases Val.Num.eq hy hm'
      exact h
  · intro k k' h
    exact Nat.eq_of_mul_eq_mul_right hy0 (show k * y = k' * y by omega)
  · intro st u k _ _ _ h
    exact hsub p p' k hp h

theorem rng_reverse {N : Nat} (ht : (Struct.view (.reverse d) s).tame)
    (hw : ((Struct.view (.reverse d) s).sem .ideal).sig.wf = true) (hu : (s.sem .ideal).sig.uniq)
    (huv : ((Struct.view (.reverse d) s).sem .ideal).sig.uniq) (hm : s.unmixed .ideal)
    (ha : (View.reverse d).admits .ideal s p.lens)
    (hp : ((View.reverse d).sem .ideal (s.sem .ideal)).sub p = some p')
    (hN : EveryLength (s.sem .ideal) p.lens d (· = N))
    (hpN : p.has (.idx d) = true → ∃ l, (s.sem .ideal).len d (p.remove (.idx d)) = some l ∧ l.Num N)
    (h : Rng s p' nx) : Rng (.view (.reverse d) s) p nx := by
  have hc := view_corr ht hw hu huv hm ha trivial (by intros; contradiction) hp
  obtain ⟨hd, hh, hdr⟩ := ha
  have hsub : ∀ st u k l, ((View.reverse d).sem .ideal (s.sem .ideal)).sub st = some u →
      st (.idx d) = some (.dyn k) → (s.sem .ideal).len d (st.remove (.idx d)) = some l → l.Num N → k < N →
      u (.idx d) = some (.dyn (N - 1 - k)) := by
    intro st u k l h hk hl hn hlt
    simp only [View.sem, reverseSem, hk, Struct.hasLen_of_len hl, hl, bind, Option.bind_some, Option.some.injEq] at h
    rw [Val.sub_dyn (x := N - 1) (Val.nat?_sub.2 ⟨N, 1, hn, rfl, by omega, rfl⟩) (by omega)] at h
    subst h
    simp [State.set]
  have hent : ∀ st u, ((View.reverse d).sem .ideal (s.sem .ideal)).sub st = some u → ∀ o,
      ((Struct.view (.reverse d) s).sem .ideal).sig.entry st d o ↔ (s.sem .ideal).sig.entry u d o := by
    intro st u h o
    exact Sig.entry_keep (R := Sig.reverseRepl) (fun e he _ => (sub_idx (by simpa [View.dims] using he) h).symm) hu hw
      (fun n rs h _ => nodep_at hd h) (fun l' r _ => ⟨_, rfl⟩) d o
  have hst : ∀ st u, ((View.reverse d).sem .ideal (s.sem .ideal)).sub st = some u →
      Addr ((Struct.view (.reverse d) s).sem .ideal) p.lens st → (st (.idx d) = none ∧ u (.idx d) = none) ∨
      ∃ k, k < N ∧ st (.idx d) = some (.dyn k) ∧ u (.idx d) = some (.dyn (N - 1 - k)) := by
    intro st u h hA
    rcases idx_dyn hA (hent st u h) hd with h' | ⟨k, l, m, h', hl, hlm, hkm⟩
    · refine .inl ⟨h', ?_⟩
      simp only [View.sem, reverseSem, h', Option.some.injEq] at h
      rw [← h]; exact h'
    · rw [reverse_len d s _ (by simp [State.remove])] at hl
      have : m = N := hN _ l m (fun q => by simp [State.remove, hA.lens]) hl hlm
      subst this
      exact .inr ⟨k, hkm, h', hsub st u k l h h' hl hlm hkm⟩
  by_cases hne : ∃ st, Addr ((Struct.view (.reverse d) s).sem .ideal) p.lens st ∧ Given p st
  · obtain ⟨st0, hst0, hg0⟩ := hne
    have hpd : (p (.idx d) = none ∧ p' (.idx d) = none) ∨
        ∃ k, k < N ∧ p (.idx d) = some (.dyn k) ∧ p' (.idx d) = some (.dyn (N - 1 - k)) := by
      cases hx : p (.idx d) with
      | none =>
        have hp2 := hp
        simp only [View.sem, reverseSem, hx, Option.some.injEq] at hp2
        exact .inl ⟨rfl, by rw [← hp2]; exact hx⟩
      | some x =>
        have hx0 := hg0 d x hx
        obtain ⟨u0, hu0, -⟩ := hc.fwd st0 hst0 trivial
        rcases hst st0 u0 hu0 hst0 with h | ⟨k, hk, h1, -⟩
        · rw [h.1] at hx0; cases hx0
        · rw [h1] at hx0; cases hx0
          obtain ⟨l, hl, hn⟩ := hpN (by simp [State.has, hx])
          exact .inr ⟨k, hk, rfl, hsub p p' k l hp hx hl hn hk⟩
    refine .of_same hc h (fun _ _ _ => trivial) (fun _ _ _ => trivial) ?_ ?_
    · intro st u hM hA _ _
      refine given_iff (ds := [d]) (fun q hq => sub_idx (by simpa [View.dims] using hq) hp)
        (fun q hq => sub_idx (by simpa [View.dims] using hq) hM) ?_
      simp only [List.mem_singleton, forall_eq, GivenAt]
      rcases hpd with ⟨h1, h2⟩ | ⟨k, hk, h1, h2⟩
      · simp [h1, h2]
      · simp only [h1, h2, Option.some.injEq, forall_eq']
        rcases hst st u hM hA with ⟨h1, h2⟩ | ⟨j, hj, h1, h2⟩
        · simp [h1, h2]
        · simp only [h1, h2, Option.some.injEq, Val.dyn.injEq]
          omega
    · intro e he
      by_cases hed : e = d
      · subst hed
        refine ⟨e, he, ?_, fun a b => ⟨match b with | none => 0 | some b => N - b, some (N - a), ?_⟩⟩
        · intro st u i hM hA _ _ _ hi
          rcases hst st u hM hA with ⟨h1, h2⟩ | ⟨j, hj, h1, h2⟩
          · rw [h2] at hi; cases hi
          · exact ⟨j, h1⟩
        · rintro st u hM hA _ _ _ ⟨i, hi⟩
          rcases hst st u hM hA with ⟨h1, h2⟩ | ⟨j, hj, h1, h2⟩
          · rw [h2] at hi; cases hi
          · simp only [In, h1, h2, dyn_inj, exists_eq_left', Option.some.injEq, forall_eq']
            cases b <;> simp <;> omega
      · refine ⟨e, he, ?_, fun a b => ⟨a, b, ?_⟩⟩
        · intro st u j hM _ _ _ _ hj
          exact ⟨j, by rw [← sub_idx (by simpa [View.dims] using hed) hM]; exact hj⟩
        · intro st u hM _ _ _ _ _
          exact In.congr (sub_idx (by simpa [View.dims] using hed) hM) a b
  · exact .empty fun st hst hg => hne ⟨st, hst, hg⟩

theorem rng_fix {i : Val} (ht : (Struct.view (.fix d i) s).tame)
    (hw : ((Struct.view (.fix d i) s).sem .ideal).sig.wf = true) (hu : (s.sem .ideal).sig.uniq)
    (huv : ((Struct.view (.fix d i) s).sem .ideal).sig.uniq) (hm : s.unmixed .ideal)
    (ha : (View.fix d i).admits .ideal s p.lens)
    (hp : ((View.fix d i).sem .ideal (s.sem .ideal)).sub p = some p')
    (hnx : nx ≠ some d) (h : Rng s p' nx) : Rng (.view (.fix d i) s) p nx := by
  have hc := view_corr ht hw hu huv hm ha trivial (by intros; contradiction) hp
  have hp' : p' (.idx d) = some i := by cases hp; simp [State.set]
  have hst : ∀ st, Addr ((Struct.view (.fix d i) s).sem .ideal) p.lens st → st (.idx d) = none := by
    intro st hA
    cases hi : st (.idx d) with
    | none => rfl
    | some x =>
      obtain ⟨o, ho⟩ := hA.only d (by simp [hi])
      have := (Sig.entry_fix (d := d) (S := (s.sem .ideal).sig) (i := i) (st := st)
        (u := (st.removeAll [.idx d, .len d]).set (.idx d) i)
        (fun e he _ => by simp [State.set, State.removeAll, he]) (by simp [State.set]) hu hw d o).1 ho
      exact absurd rfl this.1
  cases hx : p (.idx d) with
  | some x =>
    exact .empty fun st hA hg => by
      have := hg d x hx
      rw [hst st hA] at this; cases this
  | none =>
    refine .of_same hc h (fun _ _ _ => trivial) (fun u _ hg => hg d i hp') ?_ ?_
    · intro st u hM hA _ hk
      refine given_iff (ds := [d]) (fun q hq => sub_idx (by simpa [View.dims] using hq) hp)
        (fun q hq => sub_idx (by simpa [View.dims] using hq) hM) ?_
      simp only [List.mem_singleton, forall_eq, GivenAt, hx, hp', Option.some.injEq, forall_eq', reduceCtorEq,
        false_implies, implies_true, true_iff]
      exact hk
    · intro e he
      have hed : e ≠ d := by rintro rfl; exact hnx he
      refine ⟨e, he, ?_, fun a b => ⟨a, b, ?_⟩⟩
      · intro st u j hM _ _ _ _ hj
        exact ⟨j, by rw [← sub_idx (by simpa [View.dims] using hed) hM]; exact hj⟩
      · intro st u hM _ _ _ _ _
        exact In.congr (sub_idx (by simpa [View.dims] using hed) hM) a b

/-- Views that hand the indices down as they are. -/
theorem rng_same {v : View} (ht : (Struct.view v s).tame)
    (hw : ((Struct.view v s).sem .ideal).sig.wf = true) (hu : (s.sem .ideal).sig.uniq)
    (huv : ((Struct.view v s).sem .ideal).sig.uniq) (hm : s.unmixed .ideal)
    (ha : v.admits .ideal s p.lens) (hv : v.unmerged) (hd : v.dims = []) (hk : ∀ u, v.keeps u)
    (hp : (v.sem .ideal (s.sem .ideal)).sub p = some p') (h : Rng s p' nx) : Rng (.view v s) p nx := by
  have hc := view_corr ht hw hu huv hm ha hv (by rintro d maj min pres rfl; simp [View.dims] at hd) hp
  have hi : ∀ {w w' : State}, (v.sem .ideal (s.sem .ideal)).sub w = some w' → ∀ q, w' (.idx q) = w (.idx q) :=
    fun hw q => sub_idx (by simp [hd]) hw
  refine .of_same hc h (fun _ _ _ => trivial) (fun u _ _ => hk u) ?_ ?_
  · intro st u hM _ _ _
    exact given_iff (ds := []) (fun q _ => hi hp q) (fun q _ => hi hM q) (by simp)
  · intro e he
    refine ⟨e, he, ?_, fun a b => ⟨a, b, ?_⟩⟩
    · intro st u j hM _ _ _ _ hj
      exact ⟨j, by rw [← hi hM]; exact hj⟩
    · intro st u hM _ _ _ _ _
      exact In.congr (hi hM e) a b

/-! ### rename -/

theorem rng_rename {ps : List (Dim × Dim)} {nx' : Option Dim} (ht : (Struct.view (.rename ps) s).tame)
    (hw : ((Struct.view (.rename ps) s).sem .ideal).sig.wf = true) (hu : (s.sem .ideal).sig.uniq)
    (huv : ((Struct.view (.rename ps) s).sem .ideal).sig.uniq) (hm : s.unmixed .ideal)
    (hp : ((View.rename ps).sem .ideal (s.sem .ideal)).sub p = some p')
    (hnx : nx = nx'.map (Sig.renameDim ps))
    (hkeep : ∀ e, nx' = some e → e ∈ ps.map Prod.fst ∨ e ∉ ps.map Prod.snd)
    (h : Rng s p' nx') : Rng (.view (.rename ps) s) p nx := by
  have hc := view_corr ht hw hu huv hm (v := .rename ps) (p := p) trivial trivial (by intros; contradiction) hp
  cases hp
  have hok : renameOk ps (s.sem .ideal).sig = true := by
    simp only [Struct.sem, ViewSem.toSem, View.sem, renameSem] at hw
    split at hw
    · assumption
    · simp [Sig.wf] at hw
  have hok' := hok
  simp only [renameOk, Bool.and_eq_true, decide_eq_true_eq, List.all_eq_true, Bool.or_eq_true,
    Bool.not_eq_true'] at hok'
  obtain ⟨⟨h1, h2⟩, h3⟩ := hok'
  have hsig : ((Struct.view (.rename ps) s).sem .ideal).sig = (s.sem .ideal).sig.mapDims (Sig.renameDim ps) := by
    simp only [Struct.sem, ViewSem.toSem, View.sem, renameSem, hok, if_true]
  have hacc : ∀ e, (s.sem .ideal).sig.anyAccept e = true → e ∈ ps.map Prod.fst ∨ e ∉ ps.map Prod.snd := by
    intro e he
    by_cases hs : e ∈ ps.map Prod.snd
    · rcases h3 e hs with h | h
      · rw [he] at h; cases h
      · exact .inl h
    · exact .inr hs
  -- the indices in an address are those of renamed dimensions
  have hst : ∀ st, Addr ((Struct.view (.rename ps) s).sem .ideal) p.lens st → ∀ q, (st (.idx q)).isSome →
      ∃ e, (e ∈ ps.map Prod.fst ∨ e ∉ ps.map Prod.snd) ∧ Sig.renameDim ps e = q := by
    intro st hA q hq
    obtain ⟨o, ho⟩ := hA.only q hq
    rw [hsig] at ho
    obtain ⟨e, he, rfl⟩ := (Sig.entry_mapDims (u := renameState ps st)
      fun e he => by rw [renameState_idx, if_pos (hacc e he)]).1 ho
    exact ⟨e, hacc e (Sig.entry_accept he), rfl⟩
  have hi : ∀ (w : State) e, (e ∈ ps.map Prod.fst ∨ e ∉ ps.map Prod.snd) →
      renameState ps w (.idx e) = w (.idx (Sig.renameDim ps e)) := fun w e he => by
    rw [renameState_idx, if_pos he]
  by_cases hbad : ∃ q, (p (.idx q)).isSome ∧ ¬ ∃ e, (e ∈ ps.map Prod.fst ∨ e ∉ ps.map Prod.snd) ∧ Sig.renameDim ps e = q
  · obtain ⟨q, hq, hn⟩ := hbad
    obtain ⟨x, hx⟩ := Option.isSome_iff_exists.1 hq
    exact .empty fun st hA hg => hn (hst st hA q (by rw [hg q x hx]; rfl))
  · refine .of_same hc h (fun _ _ _ => trivial) (fun _ _ _ => trivial) ?_ ?_
    · intro st u hM hA _ _
      cases hM
      constructor
      · intro hg q i hq
        rw [renameState_idx] at hq
        split at hq
        · next hk => rw [hi st q hk]; exact hg _ i hq
        · cases hq
      · intro hg q i hq
        by_cases hex : ∃ e, (e ∈ ps.map Prod.fst ∨ e ∉ ps.map Prod.snd) ∧ Sig.renameDim ps e = q
        · obtain ⟨e, he, rfl⟩ := hex
          have := hg e i (by rw [hi p e he]; exact hq)
          rwa [hi st e he] at this
        · exact absurd ⟨q, by simp [hq], hex⟩ hbad
    · intro e he
      cases nx' with
      | none => rw [hnx] at he; cases he
      | some e' =>
        rw [hnx, Option.map_some, Option.some.injEq] at he
        subst he
        have hk := hkeep e' rfl
        refine ⟨e', rfl, ?_, fun a b => ⟨a, b, ?_⟩⟩
        · intro st u j hM _ _ _ _ hj
          cases hM
          exact ⟨j, by rw [← hi st e' hk]; exact hj⟩
        · intro st u hM _ _ _ _ _
          cases hM
          simp only [In, hi st e' hk]

end

/-! ### Blocks -/

theorem divmod_inj {n i j i' j' : Nat} (hj : j < n) (hj' : j' < n) : i * n + j = i' * n + j' ↔ i = i' ∧ j = j' := by
  constructor
  · intro h
    have h1 : (i * n + j) / n = i := by
      rw [Nat.mul_comm, Nat.mul_add_div (by omega), Nat.div_eq_of_lt hj]; omega
    have h2 : (i' * n + j') / n = i' := by
      rw [Nat.mul_comm, Nat.mul_add_div (by omega), Nat.div_eq_of_lt hj']; omega
    have : i = i' := by rw [← h1, ← h2, h]
    subst this
    exact ⟨rfl, by omega⟩
  · rintro ⟨rfl, rfl⟩; rfl

theorem block_le {n i j a : Nat} (hj : j < n) : a * n ≤ i * n + j ↔ a ≤ i := by
  constructor
  · intro h
    apply Nat.le_of_not_lt
    intro hlt
    have := Nat.mul_le_mul_right n (show i + 1 ≤ a by omega)
    rw [Nat.succ_mul] at this
    omega
  · intro h
    have := Nat.mul_le_mul_right n h
    omega

/-- No index of the blocks is given. -/
theorem rng_blocks_free {s : Struct} {v : View} {p p' : State} {nx : Option Dim}
    (hc : Corr (.view v s) p.lens (fun _ => True) s p'.lens (fun _ => True) 0
      fun st u => (v.sem .ideal (s.sem .ideal)).sub st = some u)
    (hp : (v.sem .ideal (s.sem .ideal)).sub p = some p')
    (c : Dim → Option Val)
    (hst : ∀ st, Addr ((Struct.view v s).sem .ideal) p.lens st → ∀ q ∈ v.dims, p (.idx q) ≠ none →
      st (.idx q) = c q)
    (hp' : ∀ q ∈ v.dims, p' (.idx q) = none) (hnx : ∀ e, nx = some e → e ∉ v.dims) (h : Rng s p' nx) :
    Rng (.view v s) p nx := by
  by_cases hne : ∃ st, Addr ((Struct.view v s).sem .ideal) p.lens st ∧ Given p st
  · obtain ⟨st0, hst0, hg0⟩ := hne
    refine .of_same hc h (fun _ _ _ => trivial) (fun _ _ _ => trivial) ?_ ?_
    · intro st u hM hA _ _
      refine given_iff (ds := v.dims) (fun q hq => sub_idx hq hp) (fun q hq => sub_idx hq hM) ?_
      refine ⟨fun _ q hq i hi => (by rw [hp' q hq] at hi; cases hi), fun _ q hq i hi => ?_⟩
      rw [hst st hA q hq (by simp [hi]), ← hst st0 hst0 q hq (by simp [hi])]
      exact hg0 q i hi
    · intro e he
      refine ⟨e, he, ?_, fun a b => ⟨a, b, ?_⟩⟩
      · intro st u j hM _ _ _ _ hj
        exact ⟨j, by rw [← sub_idx (hnx e he) hM]; exact hj⟩
      · intro st u hM _ _ _ _ _
        exact In.congr (sub_idx (hnx e he) hM) a b
  · exact .empty fun st hst hg => hne ⟨st, hst, hg⟩

/-- What the index in the original dimension is. -/
def BlockIdx (n : Nat) (d maj min : Dim) (st u : State) : Prop :=
  (st (.idx maj) = none ∧ st (.idx min) = none ∧ u (.idx d) = none) ∨
  ∃ i j, st (.idx maj) = some (.dyn i) ∧ st (.idx min) = some (.dyn j) ∧ j < n ∧
    u (.idx d) = some (.dyn (i * n + j))

theorem rng_blocks {s : Struct} {v : View} {p p' : State} {nx : Option Dim} {d maj min : Dim} {n : Nat}
    (hc : Corr (.view v s) p.lens (fun _ => True) s p'.lens (fun _ => True) 0
      fun st u => (v.sem .ideal (s.sem .ideal)).sub st = some u)
    (hp : (v.sem .ideal (s.sem .ideal)).sub p = some p')
    (hdim : d ∈ v.dims) (hmaj : maj ∈ v.dims) (hmin : min ∈ v.dims) (hne : maj ≠ min)
    (c : Dim → Option Val)
    (hst : ∀ st, Addr ((Struct.view v s).sem .ideal) p.lens st → ∀ q ∈ v.dims, q ≠ maj → q ≠ min →
      st (.idx q) = c q)
    (hb : ∀ st u, (v.sem .ideal (s.sem .ideal)).sub st = some u →
      Addr ((Struct.view v s).sem .ideal) p.lens st → BlockIdx n d maj min st u)
    (hp' : ∀ q ∈ v.dims, q ≠ d → p' (.idx q) = none)
    (hpd : p (.idx min) = none → p' (.idx d) = none)
    (hpb : ∀ i j, p (.idx maj) = some (.dyn i) → p (.idx min) = some (.dyn j) →
      p' (.idx d) = some (.dyn (i * n + j)))
    (h : (p (.idx maj) = none ∧ p (.idx min) = none ∧ nx = some maj ∧ Rng s p' (some d)) ∨
      (p.has (.idx maj) = true ∧ p (.idx min) = none ∧ (nx = none ∨ nx = some min) ∧ Rng s p' (some d)) ∨
      (p.has (.idx maj) = true ∧ p.has (.idx min) = true ∧ (∀ e, nx = some e → e ∉ v.dims) ∧ Rng s p' nx)) :
    Rng (.view v s) p nx := by
  by_cases hex : ∃ st, Addr ((Struct.view v s).sem .ideal) p.lens st ∧ Given p st
  · obtain ⟨st0, hst0, hg0⟩ := hex
    obtain ⟨u0, hu0, -⟩ := hc.fwd st0 hst0 trivial
    have hb0 := hb st0 u0 hu0 hst0
    -- the indices that matter
    have hgiv : ∀ st u, (v.sem .ideal (s.sem .ideal)).sub st = some u →
        Addr ((Struct.view v s).sem .ideal) p.lens st →
        (Given p st ↔ (∀ q, q ∉ v.dims → GivenAt p' u q) ∧ GivenAt p st maj ∧ GivenAt p st min) := by
      intro st u hM hA
      constructor
      · intro hg
        refine ⟨fun q hq i hi => ?_, hg maj, hg min⟩
        rw [sub_idx hq hM]
        exact hg q i (by rw [← sub_idx hq hp]; exact hi)
      · rintro ⟨h1, h2, h3⟩ q
        by_cases hq : q ∈ v.dims
        · by_cases e1 : q = maj
          · exact e1 ▸ h2
          · by_cases e2 : q = min
            · exact e2 ▸ h3
            · intro i hi
              rw [hst st hA q hq e1 e2, ← hst st0 hst0 q hq e1 e2]
              exact hg0 q i hi
        · intro i hi
          have := h1 q hq i (by rw [sub_idx hq hp]; exact hi)
          rwa [sub_idx hq hM] at this
    have hgiv' : ∀ u, Given p' u ↔ (∀ q, q ∉ v.dims → GivenAt p' u q) ∧ GivenAt p' u d := by
      intro u
      constructor
      · intro h; exact ⟨fun q _ => h q, h d⟩
      · rintro ⟨h1, h2⟩ q
        by_cases hq : q ∈ v.dims
        · by_cases e1 : q = d
          · exact e1 ▸ h2
          · intro i hi; rw [hp' q hq e1] at hi; cases hi
        · exact h1 q hq
    rcases h with ⟨h1, h2, rfl, h⟩ | ⟨h1, h2, hnx, h⟩ | ⟨h1, h2, hnx, h⟩
    · -- no index is given
      have hd := hpd h2
      refine .of_same hc h (fun _ _ _ => trivial) (fun _ _ _ => trivial) ?_ ?_
      · intro st u hM hA _ _
        rw [hgiv st u hM hA, hgiv' u]
        simp [GivenAt, h1, h2, hd]
      · intro e he
        cases he
        refine ⟨d, rfl, ?_, fun a b => ⟨a * n, b.map (· * n), ?_⟩⟩
        · intro st u k hM hA _ _ _ hk
          rcases hb st u hM hA with ⟨-, -, h⟩ | ⟨i, j, h, -⟩
          · rw [h] at hk; cases hk
          · exact ⟨i, h⟩
        · rintro st u hM hA _ _ _ ⟨k, hk⟩
          rcases hb st u hM hA with ⟨-, -, h⟩ | ⟨i, j, h1, h2, hj, h3⟩
          · rw [h] at hk; cases hk
          · simp only [In, h1, h3, Option.some.injEq, Val.dyn.injEq, exists_eq_left', block_le hj]
            refine and_congr_right fun _ => ?_
            cases b with
            | none => simp
            | some b =>
              simp only [Option.some.injEq, forall_eq', Option.map_some]
              have := block_le (n := n) (i := i) (a := b) hj
              omega
    · -- one block
      have hd := hpd h2
      obtain ⟨x, hx⟩ : ∃ x, p (.idx maj) = some x := by
        simp only [State.has] at h1
        exact Option.isSome_iff_exists.1 h1
      have hx0 := hg0 maj x hx
      obtain ⟨i, hi⟩ : ∃ i, x = .dyn i := by
        rcases hb0 with ⟨h, -⟩ | ⟨i, j, h, -⟩
        · rw [h] at hx0; cases hx0
        · rw [h] at hx0; exact ⟨i, (Option.some.inj hx0).symm⟩
      subst hi
      have key : ∀ st u, (v.sem .ideal (s.sem .ideal)).sub st = some u →
          Addr ((Struct.view v s).sem .ideal) p.lens st →
          (Given p st ↔ Given p' u ∧ In u d (i * n) (some (i * n + n))) := by
        intro st u hM hA
        rw [hgiv st u hM hA, hgiv' u]
        have e1 : GivenAt p st min := by simp [GivenAt, h2]
        have e2 : GivenAt p' u d := by simp [GivenAt, hd]
        simp only [e1, e2, and_true]
        refine and_congr_right fun _ => ?_
        simp only [GivenAt, hx, Option.some.injEq, forall_eq']
        rcases hb st u hM hA with ⟨h1, h2, h3⟩ | ⟨i', j', h1, h2, hj, h3⟩
        · simp [In, h1, h3]
        · simp only [In, h1, h3, Option.some.injEq, Val.dyn.injEq, exists_eq_left', forall_eq']
          have e1 := block_le (n := n) (i := i') (a := i) hj
          have e2 := block_le (n := n) (i := i') (a := i + 1) hj
          rw [Nat.succ_mul] at e2
          omega
      suffices Rng (.view v s) p (some min) by
        rcases hnx with rfl | rfl
        · exact this.weaken
        · exact this
      refine .of_corr hc (fun _ _ _ => trivial) ⟨_, fun st u hM hA _ _ => key st u hM hA,
        h.total.mono fun u _ h => h.2.1, ?_⟩ ?_
      · exact (h.inner d rfl _ _).congr fun u hu => ⟨fun h => ⟨trivial, h⟩, fun h => h.2⟩
      · intro e he
        cases he
        refine ⟨fun st u hM hA hA' _ hg => ?_, fun a b => ?_⟩
        · rcases hb st u hM hA with ⟨h, -⟩ | ⟨i', j', h1, h2, -⟩
          · have := hg maj _ hx; rw [h] at this; cases this
          · exact ⟨j', h2⟩
        · obtain ⟨a'', b'', hint⟩ := In.inter (i * n) (i * n + a) (some (i * n + n)) (b.map (i * n + ·))
          refine ⟨fun u => Given p' u ∧ In u d a'' b'', fun st u hM hA hA' _ => ?_, ?_⟩
          · show _ ↔ Given p' u ∧ In u d a'' b''
            rw [key st u hM hA, and_assoc, ← hint]
            refine and_congr_right fun _ => and_congr_right fun hin => ?_
            rcases hb st u hM hA with ⟨h1, h2, h3⟩ | ⟨i', j', h1, h2, hj, h3⟩
            · obtain ⟨k, hk, -⟩ := hin
              rw [h3] at hk; cases hk
            · simp only [In, h1, h2, h3, Option.some.injEq, Val.dyn.injEq, exists_eq_left', forall_eq'] at hin ⊢
              have e1 := block_le (n := n) (i := i') (a := i) hj
              have e2 := block_le (n := n) (i := i') (a := i + 1) hj
              rw [Nat.succ_mul] at e2
              obtain rfl : i' = i := by omega
              cases b <;> simp <;> omega
          · exact (h.inner d rfl a'' b'').congr fun u hu => ⟨fun h => ⟨trivial, h⟩, fun h => h.2⟩
    · -- one element of the dimension
      obtain ⟨x, hx⟩ : ∃ x, p (.idx maj) = some x := by
        simp only [State.has] at h1
        exact Option.isSome_iff_exists.1 h1
      obtain ⟨y, hy⟩ : ∃ x, p (.idx min) = some x := by
        simp only [State.has] at h2
        exact Option.isSome_iff_exists.1 h2
      have hx0 := hg0 maj x hx
      have hy0 := hg0 min y hy
      obtain ⟨i, j, rfl, rfl, hj⟩ : ∃ i j, x = .dyn i ∧ y = .dyn j ∧ j < n := by
        rcases hb0 with ⟨h, -⟩ | ⟨i, j, h, h', hj, -⟩
        · rw [h] at hx0; cases hx0
        · rw [h] at hx0; rw [h'] at hy0
          exact ⟨i, j, (Option.some.inj hx0).symm, (Option.some.inj hy0).symm, hj⟩
      have hd := hpb i j hx hy
      refine .of_same hc h (fun _ _ _ => trivial) (fun _ _ _ => trivial) ?_ ?_
      · intro st u hM hA _ _
        rw [hgiv st u hM hA, hgiv' u]
        refine and_congr_right fun _ => ?_
        simp only [GivenAt, hx, hy, hd, Option.some.injEq, forall_eq']
        rcases hb st u hM hA with ⟨h1, h2, h3⟩ | ⟨i', j', h1, h2, hj', h3⟩
        · simp [h1, h3]
        · simp only [h1, h2, h3, Option.some.injEq, Val.dyn.injEq, divmod_inj hj' hj]
      · intro e he
        refine ⟨e, he, ?_, fun a b => ⟨a, b, ?_⟩⟩
        · intro st u j hM _ _ _ _ hj
          exact ⟨j, by rw [← sub_idx (hnx e he) hM]; exact hj⟩
        · intro st u hM _ _ _ _ _
          exact In.congr (sub_idx (hnx e he) hM) a b
  · exact .empty fun st hst hg => hex ⟨st, hst, hg⟩

section
variable {s : Struct} {d maj min pres : Dim} {p p' : State} {nx : Option Dim}

theorem ib_len_min {st : State} {l nl : Val}
    (h : ((Struct.view (.intoBlocks d maj min) s).sem .ideal).len min st = some l)
    (hnl : st (.len min) = some nl) : l = nl := by
  simp only [Struct.sem, ViewSem.toSem, View.sem, intoBlocksSem, if_true, hnl] at h
  obtain ⟨-, h⟩ := guardLen_eq_some.1 h
  exact (Option.some.inj h).symm

theorem ibd_len_min {st : State} {l nl : Val} (hmp : min ≠ pres)
    (h : ((Struct.view (.intoBlocksDyn d maj min pres) s).sem .ideal).len min st = some l)
    (hnl : st (.len min) = some nl) : l = nl := by
  simp only [Struct.sem, ViewSem.toSem, View.sem, intoBlocksDynSem, hmp, if_false, if_true, hnl] at h
  obtain ⟨-, h⟩ := guardLen_eq_some.1 h
  exact (Option.some.inj h).symm

/-- The indices of the blocks, from the entries of the signature. -/
theorem blockIdx_of {v : View} {ds : List Dim} {nl : Val} {n : Nat}
    (hd : ¬ (s.sem .ideal).sig.hasDep d) (hmaj : maj ∈ ds) (hmin : min ∈ ds)
    (hfr : ∀ q ∈ ds, q ≠ d → (s.sem .ideal).sig.anyAccept q = false)
    (hent : ∀ st q o, ((Struct.view v s).sem .ideal).sig.entry st q o ↔
      (q ≠ d ∧ (s.sem .ideal).sig.entry st q o) ∨ (q ∈ ds ∧ o = none ∧ (s.sem .ideal).sig.entry st d none))
    (hlen : ∀ st l, st (.len min) = some nl →
      ((Struct.view v s).sem .ideal).len min st = some l → l = nl)
    (hnl : p.lens min = some nl) (hn : nl.Num n)
    (hsub : ∀ st u, (v.sem .ideal (s.sem .ideal)).sub st = some u → st (.idx min) = none → u (.idx d) = none)
    (hsubb : ∀ st u i j, (v.sem .ideal (s.sem .ideal)).sub st = some u → st (.len min) = some nl →
      st (.idx maj) = some (.dyn i) → st (.idx min) = some (.dyn j) → u (.idx d) = some (.dyn (i * n + j)))
    (st u : State) (hM : (v.sem .ideal (s.sem .ideal)).sub st = some u)
    (hA : Addr ((Struct.view v s).sem .ideal) p.lens st) : BlockIdx n d maj min st u := by
  by_cases he : (s.sem .ideal).sig.entry st d none
  · obtain ⟨i, -, -, hi, -⟩ := hA.ok maj none ((hent st maj none).2 (.inr ⟨hmaj, rfl, he⟩))
    obtain ⟨j, l, m, hj, hl, hm, hlt⟩ := hA.ok min none ((hent st min none).2 (.inr ⟨hmin, rfl, he⟩))
    have hsl : st (.len min) = some nl := by rw [hA.lens]; exact hnl
    cases hlen _ l (by simpa [State.remove] using hsl) hl
    cases Val.Num.eq hn hm
    exact .inr ⟨i, j, hi, hj, hlt, hsubb st u i j hM hsl hi hj⟩
  · have key : ∀ q ∈ ds, st (.idx q) = none := by
      intro q hq
      cases hi : st (.idx q) with
      | none => rfl
      | some x =>
        obtain ⟨o, ho⟩ := hA.only q (by simp [hi])
        rcases (hent st q o).1 ho with ⟨h1, h2⟩ | ⟨-, -, h⟩
        · have := hfr q hq h1
          rw [Sig.entry_accept h2] at this; cases this
        · exact absurd h he
    exact .inl ⟨key maj hmaj, key min hmin, hsub st u hM (key min hmin)⟩

theorem ib_sub_none {A : Arith} {S : Sem} {st u : State} (hM : intoBlocksSub A d maj min S st = some u)
    (hj : st (.idx min) = none) : u (.idx d) = none := by
  have hc : blocksClean d maj min st (.idx d) = none := by simp [blocksClean, State.removeAll]
  simp only [intoBlocksSub] at hM
  cases hnl : st (.len min) with
  | some nl =>
    simp only [hnl] at hM
    cases hml : st (.len maj) <;> cases hI : st (.idx maj) <;> simp only [hml, hI, hj, Option.some.injEq] at hM <;>
      subst hM <;> simp [State.set, hc]
  | none =>
    simp only [hnl] at hM
    rcases hb : S.hasLen d (blocksClean d maj min st) with _ | _ | _ <;> simp only [hb] at hM
    · cases hM
    · cases hM; exact hc
    · cases hml : st (.len maj) <;> cases hI : st (.idx maj) <;> simp only [hml, hI, hj, Option.some.injEq] at hM <;>
        subst hM <;> exact hc

theorem ib_sub_both {S : Sem} {st u : State} {nl : Val} {i j n : Nat}
    (hM : intoBlocksSub .ideal d maj min S st = some u) (hnl : st (.len min) = some nl) (hn : nl.Num n) (h0 : 0 < n)
    (hi : st (.idx maj) = some (.dyn i)) (hj : st (.idx min) = some (.dyn j)) :
    u (.idx d) = some (.dyn (i * n + j)) := by
  simp only [intoBlocksSub, hnl, hi, hj] at hM
  cases hml : st (.len maj) <;> simp only [hml, Option.some.injEq] at hM <;>
    subst hM <;> simp [State.set, Val.dyn_mul hn h0, Val.dyn_add (show (Val.dyn j).Num j from rfl)]

theorem ibd_sub_none {A : Arith} {S : Sem} {st u : State} (hM : intoBlocksDynSub A d maj min pres S st = some u)
    (hj : st (.idx min) = none) : u (.idx d) = none := by
  have hc : dynClean d maj min pres st (.idx d) = none := by simp [dynClean, State.removeAll]
  simp only [intoBlocksDynSub, blocksDynClean_eq] at hM
  split at hM
  · cases hM
  simp only [bind, Option.bind_some] at hM
  cases hnl : st (.len min) with
  | some nl =>
    simp only [hnl] at hM
    cases hml : st (.len maj) <;> cases hI : st (.idx maj) <;> simp only [hml, hI, hj, Option.some.injEq] at hM <;>
      subst hM <;> simp [State.set, hc]
  | none =>
    simp only [hnl] at hM
    cases hml : st (.len maj) <;> cases hI : st (.idx maj) <;> simp only [hml, hI, hj, Option.some.injEq] at hM <;>
        subst hM <;> exact hc

theorem ibd_sub_both {S : Sem} {st u : State} {nl : Val} {i j n : Nat}
    (hM : intoBlocksDynSub .ideal d maj min pres S st = some u) (hnl : st (.len min) = some nl) (hn : nl.Num n)
    (h0 : 0 < n) (hi : st (.idx maj) = some (.dyn i)) (hj : st (.idx min) = some (.dyn j)) :
    u (.idx d) = some (.dyn (i * n + j)) := by
  simp only [intoBlocksDynSub, blocksDynClean_eq] at hM
  split at hM
  · cases hM
  simp only [bind, Option.bind_some, hnl, hi, hj] at hM
  cases hml : st (.len maj) <;> simp only [hml, Option.some.injEq] at hM <;>
    subst hM <;> simp [State.set, Val.dyn_mul hn h0, Val.dyn_add (show (Val.dyn j).Num j from rfl)]

theorem rng_ib (ht : (Struct.view (.intoBlocks d maj min) s).tame)
    (hw : ((Struct.view (.intoBlocks d maj min) s).sem .ideal).sig.wf = true) (hu : (s.sem .ideal).sig.uniq)
    (huv : ((Struct.view (.intoBlocks d maj min) s).sem .ideal).sig.uniq) (hm : s.unmixed .ideal)
    (ha : (View.intoBlocks d maj min).admits .ideal s p.lens)
    (hp : ((View.intoBlocks d maj min).sem .ideal (s.sem .ideal)).sub p = some p')
    (h : chainBlocks (.intoBlocks d maj min) d maj min p nx fun nx => Rng s p' nx) :
    Rng (.view (.intoBlocks d maj min) s) p nx := by
  have hc := view_corr ht hw hu huv hm ha trivial (by intros; contradiction) hp
  have hd := ha.1
  obtain ⟨hne, hfr, hent⟩ := ib_entry (A := .ideal) hu hd hw
  have hent' : ∀ st q o, ((Struct.view (.intoBlocks d maj min) s).sem .ideal).sig.entry st q o ↔ _ := hent
  have hcl : ∀ q ∈ [d, maj, min], q ≠ d → p' (.idx q) = none := by
    intro q hq hqd
    rw [ibSub_idx hp hqd]
    simp only [List.mem_cons, List.not_mem_nil, or_false] at hq
    rcases hq with rfl | rfl | rfl <;> simp [blocksClean, State.removeAll]
  have hst : ∀ st, Addr ((Struct.view (.intoBlocks d maj min) s).sem .ideal) p.lens st →
      ∀ q ∈ [d, maj, min], q ≠ maj → q ≠ min → st (.idx q) = none := by
    intro st hA q hq h1 h2
    cases hi : st (.idx q) with
    | none => rfl
    | some x =>
      obtain ⟨o, ho⟩ := hA.only q (by simp [hi])
      rcases (hent' st q o).1 ho with ⟨h, -⟩ | ⟨h, -⟩
      · simp [h1, h2, h] at hq
      · simp [h1, h2] at h
  rcases h with ⟨h1, h2, h3, h⟩ | ⟨⟨nl, n, hnl, hn, h0⟩, h⟩
  · refine rng_blocks_free hc hp (fun _ => none) (fun st hA q hq hpq => ?_) (fun q hq => ?_) h3 h
    · exact hst st hA q hq (fun e => hpq (e ▸ h1)) (fun e => hpq (e ▸ h2))
    · by_cases hqd : q = d
      · subst hqd; exact ib_sub_none hp h2
      · exact hcl q hq hqd
  · exact rng_blocks hc hp (by simp [View.dims]) (by simp [View.dims]) (by simp [View.dims]) hne (fun _ => none) hst
      (blockIdx_of (ds := [maj, min]) (nl := nl) hd (by simp) (by simp) hfr hent' (fun st l h1 h2 => ib_len_min h2 h1)
        hnl hn (fun st u h1 h2 => ib_sub_none h1 h2) (fun st u i j h1 h2 h3 h4 => ib_sub_both h1 h2 hn h0 h3 h4))
      hcl (fun h => ib_sub_none hp h) (fun i j h1 h2 => ib_sub_both hp hnl hn h0 h1 h2) h

theorem Val.ltVal_le {a b : Val} {m : Nat} (h : (a.ltVal b).Num m) : m ≤ 1 := by
  cases a <;> cases b <;> simp only [Val.ltVal, Val.Num, Val.nat?, Option.some.injEq, reduceCtorEq] at h <;>
    split at h <;> omega

theorem ibd_len_pres {st : State} {l : Val} {m : Nat}
    (h : ((Struct.view (.intoBlocksDyn d maj min pres) s).sem .ideal).len pres st = some l) (hm : l.Num m) :
    m ≤ 1 := by
  simp only [Struct.sem, ViewSem.toSem, View.sem, intoBlocksDynSem, if_true] at h
  obtain ⟨-, h⟩ := guardLen_eq_some.1 h
  simp only [bind, Option.bind_eq_some_iff] at h
  obtain ⟨i, -, j, -, h⟩ := h
  cases hnl : st (.len min) <;> cases hml : st (.len maj) <;>
    simp only [hnl, hml, Option.bind_eq_some_iff, Option.some.injEq, reduceCtorEq, false_and, exists_false] at h
  · obtain ⟨ml, -, cs, -, l', -, rfl⟩ := h; exact Val.ltVal_le hm
  · obtain ⟨cs, -, l', -, rfl⟩ := h; exact Val.ltVal_le hm
  · subst h; exact Val.ltVal_le hm

theorem rng_ibd (ht : (Struct.view (.intoBlocksDyn d maj min pres) s).tame)
    (hw : ((Struct.view (.intoBlocksDyn d maj min pres) s).sem .ideal).sig.wf = true)
    (hu : (s.sem .ideal).sig.uniq)
    (huv : ((Struct.view (.intoBlocksDyn d maj min pres) s).sem .ideal).sig.uniq) (hm : s.unmixed .ideal)
    (ha : (View.intoBlocksDyn d maj min pres).admits .ideal s p.lens)
    (hall : (s.sem .ideal).sig.allAccept d = true)
    (hp : ((View.intoBlocksDyn d maj min pres).sem .ideal (s.sem .ideal)).sub p = some p')
    (h : chainBlocks (.intoBlocksDyn d maj min pres) d maj min p nx fun nx => Rng s p' nx) :
    Rng (.view (.intoBlocksDyn d maj min pres) s) p nx := by
  have hc := view_corr ht hw hu huv hm ha trivial (by intros d' _ _ _ h; cases h; exact hall) hp
  have hd := ha.1
  obtain ⟨⟨hne, hmp, hpm⟩, hfr, hent⟩ := ibd_entry (A := .ideal) hu hd hw
  have hent' : ∀ st q o, ((Struct.view (.intoBlocksDyn d maj min pres) s).sem .ideal).sig.entry st q o ↔ _ := hent
  have hcl : ∀ q ∈ [d, maj, min, pres], q ≠ d → p' (.idx q) = none := by
    intro q hq hqd
    rw [ibdSub_idx hp hqd]
    simp only [List.mem_cons, List.not_mem_nil, or_false] at hq
    rcases hq with rfl | rfl | rfl | rfl <;> simp [dynClean, State.removeAll]
  have hoff := offOk_view hu hw ha (select_view ht hw hu huv hm ha) (by
    rintro d' maj min pres h u hu' -
    cases h
    exact hu'.has_of_all hall)
  have hpres : ∀ st, Addr ((Struct.view (.intoBlocksDyn d maj min pres) s).sem .ideal) p.lens st →
      st (.idx pres) = some (.dyn 0) := by
    intro st hA
    have h1 := hoff st hA
    simp only [View.sem, intoBlocksDynSem, Bool.and_eq_true, State.has] at h1
    obtain ⟨o, ho⟩ := hA.only pres h1.2
    have : o = none := by
      rcases (hent' st pres o).1 ho with ⟨h, h'⟩ | ⟨-, h, -⟩
      · have := hfr pres (by simp) h
        rw [Sig.entry_accept h'] at this; cases this
      · exact h
    subst this
    obtain ⟨k, l, m, hk, hl, hlm, hlt⟩ := hA.ok pres none ho
    have := ibd_len_pres hl hlm
    obtain rfl : k = 0 := by omega
    exact hk
  have hst : ∀ st, Addr ((Struct.view (.intoBlocksDyn d maj min pres) s).sem .ideal) p.lens st →
      ∀ q ∈ [d, maj, min, pres], q ≠ maj → q ≠ min →
      st (.idx q) = if q = pres then some (.dyn 0) else none := by
    intro st hA q hq h1 h2
    by_cases hqp : q = pres
    · rw [if_pos hqp, hqp]; exact hpres st hA
    rw [if_neg hqp]
    cases hi : st (.idx q) with
    | none => rfl
    | some x =>
      obtain ⟨o, ho⟩ := hA.only q (by simp [hi])
      rcases (hent' st q o).1 ho with ⟨h, -⟩ | ⟨h, -⟩
      · simp [h1, h2, h, hqp] at hq
      · simp [h1, h2, hqp] at h
  rcases h with ⟨h1, h2, h3, h⟩ | ⟨⟨nl, n, hnl, hn, h0⟩, h⟩
  · refine rng_blocks_free hc hp (fun q => if q = pres then some (.dyn 0) else none) (fun st hA q hq hpq => ?_)
      (fun q hq => ?_) h3 h
    · exact hst st hA q hq (fun e => hpq (e ▸ h1)) (fun e => hpq (e ▸ h2))
    · by_cases hqd : q = d
      · subst hqd; exact ibd_sub_none hp h2
      · exact hcl q hq hqd
  · exact rng_blocks hc hp (by simp [View.dims]) (by simp [View.dims]) (by simp [View.dims]) hne
      (fun q => if q = pres then some (.dyn 0) else none) hst
      (blockIdx_of (ds := [maj, min, pres]) (nl := nl) hd (by simp) (by simp) hfr hent'
        (fun st l h1 h2 => ibd_len_min hmp h2 h1)
        hnl hn (fun st u h1 h2 => ibd_sub_none h1 h2) (fun st u i j h1 h2 h3 h4 => ibd_sub_both h1 h2 hn h0 h3 h4))
      hcl (fun h => ibd_sub_none hp h) (fun i j h1 h2 => ibd_sub_both hp hnl hn h0 h1 h2) h

end

/-! ### All together -/

theorem isContig_step {A : Arith} {s : Struct} {d : Dim} {a n : Val} {p : State}
    (h : (Struct.view (.step d a n) s).isContig A p = true) : p.has (.idx d) = true := by
  simp only [Struct.isContig, Bool.and_eq_true] at h
  exact h.1

theorem chain_rng {s : Struct} {p : State} {nx : Option Dim} (hw : s.wf .ideal) (hn : s.noDup .ideal) (ht : s.tame)
    (h : s.chain p nx) (hi : s.isContig .ideal p = true) : Rng s p nx := by
  induction s generalizing p nx with
  | scalar z a => exact rng_scalar h
  | union n ss => simp [Struct.isContig] at hi
  | tuple t n fs ih =>
    rcases h with ⟨rfl, hno, hwh⟩ | ⟨k, hk, hx, hch, hnx, als, zs, hz⟩
    · exact ⟨(Struct.whole_fills hw hn ht hwh hno (fun _ => rfl) hi).total.mono fun _ _ _ => trivial,
        (Struct.whole_fills hw hn ht hwh hno (fun _ => rfl) hi).range.congr fun u hu => ⟨fun _ => given_noIdx hno, fun _ => trivial⟩,
        fun _ h => by simp at h, fun _ h => by simp at h⟩
    · refine rng_tuple_given hk (not_accept_tuple hw) (hn.2 _).uniq hx hnx hz
        (ih _ (hw.2 _) (hn.2 _) (ht _) hch ?_)
      simpa [Struct.isContig, State.has, hx, constIdx, hk] using hi
  | vector d s ih =>
    rcases h with ⟨hnx, hno, hwh⟩ | ⟨hp, hnx, hz, hch⟩
    · simp only [Struct.isContig, Bool.and_eq_true] at hi
      exact rng_vector_whole (not_accept_vector hw) hwh.1 (Struct.whole_fills hw.2 hn.2 ht hwh.2
        (p := p.removeAll [.idx d, .len d])
        (fun q => by simp only [State.removeAll]; split <;> first | rfl | exact hno q)
        (fun q => by simp [State.removeAll, Lens.remove, State.lens]) hi.2) hno hnx
    · refine rng_vector_given (not_accept_vector hw) hn.2.uniq hp hnx hz (ih hw.2 hn.2 ht hch ?_)
      simp only [Struct.isContig, Bool.and_eq_true] at hi
      exact hi.2
  | view v s ih =>
    rcases h with h | ⟨d, rfl, hnx, h⟩ | ⟨ha, hm, h⟩
    · rw [isContig_ruledOut h] at hi; cases hi
    · obtain ⟨u, hu, hiu⟩ := isContig_sub hi
      cases hu
      exact rng_bcast (not_accept_bcast hn.uniq) hnx (ih hw.2 hn.2 ht.1 h hiu)
    obtain ⟨u, hu, hiu⟩ := isContig_sub hi
    have h' := h u hu
    have hn' := hn.2.uniq
    have ih' : ∀ {nx}, s.chain u nx → Rng s u nx := fun h => ih hw.2 hn.2 ht.1 h hiu
    cases v with
    | setLength d l => exact rng_same ht hw.1 hn' hn.uniq hm ha trivial rfl (fun _ => trivial) hu (ih' h')
    | reorder ds => exact rng_same ht hw.1 hn' hn.uniq hm ha trivial rfl (fun _ => trivial) hu (ih' h')
    | hoist d => exact rng_same ht hw.1 hn' hn.uniq hm ha trivial rfl (fun _ => trivial) hu (ih' h')
    | rename ps =>
      obtain ⟨nx', h1, h2, h3⟩ := h'
      exact rng_rename ht hw.1 hn' hn.uniq hm hu h2 h3 (ih' h1)
    | reverse d =>
      obtain ⟨h1, N, h2, h3⟩ := h'
      exact rng_reverse ht hw.1 hn' hn.uniq hm ha hu h2 h3 (ih' h1)
    | slice d a n =>
      exact rng_slice ht hw.1 hn' hn.uniq hm ha hu
        (h'.imp (fun ⟨a, b, c⟩ => ⟨a, b, ih' c⟩) (fun ⟨a, b, c⟩ => ⟨a, b, ih' c⟩))
    | span d a n =>
      exact rng_span ht hw.1 hn' hn.uniq hm ha hu
        (h'.imp (fun ⟨a, b, c⟩ => ⟨a, b, ih' c⟩) (fun ⟨a, b, c⟩ => ⟨a, b, ih' c⟩))
    | shift d a =>
      exact rng_shift ht hw.1 hn' hn.uniq hm ha hu
        (h'.imp (fun ⟨a, b, c⟩ => ⟨a, b, ih' c⟩) (fun ⟨a, b, c⟩ => ⟨a, b, ih' c⟩))
    | step d a n => exact rng_step ht hw.1 hn' hn.uniq hm ha hu (isContig_step hi) h'.1 (ih' h'.2)
    | fix d i => exact rng_fix ht hw.1 hn' hn.uniq hm ha hu h'.1 (ih' h'.2)
    | intoBlocks d maj min =>
      refine rng_ib ht hw.1 hn' hn.uniq hm ha hu ?_
      unfold chainBlocks at h' ⊢
      grind
    | intoBlocksDyn d maj min pres =>
      refine rng_ibd ht hw.1 hn' hn.uniq hm ha h'.1 hu ?_
      have h' := h'.2
      unfold chainBlocks at h' ⊢
      grind
    | bcast d => exact absurd h' id
    | join a b d => exact absurd h' id
    | intoBlocksStat d border maj min nl => exact absurd h' id
    | mergeBlocks maj min d => exact absurd h' id
    | mergeZ a b ds d => exact absurd h' id

end Noarr
