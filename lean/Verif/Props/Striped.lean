import Verif.StripedLemmas
import Verif.Props.Bounds

/-
C44: striped structures for the shared memory of a GPU.
-/

set_option linter.unusedVariables false
set_option linter.unusedSimpArgs false

namespace Noarr

/-- In the original structure, the scalar selected by the state occupies the bytes `o` to `o + e`, and they lie
inside one element of the structure that is striped (at its beginning, if the scalar is that element). -/
structure Unstriped (p : Stripes) (s : Struct) (st : State) (o e : Nat) : Prop where
  off : ∃ v, (s.sem .ideal).off st (.lit 0) = some v ∧ v.Num o
  elem : (s.sem .ideal).elem st = some e
  fits : o % p.elem + e ≤ p.elem
  whole : p.whole = true → p.elem ∣ o

/-- In the striped structure, accessed in the given stripe or else that of the thread, the scalar occupies the
bytes `x` to `x + e`. -/
structure Striped (p : Stripes) (s : Struct) (given : Option Val) (thread : Nat) (st : State) (x e : Nat) : Prop where
  off : ∃ v, (p.sem .ideal (p.stripe given thread) (s.sem .ideal)).off st (.lit 0) = some v ∧ v.Num x
  elem : (p.sem .ideal (p.stripe given thread) (s.sem .ideal)).elem st = some e

/-- The stripe that is accessed, one of those that exist. -/
def InStripe (p : Stripes) (given : Option Val) (thread k : Nat) : Prop :=
  (p.stripe given thread).Num k ∧ k < p.num

theorem grid_elem {E : Nat} (s : Struct) (hg : s.grid E) {st : State} {e : Nat}
    (h : (s.sem .ideal).elem st = some e) : e = E := by
  induction s generalizing st with
  | scalar z a => cases h; exact hg.1
  | tuple t n fs ih =>
    simp only [Struct.sem, tupleSem, bind, Option.bind_eq_some_iff] at h
    obtain ⟨S, ⟨k, hk, hS⟩, h⟩ := h
    by_cases hkn : k < n
    · simp only [hkn, ↓reduceDIte, Option.some.injEq] at hS
      subst hS
      exact ih _ (hg _) h
    · simp [hkn] at hS
  | vector d s ih => exact ih hg h
  | union n ss ih => cases h
  | view v s ih =>
    simp only [Struct.sem, ViewSem.toSem, Option.bind_eq_some_iff] at h
    obtain ⟨u, hu, h⟩ := h
    exact ih hg h

/-- C44: the scalars of a structure with one type of scalars, striped by that type (what `cuda_striped` does by
default), always lie as the theorems below require. -/
theorem C44_scalars_are_plain (p : Stripes) (s : Struct) (hg : s.grid p.elem) (st : State) (v : Val) (o e : Nat)
    (hv : (s.sem .ideal).off st (.lit 0) = some v) (ho : v.Num o) (he : (s.sem .ideal).elem st = some e) :
    Unstriped p s st o e := by
  have hd := s.grid_off hg hv (show (Val.lit 0).Num 0 from rfl) (Nat.dvd_zero _) ho
  refine ⟨⟨v, hv, ho⟩, he, ?_, fun _ => hd⟩
  rw [Nat.mod_eq_zero_of_dvd hd, grid_elem s hg he]; omega

theorem Unstriped.place {p : Stripes} {s : Struct} {st : State} {o e : Nat} (hc : p.compiles = true)
    (h : Unstriped p s st o e) {given : Option Val} {thread k : Nat} (hk : (p.stripe given thread).Num k) :
    Striped p s given thread st (p.place k o) e := by
  obtain ⟨v, hv, hn⟩ := h.off
  have ok := Stripes.ok_of_compiles hc
  have hdiv : (v.div .ideal (.lit p.stripeWidth)).Num (o / p.stripeWidth) := Val.num_div hn rfl ok.stripe
  have hmod : (v.mod .ideal (.lit p.stripeWidth)).Num (o % p.stripeWidth) :=
    Val.nat?_mod.2 ⟨_, _, hn, rfl, .inl (Nat.ne_of_gt ok.stripe), rfl⟩
  have hsum := Val.num_add (Val.num_mul hdiv (show (Val.lit p.total).Num p.total from rfl))
    (Val.num_mul hk (show (Val.lit p.padded).Num p.padded from rfl))
  refine ⟨?_, by simp [Stripes.sem, hc, h.elem]⟩
  simp only [Stripes.sem, hc, hv, bind, Option.bind_some, ↓reduceIte]
  by_cases hw : (p.whole && p.widthElems == 1) = true
  · rw [if_pos hw]
    simp only [Bool.and_eq_true, beq_iff_eq] at hw
    refine ⟨_, rfl, ?_⟩
    have e0 : o % p.stripeWidth = 0 := by
      rw [Stripes.stripeWidth, hw.2, Nat.one_mul]
      exact Nat.mod_eq_zero_of_dvd (h.whole hw.1)
    have := Val.num_add hsum (show (Val.lit 0).Num 0 from rfl)
    rwa [Stripes.place, e0]
  · rw [if_neg hw]
    refine ⟨_, rfl, ?_⟩
    have := Val.num_add hsum (Val.num_add (show (Val.lit 0).Num 0 from rfl) hmod)
    rwa [Nat.zero_add] at this

theorem Striped.eq_place {p : Stripes} {s : Struct} {st : State} {o e : Nat} (hc : p.compiles = true)
    (h : Unstriped p s st o e) {given : Option Val} {thread k x e' : Nat} (hk : (p.stripe given thread).Num k)
    (h' : Striped p s given thread st x e') : x = p.place k o ∧ e' = e := by
  obtain ⟨⟨v, hv, hn⟩, he⟩ := h.place hc hk
  obtain ⟨⟨v', hv', hn'⟩, he'⟩ := h'
  rw [hv] at hv'
  obtain rfl := Option.some.inj hv'
  rw [he] at he'
  exact ⟨Val.Num.eq hn' hn, (Option.some.inj he').symm⟩

/-- C44: the offset is available in the striped structure whenever it is in the original one, and the scalar is
of the same size. -/
theorem C44_offsets_available (p : Stripes) (s : Struct) (hc : p.compiles = true) (st : State) (o e : Nat)
    (h : Unstriped p s st o e) (given : Option Val) (thread k : Nat) (hk : InStripe p given thread k) :
    ∃ x, Striped p s given thread st x e :=
  ⟨_, h.place hc hk.1⟩

/-- C44: scalars in different stripes do not have a bank cell (`BankWidth` bytes) in common; in particular, they
do not overlap. -/
theorem C44_stripes_do_not_share_cells (p : Stripes) (s : Struct) (hc : p.compiles = true) (st st' : State)
    (o e o' e' : Nat) (h : Unstriped p s st o e) (h' : Unstriped p s st' o' e') (given given' : Option Val)
    (thread thread' k k' : Nat) (hk : InStripe p given thread k) (hk' : InStripe p given' thread' k') (hkk : k ≠ k')
    (x x' : Nat) (hx : Striped p s given thread st x e) (hx' : Striped p s given' thread' st' x' e') (b b' : Nat)
    (hb : x ≤ b ∧ b < x + e) (hb' : x' ≤ b' ∧ b' < x' + e') :
    b / p.width ≠ b' / p.width := by
  have ok := Stripes.ok_of_compiles hc
  obtain ⟨rfl, -⟩ := hx.eq_place hc h hk.1
  obtain ⟨rfl, -⟩ := hx'.eq_place hc h' hk'.1
  exact fun q => hkk (ok.same_stripe hk.2 hk'.2 (ok.owns h.fits hb.1 hb.2) (ok.owns h'.fits hb'.1 hb'.2) q)

/-- C44: if `max_conflict_size` is 1, no bank serves two stripes: accesses to different stripes never meet in a
bank, whatever the indices. -/
theorem C44_stripes_have_own_banks (p : Stripes) (s : Struct) (hc : p.compiles = true) (hm : p.maxConflict = 1)
    (st st' : State) (o e o' e' : Nat) (h : Unstriped p s st o e) (h' : Unstriped p s st' o' e')
    (given given' : Option Val) (thread thread' k k' : Nat) (hk : InStripe p given thread k)
    (hk' : InStripe p given' thread' k') (hkk : k ≠ k')
    (x x' : Nat) (hx : Striped p s given thread st x e) (hx' : Striped p s given' thread' st' x' e') (b b' : Nat)
    (hb : x ≤ b ∧ b < x + e) (hb' : x' ≤ b' ∧ b' < x' + e') :
    b / p.width % p.banks ≠ b' / p.width % p.banks := by
  have ok := Stripes.ok_of_compiles hc
  obtain ⟨rfl, -⟩ := hx.eq_place hc h hk.1
  obtain ⟨rfl, -⟩ := hx'.eq_place hc h' hk'.1
  refine fun q => hkk (ok.row hk.2 hk'.2 (ok.owns h.fits hb.1 hb.2) (ok.owns h'.fits hb'.1 hb'.2) q ?_)
  rw [hm, Nat.mod_one, Nat.mod_one]

/-- C44: in general, `max_conflict_size` bounds how many stripes a bank serves: of different stripes, each
accessing some scalar, at most so many access the bank. -/
theorem C44_conflicts_are_bounded (p : Stripes) (s : Struct) (hc : p.compiles = true) (bank : Nat)
    (ks : List Nat) (hn : ks.Nodup) (st : Nat → State) (o e x b : Nat → Nat) (given : Nat → Option Val)
    (thread : Nat → Nat) (h : ∀ k ∈ ks, Unstriped p s (st k) (o k) (e k) ∧ InStripe p (given k) (thread k) k ∧
      Striped p s (given k) (thread k) (st k) (x k) (e k) ∧ (x k ≤ b k ∧ b k < x k + e k) ∧
      b k / p.width % p.banks = bank) :
    ks.length ≤ p.maxConflict := by
  have ok := Stripes.ok_of_compiles hc
  have hown : ∀ k ∈ ks, k < p.num ∧ p.Owns (o k / p.stripeWidth) k (b k) := by
    intro k hk
    obtain ⟨h1, h2, h3, h4, -⟩ := h k hk
    obtain ⟨hx, -⟩ := h3.eq_place hc h1 h2.1
    rw [hx] at h4
    exact ⟨h2.2, ok.owns h1.fits h4.1 h4.2⟩
  have hnd : (ks.map fun k => b k / p.width / p.banks % p.maxConflict).Nodup := by
    refine List.nodup_iff_pairwise_ne.2 (List.pairwise_map.2 ?_)
    refine (List.nodup_iff_pairwise_ne.1 hn).imp_of_mem ?_
    intro k k' hk hk' hne q
    obtain ⟨-, -, -, -, hb⟩ := h k hk
    obtain ⟨-, -, -, -, hb'⟩ := h k' hk'
    exact hne (ok.row (hown k hk).1 (hown k' hk').1 (hown k hk).2 (hown k' hk').2 (hb.trans hb'.symm) q)
  have := nodup_length_le p.maxConflict _ hnd (by
    intro y hy
    obtain ⟨k, -, rfl⟩ := List.mem_map.1 hy
    exact Nat.mod_lt _ ok.conflict_pos)
  simpa using this

/-- C44: scalars that do not overlap in the original structure do not overlap in a stripe either, and keep
their order. -/
theorem C44_order_kept_in_stripe (p : Stripes) (s : Struct) (hc : p.compiles = true) (st st' : State)
    (o e o' e' : Nat) (h : Unstriped p s st o e) (h' : Unstriped p s st' o' e') (given given' : Option Val)
    (thread thread' k : Nat) (hk : InStripe p given thread k) (hk' : InStripe p given' thread' k)
    (x x' : Nat) (hx : Striped p s given thread st x e) (hx' : Striped p s given' thread' st' x' e')
    (hlt : o + e ≤ o') : x + e ≤ x' := by
  have ok := Stripes.ok_of_compiles hc
  obtain ⟨rfl, -⟩ := hx.eq_place hc h hk.1
  obtain ⟨rfl, -⟩ := hx'.eq_place hc h' hk'.1
  have hw := ok.within h.fits
  have d1 := Nat.div_add_mod o p.stripeWidth
  have d2 := Nat.div_add_mod o' p.stripeWidth
  have hle : o / p.stripeWidth ≤ o' / p.stripeWidth := Nat.div_le_div_right (by omega)
  unfold Stripes.place
  rcases Nat.eq_or_lt_of_le hle with he | hl
  · rw [he] at d1 ⊢; omega
  · have m := Nat.mul_le_mul_right p.total hl
    rw [Nat.succ_mul] at m
    have f := ok.fit
    have f2 : p.padded ≤ p.padded * p.num := Nat.le_mul_of_pos_right _ ok.num
    have := ok.stripe_le
    omega

/-- C44: the scalar stays inside the size of the striped structure, if the element it is in is inside the size
of the original structure. -/
theorem C44_inside (p : Stripes) (s : Struct) (hc : p.compiles = true) (st : State) (o e : Nat)
    (h : Unstriped p s st o e) (given : Option Val) (thread k : Nat) (hk : InStripe p given thread k) (x : Nat)
    (hx : Striped p s given thread st x e) (size : Val) (N : Nat) (hs : (s.sem .ideal).size st = some size)
    (hN : size.Num N) (hin : (o / p.elem + 1) * p.elem ≤ N) :
    ∃ size' N', (p.sem .ideal (p.stripe given thread) (s.sem .ideal)).size st = some size' ∧ size'.Num N' ∧
      x + e ≤ N' := by
  have ok := Stripes.ok_of_compiles hc
  obtain ⟨rfl, -⟩ := hx.eq_place hc h hk.1
  have hw := ok.within h.fits
  have h1 := Val.num_div hN (show (Val.lit p.elem).Num p.elem from rfl) ok.elem
  have h2 := Val.num_add h1 (show (Val.lit (p.widthElems - 1)).Num (p.widthElems - 1) from rfl)
  have h3 := Val.num_div h2 (show (Val.lit p.widthElems).Num p.widthElems from rfl) ok.elems
  have h4 := Val.num_mul h3 (show (Val.lit p.total).Num p.total from rfl)
  refine ⟨_, _, by simp only [Stripes.sem, hc, hs, bind, Option.bind_some, ↓reduceIte], h4, ?_⟩
  have hlt : o / p.elem < N / p.elem := (Nat.le_div_iff_mul_le ok.elem).2 hin
  have hrow : o / p.stripeWidth < (N / p.elem + (p.widthElems - 1)) / p.widthElems := by
    have e1 : o / p.stripeWidth = o / p.elem / p.widthElems := by
      rw [Nat.div_div_eq_div_mul, Stripes.stripeWidth, Nat.mul_comm]
    rw [e1, ← Nat.add_one_le_iff, ← Nat.add_div_right _ ok.elems]
    have := ok.elems
    exact Nat.div_le_div_right (by omega)
  have m := Nat.mul_le_mul_right p.total hrow
  rw [Nat.succ_mul] at m
  have f := ok.fit
  have f2 : (k + 1) * p.padded ≤ p.padded * p.num := by
    rw [Nat.mul_comm p.padded]; exact Nat.mul_le_mul_right _ hk.2
  rw [Nat.succ_mul] at f2
  have := ok.stripe_le
  unfold Stripes.place
  omega

/-- C44: hence for a structure with one type of scalars, striped by that type, every valid state, and every
stripe, the scalar is inside the striped structure. -/
theorem C44_scalars_inside (p : Stripes) (s : Struct) (hc : p.compiles = true) (hg : s.grid p.elem) (ht : s.tame)
    (hs : s.sane .ideal) (st : State) (hV : Valid .ideal s st) (hp : s.Pre .ideal st) (size o : Val) (N : Nat)
    (hsz : (s.sem .ideal).size st = some size) (hN : size.Num N)
    (ho : (s.sem .ideal).off st (.lit 0) = some o) (given : Option Val) (thread k : Nat)
    (hk : InStripe p given thread k) :
    ∃ x e size' N', Striped p s given thread st x e ∧
      (p.sem .ideal (p.stripe given thread) (s.sem .ideal)).size st = some size' ∧ size'.Num N' ∧ x + e ≤ N' := by
  obtain ⟨n, e, hn, he, hle⟩ := C05_offset_in_bounds s ht hs st hV hp size o N hsz hN ho
  have h := C44_scalars_are_plain p s hg st o n e ho hn he
  obtain ⟨size', N', h1, h2, h3⟩ := C44_inside p s hc st n e h given thread k hk _ (h.place hc hk.1) size N hsz hN (by
    have := h.fits
    have d := Nat.div_add_mod n p.elem
    have hE := grid_elem s hg he
    rw [Nat.succ_mul, Nat.mul_comm]
    omega)
  exact ⟨_, e, size', N', h.place hc hk.1, h1, h2, h3⟩

/-- C44: the distance between a scalar in a stripe and the same scalar in the next stripe is the same for all
stripes and all states. -/
theorem C44_constant_stripe_distance (p : Stripes) (s : Struct) (hc : p.compiles = true) :
    ∃ D, ∀ (st : State) (o e : Nat), Unstriped p s st o e → ∀ (given given' : Option Val) (thread thread' k : Nat),
      InStripe p given thread k → InStripe p given' thread' (k + 1) → ∀ x x' : Nat,
      Striped p s given thread st x e → Striped p s given' thread' st x' e → x' = x + D := by
  refine ⟨p.padded, ?_⟩
  intro st o e h given given' thread thread' k hk hk' x x' hx hx'
  obtain ⟨rfl, -⟩ := hx.eq_place hc h hk.1
  obtain ⟨rfl, -⟩ := hx'.eq_place hc h hk'.1
  unfold Stripes.place
  rw [Nat.succ_mul]; omega

/-- C44: without an explicit stripe, a thread accesses one of the stripes, namely the one that
`current_stripe_index` reports. -/
theorem C44_threads_use_their_stripe (p : Stripes) (hc : p.compiles = true) (thread : Nat) :
    InStripe p none thread (p.stripeIndex thread) :=
  ⟨rfl, Nat.mod_lt _ (Stripes.ok_of_compiles hc).num⟩

/-- C44: stripes are free of bank conflicts (`max_conflict_size` is 1) exactly if there are enough banks for one element
of each stripe; an element takes as many whole banks as its size needs. -/
theorem C44_conflict_free_if_there_is_room (p : Stripes) (hc : p.compiles = true) :
    p.maxConflict = 1 ↔ p.num * ((p.elem + p.width - 1) / p.width) ≤ p.banks := by
  have ok := Stripes.ok_of_compiles hc
  have h1 := ok.num
  have h2 := ok.elem
  have h3 := ok.banks
  have h4 := ok.width
  have hbw : 0 < p.banks * p.width := Nat.mul_pos h3 h4
  have hceil : p.elem ≤ (p.elem + p.width - 1) / p.width * p.width := (padToMultiple_spec p.elem h4).1
  have hone : p.maxConflict = 1 ↔ p.padded * p.num ≤ p.banks * p.width := by
    have hpos : 0 < p.padded * p.num := Nat.mul_pos (Nat.lt_of_lt_of_le h2 ok.elem_le) h1
    unfold Stripes.maxConflict Stripes.total padToMultiple
    rw [Nat.mul_div_cancel _ hbw, Nat.div_eq_iff hbw]
    omega
  rw [hone]
  generalize hm : (p.elem + p.width - 1) / p.width = m at *
  constructor
  · intro h
    have hp : m * p.width ≤ p.padded := by
      obtain ⟨k, hk⟩ := ok.cells
      rw [hk, Nat.mul_comm p.width k]
      refine Nat.mul_le_mul_right _ ?_
      have : p.elem ≤ k * p.width := by rw [Nat.mul_comm, ← hk]; exact ok.elem_le
      rw [← hm, ← Nat.lt_succ_iff, Nat.div_lt_iff_lt_mul h4, Nat.succ_mul]
      omega
    have := Nat.le_trans (Nat.mul_le_mul_right p.num hp) h
    rw [Nat.mul_right_comm] at this
    rw [Nat.mul_comm]
    exact Nat.le_of_mul_le_mul_right this h4
  · intro h
    have hb : m ≤ p.banks / p.num := by
      rw [Nat.le_div_iff_mul_le h1, Nat.mul_comm]; exact h
    have ht : p.elem ≤ p.tmpPadded := Nat.le_trans hceil (Nat.mul_le_mul_right _ hb)
    rw [Stripes.padded, if_neg (by omega), Stripes.tmpPadded, Nat.mul_right_comm]
    exact Nat.mul_le_mul_right _ (Nat.div_mul_le_self _ _)

/-- C44: the threads of a block that use the same stripe are numbered by `current_stripe_cg` from zero to the
number of them, each number once. -/
theorem C44_threads_of_a_stripe (p : Stripes) (hc : p.compiles = true) (block thread : Nat) (ht : thread < block)
    (r : Nat) :
    r < p.numThreads block thread ↔
      ∃ t, (t < block ∧ p.stripeIndex t = p.stripeIndex thread ∧ p.threadRank t = r) ∧
        ∀ t', t' < block → p.stripeIndex t' = p.stripeIndex thread → p.threadRank t' = r → t' = t := by
  have h0 := (Stripes.ok_of_compiles hc).num
  have hm := Nat.mod_lt thread h0
  unfold Stripes.numThreads Stripes.stripeIndex Stripes.threadRank
  rw [← Nat.add_one_le_iff, Nat.le_div_iff_mul_le h0, Nat.succ_mul]
  constructor
  · intro h
    refine ⟨r * p.num + thread % p.num, ⟨by omega, ?_, ?_⟩, ?_⟩
    · rw [Nat.mul_comm, Nat.mul_add_mod, Nat.mod_mod]
    · rw [Nat.mul_comm, Nat.mul_add_div h0, Nat.div_eq_of_lt hm, Nat.add_zero]
    · intro t' _ h1 h2
      have := Nat.div_add_mod t' p.num
      rw [h1, h2, Nat.mul_comm] at this
      omega
  · rintro ⟨t, ⟨h1, h2, h3⟩, -⟩
    have := Nat.div_add_mod t p.num
    rw [h2, h3, Nat.mul_comm] at this
    omega

/-- C44: the lengths are those of the original structure. -/
theorem C44_lengths_unchanged (p : Stripes) (s : Struct) (k : Val) (q : Dim) (st : State) :
    (p.sem .ideal k (s.sem .ideal)).hasLen q st = (s.sem .ideal).hasLen q st ∧
    (p.sem .ideal k (s.sem .ideal)).len q st = (s.sem .ideal).len q st := by
  refine ⟨rfl, ?_⟩
  show guardLen _ _ = _
  cases hl : (s.sem .ideal).len q st with
  | some v => rw [Struct.hasLen_of_len hl]; rfl
  | none =>
    cases (s.sem .ideal).hasLen q st with
    | none => rfl
    | some b => cases b <;> rfl

/-! ### Examples -/

/-- Eight stripes of ints in 32 banks of four bytes: four banks for each stripe, no conflicts. -/
def c44Ints : Stripes := ⟨8, 4, 32, 4, true⟩

/-- A histogram of 10 ints. -/
def c44Hist : Struct := Struct.apply (.vector 0 (.scalar 4 4)) [.setLength 0 (.lit 10)]

example : c44Ints.compiles = true ∧ c44Ints.maxConflict = 1 ∧ c44Ints.padded = 16 ∧ c44Ints.total = 128 := by
  decide

example : c44Hist.grid 4 := ⟨rfl, ⟨1, rfl⟩⟩

/-- Element 6 in stripes 3 and 4. -/
example : Unstriped c44Ints c44Hist (State.empty.at 0 6) 24 4 ∧
    InStripe c44Ints (some (.lit 3)) 0 3 ∧ InStripe c44Ints none 12 4 ∧
    Striped c44Ints c44Hist (some (.lit 3)) 0 (State.empty.at 0 6) (128 + 48 + 8) 4 ∧
    Striped c44Ints c44Hist none 12 (State.empty.at 0 6) (128 + 64 + 8) 4 := by
  refine ⟨⟨⟨.dyn 24, by decide, rfl⟩, by decide, by decide, by decide⟩, ⟨rfl, by decide⟩, ⟨rfl, by decide⟩,
    ⟨⟨.dyn 184, by decide, rfl⟩, by decide⟩, ⟨⟨.dyn 200, by decide, rfl⟩, by decide⟩⟩

/-- The structure and the state meet the conditions of `C44_scalars_inside`. -/
example : c44Hist.tame ∧ c44Hist.sane .ideal ∧ Valid .ideal c44Hist (State.empty.at 0 6) ∧
    c44Hist.Pre .ideal (State.empty.at 0 6) ∧
    (c44Hist.sem .ideal).size (State.empty.at 0 6) = some (.lit 40) ∧
    (c44Hist.sem .ideal).off (State.empty.at 0 6) (.lit 0) = some (.dyn 24) := by
  refine ⟨by simp [c44Hist, Struct.apply, Struct.tame, View.tame], by simp [c44Hist, Struct.apply, Struct.sane], ?_,
    .below trivial trivial, by decide, by decide⟩
  refine .of_list [0] ?_ (by decide)
  intro q hq; simp at hq; simp [State.at, State.set, State.empty, hq]

/-- 32 stripes of doubles: two rows of banks, so that a bank serves two stripes. -/
example : (⟨32, 8, 32, 4, true⟩ : Stripes).compiles = true ∧ (⟨32, 8, 32, 4, true⟩ : Stripes).maxConflict = 2 := by
  decide

/-- 16 stripes of 8 bytes use all the 32 banks; 10 stripes of 12 bytes need 30 of them. -/
example : (⟨16, 8, 32, 4, true⟩ : Stripes).maxConflict = 1 ∧ (⟨10, 12, 32, 4, true⟩ : Stripes).maxConflict = 1 ∧
    (⟨11, 12, 32, 4, true⟩ : Stripes).maxConflict ≠ 1 := by
  simp only [ne_eq, C44_conflict_free_if_there_is_room _ (show (⟨16, 8, 32, 4, true⟩ : Stripes).compiles = true from rfl),
    C44_conflict_free_if_there_is_room _ (show (⟨10, 12, 32, 4, true⟩ : Stripes).compiles = true from rfl),
    C44_conflict_free_if_there_is_room _ (show (⟨11, 12, 32, 4, true⟩ : Stripes).compiles = true from rfl)]
  decide

/-- Stripes 0 and 16 meet in the bank 0. -/
example : let p : Stripes := ⟨32, 8, 32, 4, true⟩
    let s := Struct.apply (.vector 0 (.scalar 8 8)) [.setLength 0 (.lit 10)]
    ∀ k ∈ [0, 16], Unstriped p s (State.empty.at 0 1) 8 8 ∧ InStripe p (some (.lit k)) 0 k ∧
      Striped p s (some (.lit k)) 0 (State.empty.at 0 1) (256 + 8 * k) 8 ∧
      (256 + 8 * k ≤ 256 + 8 * k ∧ 256 + 8 * k < 256 + 8 * k + 8) ∧ (256 + 8 * k) / p.width % p.banks = 0 := by
  intro p s k hk
  simp only [List.mem_cons, List.not_mem_nil, or_false] at hk
  rcases hk with rfl | rfl
  · refine ⟨⟨⟨.dyn 8, by decide, rfl⟩, by decide, by decide, by decide⟩, ⟨rfl, by decide⟩,
      ⟨⟨.dyn 256, by decide, rfl⟩, by decide⟩, by decide, by decide⟩
  · refine ⟨⟨⟨.dyn 8, by decide, rfl⟩, by decide, by decide, by decide⟩, ⟨rfl, by decide⟩,
      ⟨⟨.dyn 384, by decide, rfl⟩, by decide⟩, by decide, by decide⟩

/-- A block of 30 threads and 8 stripes: four threads in the stripe 5, three in the stripe 6. -/
example : c44Ints.numThreads 30 13 = 4 ∧ c44Ints.numThreads 30 14 = 3 := by decide

end Noarr
