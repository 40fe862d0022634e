import Verif.Striped
import Verif.Inside

/-
Lemmas on striped structures, for C44.
-/

set_option linter.unusedVariables false
set_option linter.unusedSimpArgs false

namespace Noarr

theorem padToMultiple_spec (v : Nat) {m : Nat} (hm : 0 < m) :
    v ≤ padToMultiple v m ∧ m ∣ padToMultiple v m ∧ padToMultiple v m < v + m := by
  have h1 := Nat.div_add_mod (v + m - 1) m
  have h2 := Nat.mod_lt (v + m - 1) hm
  have h3 := Nat.div_mul_le_self (v + m - 1) m
  rw [Nat.mul_comm] at h1
  refine ⟨?_, Nat.dvd_mul_left _ _, ?_⟩ <;> unfold padToMultiple <;> omega

namespace Stripes

/-- What the constants of the class have in common. -/
structure Ok (p : Stripes) : Prop where
  num : 0 < p.num
  elem : 0 < p.elem
  banks : 0 < p.banks
  width : 0 < p.width
  elem_le : p.elem ≤ p.padded
  cells : p.width ∣ p.padded
  fit : p.padded * p.num ≤ p.total
  period : p.banks * p.width ∣ p.total
  elems : 0 < p.widthElems
  stripe_le : p.stripeWidth ≤ p.padded
  stripe : 0 < p.stripeWidth

theorem ok_of_compiles {p : Stripes} (h : p.compiles = true) : p.Ok := by
  simp only [compiles, Bool.and_eq_true, bne_iff_ne, ne_eq] at h
  obtain ⟨⟨⟨h1, h2⟩, h3⟩, h4⟩ := h
  have w := padToMultiple_spec p.elem (show 0 < p.width by omega)
  have t := padToMultiple_spec (p.padded * p.num)
    (show 0 < p.banks * p.width from Nat.mul_pos (by omega) (by omega))
  have e : p.elem ≤ p.padded := by
    unfold padded; split <;> omega
  have k : 0 < p.widthElems := Nat.div_pos e (by omega)
  refine ⟨by omega, by omega, by omega, by omega, e, ?_, t.1, t.2.1, k, Nat.div_mul_le_self _ _,
    Nat.mul_pos k (by omega)⟩
  unfold padded
  split
  · exact w.2.1
  · exact Nat.dvd_mul_left _ _

/-- The place of the byte `o` of the original structure in the stripe `k`. -/
def place (p : Stripes) (k o : Nat) : Nat :=
  o / p.stripeWidth * p.total + k * p.padded + o % p.stripeWidth

/-- The bytes that belong to the stripe `k` in the period `j`. -/
def Owns (p : Stripes) (j k x : Nat) : Prop :=
  j * p.total + k * p.padded ≤ x ∧ x < j * p.total + (k + 1) * p.padded

/-- An element does not cross the end of the stripe. -/
theorem Ok.within {p : Stripes} (h : p.Ok) {o e : Nat} (he : o % p.elem + e ≤ p.elem) :
    o % p.stripeWidth + e ≤ p.stripeWidth := by
  have hm : o % p.stripeWidth = o % p.elem + p.elem * (o / p.elem % p.widthElems) := by
    rw [stripeWidth, Nat.mul_comm, Nat.mod_mul]
  have hlt := Nat.mod_lt (o / p.elem) h.elems
  have := Nat.mul_le_mul_left p.elem hlt
  rw [Nat.mul_succ] at this
  have e2 : p.stripeWidth = p.elem * p.widthElems := Nat.mul_comm _ _
  omega

theorem Ok.owns {p : Stripes} (h : p.Ok) {o e k x : Nat} (he : o % p.elem + e ≤ p.elem)
    (h1 : p.place k o ≤ x) (h2 : x < p.place k o + e) : p.Owns (o / p.stripeWidth) k x := by
  have := h.within he
  have := h.stripe_le
  have e2 : (k + 1) * p.padded = k * p.padded + p.padded := Nat.succ_mul _ _
  unfold place at h1 h2
  constructor <;> omega

/-- Where a byte of a stripe is, counted in bank cells. -/
theorem Ok.cell {p : Stripes} (h : p.Ok) {j k x : Nat} (hk : k < p.num) (hx : p.Owns j k x) :
    ∃ P c i, p.padded = P * p.width ∧ p.total = p.banks * c * p.width ∧ i < P ∧ 0 < P ∧
      k * P + i < p.banks * c ∧ x / p.width = j * (p.banks * c) + (k * P + i) := by
  obtain ⟨P, hP⟩ := h.cells
  obtain ⟨c, hc⟩ := h.period
  have hP' : p.padded = P * p.width := by rw [hP, Nat.mul_comm]
  have hc' : p.total = p.banks * c * p.width := by rw [hc, Nat.mul_assoc, Nat.mul_assoc, Nat.mul_comm c]
  obtain ⟨h1, h2⟩ := hx
  have e1 : j * p.total + k * p.padded = (j * (p.banks * c) + k * P) * p.width := by
    rw [hP', hc', Nat.add_mul, Nat.mul_assoc j, Nat.mul_assoc k]
  have e2 : j * p.total + (k + 1) * p.padded = (j * (p.banks * c) + k * P + P) * p.width := by
    rw [Nat.succ_mul, Nat.add_mul, ← e1, ← hP', Nat.add_assoc]
  rw [e1] at h1
  rw [e2] at h2
  have g1 := (Nat.le_div_iff_mul_le h.width).2 h1
  have g2 := (Nat.div_lt_iff_lt_mul h.width).2 h2
  have hfit : P * p.num ≤ p.banks * c := by
    have := h.fit
    rw [hP', hc', Nat.mul_right_comm] at this
    exact Nat.le_of_mul_le_mul_right this h.width
  have hle : (k + 1) * P ≤ P * p.num := by
    rw [Nat.mul_comm P]; exact Nat.mul_le_mul_right _ hk
  rw [Nat.succ_mul] at hle
  refine ⟨P, c, x / p.width - (j * (p.banks * c) + k * P), hP', hc', by omega, by omega, by omega, by omega⟩

theorem cell_inj {P k k' i i' : Nat} (hi : i < P) (hi' : i' < P) (e : k * P + i = k' * P + i') : k = k' := by
  have h0 : 0 < P := by omega
  have h1 : (k * P + i) / P = k := by
    rw [Nat.mul_comm, Nat.mul_add_div h0, Nat.div_eq_of_lt hi, Nat.add_zero]
  have h2 : (k' * P + i') / P = k' := by
    rw [Nat.mul_comm, Nat.mul_add_div h0, Nat.div_eq_of_lt hi', Nat.add_zero]
  rw [← h1, ← h2, e]

/-- Bytes in the same bank cell belong to the same stripe. -/
theorem Ok.same_stripe {p : Stripes} (h : p.Ok) {j j' k k' x x' : Nat} (hk : k < p.num) (hk' : k' < p.num)
    (hx : p.Owns j k x) (hx' : p.Owns j' k' x') (e : x / p.width = x' / p.width) : k = k' := by
  obtain ⟨P, c, i, hP, hc, hi, h0, hlt, hw⟩ := h.cell hk hx
  obtain ⟨P', c', i', hP', hc', hi', -, hlt', hw'⟩ := h.cell hk' hx'
  have eP : P = P' := Nat.eq_of_mul_eq_mul_right h.width (hP.symm.trans hP')
  have ec : p.banks * c = p.banks * c' := Nat.eq_of_mul_eq_mul_right h.width (hc.symm.trans hc')
  subst eP
  rw [← ec] at hlt' hw'
  rw [hw, hw'] at e
  have := congrArg (· % (p.banks * c)) e
  simp only [Nat.mul_comm _ (p.banks * c), Nat.mul_add_mod, Nat.mod_eq_of_lt hlt, Nat.mod_eq_of_lt hlt'] at this
  exact cell_inj hi hi' this

/-- Bytes of different stripes in the same bank are in different rows of the banks. -/
theorem Ok.row {p : Stripes} (h : p.Ok) {j j' k k' x x' : Nat} (hk : k < p.num) (hk' : k' < p.num)
    (hx : p.Owns j k x) (hx' : p.Owns j' k' x')
    (e : x / p.width % p.banks = x' / p.width % p.banks)
    (er : x / p.width / p.banks % p.maxConflict = x' / p.width / p.banks % p.maxConflict) : k = k' := by
  obtain ⟨P, c, i, hP, hc, hi, h0, hlt, hw⟩ := h.cell hk hx
  obtain ⟨P', c', i', hP', hc', hi', -, hlt', hw'⟩ := h.cell hk' hx'
  have eP : P = P' := Nat.eq_of_mul_eq_mul_right h.width (hP.symm.trans hP')
  have ec : c = c' := Nat.eq_of_mul_eq_mul_left h.banks (Nat.eq_of_mul_eq_mul_right h.width (hc.symm.trans hc'))
  subst eP; subst ec
  have em : p.maxConflict = c := by
    rw [maxConflict, hc, Nat.mul_right_comm, Nat.mul_comm (p.banks * p.width)]
    exact Nat.mul_div_cancel _ (Nat.mul_pos h.banks h.width)
  rw [em] at er
  have key : ∀ w a, a < p.banks * c → w % (p.banks * c) = w % p.banks + p.banks * (w / p.banks % c) :=
    fun w a _ => Nat.mod_mul
  have : x / p.width % (p.banks * c) = x' / p.width % (p.banks * c) := by
    rw [key _ _ hlt, key _ _ hlt', e, er]
  rw [hw, hw'] at this
  simp only [Nat.mul_comm _ (p.banks * c), Nat.mul_add_mod, Nat.mod_eq_of_lt hlt, Nat.mod_eq_of_lt hlt'] at this
  exact cell_inj hi hi' this

/-- At least one row. -/
theorem Ok.conflict_pos {p : Stripes} (h : p.Ok) : 0 < p.maxConflict := by
  refine Nat.div_pos ?_ (Nat.mul_pos h.banks h.width)
  refine Nat.le_of_dvd ?_ h.period
  have := h.fit
  have := h.elem_le
  have := h.elem
  exact Nat.lt_of_lt_of_le (Nat.mul_pos (by omega) h.num) h.fit

end Stripes

/-- Pigeonholes. -/
theorem nodup_length_le : ∀ (c : Nat) (l : List Nat), l.Nodup → (∀ x ∈ l, x < c) → l.length ≤ c
  | 0, [], _, _ => Nat.le_refl _
  | 0, x :: l, _, h => absurd (h x (by simp)) (by omega)
  | c + 1, l, hn, h => by
    have h1 := nodup_length_le c (l.erase c) (hn.erase c) (by
      intro x hx
      have := (hn.mem_erase_iff.1 hx)
      have := h x this.2
      omega)
    have := List.length_erase (a := c) (l := l)
    split at this <;> omega

/-! ### Structures of elements of one size -/

/-- All the scalars of the structure have the size `E` and an alignment that divides it. -/
def Struct.grid (E : Nat) : Struct → Prop
  | .scalar z a => z = E ∧ a ∣ E
  | .tuple _ n fs => ∀ i : Fin n, (fs i).grid E
  | .vector _ s => s.grid E
  | .union n ss => ∀ i : Fin n, (ss i).grid E
  | .view _ s => s.grid E

theorem alignAll_dvd {E : Nat} {st : State} {l : List Sem} {al : Nat}
    (hl : ∀ S ∈ l, ∀ al, S.align st = some al → al ∣ E) (h : alignAll st l = some al) : al ∣ E := by
  match l with
  | [] => cases h
  | [S] => exact hl S (by simp) _ h
  | S :: T :: l =>
    simp only [alignAll, bind, Option.bind_eq_some_iff] at h
    obtain ⟨a, ha, b, hb, h⟩ := h
    split at h
    · obtain rfl := Option.some.inj h
      exact hl S (by simp) _ ha
    · cases h

theorem Struct.grid_align {E : Nat} (s : Struct) (hg : s.grid E) {st : State} {al : Nat}
    (h : (s.sem .ideal).align st = some al) : al ∣ E := by
  induction s generalizing st al with
  | scalar z a => cases h; exact hg.2
  | tuple t n fs ih =>
    refine alignAll_dvd ?_ h
    intro S hS al hal
    obtain ⟨i, rfl⟩ := List.mem_ofFn.1 hS
    exact ih i (hg i) hal
  | vector d s ih => exact ih hg h
  | union n ss ih => cases h
  | view v s ih =>
    simp only [Struct.sem, ViewSem.toSem] at h
    split at h
    · simp only [Option.bind_eq_some_iff] at h
      obtain ⟨u, hu, h⟩ := h
      exact ih hg h
    · cases h

theorem sizeAcc_grid {E : Nat} {st : State} {l : List Sem} {start v : Val} {a N : Nat}
    (hl : ∀ S ∈ l, (∀ al, S.align st = some al → al ∣ E) ∧ ∀ w n, S.size st = some w → w.Num n → E ∣ n)
    (hs : start.Num a) (ha : E ∣ a) (h : sizeAcc .ideal st l start = some v) (hv : v.Num N) : E ∣ N := by
  induction l generalizing start a with
  | nil => cases h; rw [Val.Num.eq hv hs]; exact ha
  | cons S l ih =>
    simp only [sizeAcc, bind, Option.bind_eq_some_iff] at h
    obtain ⟨al, hal, sz, hsz, h⟩ := h
    obtain ⟨m, hm, -⟩ := sizeAcc_mono h hv
    obtain ⟨x, y, hx, hy, rfl⟩ := Val.nat?_add.1 hm
    obtain ⟨a', ha', h0, hxe, h1, h2⟩ := round_up hx
    have := Val.Num.eq ha' hs
    subst this
    have hx' : x = a' := by
      obtain ⟨c, hc⟩ := Nat.dvd_trans ((hl S (by simp)).1 al hal) ha
      have e : a' + al - 1 = al * c + (al - 1) := by omega
      rw [hxe, e, Nat.mul_add_div h0, Nat.div_eq_of_lt (by omega), hc, Nat.add_zero, Nat.mul_comm]
    subst hx'
    exact ih (fun S hS => hl S (by simp [hS])) hm
      (Nat.dvd_add ha ((hl S (by simp)).2 sz y hsz hy)) h

theorem Struct.grid_size {E : Nat} (s : Struct) (hg : s.grid E) {st : State} {v : Val} {n : Nat}
    (h : (s.sem .ideal).size st = some v) (hv : v.Num n) : E ∣ n := by
  induction s generalizing st v n with
  | scalar z a =>
    cases h
    have : n = z := by simpa [Val.Num, Val.nat?, eq_comm] using hv
    rw [this, hg.1]; exact Nat.dvd_refl _
  | tuple t k fs ih =>
    refine sizeAcc_grid ?_ (show (Val.lit 0).Num 0 from rfl) (Nat.dvd_zero _) h hv
    intro S hS
    obtain ⟨i, rfl⟩ := List.mem_ofFn.1 hS
    exact ⟨fun al => (fs i).grid_align (hg i), fun w n hw hn => ih i (hg i) hw hn⟩
  | vector d s ih =>
    simp only [Struct.sem, vectorSem, bind, Option.bind_eq_some_iff, Option.some.injEq] at h
    obtain ⟨l, hl, sz, hsz, rfl⟩ := h
    obtain ⟨L, Z, hL, hZ, rfl⟩ := Val.nat?_mul.1 hv
    exact Nat.dvd_trans (ih hg hsz hZ) (Nat.dvd_mul_left _ _)
  | union n ss ih => cases h
  | view v s ih =>
    simp only [Struct.sem, ViewSem.toSem] at h
    split at h
    · simp only [Option.bind_eq_some_iff] at h
      obtain ⟨u, hu, h⟩ := h
      exact ih hg h hv
    · cases h

/-- The offset is at least the given start, if it is a number. -/
theorem Struct.start_num (s : Struct) {st : State} {start o : Val} {k : Nat}
    (h : (s.sem .ideal).off st start = some o) (hk : o.Num k) : ∃ a, start.Num a := by
  induction s generalizing st start with
  | scalar z a => cases h; exact ⟨_, hk⟩
  | tuple t n fs ih =>
    simp only [Struct.sem, tupleSem, bind, Option.bind_eq_some_iff] at h
    obtain ⟨k, hk', S, hS, before, hb, ho⟩ := h
    rw [hk'] at hS
    simp only [Option.some.injEq, exists_eq_left'] at hS
    by_cases hkn : k < n
    · simp only [hkn, ↓reduceDIte, Option.some.injEq] at hS
      subst hS
      obtain ⟨a, ha⟩ := ih _ ho
      obtain ⟨x, y, hx, hy, rfl⟩ := Val.nat?_add.1 ha
      exact ⟨y, hy⟩
    · simp [hkn] at hS
  | vector d s ih =>
    simp only [Struct.sem, vectorSem, bind, Option.bind_eq_some_iff, Option.some.injEq] at h
    obtain ⟨i, hi, l, hl, h⟩ := h
    split at h
    · exact ih h
    · simp only [bind, Option.bind_eq_some_iff, Option.some.injEq] at h
      obtain ⟨_, _, rfl⟩ := h
      exact absurd hk (by simp [Val.Num, Val.nat?])
    · simp only [bind, Option.bind_eq_some_iff, Option.some.injEq] at h
      obtain ⟨sz, hsz, h⟩ := h
      obtain ⟨a, ha⟩ := ih h
      obtain ⟨x, y, hx, hy, rfl⟩ := Val.nat?_add.1 ha
      exact ⟨y, hy⟩
  | union n ss ih => cases h
  | view v s ih =>
    simp only [Struct.sem, ViewSem.toSem] at h
    split at h
    · simp only [Option.bind_eq_some_iff] at h
      obtain ⟨u, hu, h⟩ := h
      exact ih h
    · cases h

theorem Struct.grid_off {E : Nat} (s : Struct) (hg : s.grid E) {st : State} {start o : Val} {a k : Nat}
    (h : (s.sem .ideal).off st start = some o) (ha : start.Num a) (hE : E ∣ a) (hk : o.Num k) : E ∣ k := by
  induction s generalizing st start a with
  | scalar z a' => cases h; rw [Val.Num.eq hk ha]; exact hE
  | tuple t n fs ih =>
    simp only [Struct.sem, tupleSem, bind, Option.bind_eq_some_iff] at h
    obtain ⟨j, hj, S, hS, before, hb, ho⟩ := h
    rw [hj] at hS
    simp only [Option.some.injEq, exists_eq_left'] at hS
    by_cases hkn : j < n
    · simp only [hkn, ↓reduceDIte, Option.some.injEq] at hS
      subst hS
      obtain ⟨c, hc⟩ := Struct.start_num _ ho hk
      obtain ⟨x, y, hx, hy, rfl⟩ := Val.nat?_add.1 hc
      have := Val.Num.eq ha hy
      subst this
      refine ih _ (hg _) ho hc (Nat.dvd_add ?_ hE)
      refine sizeAcc_grid ?_ (show (Val.lit 0).Num 0 from rfl) (Nat.dvd_zero _) hb hx
      intro S hS
      obtain ⟨i, rfl⟩ := List.mem_ofFn.1 (List.mem_of_mem_take hS)
      exact ⟨fun al => (fs i).grid_align (hg i), fun w n hw hn => (fs i).grid_size (hg i) hw hn⟩
    · simp [hkn] at hS
  | vector d s ih =>
    simp only [Struct.sem, vectorSem, bind, Option.bind_eq_some_iff, Option.some.injEq] at h
    obtain ⟨i, hi, l, hl, h⟩ := h
    split at h
    · exact ih hg h ha hE
    · simp only [bind, Option.bind_eq_some_iff, Option.some.injEq] at h
      obtain ⟨_, _, rfl⟩ := h
      exact absurd hk (by simp [Val.Num, Val.nat?])
    · simp only [bind, Option.bind_eq_some_iff, Option.some.injEq] at h
      obtain ⟨sz, hsz, h⟩ := h
      obtain ⟨c, hc⟩ := Struct.start_num _ h hk
      obtain ⟨x, y, hx, hy, rfl⟩ := Val.nat?_add.1 hc
      have := Val.Num.eq ha hy
      subst this
      obtain ⟨I, Z, hI, hZ, rfl⟩ := Val.nat?_mul.1 hx
      exact ih hg h hc (Nat.dvd_add (Nat.dvd_trans (s.grid_size hg hsz hZ) (Nat.dvd_mul_left _ _)) hE)
  | union n ss ih => cases h
  | view v s ih =>
    simp only [Struct.sem, ViewSem.toSem] at h
    split at h
    · simp only [Option.bind_eq_some_iff] at h
      obtain ⟨u, hu, h⟩ := h
      exact ih hg h ha hE
    · cases h

end Noarr
