import Verif.AliasMain

/-
Nested vectors, tuples and alignment: helper lemmas for C07, C08 and C09.
-/

set_option linter.unusedVariables false
set_option linter.unusedSimpArgs false

namespace Noarr

/-- All the scalars of the structure have the given alignment. -/
def Struct.allAligned (al : Nat) : Struct → Prop
  | .scalar _ a => a = al
  | .tuple _ _ fs => ∀ i, (fs i).allAligned al
  | .vector _ s => s.allAligned al
  | .union _ ss => ∀ i, (ss i).allAligned al
  | .view _ s => s.allAligned al

/-- The size of every scalar is a multiple of its alignment. The language guarantees this
(`sizeof(T)` is the distance of array elements). -/
def Struct.natural : Struct → Prop
  | .scalar z a => 0 < a ∧ a ∣ z
  | .tuple _ _ fs => ∀ i, (fs i).natural
  | .vector _ s => s.natural
  | .union _ ss => ∀ i, (ss i).natural
  | .view _ s => s.natural

theorem alignAll_mem {st : State} {l : List Sem} {al : Nat} (h : alignAll st l = some al) :
    ∀ S ∈ l, S.align st = some al := by
  induction l with
  | nil => simp
  | cons S l ih =>
    cases l with
    | nil => intro T hT; simp at hT; subst hT; exact h
    | cons S' l =>
      simp only [alignAll, bind, Option.bind_eq_some_iff] at h
      obtain ⟨a, ha, b, hb, he⟩ := h
      split at he
      · next hab =>
        subst hab
        obtain rfl := Option.some.inj he
        intro T hT
        rcases List.mem_cons.1 hT with rfl | hT
        · exact ha
        · exact ih hb T hT
      · simp at he

theorem Struct.align_all {A : Arith} {s : Struct} {st : State} {al : Nat}
    (h : (s.sem A).align st = some al) : s.allAligned al := by
  induction s generalizing st with
  | scalar z a => simpa [sem, scalarSem, allAligned] using h
  | tuple t n fs ih =>
    intro i
    simp only [sem, tupleSem] at h
    exact ih i (alignAll_mem h _ (List.mem_ofFn.2 ⟨i, rfl⟩))
  | vector d s ih => exact ih h
  | union n ss ih => simp [sem, unionSem] at h
  | view v s ih =>
    simp only [sem, ViewSem.toSem] at h
    split at h
    · obtain ⟨u, -, h⟩ := Option.bind_eq_some_iff.1 h
      exact ih h
    · simp at h

theorem sizeAcc_dvd {st : State} {l : List Sem} {al : Nat} {start v : Val} {N : Nat}
    (hl : ∀ S ∈ l, ∀ a v n, S.align st = some a → S.size st = some v → v.Num n → a = al ∧ al ∣ n)
    (hs : ∀ a, start.Num a → al ∣ a) (h : sizeAcc .ideal st l start = some v) (hN : v.Num N) :
    al ∣ N := by
  induction l generalizing start with
  | nil => cases h; exact hs N hN
  | cons S l ih =>
    simp only [sizeAcc, bind, Option.bind_eq_some_iff] at h
    obtain ⟨a, ha, sz, hsz, h⟩ := h
    refine ih (fun S hS => hl S (by simp [hS])) ?_ h
    intro m hm
    obtain ⟨x, y, hx, hy, rfl⟩ := Val.nat?_add.1 hm
    obtain ⟨b, hb, h0, hxe, h1, h2⟩ := round_up hx
    obtain ⟨rfl, hd⟩ := hl S (by simp) a sz y ha hsz hy
    rw [hxe]
    exact Nat.dvd_add (Nat.dvd_mul_left _ _) hd

theorem align_eq_of_all {s : Struct} {A : Arith} {al a : Nat} {st : State} (h : s.allAligned al)
    (ha : (s.sem A).align st = some a) : a = al := by
  induction s generalizing st with
  | scalar z b =>
    simp only [Struct.sem, scalarSem, Option.some.injEq, Struct.allAligned] at h ha
    omega
  | tuple t n fs ih =>
    simp only [Struct.sem, tupleSem] at ha
    cases n with
    | zero => simp [alignAll] at ha
    | succ n => exact ih 0 (h 0) (alignAll_mem ha _ (List.mem_ofFn.2 ⟨0, rfl⟩))
  | vector d s ih => exact ih h ha
  | union n ss ih => simp [Struct.sem, unionSem] at ha
  | view v s ih =>
    simp only [Struct.sem, ViewSem.toSem] at ha
    split at ha
    · obtain ⟨u, -, ha⟩ := Option.bind_eq_some_iff.1 ha
      exact ih h ha
    · simp at ha

theorem size_dvd {s : Struct} {al : Nat} {st : State} {v : Val} {N : Nat} (h : s.allAligned al)
    (hn : s.natural) (hv : (s.sem .ideal).size st = some v) (hN : v.Num N) : al ∣ N := by
  induction s generalizing st v N with
  | scalar z b =>
    simp only [Struct.sem, scalarSem, Option.some.injEq, Struct.allAligned] at h hv
    subst h; subst hv
    have : z = N := by simpa [Val.Num, Val.nat?] using hN
    subst this
    exact hn.2
  | tuple t n fs ih =>
    simp only [Struct.sem, tupleSem] at hv
    refine sizeAcc_dvd ?_ ?_ hv hN
    · intro S hS a v m ha hv hm
      obtain ⟨i, rfl⟩ := List.mem_ofFn.1 hS
      exact ⟨align_eq_of_all (h i) ha, ih i (h i) (hn i) hv hm⟩
    · intro a ha
      have : 0 = a := by simpa [Val.Num, Val.nat?] using ha
      subst this; exact Nat.dvd_zero _
  | vector d s ih =>
    simp only [Struct.sem, vectorSem, bind, Option.bind_eq_some_iff, Option.some.injEq] at hv
    obtain ⟨l, hl, sz, hsz, rfl⟩ := hv
    obtain ⟨L, Z, hL, hZ, rfl⟩ := Val.nat?_mul.1 hN
    exact Nat.dvd_mul_left_of_dvd (ih h hn hsz hZ) L
  | union n ss ih => simp [Struct.sem, unionSem] at hv
  | view v s ih =>
    simp only [Struct.sem, ViewSem.toSem] at hv
    split at hv
    · obtain ⟨u, -, hv⟩ := Option.bind_eq_some_iff.1 hv
      exact ih h hn hv hN
    · simp at hv

/-- An offset that is a number started from a number. -/
theorem off_start {s : Struct} {st : State} {start o : Val} {k : Nat}
    (h : (s.sem .ideal).off st start = some o) (hk : o.Num k) : ∃ a, start.Num a := by
  induction s generalizing st start with
  | scalar z b => cases h; exact ⟨k, hk⟩
  | tuple t n fs ih =>
    simp only [Struct.sem, tupleSem, bind, Option.bind_eq_some_iff] at h
    obtain ⟨j, hj, S, hS, before, hb, h⟩ := h
    rw [hj] at hS
    simp only [Option.some.injEq, exists_eq_left'] at hS
    split at hS
    · obtain rfl := Option.some.inj hS
      obtain ⟨a, ha⟩ := ih _ h
      obtain ⟨x, y, hx, hy, -⟩ := Val.nat?_add.1 ha
      exact ⟨y, hy⟩
    · simp at hS
  | vector d s ih =>
    simp only [Struct.sem, vectorSem, bind, Option.bind_eq_some_iff] at h
    obtain ⟨i, hi, l, hl, h⟩ := h
    split at h
    · exact ih h
    · simp only [Option.bind_eq_some_iff, Option.some.injEq] at h
      obtain ⟨_, -, rfl⟩ := h
      simp [Val.Num, Val.nat?] at hk
    · simp only [Option.bind_eq_some_iff] at h
      obtain ⟨sz, hsz, h⟩ := h
      obtain ⟨a, ha⟩ := ih h
      obtain ⟨x, y, hx, hy, -⟩ := Val.nat?_add.1 ha
      exact ⟨y, hy⟩
  | union n ss ih => simp [Struct.sem, unionSem] at h
  | view v s ih =>
    simp only [Struct.sem, ViewSem.toSem] at h
    split at h
    · obtain ⟨u, -, h⟩ := Option.bind_eq_some_iff.1 h
      exact ih h
    · simp at h

theorem off_dvd {s : Struct} {al : Nat} {st : State} {start o : Val} {a k : Nat} (h : s.allAligned al)
    (hn : s.natural) (ha : start.Num a) (hd : al ∣ a)
    (ho : (s.sem .ideal).off st start = some o) (hk : o.Num k) : al ∣ k := by
  induction s generalizing st start a with
  | scalar z b =>
    cases ho
    have := Val.Num.eq ha hk
    subst this; exact hd
  | tuple t n fs ih =>
    simp only [Struct.sem, tupleSem, bind, Option.bind_eq_some_iff] at ho
    obtain ⟨j, hj, S, hS, before, hb, ho⟩ := ho
    rw [hj] at hS
    simp only [Option.some.injEq, exists_eq_left'] at hS
    split at hS
    · obtain rfl := Option.some.inj hS
      obtain ⟨c, hc⟩ := off_start (s := fs _) ho hk
      obtain ⟨x, y, hx, hy, rfl⟩ := Val.nat?_add.1 hc
      have := Val.Num.eq hy ha
      subst this
      refine ih _ (h _) (hn _) hc ?_ ho
      refine Nat.dvd_add (sizeAcc_dvd ?_ ?_ hb hx) hd
      · intro S hS a v m ha hv hm
        obtain ⟨i, rfl⟩ := List.mem_ofFn.1 (List.mem_of_mem_take hS)
        exact ⟨align_eq_of_all (h i) ha, size_dvd (h i) (hn i) hv hm⟩
      · intro a ha
        have : 0 = a := by simpa [Val.Num, Val.nat?] using ha
        subst this; exact Nat.dvd_zero _
    · simp at hS
  | vector d s ih =>
    simp only [Struct.sem, vectorSem, bind, Option.bind_eq_some_iff] at ho
    obtain ⟨i, hi, l, hl, ho⟩ := ho
    split at ho
    · exact ih h hn ha hd ho
    · simp only [Option.bind_eq_some_iff, Option.some.injEq] at ho
      obtain ⟨_, -, rfl⟩ := ho
      simp [Val.Num, Val.nat?] at hk
    · simp only [Option.bind_eq_some_iff] at ho
      obtain ⟨sz, hsz, ho⟩ := ho
      obtain ⟨c, hc⟩ := off_start (s := s) ho hk
      obtain ⟨x, y, hx, hy, rfl⟩ := Val.nat?_add.1 hc
      obtain ⟨I, Z, hI, hZ, rfl⟩ := Val.nat?_mul.1 hx
      have := Val.Num.eq hy ha
      subst this
      exact ih h hn hc (Nat.dvd_add (Nat.dvd_mul_left_of_dvd (size_dvd (s := s) h hn hsz hZ) I) hd) ho
  | union n ss ih => simp [Struct.sem, unionSem] at ho
  | view v s ih =>
    simp only [Struct.sem, ViewSem.toSem] at ho
    split at ho
    · obtain ⟨u, -, ho⟩ := Option.bind_eq_some_iff.1 ho
      exact ih h hn ha hd ho
    · simp at ho

end Noarr
