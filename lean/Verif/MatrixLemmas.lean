import Verif.Matrix
import Verif.MemLemmas

/-
Loops, and reading and writing the elements of a matrix in a bag.
-/

namespace Noarr

/-- An invariant of a loop: if every iteration succeeds and takes the invariant for `k` to the one for
`k + 1`, then so does the loop as a whole. -/
theorem forRange_inv {σ : Type} (Inv : Nat → σ → Prop) {lo hi : Nat} {body : Nat → σ → Except Fail σ}
    (hle : lo ≤ hi)
    (h : ∀ k x, lo ≤ k → k < hi → Inv k x → ∃ y, body k x = .ok y ∧ Inv (k + 1) y) {x : σ} (hx : Inv lo x) :
    ∃ y, forRange lo hi body x = .ok y ∧ Inv hi y := by
  have key : ∀ len lo x, lo + len = hi → (∀ k x, lo ≤ k → k < hi → Inv k x → ∃ y, body k x = .ok y ∧ Inv (k + 1) y) →
      Inv lo x → ∃ y, (List.range' lo len).foldlM (fun x i => body i x) x = .ok y ∧ Inv hi y := by
    intro len
    induction len with
    | zero => intro lo x hl _ hx; exact ⟨x, rfl, by rwa [← hl]⟩
    | succ len ih =>
      intro lo x hl h hx
      obtain ⟨y, hy, hI⟩ := h lo x (Nat.le_refl _) (by omega) hx
      obtain ⟨z, hz, hZ⟩ := ih (lo + 1) y (by omega) (fun k x hk => h k x (by omega)) hI
      refine ⟨z, ?_, hZ⟩
      rw [List.range'_succ, List.foldlM_cons, hy]
      exact hz
  exact key (hi - lo) lo x (by omega) h hx

/-- A loop over all pairs of indices, in which each iteration adds the pair to those that are done. -/
theorem forRange₂_inv {σ : Type} (Inv : (Nat → Nat → Prop) → σ → Prop) {X Y : Nat}
    {body : Nat → Nat → σ → Except Fail σ}
    (h : ∀ D i j x, i < X → j < Y → ¬ D i j → Inv D x →
      ∃ y, body i j x = .ok y ∧ Inv (fun a b => D a b ∨ (a = i ∧ b = j)) y)
    (hweak : ∀ D D' x, (∀ a b, a < X → b < Y → (D' a b ↔ D a b)) → Inv D x → Inv D' x) {x : σ}
    (hx : Inv (fun _ _ => False) x) :
    ∃ y, forRange 0 X (fun i x => forRange 0 Y (fun j x => body i j x) x) x = .ok y ∧
      Inv (fun _ _ => True) y := by
  obtain ⟨y, hy, hI⟩ := forRange_inv (lo := 0) (hi := X)
    (body := fun i x => forRange 0 Y (fun j x => body i j x) x) (fun i => Inv fun a _ => a < i) (Nat.zero_le _)
    (fun i x _ hi hx => by
      obtain ⟨y, hy, hI⟩ := forRange_inv (lo := 0) (hi := Y) (body := fun j x => body i j x)
        (fun j => Inv fun a b => a < i ∨ (a = i ∧ b < j)) (Nat.zero_le _)
        (fun j x _ hj hx => by
          obtain ⟨y, hy, hI⟩ := h _ i j x hi hj (by grind) hx
          refine ⟨y, hy, hweak _ _ _ ?_ hI⟩
          intro a b _ _; grind)
        (hweak _ _ _ (by intro a b _ _; grind) hx)
      refine ⟨y, hy, hweak _ _ _ ?_ hI⟩
      intro a b _ _; grind)
    (hweak _ _ _ (by intro a b _ _; grind) hx)
  exact ⟨y, hy, hweak _ _ _ (by intro a b ha _; simp [ha]) hI⟩

/-- What a structure needs to be the layout of an `X` times `Y` matrix of elements of `e` bytes: the
two dimensions have these lengths, all the pairs of indices select an element, and the two indices are all
that is needed for that. -/
structure MatrixLayout (s : Struct) (n m : Dim) (X Y e : Nat) : Prop where
  sound : s.Sound
  size : ∃ v N, (s.sem .ideal).size .empty = some v ∧ v.Num N
  lenN : ∃ v, (s.sem .ideal).len n .empty = some v ∧ v.Num X
  lenM : ∃ v, (s.sem .ideal).len m .empty = some v ∧ v.Num Y
  accessible : ∀ i j, i < X → j < Y → Accessible s (atNM n m i j)
  needs : ∀ i j, i < X → j < Y →
    (s.sem .ideal).sig.needs (atNM n m i j) n ∧ (s.sem .ideal).sig.needs (atNM n m i j) m
  elem : ∀ i j, i < X → j < Y → (s.sem .ideal).elem (atNM n m i j) = some e

/-- A bag with a given structure whose blob is large enough. -/
structure BagFor (s : Struct) (b : Bag) : Prop where
  structure_eq : b.structure_ = s
  large : ∀ v N, (s.sem .ideal).size .empty = some v → v.Num N → N ≤ b.data.length

theorem atNM_idx {n m : Dim} (h : n ≠ m) (i j : Nat) :
    atNM n m i j (.idx n) = some (.dyn i) ∧ atNM n m i j (.idx m) = some (.dyn j) := by
  simp [atNM, State.withAll, State.set, h]

theorem atNM_other {n m q : Dim} (i j : Nat) (h1 : q ≠ n) (h2 : q ≠ m) : atNM n m i j (.idx q) = none := by
  simp [atNM, State.withAll, State.set, State.empty, h1, h2]

section
variable {s : Struct} {n m : Dim} {X Y e : Nat}

theorem MatrixLayout.agree (h : MatrixLayout s n m X Y e) {i j i' j' : Nat} (hi : i < X)
    (hj : j < Y) : Agree s (atNM n m i j) (atNM n m i' j') := by
  intro q _ h1 h2
  have hq1 : q ≠ n := by rintro rfl; exact h1 (h.needs i j hi hj).1
  have hq2 : q ≠ m := by rintro rfl; exact h1 (h.needs i j hi hj).2
  rw [atNM_other i j hq1 hq2, atNM_other i' j' hq1 hq2]

/-- The elements of a matrix can be read and written, and are separate. -/
theorem MatrixLayout.access (h : MatrixLayout s n m X Y e) (hnm : n ≠ m) {b : Bag} (hb : BagFor s b) {i j : Nat}
    (hi : i < X) (hj : j < Y) :
    (∃ x, b.get .ideal (atNM n m i j) = .ok x ∧ x.length = e) ∧
    ∀ x : List UInt8, x.length = e → ∃ b', b.set .ideal (atNM n m i j) x = .ok b' ∧ BagFor s b' ∧
      b'.get .ideal (atNM n m i j) = .ok x ∧
      ∀ i' j', i' < X → j' < Y → ¬ (i' = i ∧ j' = j) →
        b'.get .ideal (atNM n m i' j') = b.get .ideal (atNM n m i' j') := by
  obtain ⟨rfl, hl⟩ := hb
  obtain ⟨v, N, hv, hN⟩ := h.size
  have hl := hl v N hv hN
  obtain ⟨k, e', h1, h2, h3⟩ := (h.accessible i j hi hj).place h.sound hv hN
  rw [h.elem i j hi hj] at h2
  cases h2
  have hke : k + e ≤ b.data.length := by omega
  refine ⟨⟨_, getAt_of_place h1 hke, bytes_length hke⟩, fun x hx => ?_⟩
  refine ⟨⟨b.structure_, patch b.data k e x⟩, ?_, ⟨rfl, ?_⟩, ?_, ?_⟩
  · simp only [Bag.set, setAt_of_place h1 hke hx]; rfl
  · intro v' N' hv' hN'
    have : v' = v := by rw [hv] at hv'; cases hv'; rfl
    subst this
    have : N' = N := by
      have h1 : v'.nat? = some N := hN
      have h2 : v'.nat? = some N' := hN'
      rw [h1] at h2; cases h2; rfl
    simp only [patch_length hke hx]; omega
  · simp only [Bag.get]
    rw [getAt_of_place h1 (by rw [patch_length hke hx]; exact hke), bytes_patch_same hke hx]
  · intro i' j' hi' hj' hne
    obtain ⟨k', e', h1', h2', h3'⟩ := (h.accessible i' j' hi' hj').place h.sound hv hN
    simp only [Bag.get]
    have key : ∀ q, (b.structure_.sem .ideal).sig.needs (atNM n m i j) q →
        ¬ SameNum (atNM n m i j (.idx q)) (atNM n m i' j' (.idx q)) →
        b.structure_.getAt .ideal (patch b.data k e x) (atNM n m i' j') =
          b.structure_.getAt .ideal b.data (atNM n m i' j') := by
      intro q hq hne
      rw [getAt_of_place h1' (by rw [patch_length hke hx]; omega), getAt_of_place h1' (by omega),
        bytes_patch_other hke hx (Accessible.disjoint h.sound (h.accessible i j hi hj)
          (h.accessible i' j' hi' hj') (h.agree hi hj) hv hN h1 h1' (.inl hq) hne)]
    have hdyn : ∀ x y, SameNum (some (Val.dyn x)) (some (Val.dyn y)) → x = y := by
      rintro x y ⟨a, c, k, h1, h2, h3, h4⟩
      cases h1; cases h2; cases h3; cases h4; rfl
    by_cases hii : i' = i
    · refine key m (h.needs i j hi hj).2 fun hs => hne ⟨hii, ?_⟩
      rw [(atNM_idx hnm i j).2, (atNM_idx hnm i' j').2] at hs
      exact (hdyn _ _ hs).symm
    · refine key n (h.needs i j hi hj).1 fun hs => hii ?_
      rw [(atNM_idx hnm i j).1, (atNM_idx hnm i' j').1] at hs
      exact (hdyn _ _ hs).symm

variable {R : Type} {E : ElemType R}

/-- The bag contains the matrix `M`. -/
def Bag.Contains (E : ElemType R) (n m : Dim) (X Y : Nat) (b : Bag) (M : Nat → Nat → R) : Prop :=
  ∀ i j, i < X → j < Y → b.value .ideal E n m i j = .ok (M i j)

theorem MatrixLayout.assign (h : MatrixLayout s n m X Y E.size) (hnm : n ≠ m) {b : Bag} (hb : BagFor s b)
    {i j : Nat} (hi : i < X) (hj : j < Y) (x : R) :
    ∃ b', b.assign .ideal E n m i j x = .ok b' ∧ BagFor s b' ∧ b'.value .ideal E n m i j = .ok x ∧
      ∀ i' j', i' < X → j' < Y → ¬ (i' = i ∧ j' = j) →
        b'.value .ideal E n m i' j' = b.value .ideal E n m i' j' := by
  obtain ⟨b', h1, h2, h3, h4⟩ := (h.access hnm hb hi hj).2 (E.enc x) (E.enc_length x)
  refine ⟨b', h1, h2, ?_, fun i' j' hi' hj' hne => ?_⟩
  · simp only [Bag.value, h3, Except.bind_ok, E.dec_enc]
  · simp only [Bag.value, h4 i' j' hi' hj' hne]

theorem MatrixLayout.make (h : MatrixLayout s n m X Y e) : ∃ b, makeBag .ideal s = .ok b ∧ BagFor s b := by
  obtain ⟨v, N, hv, hN⟩ := h.size
  have hN' : v.nat? = some N := hN
  refine ⟨⟨s, List.replicate N 0⟩, by simp only [makeBag, hv, hN'], rfl, ?_⟩
  intro v' N' hv' h2
  rw [hv] at hv'; cases hv'
  have h2 : v.nat? = some N' := h2
  rw [hN'] at h2; cases h2
  simp

theorem MatrixLayout.lengths (h : MatrixLayout s n m X Y e) {b : Bag} (hb : b.structure_ = s) :
    b.length .ideal n = .ok X ∧ b.length .ideal m = .ok Y := by
  obtain ⟨v, hv, hX⟩ := h.lenN
  obtain ⟨w, hw, hY⟩ := h.lenM
  have hX : v.nat? = some X := hX
  have hY : w.nat? = some Y := hY
  simp only [Bag.length, hb, hv, hw, hX, hY, and_self]

/-- A loop that writes every element once. What it writes may depend on what the element was. -/
theorem MatrixLayout.update (h : MatrixLayout s n m X Y E.size) (hnm : n ≠ m) {b : Bag} (hb : BagFor s b)
    {f : Nat → Nat → Bag → Except Fail R} {M : Nat → Nat → R}
    (hf : ∀ i j c, i < X → j < Y → c.value .ideal E n m i j = b.value .ideal E n m i j →
      f i j c = .ok (M i j)) :
    ∃ b', forRange 0 X (fun i b => forRange 0 Y (fun j b => do b.assign .ideal E n m i j (← f i j b)) b) b = .ok b' ∧
      BagFor s b' ∧ b'.Contains E n m X Y M := by
  obtain ⟨y, hy, h1, h2⟩ := forRange₂_inv (X := X) (Y := Y)
    (body := fun i j b => do b.assign .ideal E n m i j (← f i j b))
    (fun D c => BagFor s c ∧ ∀ i j, i < X → j < Y → (D i j → c.value .ideal E n m i j = .ok (M i j)) ∧
      (¬ D i j → c.value .ideal E n m i j = b.value .ideal E n m i j))
    (fun D i j b hi hj hn ⟨h1, h2⟩ => by
      obtain ⟨b', h3, h4, h5, h6⟩ := h.assign hnm h1 hi hj (M i j)
      refine ⟨b', by rw [hf i j _ hi hj ((h2 i j hi hj).2 hn), Except.bind_ok, h3], h4, ?_⟩
      intro a c ha hc
      by_cases hac : a = i ∧ c = j
      · obtain ⟨rfl, rfl⟩ := hac
        exact ⟨fun _ => h5, fun h => absurd (.inr ⟨rfl, rfl⟩) h⟩
      · rw [h6 a c ha hc hac]
        exact ⟨fun hD => (h2 a c ha hc).1 (hD.resolve_right hac), fun hD => (h2 a c ha hc).2 fun h => hD (.inl h)⟩)
    (fun D D' b hD ⟨h1, h2⟩ => ⟨h1, fun i j hi hj => by rw [hD i j hi hj]; exact h2 i j hi hj⟩)
    (x := b) ⟨hb, fun _ _ _ _ => ⟨fun h => h.elim, fun _ => rfl⟩⟩
  exact ⟨y, hy, h1, fun i j hi hj => (h2 i j hi hj).1 trivial⟩

/-- Swapping two elements. -/
theorem MatrixLayout.swap (h : MatrixLayout s n m X X E.size) (hnm : n ≠ m) {b : Bag} (hb : BagFor s b)
    {i j : Nat} (hi : i < X) (hj : j < X) {M : Nat → Nat → R} (hM : b.Contains E n m X X M) :
    ∃ b', (do
        let value1 ← b.value .ideal E n m i j
        let value2 ← b.value .ideal E n m j i
        let b ← b.assign .ideal E n m i j value2
        b.assign .ideal E n m j i value1) = .ok b' ∧ BagFor s b' ∧
      b'.Contains E n m X X fun a c => if (a = i ∧ c = j) ∨ (a = j ∧ c = i) then M c a else M a c := by
  obtain ⟨b1, h1, h2, h3, h4⟩ := h.assign hnm hb hi hj (M j i)
  obtain ⟨b2, k1, k2, k3, k4⟩ := h.assign hnm h2 hj hi (M i j)
  refine ⟨b2, ?_, k2, ?_⟩
  · rw [hM i j hi hj, hM j i hj hi]
    simp only [Except.bind_ok, h1, k1]
  · intro a c ha hc
    by_cases h5 : a = j ∧ c = i
    · obtain ⟨rfl, rfl⟩ := h5
      simp [k3]
    · rw [k4 a c ha hc h5]
      by_cases h6 : a = i ∧ c = j
      · obtain ⟨rfl, rfl⟩ := h6
        simp [h3]
      · rw [h4 a c ha hc h6, hM a c ha hc]
        exact congrArg _ (if_neg (not_or.2 ⟨h6, h5⟩)).symm

theorem Bag.Contains.congr {b : Bag} {M M' : Nat → Nat → R} (h : b.Contains E n m X Y M)
    (he : ∀ i j, i < X → j < Y → M i j = M' i j) : b.Contains E n m X Y M' :=
  fun i j hi hj => by rw [h i j hi hj, he i j hi hj]

end

end Noarr
