import Verif.ProgramSpec
import Verif.Props.Names

/-
Running a program on bags follows its meaning on arrays.
-/

namespace Noarr

/-- A bag with a layout for an index space: its elements can be read and written, and are separate. -/
theorem Space.LaidOut.access {I : Space} {b : Bag} (h : I.LaidOut b.structure_) (hb : BagFor b.structure_ b) {u : State}
    (hu : I.has u) :
    (∃ x, b.get .ideal u = .ok x ∧ x.length = I.size u) ∧
    ∀ x : List UInt8, x.length = I.size u → ∃ b', b.set .ideal u x = .ok b' ∧ b'.structure_ = b.structure_ ∧
      BagFor b'.structure_ b' ∧ b'.get .ideal u = .ok x ∧
      ∀ u', I.has u' → u' ≠ u → b'.get .ideal u' = b.get .ideal u' := by
  obtain ⟨v, N, hv, hN⟩ := h.total
  have hl := hb.large v N hv hN
  obtain ⟨k, e, h1, h2, h3⟩ := (h.accessible u hu).place h.sound hv hN
  rw [h.elem u hu] at h2
  cases h2
  have hke : k + I.size u ≤ b.data.length := by omega
  refine ⟨⟨_, getAt_of_place h1 hke, bytes_length hke⟩, fun x hx => ?_⟩
  refine ⟨⟨b.structure_, patch b.data k (I.size u) x⟩, ?_, rfl, ⟨rfl, ?_⟩, ?_, ?_⟩
  · simp only [Bag.set, setAt_of_place h1 hke hx]; rfl
  · intro v' N' hv' hN'
    have : N' ≤ b.data.length := hb.large v' N' hv' hN'
    simpa only [patch_length hke hx] using this
  · simp only [Bag.get]
    rw [getAt_of_place h1 (by rw [patch_length hke hx]; exact hke), bytes_patch_same hke hx]
  · intro u' hu' hne
    obtain ⟨k', e', h1', h2', h3'⟩ := (h.accessible u' hu').place h.sound hv hN
    simp only [Bag.get]
    obtain ⟨hag, q, hq, hs⟩ := h.differ u u' hu hu' (Ne.symm hne)
    rw [getAt_of_place h1' (by rw [patch_length hke hx]; omega), getAt_of_place h1' (by omega),
      bytes_patch_other hke hx (Accessible.disjoint h.sound (h.accessible u hu)
        (h.accessible u' hu') hag hv hN h1 h1' hq hs)]

/-- Using a bag at a state is using it at the element of the state. -/
theorem Space.LaidOut.at {I : Space} {b : Bag} (h : I.LaidOut b.structure_) {st u : State} (hu : I.At st u) :
    b.get .ideal st = b.get .ideal u ∧ ∀ x, b.set .ideal st x = b.set .ideal u x := by
  obtain ⟨rfl, -, hl⟩ := hu
  exact C71_bag_in_a_larger_state .ideal b h.tidy st hl I.own h.names

theorem BagsHold.length_eq {I : Nat → Space} {B : Bags} {V : Arrays} (h : BagsHold I B V) {x : Nat} {u : State}
    (hu : (I x).has u) : (V x u).length = (I x).size u := by
  obtain ⟨⟨y, hy, hl⟩, -⟩ := (h.layout x).access (h.large x) hu
  rw [h.value x u hu] at hy
  cases hy; exact hl

/-- Reading. -/
theorem BagsHold.get {I : Nat → Space} {B : Bags} {V : Arrays} (h : BagsHold I B V) {x : Nat} {st u : State}
    (hu : (I x).At st u) : (B x).get .ideal st = .ok (V x u) := by
  rw [((h.layout x).at hu).1]
  exact h.value x u hu.2.1

/-- Writing. -/
theorem BagsHold.set {I : Nat → Space} {B : Bags} {V : Arrays} (h : BagsHold I B V) {x : Nat} {st u : State}
    (hu : (I x).At st u) {v : List UInt8} (hv : v.length = (I x).size u) :
    ∃ b, (B x).set .ideal st v = .ok b ∧ b.structure_ = (B x).structure_ ∧ BagsHold I (B.put x b) (V.put x u v) := by
  obtain ⟨-, hw⟩ := (h.layout x).access (h.large x) hu.2.1
  obtain ⟨b, h1, h2, h3, h4, h5⟩ := hw v hv
  refine ⟨b, by rw [((h.layout x).at hu).2]; exact h1, h2, ⟨fun y => ?_, fun y => ?_, fun y w hy => ?_⟩⟩
  · by_cases hyx : y = x
    · subst hyx; simp only [Bags.put, if_true, h2]; exact h.layout y
    · simp only [Bags.put, hyx, if_false]; exact h.layout y
  · by_cases hyx : y = x
    · subst hyx; simp only [Bags.put, if_true]; exact h3
    · simp only [Bags.put, hyx, if_false]; exact h.large y
  · by_cases hyx : y = x
    · subst hyx
      simp only [Bags.put, if_true]
      by_cases hwu : w = u
      · subst hwu; rw [h4, Arrays.put, if_pos ⟨rfl, rfl⟩]
      · rw [h5 w hy hwu, Arrays.put, if_neg fun h => hwu h.2]; exact h.value y w hy
    · rw [Bags.put, if_neg hyx, Arrays.put, if_neg fun h => hyx h.1]; exact h.value y w hy

/-- Asking for a length. -/
theorem BagsHold.lengthAt {I : Nat → Space} {B : Bags} {V : Arrays} (h : BagsHold I B V) {x : Nat} {d : Dim} {st : State}
    {n : Nat} (hn : (I x).length d st n) : (B x).lengthAt .ideal d st = .ok n := by
  obtain ⟨v, h1, h2⟩ := (h.layout x).length d st n hn
  have h2 : v.nat? = some n := h2
  simp only [Bag.lengthAt, h1, h2]

theorem Prog.Yields.run {α : Type} {I : Nat → Space} {p : Prog α} {V : Arrays} {a : α} {V' : Arrays}
    (hp : p.Yields I V a V') {B : Bags} (hB : BagsHold I B V) :
    ∃ B', p.run .ideal B = .ok (a, B') ∧ (∀ x, (B' x).structure_ = (B x).structure_) ∧ BagsHold I B' V' := by
  induction hp generalizing B with
  | done => exact ⟨B, rfl, fun _ => rfl, hB⟩
  | get u hu _ ih =>
    obtain ⟨B', h1, h2⟩ := ih hB
    exact ⟨B', by simp only [Prog.run, hB.get hu, Except.bind_ok]; exact h1, h2⟩
  | set u hu hv _ ih =>
    obtain ⟨b, hb, hs, hc⟩ := hB.set hu hv
    obtain ⟨B', h1, h2, h3⟩ := ih hc
    refine ⟨B', by simp only [Prog.run, hb, Except.bind_ok]; exact h1, fun y => ?_, h3⟩
    rw [h2]
    simp only [Bags.put]
    split
    · next e => rw [e]; exact hs
    · rfl
  | length n hn _ ih =>
    obtain ⟨B', h1, h2⟩ := ih hB
    exact ⟨B', by simp only [Prog.run, hB.lengthAt hn, Except.bind_ok]; exact h1, h2⟩

/-- A program that stays within the index spaces has a meaning. -/
theorem Prog.Within.yields {α : Type} {I : Nat → Space} {p : Prog α} (hp : p.Within I) {V : Arrays}
    (hV : ∀ x u, (I x).has u → (V x u).length = (I x).size u) : ∃ a V', p.Yields I V a V' := by
  induction p generalizing V with
  | done a => exact ⟨a, V, .done⟩
  | get x st k ih =>
    obtain ⟨u, hu, h⟩ := hp
    obtain ⟨a, V', h'⟩ := ih _ (h _ (hV x u hu.2.1)) hV
    exact ⟨a, V', .get u hu h'⟩
  | set x st v k ih =>
    obtain ⟨u, hu, hv, h⟩ := hp
    obtain ⟨a, V', h'⟩ := ih h (V := V.put x u v) fun y w hw => by
      simp only [Arrays.put]
      split
      · next e => rw [e.1, e.2]; exact hv
      · exact hV y w hw
    exact ⟨a, V', .set u hu hv h'⟩
  | length x d st k ih =>
    obtain ⟨n, hn, h⟩ := hp
    obtain ⟨a, V', h'⟩ := ih n h hV
    exact ⟨a, V', .length n hn h'⟩

theorem Prog.Yields.bind {α β : Type} {I : Nat → Space} {p : Prog α} {f : α → Prog β} {V V' V'' : Arrays} {a : α} {b : β}
    (h : p.Yields I V a V') (h' : (f a).Yields I V' b V'') : (p.bind f).Yields I V b V'' := by
  induction h with
  | done => exact h'
  | get u hu _ ih => exact .get u hu (ih h')
  | set u hu hv _ ih => exact .set u hu hv (ih h')
  | length n hn _ ih => exact .length n hn (ih h')

end Noarr
