import Verif.ParallelSpec
import Verif.ProgramLemmas

/-
Threads that do not disturb each other.
-/

namespace Noarr
variable {α β : Type} {I : Nat → Space}

theorem Prog.Uses.yields {p : Prog α} {V V' : Arrays} {us : List Use} {a : α} (h : p.Uses I V us a V') :
    p.Yields I V a V' := by
  induction h with
  | done => exact .done
  | get u hu _ ih => exact .get u hu ih
  | set u hu hv _ ih => exact .set u hu hv ih
  | length n hn _ ih => exact .length n hn ih

theorem Prog.Yields.uses {p : Prog α} {V V' : Arrays} {a : α} (h : p.Yields I V a V') :
    ∃ us, p.Uses I V us a V' := by
  induction h with
  | done => exact ⟨_, .done⟩
  | get u hu _ ih => obtain ⟨us, ih⟩ := ih; exact ⟨_, .get u hu ih⟩
  | set u hu hv _ ih => obtain ⟨us, ih⟩ := ih; exact ⟨_, .set u hu hv ih⟩
  | length n hn _ ih => obtain ⟨us, ih⟩ := ih; exact ⟨_, .length n hn ih⟩

theorem Prog.Uses.bind {p : Prog α} {f : α → Prog β} {V V' V'' : Arrays} {us us' : List Use} {a : α} {b : β}
    (h : p.Uses I V us a V') (h' : (f a).Uses I V' us' b V'') : (p.bind f).Uses I V (us ++ us') b V'' := by
  induction h with
  | done => exact h'
  | get u hu _ ih => exact .get u hu (ih h')
  | set u hu hv _ ih => exact .set u hu hv (ih h')
  | length n hn _ ih => exact .length n hn (ih h')

theorem Prog.Uses.has {p : Prog α} {V V' : Arrays} {us : List Use} {a : α} (h : p.Uses I V us a V') {x : Nat} {u : State}
    {w : Bool} (hu : (x, u, w) ∈ us) : (I x).has u := by
  induction h with
  | done => nomatch hu
  | get u hu' _ ih =>
    rcases List.mem_cons.1 hu with e | h
    · cases e; exact hu'.2.1
    · exact ih h
  | set u hu' hv _ ih =>
    rcases List.mem_cons.1 hu with e | h
    · cases e; exact hu'.2.1
    · exact ih h
  | length n hn _ ih => exact ih hu

/-- What is not written does not change. -/
theorem Prog.Uses.unwritten {p : Prog α} {V V' : Arrays} {us : List Use} {a : α} (h : p.Uses I V us a V') {x : Nat}
    {u : State} (hu : (x, u, true) ∉ us) : V' x u = V x u := by
  induction h with
  | done => rfl
  | get u hu' _ ih => exact ih fun h => hu (List.mem_cons_of_mem _ h)
  | set u hu' hv _ ih =>
    rw [ih fun h => hu (List.mem_cons_of_mem _ h)]
    simp only [Arrays.put]
    split
    · next h => obtain ⟨rfl, rfl⟩ := h; exact absurd (List.mem_cons_self ..) hu
    · rfl
  | length n hn _ ih => exact ih hu

/-- `Prog.Uses`, with the number of operations. -/
inductive Prog.Counts (I : Nat → Space) : Prog α → Arrays → List Use → Nat → α → Arrays → Prop
  | done {V a} : Counts I (.done a) V [] 0 a V
  | get {V a V' x st k us m} (u : State) : (I x).At st u → Counts I (k (V x u)) V us m a V' →
      Counts I (.get x st k) V ((x, u, false) :: us) (m + 1) a V'
  | set {V a V' x st v k us m} (u : State) : (I x).At st u → v.length = (I x).size u →
      Counts I k (V.put x u v) us m a V' → Counts I (.set x st v k) V ((x, u, true) :: us) (m + 1) a V'
  | length {V a V' x d st k us m} (n : Nat) : (I x).length d st n → Counts I (k n) V us m a V' →
      Counts I (.length x d st k) V us (m + 1) a V'

theorem Prog.Counts.uses {p : Prog α} {V V' : Arrays} {us : List Use} {m : Nat} {a : α} (h : p.Counts I V us m a V') :
    p.Uses I V us a V' := by
  induction h with
  | done => exact .done
  | get u hu _ ih => exact .get u hu ih
  | set u hu hv _ ih => exact .set u hu hv ih
  | length n hn _ ih => exact .length n hn ih

theorem Prog.Uses.counts {p : Prog α} {V V' : Arrays} {us : List Use} {a : α} (h : p.Uses I V us a V') :
    ∃ m, p.Counts I V us m a V' := by
  induction h with
  | done => exact ⟨_, .done⟩
  | get u hu _ ih => obtain ⟨m, ih⟩ := ih; exact ⟨_, .get u hu ih⟩
  | set u hu hv _ ih => obtain ⟨m, ih⟩ := ih; exact ⟨_, .set u hu hv ih⟩
  | length n hn _ ih => obtain ⟨m, ih⟩ := ih; exact ⟨_, .length n hn ih⟩

/-- What a program does only depends on the elements that it uses. -/
theorem Prog.Counts.frame {p : Prog α} {V V' : Arrays} {us : List Use} {m : Nat} {a : α} (h : p.Counts I V us m a V')
    {W : Arrays}
    (hW : ∀ x u w, (x, u, w) ∈ us → W x u = V x u) :
    ∃ W', p.Counts I W us m a W' ∧ ∀ x u, (x, u, true) ∈ us → W' x u = V' x u := by
  induction h generalizing W with
  | done => exact ⟨W, .done, fun _ _ h => (nomatch h)⟩
  | @get V a V' x st k us m u hu _ ih =>
    obtain ⟨W', h1, h2⟩ := ih fun x u w h => hW x u w (List.mem_cons_of_mem _ h)
    refine ⟨W', .get u hu (by rw [hW x u false (List.mem_cons_self ..)]; exact h1), fun y w h => ?_⟩
    rcases List.mem_cons.1 h with e | h
    · cases e
    · exact h2 y w h
  | @set V a V' x st v k us m u hu hv h0 ih =>
    obtain ⟨W', h1, h2⟩ := ih (W := W.put x u v) fun y w b h => by
      simp only [Arrays.put]
      split
      · rfl
      · exact hW y w b (List.mem_cons_of_mem _ h)
    refine ⟨W', .set u hu hv h1, fun y w h => ?_⟩
    by_cases hm : (y, w, true) ∈ us
    · exact h2 y w hm
    · rcases List.mem_cons.1 h with e | h
      · cases e
        rw [h1.uses.unwritten hm, h0.uses.unwritten hm]
        simp [Arrays.put]
      · exact absurd h hm
  | length n hn _ ih =>
    obtain ⟨W', h1, h2⟩ := ih hW
    exact ⟨W', .length n hn h1, h2⟩

theorem Prog.Uses.frame {p : Prog α} {V V' : Arrays} {us : List Use} {a : α} (h : p.Uses I V us a V') {W : Arrays}
    (hW : ∀ x u w, (x, u, w) ∈ us → W x u = V x u) :
    ∃ W', p.Uses I W us a W' ∧ ∀ x u, (x, u, true) ∈ us → W' x u = V' x u := by
  obtain ⟨m, h⟩ := h.counts
  obtain ⟨W', h1, h2⟩ := h.frame hW
  exact ⟨W', h1.uses, h2⟩

/-- Programs that do not disturb each other have a common result. -/
theorem Merged.exists (V : Arrays) (n : Nat) (us : Nat → List Use) (Vs : Nat → Arrays)
    (ha : ∀ i j, i < n → j < n → i ≠ j → NoConflict (us i) (us j)) : ∃ V', Merged V n us Vs V' := by
  classical
  refine ⟨fun x u => if h : ∃ i, i < n ∧ (x, u, true) ∈ us i then Vs h.choose x u else V x u, fun x u => ⟨?_, ?_⟩⟩
  · intro i hi hm
    have h : ∃ i, i < n ∧ (x, u, true) ∈ us i := ⟨i, hi, hm⟩
    simp only [dif_pos h]
    by_cases e : h.choose = i
    · rw [e]
    · exact absurd (ha _ _ h.choose_spec.1 hi e x u true true h.choose_spec.2 hm).1 (by decide)
  · intro h
    simp only [dif_neg (fun ⟨i, hi, hm⟩ => h i hi hm : ¬ ∃ i, i < n ∧ (x, u, true) ∈ us i)]

theorem Merged.unique {V : Arrays} {n : Nat} {us : Nat → List Use} {Vs : Nat → Arrays} {V' V'' : Arrays}
    (h : Merged V n us Vs V') (h' : Merged V n us Vs V'') : V' = V'' := by
  classical
  funext x u
  by_cases e : ∃ i, i < n ∧ (x, u, true) ∈ us i
  · obtain ⟨i, hi, hm⟩ := e
    rw [(h x u).1 i hi hm, (h' x u).1 i hi hm]
  · have e : ∀ i, i < n → (x, u, true) ∉ us i := fun i hi hm => e ⟨i, hi, hm⟩
    rw [(h x u).2 e, (h' x u).2 e]

/-- The place of an element in memory does not depend on indices in other dimensions. -/
theorem Space.LaidOut.place_at {I : Space} {s : Struct} (h : I.LaidOut s) {st u : State} (hu : I.At st u) :
    s.place .ideal st = s.place .ideal u := by
  obtain ⟨rfl, -, hl⟩ := hu
  have hag : AgreeOn s.names st (st.only I.own) := by
    intro q hq
    simp [State.only, h.names q hq, hl]
  have := C71_only_own_dimensions .ideal h.tidy hag
  unfold Struct.place
  rw [this.2.2.1, this.2.2.2.1]

/-- Different elements are at different places. -/
theorem Space.LaidOut.apart {I : Space} {s : Struct} (h : I.LaidOut s) {u u' : State} (hu : I.has u) (hu' : I.has u')
    (hne : u ≠ u') : ∃ p p', s.place .ideal u = .ok p ∧ s.place .ideal u' = .ok p' ∧
      (p.1 + p.2 ≤ p'.1 ∨ p'.1 + p'.2 ≤ p.1) := by
  obtain ⟨v, N, hv, hN⟩ := h.total
  obtain ⟨k, e, h1, -, -⟩ := (h.accessible u hu).place h.sound hv hN
  obtain ⟨k', e', h1', -, -⟩ := (h.accessible u' hu').place h.sound hv hN
  obtain ⟨hag, q, hq, hs⟩ := h.differ u u' hu hu' hne
  exact ⟨_, _, h1, h1', Accessible.disjoint h.sound (h.accessible u hu) (h.accessible u' hu') hag hv hN h1 h1' hq hs⟩

/-- One operation of a program. -/
theorem Prog.Counts.step {p : Prog α} {V V' : Arrays} {us : List Use} {m : Nat} {a : α} (h : p.Counts I V us m a V')
    {C : Bags} (hC : BagsHold I C V) (hp : p.isDone = false) :
    ∃ q C' acc us' m' W, m = m' + 1 ∧ p.step .ideal C = .ok (q, C', acc) ∧
      (∀ x, (C' x).structure_ = (C x).structure_) ∧ BagsHold I C' W ∧ q.Counts I W us' m' a V' ∧
      (∀ e ∈ us', e ∈ us) ∧
      (∀ b, acc = some b → ∃ u, (b.bag, u, b.write) ∈ us ∧ (C b.bag).structure_.place .ideal u = .ok (b.start, b.bytes)) ∧
      (∀ y w, (y, w, true) ∉ us → W y w = V y w) ∧
      ∀ y w, (y, w, true) ∈ us → (y, w, true) ∈ us' ∨ W y w = V' y w := by
  have hpl : ∀ {x st u}, (I x).At st u → ∃ pl, (C x).structure_.place .ideal st = .ok pl ∧
      (C x).structure_.place .ideal u = .ok pl := by
    intro x st u hu
    obtain ⟨v, N, hv, hN⟩ := (hC.layout x).total
    obtain ⟨k, e, h1, -, -⟩ := ((hC.layout x).accessible u hu.2.1).place (hC.layout x).sound hv hN
    exact ⟨_, by rw [(hC.layout x).place_at hu]; exact h1, h1⟩
  cases h with
  | done => cases hp
  | @get _ _ _ x st k us m u hu h =>
    obtain ⟨pl, h1, h2⟩ := hpl hu
    refine ⟨_, C, some ⟨x, pl.1, pl.2, false⟩, us, m, V, rfl, ?_, fun _ => rfl, hC, h,
      fun e he => List.mem_cons_of_mem _ he, ?_, fun _ _ _ => rfl, ?_⟩
    · simp only [Prog.step, hC.get hu, h1]; rfl
    · intro b hb; cases hb; exact ⟨u, List.mem_cons_self .., h2⟩
    · intro y w hm
      rcases List.mem_cons.1 hm with e | hm
      · cases e
      · exact .inl hm
  | @set _ _ _ x st v k us m u hu hv h =>
    obtain ⟨pl, h1, h2⟩ := hpl hu
    obtain ⟨b, g1, g2, g3⟩ := hC.set hu hv
    refine ⟨_, C.put x b, some ⟨x, pl.1, pl.2, true⟩, us, m, _, rfl, ?_, fun y => ?_, g3, h,
      fun e he => List.mem_cons_of_mem _ he, ?_, fun y w hm => ?_, ?_⟩
    · simp only [Prog.step, g1, h1]; rfl
    · simp only [Bags.put]
      split
      · next e => subst e; exact g2
      · rfl
    · intro b hb; cases hb; exact ⟨u, List.mem_cons_self .., h2⟩
    · simp only [Arrays.put]
      split
      · next e => obtain ⟨rfl, rfl⟩ := e; exact absurd (List.mem_cons_self ..) hm
      · rfl
    · intro y w _
      by_cases hm : (y, w, true) ∈ us
      · exact .inl hm
      · exact .inr (h.uses.unwritten hm).symm
  | @length _ _ _ x d st k us m n hn h =>
    refine ⟨_, C, none, us, m, V, rfl, ?_, fun _ => rfl, hC, h, fun e he => he, ?_, fun _ _ _ => rfl,
      fun _ _ hm => .inl hm⟩
    · simp only [Prog.step, hC.lengthAt hn]; rfl
    · intro b hb; cases hb

/-- What holds during the execution of threads that do not disturb each other. -/
structure Undisturbed (I : Nat → Space) (B : Bags) (n : Nat) (us : Nat → List Use) (ms : Nat → Nat) (R : Arrays)
    (log : List (Nat × Option Access)) (qs : List (Prog Unit)) (C : Bags) (V : Arrays) (us' : Nat → List Use)
    (ms' : Nat → Nat) (Vs : Nat → Arrays) : Prop where
  length : qs.length = n
  hold : BagsHold I C V
  same : ∀ x, (C x).structure_ = (B x).structure_
  counts : ∀ i (p : Prog Unit), qs[i]? = some p → p.Counts I V (us' i) (ms' i) () (Vs i)
  rest : ∀ i, i < n → ∀ e ∈ us' i, e ∈ us i
  merged : Merged V n us' Vs R
  steps : ∀ i, i < n → (log.filter fun e => e.1 == i).length + ms' i = ms i
  uses : ∀ i b, (i, some b) ∈ log → i < n ∧
    ∃ u, (b.bag, u, b.write) ∈ us i ∧ (B b.bag).structure_.place .ideal u = .ok (b.start, b.bytes)

theorem Undisturbed.step {B : Bags} {n : Nat} {us : Nat → List Use} {ms : Nat → Nat} {R : Arrays}
    {log : List (Nat × Option Access)} {qs : List (Prog Unit)} {C : Bags} {V : Arrays} {us' : Nat → List Use}
    {ms' : Nat → Nat} {Vs : Nat → Arrays} (ha : ∀ i j, i < n → j < n → i ≠ j → NoConflict (us i) (us j))
    (h : Undisturbed I B n us ms R log qs C V us' ms' Vs) {i : Nat} {p : Prog Unit} (hi : qs[i]? = some p)
    (hp : p.isDone = false) :
    ∃ q C' acc, p.step .ideal C = .ok (q, C', acc) ∧ ∃ V us' ms' Vs,
      Undisturbed I B n us ms R (log ++ [(i, acc)]) (qs.set i q) C' V us' ms' Vs := by
  obtain ⟨q, C', acc, us1, m1, W, h1, h2, h3, h4, h5, h6, h7, h8, h9⟩ := (h.counts i p hi).step h.hold hp
  have hin : i < n := by
    rw [← h.length]
    obtain ⟨hi, -⟩ := List.getElem?_eq_some_iff.1 hi
    exact hi
  have key : ∀ j, ∃ W', ∀ p', qs[j]? = some p' → j ≠ i → p'.Counts I W (us' j) (ms' j) () W' ∧
      ∀ x u, (x, u, true) ∈ us' j → W' x u = Vs j x u := by
    intro j
    cases hj : qs[j]? with
    | none => exact ⟨V, fun _ e => (nomatch e)⟩
    | some p' =>
      by_cases hji : j = i
      · exact ⟨V, fun _ _ e => absurd hji e⟩
      · have hjn : j < n := by
          rw [← h.length]
          obtain ⟨hj, -⟩ := List.getElem?_eq_some_iff.1 hj
          exact hj
        obtain ⟨W', g1, g2⟩ := (h.counts j p' hj).frame (W := W) fun x u w hm => h8 x u fun hm' => by
          exact absurd (ha j i hjn hin hji x u w true (h.rest j hjn _ hm) (h.rest i hin _ hm')).2 (by decide)
        exact ⟨W', fun _ e _ => by cases e; exact ⟨g1, g2⟩⟩
  obtain ⟨Ws, hWs⟩ := Classical.axiomOfChoice key
  refine ⟨q, C', acc, h2, W, fun j => if j = i then us1 else us' j, fun j => if j = i then m1 else ms' j,
    fun j => if j = i then Vs i else Ws j, ?_, h4, fun x => (h3 x).trans (h.same x), ?_, ?_, ?_, ?_, ?_⟩
  · rw [List.length_set]; exact h.length
  · intro j p' hj
    by_cases hji : j = i
    · subst hji
      rw [List.getElem?_set_self (by rw [h.length]; exact hin)] at hj
      cases hj
      simp only [if_true]
      exact h5
    · rw [List.getElem?_set_ne (Ne.symm hji)] at hj
      simp only [if_neg hji]
      exact (hWs j p' hj hji).1
  · intro j hj e he
    by_cases hji : j = i
    · subst hji
      simp only [if_true] at he
      exact h.rest j hj e (h6 e he)
    · simp only [if_neg hji] at he
      exact h.rest j hj e he
  · intro x u
    refine ⟨fun j hj hm => ?_, fun hno => ?_⟩
    · by_cases hji : j = i
      · subst hji
        simp only [if_true] at hm ⊢
        exact (h.merged x u).1 j hj (h6 _ hm)
      · simp only [if_neg hji] at hm ⊢
        obtain ⟨p', hp'⟩ : ∃ p', qs[j]? = some p' := by
          rw [← h.length] at hj
          exact ⟨_, List.getElem?_eq_getElem hj⟩
        rw [(hWs j p' hp' hji).2 x u hm]
        exact (h.merged x u).1 j hj hm
    · by_cases hm : (x, u, true) ∈ us' i
      · rcases h9 x u hm with hm' | e
        · exact absurd hm' (by simpa using hno i hin)
        · rw [e]; exact (h.merged x u).1 i hin hm
      · rw [h8 x u hm]
        refine (h.merged x u).2 fun j hj hm' => ?_
        by_cases hji : j = i
        · subst hji; exact hm hm'
        · exact hno j hj (by simpa only [if_neg hji] using hm')
  · intro j hj
    have := h.steps j hj
    by_cases hji : j = i
    · subst hji
      simp only [List.filter_append, List.length_append, if_true]
      simp
      omega
    · simp only [List.filter_append, List.length_append, if_neg hji]
      simp [Ne.symm hji]
      omega
  · intro j b hm
    rcases List.mem_append.1 hm with hm | hm
    · exact h.uses j b hm
    · rw [List.mem_singleton] at hm
      cases hm
      obtain ⟨u, g1, g2⟩ := h7 b rfl
      exact ⟨hin, u, h.rest i hin _ g1, by rw [← h.same]; exact g2⟩

end Noarr
