import Verif.MachineState

/-
All structures but `merge_zcurve` have related queries. Used for C45.
-/

set_option linter.unusedVariables false

namespace Noarr

open Option (Refines)

section
variable {W : Nat} {A B : Arith}

theorem scalar_rel {s a : Nat} (hs : s < W) (ha : a < W) : SemRel W (scalarSem s a) (scalarSem s a) where
  sig := rfl
  hasLen _ _ _ _ := .some rfl
  len _ _ _ _ := .none
  size _ := .some (.lit hs)
  align _ := .some ⟨rfl, ha⟩
  off := by
    intro x y a b hx hab v n hv hn
    cases hv
    rcases hab with h | ⟨rfl, h⟩
    · rw [h] at hn; cases hn
    · exact ⟨rfl, h n hn⟩
  elem _ := .some rfl

theorem constIdx_rel {x y : Option Val} (h : orel W x y) : Option.Refines Eq (constIdx x) (constIdx y) := by
  intro k hk
  cases x with
  | none => cases hk
  | some v =>
    cases y with
    | none => exact h.elim
    | some w =>
      rcases h with h | ⟨rfl, h⟩
      · cases v <;> simp [Val.nat?] at h; cases hk
      · exact ⟨k, hk, rfl⟩

theorem sizeAcc_rel (h : Arith.Agrees W A B) (h1 : 1 < W) {x y : State} (hx : x.Rel W y) :
    ∀ {l l' : List Sem}, Forall2 (SemRel W) l l' → ∀ {v w : Val}, v.Rel W w →
      Option.Refines (Val.Rel W) (sizeAcc A x l v) (sizeAcc B y l' w) := by
  intro l l' hl
  induction hl with
  | nil => intro v w hv; exact .some hv
  | cons hS hl ih =>
    intro v w hv
    refine .bind (hS.align hx) ?_
    rintro a _ ⟨rfl, ha⟩
    refine .bind (hS.size hx) ?_
    intro sz sz' hsz
    exact ih ((((((hv.add h (.lit ha)).sub h (.lit h1)).div h (.lit ha)).mul h (.lit ha))).add h hsz)

theorem alignAll_rel {x y : State} (hx : x.Rel W y) :
    ∀ {l l' : List Sem}, Forall2 (SemRel W) l l' →
      Option.Refines (fun a b => a = b ∧ a < W) (alignAll x l) (alignAll y l') := by
  intro l l' hl
  induction hl with
  | nil => exact .none
  | @cons S S' l l' hS hl ih =>
    cases hl with
    | nil => exact hS.align hx
    | cons hT hl =>
      refine .bind (hS.align hx) ?_
      rintro a _ ⟨rfl, ha⟩
      refine .bind ih ?_
      rintro b _ ⟨rfl, hb⟩
      exact .dite (fun _ => .some ⟨rfl, ha⟩) (fun _ => .none)

theorem forall2_ofFn {n : Nat} {f g : Fin n → Sem} (h : ∀ i, SemRel W (f i) (g i)) :
    Forall2 (SemRel W) (List.ofFn f) (List.ofFn g) := by
  induction n with
  | zero => simp only [List.ofFn_zero]; exact .nil
  | succ n ih =>
    simp only [List.ofFn_succ]
    exact .cons (h 0) (ih fun i => h i.succ)

theorem forall2_take {l l' : List Sem} (h : Forall2 (SemRel W) l l') (k : Nat) :
    Forall2 (SemRel W) (l.take k) (l'.take k) := by
  induction h generalizing k with
  | nil => simp only [List.take_nil]; exact .nil
  | cons a b ih =>
    cases k with
    | zero => exact .nil
    | succ k => exact .cons a (ih k)

theorem tuple_rel (h : Arith.Agrees W A B) (h1 : 1 < W) {t : Dim} {n : Nat} (hn : n < W)
    {f g : Fin n → Sem} (hf : ∀ i, SemRel W (f i) (g i)) :
    SemRel W (tupleSem A t n f) (tupleSem B t n g) := by
  have hsig : ∀ i, (f i).sig = (g i).sig := fun i => (hf i).sig
  have hfield : ∀ {x y : State}, x.Rel W y → Option.Refines (SemRel W)
      (constIdx (x (.idx t)) >>= fun k => if h : k < n then some (f ⟨k, h⟩) else none)
      (constIdx (y (.idx t)) >>= fun k => if h : k < n then some (g ⟨k, h⟩) else none) := by
    intro x y hx
    refine .bind (constIdx_rel (hx (.idx t))) ?_
    rintro k _ rfl
    split
    · exact .some (hf _)
    · exact .none
  have hlen : ∀ q {x y : State}, x.Rel W y →
      Option.Refines Eq ((tupleSem A t n f).hasLen q x) ((tupleSem B t n g).hasLen q y) := by
    intro q x y hx
    refine .dite (fun _ => .some (by rw [hx.has])) fun _ => ?_
    refine .ite (hx.has _) ?_ (.some rfl)
    refine .bind (hfield hx) ?_
    intro S T hST
    exact hST.hasLen q (hx.remove _)
  refine ⟨?_, hlen, ?_, ?_, ?_, ?_, ?_⟩
  · simp only [tupleSem, hsig]
  · intro q x y hx
    refine guardLen_rel (hlen q hx) fun _ => ?_
    refine .dite (fun _ => .some (.lit hn)) fun _ => ?_
    refine .bind (hfield hx) ?_
    intro S T hST
    exact hST.len q (hx.remove _)
  · intro x y hx
    exact sizeAcc_rel h h1 (hx.remove _) (forall2_ofFn hf) (.lit (by omega))
  · intro x y hx
    exact alignAll_rel (hx.remove _) (forall2_ofFn hf)
  · intro x y a b hx hab v m hv hm
    simp only [tupleSem, Option.bind_eq_bind, Option.bind_eq_some_iff] at hv ⊢
    obtain ⟨k, hk, S, hS, bf, hbf, hv⟩ := hv
    obtain ⟨_, hk', rfl⟩ := constIdx_rel (hx (.idx t)) k hk
    obtain ⟨T, hT, hST⟩ := hfield hx S (by simp only [Option.bind_eq_bind, Option.bind_eq_some_iff]; exact hS)
    simp only [Option.bind_eq_bind, Option.bind_eq_some_iff] at hT
    obtain ⟨bf', hbf', hb⟩ := sizeAcc_rel h h1 (hx.remove (.idx t)) (forall2_take (forall2_ofFn hf) k)
      (.lit (show 0 < W by omega)) bf hbf
    obtain ⟨hv', hm'⟩ := hST.off (hx.remove (.idx t)) (hb.add h hab) v m hv hm
    exact ⟨⟨k, hk', T, hT, bf', hbf', hv'⟩, hm'⟩
  · intro x y hx
    refine .bind (hfield hx) ?_
    intro S T hST
    exact hST.elem (hx.remove _)

theorem vector_rel (h : Arith.Agrees W A B) (h1 : 1 < W) {d : Dim} {S T : Sem} (hS : SemRel W S T) :
    SemRel W (vectorSem A d S) (vectorSem B d T) := by
  have hlen : ∀ q {x y : State}, x.Rel W y →
      Option.Refines Eq ((vectorSem A d S).hasLen q x) ((vectorSem B d T).hasLen q y) := by
    intro q x y hx
    exact .dite (fun _ => .some (by rw [hx.has, hx.has])) fun _ => hS.hasLen q (hx.removeAll _)
  refine ⟨?_, hlen, ?_, ?_, ?_, ?_, ?_⟩
  · simp only [vectorSem, hS.sig]
  · intro q x y hx
    refine guardLen_rel (hlen q hx) fun _ => ?_
    exact .dite (fun _ => hx.refines _) fun _ => hS.len q (hx.removeAll _)
  · intro x y hx
    refine .bind (hx.refines _) fun l l' hl => ?_
    refine .bind (hS.size (hx.removeAll _)) fun s s' hs => ?_
    exact .some (hl.mul h hs)
  · intro x y hx
    exact hS.align (hx.removeAll _)
  · intro x y a b hx hab v m hv hm
    simp only [vectorSem, Option.bind_eq_bind, Option.bind_eq_some_iff] at hv ⊢
    obtain ⟨i, hi, l, hl, hv⟩ := hv
    obtain ⟨i', hi', hir⟩ := hx.refines _ i hi
    obtain ⟨l', hl', hlr⟩ := hx.refines _ l hl
    rcases hlr with hb | ⟨rfl, hlt⟩
    · cases l <;> simp [Val.nat?] at hb
      simp only [Option.bind_eq_some_iff] at hv
      obtain ⟨_, _, hv⟩ := hv
      cases hv
      cases hm
    · have : ∀ (p : Option Val) (q : Option Val), (p = some v → q = some v ∧ m < W) →
          p = some v → (∃ a, y (Tag.idx d) = some a ∧ ∃ a', y (Tag.len d) = some a' ∧ q = some v) ∧ m < W := by
        intro p q hpq hp
        exact ⟨⟨i', hi', l, hl', (hpq hp).1⟩, (hpq hp).2⟩
      refine ⟨⟨i', hi', l, hl', ?_⟩, ?_⟩ <;> revert hv <;> split
      · intro hv; exact (hS.off (hx.removeAll _) hab v m hv hm).1
      · simp only [Option.bind_eq_some_iff]; rintro ⟨_, _, hv⟩; cases hv; cases hm
      · simp only [Option.bind_eq_some_iff]
        rintro ⟨sz, hsz, hv⟩
        obtain ⟨sz', hsz', hr⟩ := hS.size (hx.removeAll _) sz hsz
        exact ⟨sz', hsz', (hS.off (hx.removeAll _) ((hir.mul h hr).add h hab) v m hv hm).1⟩
      · intro hv; exact (hS.off (hx.removeAll _) hab v m hv hm).2
      · simp only [Option.bind_eq_some_iff]; rintro ⟨_, _, hv⟩; cases hv; cases hm
      · simp only [Option.bind_eq_some_iff]
        rintro ⟨sz, hsz, hv⟩
        obtain ⟨sz', hsz', hr⟩ := hS.size (hx.removeAll _) sz hsz
        exact (hS.off (hx.removeAll _) ((hir.mul h hr).add h hab) v m hv hm).2
  · intro x y hx
    exact hS.elem (hx.removeAll _)

theorem union_rel {n : Nat} {f g : Fin n → Sem} (hf : ∀ i, SemRel W (f i) (g i)) :
    SemRel W (unionSem n f) (unionSem n g) := by
  have hsig : ∀ i, (f i).sig = (g i).sig := fun i => (hf i).sig
  have hfm : ∀ q, firstMatch f q = firstMatch g q := by intro q; simp only [firstMatch, hsig]
  have hlen : ∀ q {x y : State}, x.Rel W y →
      Option.Refines Eq ((unionSem n f).hasLen q x) ((unionSem n g).hasLen q y) := by
    intro q x y hx
    simp only [unionSem, ← hfm]
    split
    · exact (hf _).hasLen q hx
    · exact .some rfl
  refine ⟨?_, hlen, ?_, fun _ => .none, fun _ => .none, ?_, fun _ => .none⟩
  · simp only [unionSem, hsig]
  · intro q x y hx
    refine guardLen_rel (hlen q hx) fun _ => ?_
    simp only [← hfm]
    split
    · exact (hf _).len q hx
    · exact .none
  · intro x y a b hx hab v m hv
    cases hv

/-! ### Views -/

theorem bcast_rel {d : Dim} {S T : Sem} (hS : SemRel W S T) : ViewRel W (bcastSem d S) (bcastSem d T) := by
  have hlen : ∀ q {x y : State}, x.Rel W y →
      Option.Refines Eq ((bcastSem d S).hasLen q x) ((bcastSem d T).hasLen q y) := by
    intro q x y hx
    exact .dite (fun _ => .some (by rw [hx.has, hx.has])) fun _ => hS.hasLen q (hx.removeAll _)
  refine ⟨by simp only [bcastSem, hS.sig], fun hx => .some (hx.removeAll _), hlen, ?_, rfl, fun _ => rfl⟩
  intro q x y hx
  refine guardLen_rel (hlen q hx) fun _ => ?_
  exact .dite (fun _ => hx.refines _) fun _ => hS.len q (hx.removeAll _)

theorem fix_rel {d : Dim} {i : Val} (hi : i.fits W) {S T : Sem} (hS : SemRel W S T) :
    ViewRel W (fixSem d i S) (fixSem d i T) := by
  have hsub : ∀ {x y : State}, x.Rel W y → ((x.remove (.len d)).set (.idx d) i).Rel W
      ((y.remove (.len d)).set (.idx d) i) := fun hx => (hx.remove _).set _ (.refl hi)
  have hlen : ∀ q {x y : State}, x.Rel W y →
      Option.Refines Eq ((fixSem d i S).hasLen q x) ((fixSem d i T).hasLen q y) := by
    intro q x y hx
    exact .dite (fun _ => .some rfl) fun _ => hS.hasLen q (hsub hx)
  refine ⟨by simp only [fixSem, hS.sig], fun hx => .some (hsub hx), hlen, ?_, rfl, fun _ => rfl⟩
  intro q x y hx
  exact guardLen_rel (hlen q hx) fun _ => hS.len q (hsub hx)

theorem setLength_rel {d : Dim} {l : Val} (hl : l.fits W) {S T : Sem} (hS : SemRel W S T) :
    ViewRel W (setLengthSem d l S) (setLengthSem d l T) := by
  have hsub : ∀ {x y : State}, x.Rel W y → (x.set (.len d) l).Rel W (y.set (.len d) l) :=
    fun hx => hx.set _ (.refl hl)
  refine ⟨by simp only [setLengthSem, hS.sig], fun hx => .some (hsub hx),
    fun q _ _ hx => hS.hasLen q (hsub hx), ?_, rfl, fun _ => rfl⟩
  intro q x y hx
  exact guardLen_rel (hS.hasLen q (hsub hx)) fun _ => hS.len q (hsub hx)

theorem shift_rel (h : Arith.Agrees W A B) {d : Dim} {s : Val} (hs : s.fits W) {S T : Sem}
    (hS : SemRel W S T) : ViewRel W (shiftSem A d s S) (shiftSem B d s T) := by
  have hsub : ∀ {x y : State}, x.Rel W y →
      ((x.mapAt (.idx d) (·.add A s)).mapAt (.len d) (·.add A s)).Rel W
      ((y.mapAt (.idx d) (·.add B s)).mapAt (.len d) (·.add B s)) := fun hx =>
    (hx.mapAt _ fun _ _ hv => hv.add h (.refl hs)).mapAt _ fun _ _ hv => hv.add h (.refl hs)
  have hlen : ∀ q {x y : State}, x.Rel W y →
      Option.Refines Eq ((shiftSem A d s S).hasLen q x) ((shiftSem B d s T).hasLen q y) := by
    intro q x y hx
    exact .dite (fun _ => .ite (hx.has _) (.some rfl) (hS.hasLen d (hsub hx)))
      fun _ => hS.hasLen q (hsub hx)
  refine ⟨by simp only [shiftSem, hS.sig], fun hx => .some (hsub hx), hlen, ?_, rfl, fun _ => rfl⟩
  intro q x y hx
  refine guardLen_rel (hlen q hx) fun _ => .dite (fun _ => ?_) fun _ => hS.len q (hsub hx)
  rcases hx.cases (.len d) with ⟨h1, h2⟩ | ⟨v, w, h1, h2, h3⟩
  · rw [h1, h2]
    exact .bind (hS.len d (hsub hx)) fun _ _ hl => .some (hl.sub h (.refl hs))
  · rw [h1, h2]
    exact .some h3

theorem slice_rel (h : Arith.Agrees W A B) {d : Dim} {s l : Val} (hs : s.fits W) (hl : l.fits W) {S T : Sem}
    (hS : SemRel W S T) : ViewRel W (sliceSem A d s l S) (sliceSem B d s l T) := by
  have hsub : ∀ {x y : State}, x.Rel W y →
      (x.mapAt (.idx d) (·.add A s)).Rel W (y.mapAt (.idx d) (·.add B s)) := fun hx =>
    hx.mapAt _ fun _ _ hv => hv.add h (.refl hs)
  refine ⟨by simp only [sliceSem, hS.sig], fun hx => .some (hsub hx),
    fun q _ _ hx => hS.hasLen q (hsub hx), ?_, rfl, fun _ => rfl⟩
  intro q x y hx
  exact guardLen_rel (hS.hasLen q (hsub hx)) fun _ => .dite (fun _ => .some (.refl hl))
    fun _ => hS.len q (hsub hx)

theorem span_rel (h : Arith.Agrees W A B) {d : Dim} {s e : Val} (hs : s.fits W) (he : e.fits W) {S T : Sem}
    (hS : SemRel W S T) : ViewRel W (spanSem A d s e S) (spanSem B d s e T) := by
  have hsub : ∀ {x y : State}, x.Rel W y →
      (x.mapAt (.idx d) (·.add A s)).Rel W (y.mapAt (.idx d) (·.add B s)) := fun hx =>
    hx.mapAt _ fun _ _ hv => hv.add h (.refl hs)
  refine ⟨by simp only [spanSem, hS.sig], fun hx => .some (hsub hx),
    fun q _ _ hx => hS.hasLen q (hsub hx), ?_, rfl, fun _ => rfl⟩
  intro q x y hx
  exact guardLen_rel (hS.hasLen q (hsub hx)) fun _ =>
    .dite (fun _ => .some ((Val.Rel.refl he).sub h (.refl hs))) fun _ => hS.len q (hsub hx)

theorem step_rel (h : Arith.Agrees W A B) (h1 : 1 < W) {d : Dim} {s k : Val} (hs : s.fits W) (hk : k.fits W)
    {S T : Sem} (hS : SemRel W S T) : ViewRel W (stepSem A d s k S) (stepSem B d s k T) := by
  have hsub : ∀ {x y : State}, x.Rel W y → (x.mapAt (.idx d) (fun i => (i.mul A k).add A s)).Rel W
      (y.mapAt (.idx d) (fun i => (i.mul B k).add B s)) := fun hx =>
    hx.mapAt _ fun _ _ hv => (hv.mul h (.refl hk)).add h (.refl hs)
  refine ⟨by simp only [stepSem, hS.sig], fun hx => .some (hsub hx),
    fun q _ _ hx => hS.hasLen q (hsub hx), ?_, rfl, fun _ => rfl⟩
  intro q x y hx
  refine guardLen_rel (hS.hasLen q (hsub hx)) fun _ => .dite (fun _ => ?_) fun _ => hS.len q (hsub hx)
  exact .bind (hS.len d hx) fun _ _ hl => .some
    ((((hl.add h (.refl hk)).sub h (.refl hs)).sub h (.lit h1)).div h (.refl hk))

theorem reverse_rel (h : Arith.Agrees W A B) (h1 : 1 < W) {d : Dim} {S T : Sem} (hS : SemRel W S T) :
    ViewRel W (reverseSem A d S) (reverseSem B d T) := by
  have hsub : ∀ {x y : State}, x.Rel W y →
      Option.Refines (State.Rel W) ((reverseSem A d S).sub x) ((reverseSem B d T).sub y) := by
    intro x y hx
    simp only [reverseSem]
    rcases hx.cases (.idx d) with ⟨h1, h2⟩ | ⟨v, w, e1, e2, h3⟩
    · rw [h1, h2]; exact .some hx
    · rw [e1, e2]
      have hl := hS.hasLen d (hx.remove (.idx d))
      simp only
      cases hb : S.hasLen d (x.remove (.idx d)) with
      | none => exact .none
      | some b =>
        obtain ⟨_, hb', rfl⟩ := hl b hb
        rw [hb']
        cases b
        · exact .some (hx.remove _)
        · exact .bind (hS.len d (hx.remove _)) fun _ _ hv => .some
            ((hx.remove _).set _ ((hv.sub h (.lit h1)).sub h h3))
  have hlen : ∀ q {x y : State}, x.Rel W y →
      Option.Refines Eq ((reverseSem A d S).hasLen q x) ((reverseSem B d T).hasLen q y) := by
    intro q x y hx
    exact .bind (hsub hx) fun _ _ hv => hS.hasLen q hv
  refine ⟨by simp only [reverseSem, hS.sig], hsub, hlen, ?_, rfl, fun _ => rfl⟩
  intro q x y hx
  exact guardLen_rel (hlen q hx) fun _ => hS.len q hx

theorem reorder_rel {ds : List Dim} {S T : Sem} (hS : SemRel W S T) :
    ViewRel W (reorderSem ds S) (reorderSem ds T) := by
  have hlen : ∀ q {x y : State}, x.Rel W y →
      Option.Refines Eq ((reorderSem ds S).hasLen q x) ((reorderSem ds T).hasLen q y) := by
    intro q x y hx
    simp only [reorderSem, hS.sig]
    exact .ite rfl (hS.hasLen q hx) (.some rfl)
  refine ⟨by simp only [reorderSem, hS.sig], fun hx => .some hx, hlen, ?_,
    by simp only [reorderSem, hS.sig], fun _ => by simp only [reorderSem, hS.sig]⟩
  intro q x y hx
  exact guardLen_rel (hlen q hx) fun _ => hS.len q hx

theorem hoist_rel {d : Dim} {S T : Sem} (hS : SemRel W S T) : ViewRel W (hoistSem d S) (hoistSem d T) := by
  refine ⟨by simp only [hoistSem, hS.sig], fun hx => .some hx, fun q _ _ hx => hS.hasLen q hx, ?_, rfl,
    fun _ => rfl⟩
  intro q x y hx
  exact guardLen_rel (hS.hasLen q hx) fun _ => hS.len q hx

theorem rename_rel {ps : List (Dim × Dim)} {S T : Sem} (hS : SemRel W S T) :
    ViewRel W (renameSem ps S) (renameSem ps T) := by
  refine ⟨by simp only [renameSem, hS.sig], fun hx => .some (hx.rename ps),
    fun q _ _ hx => hS.hasLen _ (hx.rename ps), ?_, rfl, fun _ => rfl⟩
  intro q x y hx
  exact guardLen_rel (hS.hasLen _ (hx.rename ps)) fun _ => hS.len _ (hx.rename ps)

theorem join_rel {a b d : Dim} {S T : Sem} (hS : SemRel W S T) : ViewRel W (joinSem a b d S) (joinSem a b d T) := by
  have hsub : ∀ {x y : State}, x.Rel W y →
      Option.Refines (State.Rel W) ((joinSem a b d S).sub x) ((joinSem a b d T).sub y) := by
    intro x y hx
    have hc := hx.removeAll [.idx d, .idx a, .idx b, .len d, .len a, .len b]
    refine .bind (hS.hasLen a hc) ?_
    rintro ha _ rfl
    refine .bind (hS.hasLen b hc) ?_
    rintro hb _ rfl
    refine .ite rfl .none ?_
    have hw : ∀ {p q : State}, p.Rel W q → State.Rel W
        (match x (.idx d) with
          | some i => (p.set (.idx a) i).set (.idx b) i
          | none => p)
        (match y (.idx d) with
          | some i => (q.set (.idx a) i).set (.idx b) i
          | none => q) := by
      intro p q hpq
      rcases hx.cases (.idx d) with ⟨h1, h2⟩ | ⟨v, w, e1, e2, h3⟩
      · rw [h1, h2]; exact hpq
      · rw [e1, e2]; exact (hpq.set _ h3).set _ h3
    rcases hx.cases (.len d) with ⟨h1, h2⟩ | ⟨v, w, e1, e2, h3⟩
    · simp only [h1, h2]; exact .some (hw hc)
    · simp only [e1, e2]
      exact .ite rfl .none (.some (((hw hc).set _ h3).set _ h3))
  have hlen : ∀ q {x y : State}, x.Rel W y →
      Option.Refines Eq ((joinSem a b d S).hasLen q x) ((joinSem a b d T).hasLen q y) := by
    intro q x y hx
    exact .bind (hsub hx) fun _ _ hv => hS.hasLen q hv
  refine ⟨by simp only [joinSem, hS.sig], hsub, hlen, ?_, rfl, fun _ => rfl⟩
  intro q x y hx
  exact guardLen_rel (hlen q hx) fun _ => .bind (hsub hx) fun _ _ hv => hS.len q hv

end

end Noarr
