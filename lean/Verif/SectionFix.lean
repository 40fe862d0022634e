import Verif.RangeLemmas
import Verif.OrderLemmas

/-
One index given by `fix`, in a dimension that can be iterated first. Used for C29.
-/

set_option linter.unusedVariables false
set_option linter.unusedSimpArgs false

namespace Noarr

namespace Sig

/-- Whether a loop can be made over what `sig_find_dim` found: `some true` in a tuple dimension. -/
def shape : Sig → Option Bool
  | fn _ _ _ => some false
  | dep _ _ _ => some true
  | _ => none

/-- The dimension is below ordinary dimensions only. -/
inductive Front (d : Dim) : Sig → Prop
  | fn (l r) : Front d (fn d l r)
  | dep (n rs) : Front d (dep d n rs)
  | skip {e r} (l) : e ≠ d → Front d r → Front d (.fn e l r)

/-- The signature with the index `v` given in dimension `d`. -/
abbrev cut (d : Dim) (v : Val) (S : Sig) : Sig := S.replace (fixRepl v) [d]

theorem front_of_find {S : Sig} {d : Dim} (h : (S.find d .empty).shape ≠ none) : Front d S := by
  induction S with
  | scalar s => simp [find, shape] at h
  | void => simp [find, shape] at h
  | ill => simp [find, shape] at h
  | fn e l r ih =>
    by_cases he : e = d
    · subst he; exact .fn _ _
    · simp only [find, he, if_false] at h
      exact .skip _ he (ih h)
  | dep e n rs ih =>
    by_cases he : e = d
    · subst he; exact .dep _ _
    · simp [find, he, State.empty, litIdx, shape] at h

/-- What the dimension is, in any state. -/
theorem Front.cases {S : Sig} {d : Dim} (h : Front d S) :
    (∀ st, S.entry st d none) ∧ (∀ st, ∃ l r, S.find d st = .fn d l r) ∧ (∀ v, (S.uniq → (S.cut d v).uniq) ∧
        (S.wf = true → (S.cut d v).wf = true) ∧ ∀ q, (S.cut d v).anyAccept q = true → S.anyAccept q = true) ∨
    ∃ n, (∀ st, S.entry st d (some n)) ∧ (∀ st, ∃ rs, S.find d st = .dep d n rs) ∧
      (∀ k, k < n → (S.uniq → (S.cut d (.lit k)).uniq) ∧
        (S.wf = true → (S.cut d (.lit k)).wf = true) ∧
        ∀ q, (S.cut d (.lit k)).anyAccept q = true → S.anyAccept q = true) := by
  induction h with
  | fn l r =>
    left
    refine ⟨fun st => .inl ⟨rfl, rfl⟩, fun st => ⟨l, r, by simp [find]⟩, fun v => ?_⟩
    simp only [cut, replace, List.mem_singleton, if_true, fixRepl]
    exact ⟨fun h => h.2, fun h => by simpa [wf] using h, fun q h => by simp [anyAccept, h]⟩
  | dep n rs =>
    right
    refine ⟨n, fun st => .inl ⟨rfl, rfl⟩, fun st => ⟨rs, by simp [find]⟩, fun k hk => ?_⟩
    simp only [cut, replace, List.mem_singleton, if_true, fixRepl, branch, hk, dif_pos]
    exact ⟨fun h => (h _).2, fun h => by simp only [wf, decide_eq_true_eq] at h; exact h _,
      fun q h => accept_dep.2 (.inr ⟨_, h⟩)⟩
  | @skip e r l he h ih =>
    have key : ∀ v, (Sig.fn e l r).cut d v = .fn e l (r.cut d v) := by
      intro v; simp [cut, replace, he]
    have step : ∀ v, (r.uniq → (r.cut d v).uniq) → (r.wf = true → (r.cut d v).wf = true) →
        (∀ q, (r.cut d v).anyAccept q = true → r.anyAccept q = true) →
        ((Sig.fn e l r).uniq → ((Sig.fn e l r).cut d v).uniq) ∧
        ((Sig.fn e l r).wf = true → ((Sig.fn e l r).cut d v).wf = true) ∧
        ∀ q, ((Sig.fn e l r).cut d v).anyAccept q = true → (Sig.fn e l r).anyAccept q = true := by
      intro v h1 h2 h3
      rw [key]
      refine ⟨fun h => ⟨?_, h1 h.2⟩, fun h => by simp only [wf] at h ⊢; exact h2 h, fun q h => ?_⟩
      · cases hh : (r.cut d v).anyAccept e with
        | false => rfl
        | true => have := h3 _ hh; rw [h.1] at this; exact this.symm
      · rcases accept_fn.1 h with h | h
        · exact accept_fn.2 (.inl h)
        · exact accept_fn.2 (.inr (h3 _ h))
    rcases ih with ⟨h1, h2, h3⟩ | ⟨n, h1, h2, h3⟩
    · left
      refine ⟨fun st => .inr (h1 st), fun st => ?_, fun v => step v (h3 v).1 (h3 v).2.1 (h3 v).2.2⟩
      obtain ⟨l', r', h⟩ := h2 st
      exact ⟨l', r', by simp [find, he, h]⟩
    · right
      refine ⟨n, fun st => .inr (h1 st), fun st => ?_, fun k hk => step _ (h3 k hk).1 (h3 k hk).2.1 (h3 k hk).2.2⟩
      obtain ⟨rs, h⟩ := h2 st
      exact ⟨rs, by simp [find, he, h]⟩

/-- The other dimensions are found as before. -/
theorem find_cut {S : Sig} (hu : S.uniq) {d : Dim} {v : Val} {st u : State} {q : Dim} (hq : q ≠ d)
    (hag : ∀ e, e ≠ d → st (.idx e) = u (.idx e)) (hd : u (.idx d) = some v) :
    ((S.cut d v).find q st).shape = (S.find q u).shape := by
  induction S with
  | scalar s => rfl
  | void => rfl
  | ill => rfl
  | fn e l r ih =>
    by_cases he : e = d
    · subst he
      simp only [cut, replace, List.mem_singleton, if_true, fixRepl, find, Ne.symm hq, if_false]
      rw [find_congr fun x hx => hag x (by rintro rfl; rw [hu.1] at hx; cases hx)]
    · simp only [cut, replace, List.mem_singleton, he, if_false, find]
      by_cases hqe : e = q
      · simp [hqe, shape]
      · simp only [hqe, if_false]; exact ih hu.2
  | dep e n rs ih =>
    by_cases he : e = d
    · subst he
      simp only [cut, replace, List.mem_singleton, if_true, fixRepl, find, Ne.symm hq, if_false, hd]
      cases v with
      | dyn k => simp [branch, litIdx, find, shape]
      | bad f => simp [branch, litIdx, find, shape]
      | lit k =>
        by_cases hk : k < n
        · simp only [branch, litIdx, hk, dif_pos]
          rw [find_congr fun x hx => hag x (by rintro rfl; rw [(hu _).1] at hx; cases hx)]
        · simp [branch, litIdx, hk, find, shape]
    · simp only [cut, replace, List.mem_singleton, he, if_false, find]
      by_cases hqe : e = q
      · simp [hqe, shape]
      · simp only [hqe, if_false, hag e he]
        cases litIdx n (u (.idx e)) with
        | none => rfl
        | some k => exact ih k (hu k).2

end Sig

theorem walk_shape (S : Sem) (d : Dim) (n : Nat) (bs : Fin n → DimTree) (st : State) :
    walk S (.node d n bs) st = match (S.sig.find d st).shape with
    | some true => seqAll ((List.finRange n).map fun i =>
        (walk S (bs i) (st.set (.idx d) (.lit i))).map fun ps => ps.map fun p => (d, .lit i) :: p)
    | some false =>
      if h : n = 1 then (S.len d st).bind fun l => l.nat?.bind fun m =>
        seqAll ((List.range m).map fun i =>
          (walk S (bs ⟨0, by omega⟩) (st.set (.idx d) (.dyn i))).map fun ps =>
            ps.map fun p => (d, .dyn i) :: p)
      else none
    | none => none := by
  rw [walk]
  cases S.sig.find d st <;> rfl

/-- As `walk_sub`, when only the kinds of dimensions are the same. -/
theorem walk_sub_shape {S' S : Sem} {sub : State → State} {t : DimTree}
    (hs : ∀ q, t.contains q = true → ∀ st v, sub (st.set (.idx q) v) = (sub st).set (.idx q) v)
    (hf : ∀ q, t.contains q = true → ∀ st, (S'.sig.find q st).shape = (S.sig.find q (sub st)).shape)
    (hl : ∀ q, t.contains q = true → ∀ st, S'.len q st = S.len q (sub st)) (st : State) :
    walk S' t st = walk S t (sub st) := by
  induction t generalizing st with
  | leaf => rfl
  | bad => rfl
  | node d n bs ih =>
    have hd : (DimTree.node d n bs).contains d = true := by simp [DimTree.contains]
    have hb : ∀ i q, (bs i).contains q = true → (DimTree.node d n bs).contains q = true := by
      intro i q h; simp only [DimTree.contains, Bool.or_eq_true, decide_eq_true_eq]; exact .inr ⟨i, h⟩
    have ih' := fun i st => ih i (fun q h => hs q (hb i q h)) (fun q h => hf q (hb i q h))
      (fun q h => hl q (hb i q h)) st
    simp only [walk_shape, hf d hd, hl d hd, ih', hs d hd]

/-- Loops inside a loop over `d` are loops over the structure with that index given. -/
theorem walk_fix {A : Arith} {s : Struct} (hu : (s.sem A).sig.uniq) {d : Dim} {t : DimTree}
    (ht : t.contains d = false) (v : Val) :
    walk (s.sem A) t (State.empty.set (.idx d) v) = walk ((Struct.view (.fix d v) s).sem A) t .empty := by
  have hne : ∀ q, t.contains q = true → q ≠ d := by
    rintro q h rfl
    rw [h] at ht; cases ht
  rw [walk_sub_shape (S' := (Struct.view (.fix d v) s).sem A) (S := s.sem A)
    (sub := fun st => (st.remove (.len d)).set (.idx d) v)]
  · congr 1
    funext t
    cases t with
    | idx e => simp [State.set, State.remove]
    | len e => simp [State.set, State.remove, State.empty]
  · intro q h st v
    have := hne q h
    funext t
    cases t with
    | idx e => simp only [State.set, State.remove, Tag.idx.injEq, reduceCtorEq, ↓reduceIte]; grind
    | len e => simp [State.set, State.remove]
  · intro q h st
    exact Sig.find_cut hu (hne q h) (fun e he => by simp [State.set, State.remove, he]) (by simp [State.set])
  · intro q h st
    simp only [Struct.sem, View.sem, ViewSem.toSem, fixSem, hne q h, ↓reduceIte]
    exact guard_self

/-- The index is in range in a dimension that can be iterated first. -/
def InFront (S : Sem) (d : Dim) (v : Val) : Prop :=
  match (S.sig.find d .empty) with
  | .fn _ _ _ => ∃ i l m, v = .dyn i ∧ S.len d .empty = some l ∧ l.Num m ∧ i < m
  | .dep _ n _ => ∃ k, v = .lit k ∧ k < n
  | _ => False

section
variable {A : Arith} {s : Struct} {d : Dim} {v : Val}

theorem InFront.front (h : InFront (s.sem A) d v) : Sig.Front d (s.sem A).sig := by
  apply Sig.front_of_find
  unfold InFront at h
  split at h
  · next he => rw [he]; simp [Sig.shape]
  · next he => rw [he]; simp [Sig.shape]
  · exact absurd h id

theorem InFront.sig (h : InFront (s.sem A) d v) (hw : (s.sem A).sig.wf = true) (hu : (s.sem A).sig.uniq) :
    ((Struct.view (.fix d v) s).sem A).sig.wf = true ∧ ((Struct.view (.fix d v) s).sem A).sig.uniq := by
  have e : ((Struct.view (.fix d v) s).sem A).sig = (s.sem A).sig.cut d v := rfl
  rw [e]
  rcases h.front.cases with ⟨-, -, h3⟩ | ⟨n, -, h2, h3⟩
  · exact ⟨(h3 v).2.1 hw, (h3 v).1 hu⟩
  · obtain ⟨rs, hr⟩ := h2 .empty
    simp only [InFront, hr] at h
    obtain ⟨k, rfl, hk⟩ := h
    exact ⟨(h3 k hk).2.1 hw, (h3 k hk).1 hu⟩

theorem fix_entry (hw : ((Struct.view (.fix d v) s).sem A).sig.wf = true) (hu : (s.sem A).sig.uniq) {g f : State}
    (hag : ∀ e, e ≠ d → g (.idx e) = f (.idx e)) (hd : f (.idx d) = some v) (q : Dim) (o : Option Nat) :
    ((Struct.view (.fix d v) s).sem A).sig.entry g q o ↔ q ≠ d ∧ (s.sem A).sig.entry f q o :=
  Sig.entry_fix (fun e he _ => hag e he) hd hu hw q o

theorem fix_len {q : Dim} (hq : q ≠ d) (g : State) :
    ((Struct.view (.fix d v) s).sem A).len q g = (s.sem A).len q ((g.remove (.len d)).set (.idx d) v) := by
  simp only [Struct.sem, View.sem, ViewSem.toSem, fixSem, hq, ↓reduceIte]
  exact guard_self

/-- An element with that index, without it. -/
theorem addr_fix (hi : InFront (s.sem A) d v) (hw : (s.sem A).sig.wf = true) (hu : (s.sem A).sig.uniq)
    {f : State} (h : Addr (s.sem A) (fun _ => none) f) (hd : f (.idx d) = some v) :
    Addr ((Struct.view (.fix d v) s).sem A) (fun _ => none) (f.remove (.idx d)) := by
  obtain ⟨hw', hu'⟩ := hi.sig hw hu
  have hent := fix_entry hw' hu (g := f.remove (.idx d)) (f := f)
    (fun e he => by simp [State.remove, he]) hd
  refine ⟨fun q o hq => ?_, fun q hq => ?_, fun q => by simp [State.remove, h.lens]⟩
  · obtain ⟨hqd, hq⟩ := (hent q o).1 hq
    have := h.ok q o hq
    cases o with
    | some n => simpa [EntryOk, State.remove, hqd] using this
    | none =>
      obtain ⟨k, l, m, h1, h2, h3, h4⟩ := this
      refine ⟨k, l, m, by simp [State.remove, hqd, h1], ?_, h3, h4⟩
      rw [fix_len hqd, ← h2]
      congr 1
      funext t
      cases t with
      | idx e => simp only [State.set, State.remove, Tag.idx.injEq, reduceCtorEq, ↓reduceIte]; grind
      | len e => simp [State.set, State.remove, h.lens]
  · by_cases hqd : q = d
    · subst hqd; simp [State.remove] at hq
    · obtain ⟨o, ho⟩ := h.only q (by simpa [State.remove, hqd] using hq)
      exact ⟨o, (hent q o).2 ⟨hqd, ho⟩⟩

/-- An element of the structure with the index given, with that index. -/
theorem addr_unfix (ht : s.tame) (hf : s.firm fun _ => false) (hi : InFront (s.sem A) d v)
    (hw : (s.sem A).sig.wf = true) (hu : (s.sem A).sig.uniq)
    {g : State} (h : Addr ((Struct.view (.fix d v) s).sem A) (fun _ => none) g)
    (hl : LengthsKnown (s.sem A) (g.set (.idx d) v)) :
    Addr (s.sem A) (fun _ => none) (g.set (.idx d) v) ∧ g (.idx d) = none := by
  obtain ⟨hw', hu'⟩ := hi.sig hw hu
  have hent := fix_entry hw' hu (g := g) (f := g.set (.idx d) v)
    (fun e he => by simp [State.set, he]) (by simp [State.set])
  have hgd : g (.idx d) = none := by
    cases hg : g (.idx d) with
    | none => rfl
    | some x =>
      obtain ⟨o, ho⟩ := h.only d (by simp [hg])
      exact absurd rfl ((hent _ _).1 ho).1
  refine ⟨⟨fun q o hq => ?_, fun q hq => ?_, fun q => by simp [State.set, h.lens]⟩, hgd⟩
  · by_cases hqd : q = d
    · subst hqd
      rcases hi.front.cases with ⟨h1, h2, -⟩ | ⟨n, h1, h2, -⟩
      · cases Sig.entry_det hu hq (h1 _)
        obtain ⟨_, _, hr⟩ := h2 .empty
        simp only [InFront, hr] at hi
        obtain ⟨i, l, m, rfl, hl1, hm, him⟩ := hi
        obtain ⟨l', r', hr'⟩ := h2 (g.set (.idx q) (.dyn i))
        have hk := hl q (Sig.needs_iff_entry.2 ⟨_, hq⟩) (by rw [hr']; simp)
        obtain ⟨l2, hl2⟩ := Option.isSome_iff_exists.1 hk
        have hgr : Grow .empty ((g.set (.idx q) (.dyn i)).remove (.idx q)) :=
          ⟨fun e => by simp [State.remove, State.set, State.empty, h.lens], fun e x he => by simp [State.empty] at he⟩
        have := (s.grows A ht).len _ _ q l l2 hgr (firm_noLen hf (fun e => by
          simp [State.remove, State.set, h.lens])) hl1 hl2
        subst this
        exact ⟨i, l, m, by simp [State.set], hl2, hm, him⟩
      · cases Sig.entry_det hu hq (h1 _)
        obtain ⟨_, hr⟩ := h2 .empty
        simp only [InFront, hr] at hi
        obtain ⟨k, rfl, hk⟩ := hi
        exact ⟨k, hk, by simp [State.set]⟩
    · have hq' := (hent q o).2 ⟨hqd, hq⟩
      have := h.ok q o hq'
      cases o with
      | some n => simpa [EntryOk, State.set, hqd] using this
      | none =>
        obtain ⟨k, l, m, h1, h2, h3, h4⟩ := this
        refine ⟨k, l, m, by simp [State.set, hqd, h1], ?_, h3, h4⟩
        rw [fix_len hqd] at h2
        rw [← h2]
        congr 1
        funext t
        cases t with
        | idx e => simp only [State.set, State.remove, Tag.idx.injEq, reduceCtorEq, ↓reduceIte]; grind
        | len e => simp [State.set, State.remove, h.lens]
  · by_cases hqd : q = d
    · subst hqd
      rcases hi.front.cases with ⟨h1, h2, -⟩ | ⟨n, h1, h2, -⟩
      · exact ⟨_, h1 _⟩
      · exact ⟨_, h1 _⟩
    · obtain ⟨o, ho⟩ := h.only q (by simpa [State.set, hqd] using hq)
      exact ⟨o, ((hent q o).1 ho).2⟩

/-- The lengths are known with the index given if they are known otherwise. -/
theorem lengthsKnown_fix (hi : InFront (s.sem A) d v) (hw : (s.sem A).sig.wf = true) (hu : (s.sem A).sig.uniq)
    {g : State} (hg : ∀ q, g (.len q) = none) (hl : LengthsKnown (s.sem A) (g.set (.idx d) v)) :
    LengthsKnown ((Struct.view (.fix d v) s).sem A) g := by
  obtain ⟨hw', hu'⟩ := hi.sig hw hu
  have hent := fix_entry hw' hu (g := g) (f := g.set (.idx d) v)
    (fun e he => by simp [State.set, he]) (by simp [State.set])
  intro q hq hnd
  obtain ⟨o, ho⟩ := Sig.needs_iff_entry.1 hq
  have ho' := (hent q o).1 ho
  have hnone : o = none := by
    cases o with
    | none => rfl
    | some n =>
      obtain ⟨rs, hr⟩ := (Sig.find_entry hu' ho).2 n rfl
      exact absurd hr (hnd _ _ _)
  subst hnone
  obtain ⟨l, r, hr⟩ := (Sig.find_entry hu ho'.2).1 rfl
  have := hl q (Sig.needs_iff_entry.2 ⟨_, ho'.2⟩) (by rw [hr]; simp)
  rw [fix_len ho'.1]
  rw [show ((g.remove (.idx q)).remove (.len d)).set (.idx d) v = (g.set (.idx d) v).remove (.idx q) from ?_]
  · exact this
  · have := ho'.1
    funext t
    cases t with
    | idx e => simp only [State.set, State.remove, Tag.idx.injEq, reduceCtorEq, ↓reduceIte]; grind
    | len e => simp [State.set, State.remove, hg]

end

end Noarr
