import Verif.Flat
import Verif.Shortcuts

/-
Slicing views over structures without tuples and with fixed lengths; used for C49.
-/

set_option linter.unusedSimpArgs false

namespace Noarr

theorem mapM_bind {α β γ : Type} (f : α → Option β) (g : β → Option γ) (l : List α) :
    l.mapM (fun a => (f a).bind g) = (l.mapM f).bind fun bs => bs.mapM g := by
  induction l with
  | nil => rfl
  | cons a l ih =>
    simp only [List.mapM_cons, bind, pure, ih]
    cases f a with
    | none => rfl
    | some b =>
      simp only [Option.bind_some]
      cases l.mapM f with
      | none => cases g b <;> rfl
      | some bs =>
        simp only [Option.bind_some]
        rw [List.mapM_cons]; rfl

/-- The states of a traverser are those of its top structure, taken down through the order. -/
theorem forEach_top (A : Arith) (t : Traverser) (ds : List Dim) :
    t.forEach A ds = ((Traverser.mk t.top []).forEach A ds).bind
      fun sts => sts.mapM (stateAt A t.base t.views) := by
  have hv : ∀ p, (t.visit p).state A =
      (((Traverser.mk t.top []).visit p).state A).bind (stateAt A t.base t.views) := by
    intro p
    simp only [Traverser.visit, Traverser.state, Traverser.order, stateAt_append, List.nil_append]
    rfl
  have hr : ∀ tree, (t.run A tree).bind (fun ts => ts.mapM fun t => t.state A) =
      (((Traverser.mk t.top []).run A tree).bind (fun ts => ts.mapM fun t => t.state A)).bind
        fun sts => sts.mapM (stateAt A t.base t.views) := by
    intro tree
    simp only [Traverser.run, Traverser.top, Struct.apply]
    cases walk ((t.base.apply t.views).sem A) tree .empty with
    | none => rfl
    | some ps =>
      simp only [Option.map_some, Option.bind_some]
      rw [← mapM_bind]
      have : ∀ l : List Path, (l.map t.visit).mapM (fun t => t.state A) =
          (l.map (Traverser.mk (t.base.apply t.views) []).visit).mapM
            (fun a => (a.state A).bind (stateAt A t.base t.views)) := by
        intro l
        induction l with
        | nil => rfl
        | cons p l ih => simp only [List.map_cons, List.mapM_cons, ih, hv p]; rfl
      exact this ps
  cases ds with
  | nil => exact hr _
  | cons d ds =>
    have ht : (Traverser.mk t.top []).top = t.top := rfl
    simp only [Traverser.forEach, Traverser.forSections, bind, ht]
    split
    · exact hr _
    · rfl

theorem mapM_map {α β : Type} {f : α → Option β} {g : α → β} {l : List α} (h : ∀ a ∈ l, f a = some (g a)) :
    l.mapM f = some (l.map g) := by
  induction l with
  | nil => rfl
  | cons a l ih =>
    simp [List.mapM_cons, h a (by simp), ih fun b hb => h b (by simp [hb])]

theorem Sig.flat_replace {R : Sig → Sig} {d : Dim} {n : ArgLen} {S : Sig} (h : S.flat)
    (hR : ∀ l r, R (.fn d l r) = .fn d n r) :
    (S.replace R [d]).flat ∧ ∀ q, (S.replace R [d]).anyAccept q = S.anyAccept q := by
  induction S with
  | scalar s => exact ⟨trivial, fun _ => rfl⟩
  | void => exact absurd h id
  | ill => exact absurd h id
  | dep => exact absurd h id
  | fn e l r ih =>
    obtain ⟨h1, h2⟩ := ih h
    simp only [Sig.replace, List.mem_singleton]
    by_cases he : e = d
    · subst he
      rw [if_pos rfl, hR]
      exact ⟨h, fun q => rfl⟩
    · rw [if_neg he]
      exact ⟨h1, fun q => by simp [Sig.anyAccept, h2]⟩

theorem Sig.uniq_replace_flat {R : Sig → Sig} {d : Dim} {n : ArgLen} {S : Sig} (h : S.flat) (hu : S.uniq)
    (hR : ∀ l r, R (.fn d l r) = .fn d n r) : (S.replace R [d]).uniq := by
  induction S with
  | scalar s => exact trivial
  | void => exact absurd h id
  | ill => exact absurd h id
  | dep => exact absurd h id
  | fn e l r ih =>
    simp only [Sig.replace, List.mem_singleton]
    by_cases he : e = d
    · subst he
      rw [if_pos rfl, hR]
      exact hu
    · rw [if_neg he]
      exact ⟨by rw [(Sig.flat_replace (S := r) h hR).2]; exact hu.1, ih h hu.2⟩

/-- A `span` over such a structure. -/
theorem flat_span {s : Struct} {N : Dim → Nat} {d : Dim} {a b : Val} {x y : Nat}
    (hf : (s.sem .ideal).sig.flat) (hu : (s.sem .ideal).sig.uniq) (hN : HasLengths (s.sem .ideal) N)
    (hd : (s.sem .ideal).sig.anyAccept d = true) (ha : a.Num x) (hb : b.Num y) (hxy : x ≤ y) :
    ((Struct.view (.span d a b) s).sem .ideal).sig.flat ∧
    ((Struct.view (.span d a b) s).sem .ideal).sig.uniq ∧
    (∀ q, ((Struct.view (.span d a b) s).sem .ideal).sig.anyAccept q = (s.sem .ideal).sig.anyAccept q) ∧
    HasLengths ((Struct.view (.span d a b) s).sem .ideal) (fun q => if q = d then y - x else N q) := by
  have hR : ∀ l r, Sig.spanRepl a b (.fn d l r) = .fn d (.ofVal b) r := fun _ _ => rfl
  refine ⟨(Sig.flat_replace hf hR).1, Sig.uniq_replace_flat hf hu hR, (Sig.flat_replace hf hR).2, ?_⟩
  intro q hq st hl hi
  have hq : (s.sem .ideal).sig.anyAccept q = true := by
    rw [← (Sig.flat_replace hf hR).2]; exact hq
  simp only [Struct.sem, View.sem, ViewSem.toSem, spanSem]
  have hsub : ∀ e, (st.mapAt (.idx d) (·.add .ideal a)) (.len e) = none := by
    intro e; simpa [State.mapAt] using hl e
  have hsi : (st.mapAt (.idx d) (·.add .ideal a)) (.idx q) = none := by
    by_cases he : q = d
    · subst he; simp [State.mapAt, hi]
    · simp [State.mapAt, he, hi]
  obtain ⟨l, h1, h2⟩ := hN q hq _ hsub hsi
  have h3 := Struct.hasLen_of_len h1
  by_cases he : q = d
  · subst he
    refine ⟨b.sub .ideal a, by simp only [guardLen, h3, ↓reduceIte], ?_⟩
    simp only [↓reduceIte]
    exact Val.nat?_sub.2 ⟨y, x, hb, ha, hxy, rfl⟩
  · refine ⟨l, by simp only [guardLen, h3, he, ↓reduceIte, h1], ?_⟩
    simpa only [he, ↓reduceIte] using h2

/-- The state with `x` added to the indices in the dimensions `ds`. -/
def State.raise (st : State) (ds : List Dim) (x : Nat) : State
  | .idx q => if q ∈ ds then (st (.idx q)).map (fun v => v.add .ideal (.dyn x)) else st (.idx q)
  | .len q => st (.len q)

theorem OnBox.congr {P Q : Dim → Prop} {N M : Dim → Nat} {st : State} (h1 : ∀ q, P q ↔ Q q)
    (h2 : ∀ q, Q q → N q = M q) : OnBox P N st ↔ OnBox Q M st := by
  constructor
  · intro h
    exact ⟨fun q hq => by rw [← h2 q hq]; exact h.ok q ((h1 q).2 hq), fun q hq => h.only q (fun h => hq ((h1 q).1 h)), h.noLen⟩
  · intro h
    exact ⟨fun q hq => by rw [h2 q ((h1 q).1 hq)]; exact h.ok q ((h1 q).1 hq),
      fun q hq => h.only q (fun h => hq ((h1 q).2 h)), h.noLen⟩

end Noarr
