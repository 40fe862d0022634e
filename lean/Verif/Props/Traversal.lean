import Verif.TraverseLemmas

/-
C26, C27: what `for_each` visits, and in which order.

The specification is in `TraverseSpec`: `Nested` (the combinations of indices of nested loops),
`Addresses` (all needed indices are set and in range, nothing else is), `PathLt` (lexicographic order).
-/

namespace Noarr

/-- C26: the function is called once for each combination of indices, each of them below the length
reported at its loop, and with the state that the base structure sees for that combination. -/
theorem C26_visits_each_combination_once (A : Arith) (t : Traverser)
    (hu : (t.top.sem A).sig.uniq) (sts : List State) (h : t.forEach A [] = some sts) :
    ∃ ps : List Path, ps.Nodup ∧
      (∀ p, p ∈ ps ↔ Nested (t.top.sem A) (t.top.sem A).sig .empty p) ∧
      sts.map some = ps.map fun p => stateAt A t.base t.views (p.state .empty) := by
  obtain ⟨ps, h1, h2⟩ := forEach_states hu h
  exact ⟨ps, PathLt.nodup (walk_sorted _ h1), walk_mem _ hu (.refl _) h1, h2⟩

/-- C26: no state of the top structure is visited twice, and the states that are visited are exactly
those with all the needed indices in range: an index in a tuple dimension selects a field; any other
index is below the length that is reported when all the other indices are set (not just those of the
outer loops). -/
theorem C26_visits_exactly_the_valid_states (A : Arith) (s : Struct) (ht : s.tame)
    (hf : s.firm fun _ => false) (hu : (s.sem A).sig.uniq) (sts : List State)
    (h : (Traverser.mk s []).forEach A [] = some sts) :
    sts.Nodup ∧ ∀ st, LengthsKnown (s.sem A) st → (st ∈ sts ↔ Addresses (s.sem A) st) := by
  obtain ⟨ps, h1, h2⟩ := forEach_states (t := ⟨s, []⟩) hu h
  have h3 : sts = ps.map fun p => p.state .empty := by
    have : sts.map some = (ps.map fun p => p.state .empty).map some := by
      rw [h2, List.map_map]; rfl
    exact (List.map_inj_right (fun _ _ h => Option.some.inj h)).1 this
  have hmem := walk_mem (s.sem A) hu (.refl _) h1
  constructor
  · rw [h3]
    refine List.pairwise_map.2 ?_
    refine List.Pairwise.imp_of_mem ?_ (PathLt.nodup (walk_sorted _ h1))
    intro p p' hp hp' hne he
    exact hne (Nested.inj hu ((hmem p).1 hp) ((hmem p').1 hp') he)
  · intro st hl
    rw [h3, List.mem_map]
    constructor
    · rintro ⟨p, hp, rfl⟩
      exact Nested.addresses ht hf hu ((hmem p).1 hp) hl
    · intro had
      refine walk_complete A s ht hf hu (.refl _) (fun _ _ => rfl) ?_ (fun _ => rfl) had h1
      intro e he
      cases hst : st (.idx e) with
      | none => rfl
      | some v =>
        have := Sig.needs_anyAccept (had.only e (by simp [hst]))
        rw [he] at this; cases this

/-- C27: the combinations are visited in lexicographic order, the outermost dimension of the signature
being the most significant. -/
theorem C27_visits_in_lexicographic_order (A : Arith) (t : Traverser)
    (hu : (t.top.sem A).sig.uniq) (sts : List State) (h : t.forEach A [] = some sts) :
    ∃ ps : List Path, ps.Pairwise PathLt ∧
      (∀ p, p ∈ ps ↔ Nested (t.top.sem A) (t.top.sem A).sig .empty p) ∧
      sts.map some = ps.map fun p => stateAt A t.base t.views (p.state .empty) := by
  obtain ⟨ps, h1, h2⟩ := forEach_states hu h
  exact ⟨ps, walk_sorted _ h1, walk_mem _ hu (.refl _) h1, h2⟩

/-- C26 and C05: a traverser of several structures, with any order. In every state passed to the
function, each of the structures has its element inside its own memory - provided that it has the
lengths that are traversed (`Fits`), that no name is a tuple dimension in one structure and an ordinary
one in another, and that the preconditions of all the views hold. -/
theorem C26_visited_elements_in_bounds {n : Nat} (ss : Fin n → Struct) (vs : List View)
    (ht : ((Struct.union n ss).apply vs).tame) (hs : ((Struct.union n ss).apply vs).sane .ideal)
    (hw : ((Struct.union n ss).apply vs).wf .ideal) (hd : ((Struct.union n ss).apply vs).noDup .ideal)
    (hf : ((Struct.union n ss).apply vs).firm fun _ => false)
    (sts : List State) (h : (Traverser.mk (.union n ss) vs).forEach .ideal [] = some sts)
    (u : State) (hu : u ∈ sts)
    (hpre : ∀ p, Nested (((Struct.union n ss).apply vs).sem .ideal)
        (((Struct.union n ss).apply vs).sem .ideal).sig .empty p →
      stateAt .ideal (.union n ss) vs (p.state .empty) = some u →
      OrderPre .ideal (.union n ss) vs (p.state .empty) ∧ OrderOk .ideal (.union n ss) vs (p.state .empty))
    (j : Fin n) (hfit : Fits .ideal (.union n ss) (ss j) u) (hp : (ss j).Pre .ideal u)
    (hmix : ∀ i q, (ss i).hard q → ¬ (ss j).hard q → ((ss j).sem .ideal).len q (u.remove (.idx q)) = none)
    (size o : Val) (N : Nat) (hsz : ((ss j).sem .ideal).size u = some size) (hN : size.Num N)
    (ho : ((ss j).sem .ideal).off u (.lit 0) = some o) :
    ∃ k e, o.Num k ∧ ((ss j).sem .ideal).elem u = some e ∧ k + e ≤ N := by
  obtain ⟨ps, h1, h2⟩ := forEach_states (t := ⟨.union n ss, vs⟩) hd.uniq h
  have : some u ∈ sts.map some := List.mem_map.2 ⟨u, hu, rfl⟩
  rw [h2] at this
  obtain ⟨p, hp', hpu⟩ := List.mem_map.1 this
  have hV := Nested.validR ht hf hw hd ((walk_mem _ hd.uniq (.refl _) h1 p).1 hp')
  obtain ⟨hp1, hp2⟩ := hpre _ ((walk_mem _ hd.uniq (.refl _) h1 p).1 hp') hpu
  obtain ⟨ht', hs', hV'⟩ := validR_order ht hs hV hp1 hp2 hpu
  have hVj : ValidR .ideal (ss j) u := by
    intro q i m hq hi hm
    refine hV' q i m ?_ hi (hfit q m (by simp [hi]) hm)
    rintro ⟨i', hi'⟩
    rw [hmix i' q hi' hq] at hm; cases hm
  obtain ⟨k, e, h1, h2, -, h4⟩ := (ss j).inside (ht' j) (hs' j) hVj hp hsz hN
    (show (Val.lit 0).Num 0 from rfl) ho
  exact ⟨k, e, h1, h2, by omega⟩

/-! ### Examples -/

/-- A vector of length 2 of pairs: a scalar and a vector of length 3. -/
def c26Example : Struct :=
  .view (.setLength 0 (.dyn 2)) (.vector 0 (.tuple 9 2 fun i => if i = 0 then .scalar 4 4
    else .view (.setLength 1 (.lit 3)) (.vector 1 (.scalar 4 4))))

example : c26Example.tame := by
  refine ⟨fun i => ?_, trivial⟩
  dsimp only
  split <;> simp [Struct.tame, View.tame]

example : c26Example.firm fun _ => false := by
  intro i
  dsimp only
  split <;> simp [Struct.firm]

example : (c26Example.sem .ideal).sig.uniq := by
  refine ⟨by decide, fun i => ?_⟩
  refine ⟨by revert i; decide, ?_⟩
  match i with
  | 0 => exact trivial
  | 1 => exact ⟨rfl, trivial⟩

/-- The visits of the example, in order. -/
example : walk (c26Example.sem .ideal) (c26Example.sem .ideal).sig.tree .empty = some
    [[(0, .dyn 0), (9, .lit 0)],
     [(0, .dyn 0), (9, .lit 1), (1, .dyn 0)],
     [(0, .dyn 0), (9, .lit 1), (1, .dyn 1)],
     [(0, .dyn 0), (9, .lit 1), (1, .dyn 2)],
     [(0, .dyn 1), (9, .lit 0)],
     [(0, .dyn 1), (9, .lit 1), (1, .dyn 0)],
     [(0, .dyn 1), (9, .lit 1), (1, .dyn 1)],
     [(0, .dyn 1), (9, .lit 1), (1, .dyn 2)]] := by decide

example : ∃ sts, (Traverser.mk c26Example []).forEach .ideal [] = some sts ∧ sts.length = 8 := by
  refine ⟨_, rfl, by decide⟩

/-- A visited state in which the lengths can be queried. -/
example : LengthsKnown (c26Example.sem .ideal) (((State.empty.at 0 1).set (.idx 9) (.lit 1)).at 1 2) := by
  intro q hq hnd
  have h : q = 0 ∨ q = 9 ∨ q = 1 := by
    rcases hq with h | h | ⟨k, hk, h⟩
    · exact .inl h
    · exact .inr (.inl h)
    · have : k = 1 := Option.some.inj (hk.symm.trans rfl)
      subst this
      rcases h with h | h
      · exact .inr (.inr h)
      · exact absurd h id
  rcases h with rfl | rfl | rfl
  · decide
  · exact absurd rfl (hnd 9 2 _)
  · decide

/-- Two structures of one traverser: a matrix and a vector with the rows' length. -/
def c26Structs : Fin 2 → Struct := fun i => if i = 0
  then Struct.apply (.vector 0 (.vector 1 (.scalar 4 4))) [.setLength 0 (.dyn 2), .setLength 1 (.dyn 6)]
  else Struct.apply (.vector 1 (.scalar 8 8)) [.setLength 1 (.dyn 6)]

/-- The rows are cut into blocks of 3, and the blocks become the outermost dimension. -/
def c26Order : List View := [.intoBlocks 1 2 3, .setLength 3 (.dyn 3), .hoist 2]

example : ∃ sts, (Traverser.mk (.union 2 c26Structs) c26Order).forEach .ideal [] = some sts ∧
    sts.length = 12 := by
  refine ⟨_, rfl, by decide⟩

/-- the top structure of the example -/
abbrev c26Top : Struct := (Struct.union 2 c26Structs).apply c26Order

/-- the last state passed to the function -/
def c26State : State := (State.empty.at 0 1).at 1 5

example : c26Top.tame := by
  have h : ∀ i, (c26Structs i).tame := by
    intro i; unfold c26Structs; split <;> simp [Struct.apply, Struct.tame, View.tame]
  have h1 : ∀ q, (Struct.union 2 c26Structs).plain q := by
    intro q
    refine ⟨?_, ?_, ?_⟩ <;> (rintro ⟨i, h⟩; unfold c26Structs at h; split at h <;>
      simp [Struct.apply, Struct.hard, View.hard, Struct.soft, View.soft, Struct.stale, View.stale] at h)
  exact ⟨⟨⟨h, h1 _, (h1 _).1, (h1 _).1⟩, trivial⟩, trivial⟩

example : c26Top.sane .ideal := by
  have h : ∀ i, (c26Structs i).sane .ideal := by
    intro i; unfold c26Structs; split <;> simp [Struct.apply, Struct.sane]
  exact ⟨⟨⟨h, by decide⟩, trivial⟩, trivial⟩

example : c26Top.wf .ideal := by
  have h : ∀ i, (c26Structs i).wf .ideal := by
    intro i
    match i with
    | 0 => exact ⟨by decide, by decide, by decide, by decide, trivial⟩
    | 1 => exact ⟨by decide, by decide, trivial⟩
  exact ⟨by decide, by decide, by decide, by decide, h⟩

example : c26Top.noDup .ideal := by
  refine Struct.noDup_of_noAlias _ _ ?_ ?_
  · have h : ∀ i, (c26Structs i).wf .ideal := by
      intro i
      match i with
      | 0 => exact ⟨by decide, by decide, by decide, by decide, trivial⟩
      | 1 => exact ⟨by decide, by decide, trivial⟩
    exact ⟨by decide, by decide, by decide, by decide, h⟩
  · have h : ∀ i, (c26Structs i).noAlias := by
      intro i; unfold c26Structs; split <;> simp [Struct.apply, Struct.noAlias]
    exact ⟨⟨⟨h, trivial⟩, trivial⟩, trivial⟩

example : c26Top.firm fun _ => false := by
  intro i
  unfold c26Structs
  split <;> simp [Struct.apply, Struct.firm]

/-- The second structure has the lengths that are traversed. -/
example : Fits .ideal (.union 2 c26Structs) (c26Structs 1) c26State := by
  intro q n hq hn
  have : q = 0 ∨ q = 1 := by
    simp only [c26State, State.at, State.set, State.empty] at hq
    grind
  rcases this with rfl | rfl
  · rw [show ((c26Structs 1).sem .ideal).len 0 (c26State.remove (.idx 0)) = none by decide] at hn; cases hn
  · rw [← hn]; decide

example : ((c26Structs 1).sem .ideal).size c26State = some (.dyn 48) ∧
    ((c26Structs 1).sem .ideal).off c26State (.lit 0) = some (.dyn 40) := by decide

example : (c26Structs 1).Pre .ideal c26State := by
  intro u _; exact ⟨trivial, trivial⟩

/-- The preconditions of the order hold in every iteration. -/
example (p : Path) (h : Nested (c26Top.sem .ideal) (c26Top.sem .ideal).sig .empty p) :
    OrderPre .ideal (.union 2 c26Structs) c26Order (p.state .empty) ∧
    OrderOk .ideal (.union 2 c26Structs) c26Order (p.state .empty) := by
  have hl : ∀ d, p.state .empty (.len d) = none := fun d => Path.state_len p .empty d
  refine ⟨⟨⟨⟨trivial, fun _ _ _ _ => trivial⟩, fun _ _ _ _ => trivial⟩, ?_⟩,
    ⟨⟨⟨trivial, fun _ _ => rfl⟩, fun _ _ => rfl⟩, fun _ _ => rfl⟩⟩
  intro u w hu _ ml nl hml
  have : u (.len 2) = none := by
    cases hu
    simp [State.set, hl]
  rw [this] at hml; cases hml

/-- The state is the one of the last iteration. -/
example : (stateAt .ideal (.union 2 c26Structs) c26Order (((State.empty.at 2 1).at 0 1).at 3 2)).map
    (fun u => (u (.idx 0), u (.idx 1), u (.idx 2), u (.idx 3))) =
    some (some (.dyn 1), some (.dyn 5), none, none) := by decide

end Noarr
