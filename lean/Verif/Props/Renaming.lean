import Verif.Lemmas
import Verif.Spec

/-
C17 - C20: rename, reorder and hoist, join, bcast.
-/

namespace Noarr

/-! ### C17 -/

/-- The new name of a dimension, for a list of pairs (old name, new name). -/
abbrev newName (ps : List (Dim × Dim)) (n : Dim) : Dim := Sig.renameDim ps n

/-- `st` is `u` with the names of indices and lengths changed according to `ps`. A name that is
only a new name is not a name of `u`. -/
def RenamedState (ps : List (Dim × Dim)) (u st : State) : Prop :=
  ∀ n, (n ∈ ps.map Prod.snd ∧ n ∉ ps.map Prod.fst ∧ u (.idx n) = none ∧ u (.len n) = none) ∨
    (¬ (n ∈ ps.map Prod.snd ∧ n ∉ ps.map Prod.fst) ∧
      st (.idx (newName ps n)) = u (.idx n) ∧ st (.len (newName ps n)) = u (.len n))

private theorem renameState_eq {ps : List (Dim × Dim)} {u st : State} (h : RenamedState ps u st) :
    renameState ps st = u := by
  have key : ∀ n, renameState ps st (.idx n) = u (.idx n) ∧
      renameState ps st (.len n) = u (.len n) := by
    intro n
    simp only [renameState]
    rcases h n with ⟨h1, h2, h3, h4⟩ | ⟨h1, h2, h3⟩
    · simp only [if_neg h2, if_pos h1, h3, h4, and_self]
    · by_cases hf : n ∈ ps.map Prod.fst
      · simp only [if_pos hf]; exact ⟨h2, h3⟩
      · have hs : n ∉ ps.map Prod.snd := fun hs => h1 ⟨hs, hf⟩
        simp only [if_neg hf, if_neg hs]
        rw [newName, renameDim_of_not_mem hf] at h2 h3
        exact ⟨h2, h3⟩
  funext t
  cases t with
  | idx n => exact (key n).1
  | len n => exact (key n).2

/-- C17: after a renaming, every query under the new names is the query of the original structure
under the old names. `ps` may be any list of pairs without repeated old names and without repeated
new names; in particular, names can be swapped. -/
theorem C17_rename (A : Arith) (s : Struct) (ps : List (Dim × Dim)) (h1 : (ps.map Prod.fst).Nodup)
    (h2 : (ps.map Prod.snd).Nodup) (u st : State) (h : RenamedState ps u st) :
    let F := (Struct.view (.rename ps) s).sem A
    SameAt F st (s.sem A) u ∧
    ∀ n, ¬ (n ∈ ps.map Prod.snd ∧ n ∉ ps.map Prod.fst) →
      F.hasLen (newName ps n) st = (s.sem A).hasLen n u ∧
      F.len (newName ps n) st = (s.sem A).len n u := by
  intro F
  have hs := renameState_eq h
  refine ⟨⟨?_, ?_, fun x => ?_, ?_⟩, fun n hn => ?_⟩
  · simp [F, Struct.sem, ViewSem.toSem, View.sem, renameSem, hs]
  · simp [F, Struct.sem, ViewSem.toSem, View.sem, renameSem, hs]
  · simp [F, Struct.sem, ViewSem.toSem, View.sem, renameSem, hs]
  · simp [F, Struct.sem, ViewSem.toSem, View.sem, renameSem, hs]
  · simp only [F, Struct.sem, ViewSem.toSem, View.sem, renameSem, hs, renameDim_swap h1 h2 n hn,
      true_and]
    exact Struct.len_guard A s n u

/-- A 2 x 3 array with dimensions 0 and 1, which are then swapped. -/
example : ((Struct.apply (.vector 0 (.vector 1 (.scalar 4 4))) [.setLength 0 (.dyn 2),
    .setLength 1 (.dyn 3), .rename [(0, 1), (1, 0)]]).sem .ideal).off
    ((State.empty.at 1 1).at 0 2) (.lit 0) = some (.dyn 20) := by decide

example : RenamedState [(0, 1), (1, 0)] ((State.empty.at 0 1).at 1 2)
    ((State.empty.at 1 1).at 0 2) := by
  intro n
  by_cases h0 : n = 0
  · subst h0; right; decide
  · by_cases h1 : n = 1
    · subst h1; right; decide
    · right
      have : newName [(0, 1), (1, 0)] n = n := by simp [newName, Sig.renameDim, h0, h1]
      rw [this]
      simp [State.set, State.empty, h0, h1]

private theorem anyAccept_mapDims (f : Dim → Dim) (q : Dim) (g : Sig) :
    (g.mapDims f).anyAccept q = true ↔ ∃ n, g.anyAccept n = true ∧ f n = q := by
  induction g with
  | scalar s => simp [Sig.mapDims, Sig.anyAccept]
  | void => simp [Sig.mapDims, Sig.anyAccept]
  | ill => simp [Sig.mapDims, Sig.anyAccept]
  | fn d l r ih =>
    simp only [Sig.mapDims, Sig.anyAccept, Bool.or_eq_true, beq_iff_eq, ih]
    constructor
    · rintro (h | ⟨n, h1, h2⟩)
      · exact ⟨d, Or.inl rfl, h⟩
      · exact ⟨n, Or.inr h1, h2⟩
    · rintro ⟨n, rfl | h1, h2⟩
      · exact Or.inl h2
      · exact Or.inr ⟨n, h1, h2⟩
  | dep d n rs ih =>
    simp only [Sig.mapDims, Sig.anyAccept, Bool.or_eq_true, beq_iff_eq, decide_eq_true_eq, ih]
    constructor
    · rintro (h | ⟨i, m, h1, h2⟩)
      · exact ⟨d, Or.inl rfl, h⟩
      · exact ⟨m, Or.inr ⟨i, h1⟩, h2⟩
    · rintro ⟨m, rfl | ⟨i, h1⟩, h2⟩
      · exact Or.inl h2
      · exact Or.inr ⟨i, m, h1, h2⟩

/-- C17: the dimensions of the renamed structure are the new names of the original dimensions; an
old name that is not also a new name is not a dimension any more. -/
theorem C17_dimensions (A : Arith) (s : Struct) (ps : List (Dim × Dim))
    (hok : renameOk ps (s.sem A).sig = true) :
    let F := (Struct.view (.rename ps) s).sem A
    (∀ q, F.sig.anyAccept q = true ↔ ∃ n, (s.sem A).sig.anyAccept n = true ∧ newName ps n = q) ∧
    (∀ n, n ∈ ps.map Prod.fst → n ∉ ps.map Prod.snd → F.sig.anyAccept n = false) := by
  intro F
  have hsig : F.sig = (s.sem A).sig.mapDims (Sig.renameDim ps) := by
    simp [F, Struct.sem, ViewSem.toSem, View.sem, renameSem, hok]
  refine ⟨fun q => by rw [hsig, anyAccept_mapDims], fun n h1 h2 => ?_⟩
  rw [hsig, ← Bool.not_eq_true, anyAccept_mapDims]
  rintro ⟨m, -, hm⟩
  by_cases hf : m ∈ ps.map Prod.fst
  · obtain ⟨⟨a, e⟩, hm', rfl⟩ := List.mem_map.1 hf
    simp only [renameOk, Bool.and_eq_true, decide_eq_true_eq] at hok
    rw [renameDim_of_mem hok.1.1 hm'] at hm
    exact h2 (List.mem_map.2 ⟨_, hm', hm⟩)
  · rw [renameDim_of_not_mem hf] at hm
    exact hf (hm ▸ h1)

/-- C17: renaming back restores the original structure, in the states that make no use of the names
that were only new names. -/
theorem C17_rename_back (A : Arith) (s : Struct) (ps : List (Dim × Dim))
    (h1 : (ps.map Prod.fst).Nodup) (h2 : (ps.map Prod.snd).Nodup) (st : State)
    (hst : ∀ n ∈ ps.map Prod.snd, n ∉ ps.map Prod.fst → st.Without n) :
    let F := (s.apply [.rename ps, .rename (ps.map Prod.swap)]).sem A
    SameAt F st (s.sem A) st ∧
    ∀ n, ¬ (n ∈ ps.map Prod.snd ∧ n ∉ ps.map Prod.fst) → F.len n st = (s.sem A).len n st := by
  intro F
  have hs : renameState ps (renameState (ps.map Prod.swap) st) = st := by
    have key : ∀ (mk : Dim → Tag) n, (n ∈ ps.map Prod.snd → n ∉ ps.map Prod.fst →
        st (mk n) = none) → (if n ∈ ps.map Prod.fst then
          (if Sig.renameDim ps n ∈ (ps.map Prod.swap).map Prod.fst then
            st (mk (Sig.renameDim (ps.map Prod.swap) (Sig.renameDim ps n)))
           else if Sig.renameDim ps n ∈ (ps.map Prod.swap).map Prod.snd then none
           else st (mk (Sig.renameDim ps n)))
        else if n ∈ ps.map Prod.snd then none
        else (if n ∈ (ps.map Prod.swap).map Prod.fst then
            st (mk (Sig.renameDim (ps.map Prod.swap) n))
           else if n ∈ (ps.map Prod.swap).map Prod.snd then none
           else st (mk n))) = st (mk n) := by
      intro mk n hn
      by_cases hf : n ∈ ps.map Prod.fst
      · have : Sig.renameDim ps n ∈ ps.map Prod.snd := by
          obtain ⟨⟨a, e⟩, hm, rfl⟩ := List.mem_map.1 hf
          rw [renameDim_of_mem h1 hm]
          exact List.mem_map.2 ⟨_, hm, rfl⟩
        rw [if_pos hf, map_swap_fst, if_pos this, renameDim_swap h1 h2 n (fun h => h.2 hf)]
      · rw [if_neg hf, map_swap_fst, map_swap_snd]
        by_cases hs : n ∈ ps.map Prod.snd
        · rw [if_pos hs, hn hs hf]
        · rw [if_neg hs, if_neg hs, if_neg hf]
    funext t
    cases t with
    | idx n => exact key .idx n (fun a b => (hst n a b).1)
    | len n => exact key .len n (fun a b => (hst n a b).2)
  refine ⟨⟨?_, ?_, fun x => ?_, ?_⟩, fun n hn => ?_⟩
  · simp [F, Struct.apply, Struct.sem, ViewSem.toSem, View.sem, renameSem, hs]
  · simp [F, Struct.apply, Struct.sem, ViewSem.toSem, View.sem, renameSem, hs]
  · simp [F, Struct.apply, Struct.sem, ViewSem.toSem, View.sem, renameSem, hs]
  · simp [F, Struct.apply, Struct.sem, ViewSem.toSem, View.sem, renameSem, hs]
  · have hss : (ps.map Prod.swap).map Prod.swap = ps := by simp [Function.comp_def]
    simp only [F, Struct.apply, Struct.sem, ViewSem.toSem, View.sem, renameSem, hs, hss,
      renameDim_swap h1 h2 n hn, guardLen_idem]
    exact Struct.len_guard A s n st

/-- What C17 does not claim: although an old name is not a dimension any more, a query for its length is
still answered, as if it were the new name. -/
theorem C17_old_name_still_answers :
    ((Struct.apply (.vector 0 (.scalar 4 4)) [.setLength 0 (.dyn 5), .rename [(0, 1)]]).sem .ideal).sig.anyAccept 0 =
      false ∧
    ((Struct.apply (.vector 0 (.scalar 4 4)) [.setLength 0 (.dyn 5), .rename [(0, 1)]]).sem .ideal).len 0 .empty =
      some (.dyn 5) := by decide

/-! ### C18 -/

/-- C18: a reorder that lists all the dimensions (so that its signature is complete) answers every
query as the original structure does, and so does hoist. (The effect on the signature is the
subject of C28.) -/
theorem C18_reorder_hoist (A : Arith) (s : Struct) (ds : List Dim) (d : Dim)
    (hc : ((s.sem A).sig.reassemble ds State.empty).complete = true) :
    Same ((Struct.view (.reorder ds) s).sem A) (s.sem A) ∧
    Same ((Struct.view (.hoist d) s).sem A) (s.sem A) := by
  constructor <;> constructor <;> intros <;>
    simp [Struct.sem, ViewSem.toSem, View.sem, reorderSem, hoistSem, hc, Struct.len_guard]

/-- A 2 x 3 array, reordered to column-major traversal: the signature is complete. -/
example : ((Struct.apply (.vector 0 (.vector 1 (.scalar 4 4))) [.setLength 0 (.dyn 2),
    .setLength 1 (.dyn 3)]).sem .ideal).sig.reassemble [1, 0] State.empty |>.complete := by decide

/-! ### C19 -/

/-- C19: a join of two dimensions of length `L` addresses the diagonal. -/
theorem C19_join_diagonal (A : Arith) (s : Struct) (a b d : Dim) (hab : a ≠ b) (L : Nat)
    (st : State) (ha : st.Without a) (hb : st.Without b) (hd : st.Without d)
    (hLa : (s.sem A).HasLength a st L) (hLb : (s.sem A).HasLength b st L) (i : Nat) :
    SameAt ((Struct.view (.join a b d) s).sem A) (st.at d i) (s.sem A) ((st.at a i).at b i) := by
  have hclean : (st.at d i).removeAll [.idx d, .idx a, .idx b, .len d, .len a, .len b] = st := by
    funext t
    cases t with
    | idx e =>
      by_cases h1 : e = d
      · subst h1; simp [State.removeAll, hd.1]
      · by_cases h2 : e = a
        · subst h2; simp [State.removeAll, ha.1]
        · by_cases h3 : e = b
          · subst h3; simp [State.removeAll, hb.1]
          · simp [State.removeAll, State.set, h1, h2, h3]
    | len e =>
      by_cases h1 : e = d
      · subst h1; simp [State.removeAll, hd.2]
      · by_cases h2 : e = a
        · subst h2; simp [State.removeAll, ha.2]
        · by_cases h3 : e = b
          · subst h3; simp [State.removeAll, hb.2]
          · simp [State.removeAll, State.set, h1, h2, h3]
  obtain ⟨la, hla, -⟩ := hLa
  obtain ⟨lb, hlb, -⟩ := hLb
  have hlen : (st.at d i) (.len d) = none := by simp [State.set, hd.2]
  refine ⟨?_, ?_, fun x => ?_, ?_⟩ <;>
    simp [Struct.sem, ViewSem.toSem, View.sem, joinSem, hclean, Struct.hasLen_of_len hla,
      Struct.hasLen_of_len hlb, hlen]

/-- C19, the claim on the length, in part: when the joined dimension keeps one of the two names, it
has the common length. Missing: a new name, see `C19_new_name_has_no_length`. -/
theorem C19_join_length_partial (A : Arith) (s : Struct) (a b d : Dim) (L : Nat) (st : State)
    (ha : st.Without a) (hb : st.Without b) (hd : d = a ∨ d = b)
    (hLa : (s.sem A).HasLength a st L) (hLb : (s.sem A).HasLength b st L) :
    ((Struct.view (.join a b d) s).sem A).HasLength d st L := by
  have hclean : st.removeAll [.idx d, .idx a, .idx b, .len d, .len a, .len b] = st := by
    funext t
    have : t ∈ [Tag.idx d, .idx a, .idx b, .len d, .len a, .len b] → st t = none := by
      intro h
      simp only [List.mem_cons, List.not_mem_nil, or_false] at h
      rcases hd with rfl | rfl
      all_goals
        rcases h with rfl | rfl | rfl | rfl | rfl | rfl
        all_goals first | exact ha.1 | exact ha.2 | exact hb.1 | exact hb.2
    simp only [State.removeAll]
    split
    · rename_i h; exact (this h).symm
    · rfl
  obtain ⟨la, hla, hna⟩ := hLa
  obtain ⟨lb, hlb, hnb⟩ := hLb
  have h1 : st (.idx d) = none := by rcases hd with rfl | rfl <;> first | exact ha.1 | exact hb.1
  have h2 : st (.len d) = none := by rcases hd with rfl | rfl <;> first | exact ha.2 | exact hb.2
  rcases hd with rfl | rfl
  · refine ⟨la, ?_, hna⟩
    simp [Struct.sem, ViewSem.toSem, View.sem, joinSem, hclean, Struct.hasLen_of_len hla,
      Struct.hasLen_of_len hlb, h1, h2, hla, guardLen]
  · refine ⟨lb, ?_, hnb⟩
    simp [Struct.sem, ViewSem.toSem, View.sem, joinSem, hclean, Struct.hasLen_of_len hla,
      Struct.hasLen_of_len hlb, h1, h2, hlb, guardLen]

/-- A 5 x 5 array. -/
private def square : Struct := Struct.apply (.vector 0 (.vector 1 (.scalar 4 4)))
  [.setLength 0 (.dyn 5), .setLength 1 (.dyn 5)]

example : ((Struct.view (.join 0 1 0) square).sem .ideal).HasLength 0 State.empty 5 := by
  exact ⟨.dyn 5, by decide, rfl⟩

/-- The claim of C19 on the length is false for a new name: joining the dimensions of a 5 x 5 array
under a new name gives a dimension without a length, and moreover the second joined dimension is
left in the signature next to it, so the result cannot be traversed. -/
theorem C19_new_name_has_no_length :
    ((Struct.view (.join 0 1 2) square).sem .ideal).hasLen 2 State.empty = some false ∧
    ((Struct.view (.join 0 1 2) square).sem .ideal).len 2 State.empty = none ∧
    ((Struct.view (.join 0 1 2) square).sem .ideal).sig.anyAccept 2 = true ∧
    ((Struct.view (.join 0 1 2) square).sem .ideal).sig.anyAccept 1 = true := by decide

/-! ### C20 -/

/-- C20: a broadcast dimension has the length given to it, and neither its index nor its length has
any influence on the size or on offsets. -/
theorem C20_bcast (A : Arith) (s : Struct) (d : Dim) (n : Val) (st : State) (hst : st.Without d) :
    let F := (Struct.view (.bcast d) s).sem A
    F.len d (st.set (.len d) n) = some n ∧
    (∀ i : Val, SameAt F ((st.set (.len d) n).set (.idx d) i) (s.sem A) st) ∧
    SameAt F (st.set (.len d) n) (s.sem A) st ∧
    (∀ q, q ≠ d → F.len q (st.set (.len d) n) = (s.sem A).len q st) := by
  intro F
  have h1 : ∀ i : Val, ((st.set (.len d) n).set (.idx d) i).removeAll [.idx d, .len d] = st := by
    intro i
    funext t
    by_cases h1 : t = .idx d
    · subst h1; simp [State.removeAll, hst.1]
    · by_cases h2 : t = .len d
      · subst h2; simp [State.removeAll, hst.2]
      · simp [State.removeAll, State.set, h1, h2]
  have h2 : (st.set (.len d) n).removeAll [.idx d, .len d] = st := by
    funext t
    by_cases h1 : t = .idx d
    · subst h1; simp [State.removeAll, hst.1]
    · by_cases h2 : t = .len d
      · subst h2; simp [State.removeAll, hst.2]
      · simp [State.removeAll, State.set, h1, h2]
  refine ⟨?_, fun i => ?_, ?_, fun q hq => ?_⟩
  · simp [F, Struct.sem, ViewSem.toSem, View.sem, bcastSem, guardLen, State.has, State.set, hst.1]
  · constructor <;> intros <;> simp [F, Struct.sem, ViewSem.toSem, View.sem, bcastSem, h1]
  · constructor <;> intros <;> simp [F, Struct.sem, ViewSem.toSem, View.sem, bcastSem, h2]
  · simp only [F, Struct.sem, ViewSem.toSem, View.sem, bcastSem, h2, hq, ↓reduceIte]
    exact Struct.len_guard A s q st

example : ((Struct.apply square [.bcast 7, .setLength 7 (.dyn 3)]).sem .ideal).off
    (((State.empty.at 0 1).at 1 2).at 7 2) (.lit 0) = some (.dyn 28) := by decide

end Noarr
