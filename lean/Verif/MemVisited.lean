import Verif.MemLemmas
import Verif.TraverseLemmas
import Verif.OrderLemmas

/-
The elements that a traversal visits can be accessed and do not overlap.
-/

namespace Noarr

theorem Path.state_of_mem {p : Path} (hn : (p.map Prod.fst).Nodup) {d : Dim} {i : Val} (h : (d, i) ∈ p)
    (st : State) : p.state st (.idx d) = some i := by
  induction p generalizing st with
  | nil => simp at h
  | cons e p ih =>
    rw [List.map_cons, List.nodup_cons] at hn
    rcases List.mem_cons.1 h with rfl | h
    · show Path.state p (st.set (.idx d) i) (.idx d) = some i
      rw [Path.state_set hn.1]
      simp [State.set]
    · exact ih hn.2 h _

theorem PathLt.differ {p p' : Path} (h : PathLt p p') :
    ∃ d i j a b, (d, i) ∈ p ∧ (d, j) ∈ p' ∧ i.Num a ∧ j.Num b ∧ a ≠ b := by
  induction h with
  | head h1 h2 h3 => exact ⟨_, _, _, _, _, List.mem_cons_self .., List.mem_cons_self .., h1, h2, by omega⟩
  | tail _ ih =>
    obtain ⟨d, i, j, a, b, h1, h2, h3⟩ := ih
    exact ⟨d, i, j, a, b, List.mem_cons_of_mem _ h1, List.mem_cons_of_mem _ h2, h3⟩

/-- The structure can be traversed, and its elements accessed: `sts` are the states of
`traverser(s).for_each`, and in each of them the preconditions of the views hold, and size and offset can
be queried. -/
structure Traversed (s : Struct) (sts : List State) : Prop where
  firm : s.firm fun _ => false
  unmixed : s.unmixed .ideal
  visits : (Traverser.mk s []).forEach .ideal [] = some sts
  pre : ∀ st ∈ sts, s.Pre .ideal st
  size : ∀ st ∈ sts, ((s.sem .ideal).size st).isSome
  off : ∀ st ∈ sts, ((s.sem .ideal).off st (.lit 0)).isSome

theorem Traversed.accessible {s : Struct} (hs : s.Sound) {sts : List State} (h : Traversed s sts) :
    (∀ st ∈ sts, Accessible s st) ∧
    sts.Pairwise fun st st' => Agree s st st' ∧
      ∃ q, (s.sem .ideal).sig.needs st q ∧ ¬ SameNum (st (.idx q)) (st' (.idx q)) := by
  have hd : s.noDup .ideal := s.noDup_of_noAlias .ideal hs.wf hs.noAlias
  obtain ⟨ps, h1, h2⟩ := forEach_states (t := ⟨s, []⟩) hd.uniq h.visits
  have h3 : sts = ps.map fun p => p.state .empty := by
    have : sts.map some = (ps.map fun p => p.state .empty).map some := by
      rw [h2, List.map_map]; rfl
    exact (List.map_inj_right (fun _ _ h => Option.some.inj h)).1 this
  have hmem := walk_mem (s.sem .ideal) hd.uniq (.refl _) h1
  have honly : ∀ p ∈ ps, ∀ q, (p.state .empty (.idx q)).isSome →
      (s.sem .ideal).sig.needs (p.state .empty) q := by
    intro p hp q hq
    have F := Nested.facts hd.uniq (.refl _) (fun _ _ => rfl) ((hmem p).1 hp)
    refine F.only q ?_ hq
    cases h : (s.sem .ideal).sig.anyAccept q with
    | true => rfl
    | false => rw [F.outside q h] at hq; simp [State.empty] at hq
  constructor
  · intro st hst
    have hst' := hst
    rw [h3] at hst'
    obtain ⟨p, hp, rfl⟩ := List.mem_map.1 hst'
    have hN := (hmem p).1 hp
    have F := Nested.facts hd.uniq (.refl _) (fun _ _ => rfl) hN
    have hl : ∀ d, Path.state p .empty (.len d) = none := fun d => by rw [Path.state_len]; rfl
    refine ⟨Nested.validR hs.tame h.firm hs.wf hd hN, h.pre _ hst, (firm_noLen h.firm hl).rigid, ?_, hl,
      h.size _ hst, h.off _ hst⟩
    intro q hq i hi
    have hneed := honly p hp q (by simp [hi])
    have hv := F.ok q hneed
    obtain ⟨o, ho⟩ := Sig.needs_iff_entry.1 hneed
    cases o with
    | none => exact absurd hq (h.unmixed q (Sig.entry_hasFn ho))
    | some n =>
      obtain ⟨rs, hrs⟩ := (Sig.find_entry hd.uniq ho).2 n rfl
      simp only [Visited, hrs] at hv
      obtain ⟨k, -, hk⟩ := hv
      rw [hi] at hk
      exact ⟨k, Option.some.inj hk⟩
  · rw [h3]
    refine List.pairwise_map.2 ?_
    refine List.Pairwise.imp_of_mem ?_ (walk_sorted _ h1)
    intro p p' hp hp' hlt
    refine ⟨.of_needed (honly p hp) (honly p' hp'), ?_⟩
    obtain ⟨d, i, j, a, b, m1, m2, n1, n2, hne⟩ := hlt.differ
    have e1 := Path.state_of_mem (Nested.nodup hd.uniq ((hmem p).1 hp)) m1 .empty
    have e2 := Path.state_of_mem (Nested.nodup hd.uniq ((hmem p').1 hp')) m2 .empty
    refine ⟨d, honly p hp d (by simp [e1]), ?_⟩
    rintro ⟨x, y, n, g1, g2, g3, g4⟩
    rw [e1] at g1; rw [e2] at g2
    cases g1; cases g2
    exact hne ((Val.Num.eq n1 g3).trans (Val.Num.eq g4 n2))

/-- The places of the visited elements. -/
theorem Traversed.places {s : Struct} (hs : s.Sound) {sts : List State} (h : Traversed s sts) {size : Val}
    {N : Nat} (hsz : (s.sem .ideal).size .empty = some size) (hN : size.Num N) :
    ∃ pl : State → Nat × Nat, (∀ st ∈ sts, s.place .ideal st = .ok (pl st) ∧
        (s.sem .ideal).elem st = some (pl st).2 ∧ (pl st).1 + (pl st).2 ≤ N) ∧
      sts.Pairwise fun st st' => (pl st).1 + (pl st).2 ≤ (pl st').1 ∨ (pl st').1 + (pl st').2 ≤ (pl st).1 := by
  obtain ⟨h1, h2⟩ := h.accessible hs
  have key : ∀ st ∈ sts, s.place .ideal st = .ok ((s.place .ideal st).toOption.getD (0, 0)) ∧
        (s.sem .ideal).elem st = some ((s.place .ideal st).toOption.getD (0, 0)).2 ∧
        ((s.place .ideal st).toOption.getD (0, 0)).1 + ((s.place .ideal st).toOption.getD (0, 0)).2 ≤ N := by
    intro st hst
    obtain ⟨k, e, g1, g2, g3⟩ := (h1 st hst).place hs hsz hN
    rw [g1]
    exact ⟨rfl, g2, g3⟩
  refine ⟨fun st => (s.place .ideal st).toOption.getD (0, 0), key, ?_⟩
  refine List.Pairwise.imp_of_mem ?_ h2
  rintro st st' hst hst' ⟨hag, q, hq, hne⟩
  exact Accessible.disjoint hs (h1 st hst) (h1 st' hst') hag hsz hN (key st hst).1 (key st' hst').1 (.inl hq) hne

end Noarr
