import Verif.ContainLemmas

/-
C54: the storage of parameters.
-/

namespace Noarr

/-- **C54.** Whatever parameters are stored, constants (empty types) mixed with run-time values in any way,
`get<I>()` returns the `I`-th of them and there are no others. -/
theorem C54_get_what_was_stored {α : Type} (vs : List (CVal α)) :
    ∃ c : Contain α, Contain.make vs = some c ∧ c.size = vs.length ∧ ∀ i, c.get i = vs[i]? := by
  obtain ⟨o, ho, _, hg⟩ := containMake_some vs
  exact ⟨⟨vs.map CVal.type, o⟩, by simp [Contain.make, ho], by simp [Contain.size], fun i => hg i⟩

/-- Constants take no storage: the data members are the run-time values, in the order in which they were
given; and the object is of an empty class exactly if there are none. -/
theorem C54_constants_are_not_stored {α : Type} (vs : List (CVal α)) :
    ∃ c : Contain α, Contain.make vs = some c ∧
      (Contain.data c.obj).map CVal.val = vs.filter (fun v => !v.type.isEmpty) ∧
      (containEmpty c.types = true ↔ ∀ v ∈ vs, ∃ n, v = .unit n) := by
  obtain ⟨o, ho, hd, hg⟩ := containMake_some vs
  clear hg
  refine ⟨⟨vs.map CVal.type, o⟩, by simp [Contain.make, ho], ?_, ?_⟩
  · simp only [hd]
    clear ho hd
    induction vs with
    | nil => rfl
    | cons v vs ih =>
      unfold storedVals at ih ⊢
      have e1 : ∀ n : Nat, (CType.empty n).isEmpty = true := fun _ => rfl
      have e2 : CType.full.isEmpty = false := rfl
      cases v <;> simp [CVal.type_unit, CVal.type_val, e1, e2, ih]
  · rw [containEmpty_iff]
    simp only [List.mem_map, forall_exists_index, and_imp, forall_apply_eq_imp_iff₂]
    refine forall_congr' fun v => forall_congr' fun _ => ?_
    cases v <;> simp [CVal.type, CType.isEmpty]

/-- Concatenation: `contain_cat` of any number of them returns, under each index, what is at that index in
the sequence of all the fields. -/
theorem C54_cat {α : Type} (vss : List (List (CVal α))) (cs : List (Contain α))
    (h : vss.mapM Contain.make = some cs) :
    ∃ c, Contain.cat cs = some c ∧ c.size = vss.flatten.length ∧ ∀ i, c.get i = vss.flatten[i]? := by
  suffices H : ∀ (n : Nat) (vss : List (List (CVal α))) (cs : List (Contain α)), cs.length = n →
      (∃ hl : cs.length = vss.length, ∀ k (hk : k < cs.length), (cs[k]).size = (vss[k]).length ∧
        ∀ i, (cs[k]).get i = (vss[k])[i]?) →
      ∃ c, Contain.cat cs = some c ∧ c.size = vss.flatten.length ∧ ∀ i, c.get i = vss.flatten[i]? by
    refine H _ vss cs rfl ?_
    clear H
    induction vss generalizing cs with
    | nil => simp at h; subst h; exact ⟨rfl, by simp⟩
    | cons vs vss ih =>
      obtain ⟨c, hc, hs, hg⟩ := C54_get_what_was_stored vs
      simp only [List.mapM_cons, hc, Option.bind_eq_bind, Option.bind_some, Option.bind_eq_some_iff,
        Option.pure_def, Option.some.injEq] at h
      obtain ⟨cs', h', rfl⟩ := h
      obtain ⟨hl, hk⟩ := ih cs' h'
      refine ⟨by simp [hl], fun k hk' => ?_⟩
      cases k with
      | zero => exact ⟨hs, hg⟩
      | succ k => exact hk k (by simpa using hk')
  intro n
  induction n with
  | zero =>
    intro vss cs hn ⟨hl, _⟩
    have : cs = [] := List.length_eq_zero_iff.1 hn
    subst this
    have : vss = [] := List.length_eq_zero_iff.1 hl.symm
    subst this
    obtain ⟨c, hc, hs, hg⟩ := C54_get_what_was_stored (α := α) []
    exact ⟨c, by simpa [Contain.cat] using hc, by simpa using hs, by simpa using hg⟩
  | succ n ih =>
    intro vss cs hn ⟨hl, hk⟩
    match cs, vss, hl with
    | [c], [vs], _ =>
      have := hk 0 (by simp)
      exact ⟨c, by simp [Contain.cat], by simpa using this⟩
    | c :: c' :: cs, vs :: vs' :: vss, hl =>
      have h0 := hk 0 (by simp)
      have h1 := hk 1 (by simp)
      simp only [List.getElem_cons_zero, List.getElem_cons_succ] at h0 h1
      obtain ⟨d, hd, hds, hdg⟩ := C54_get_what_was_stored (vs ++ vs')
      obtain ⟨r, hr, hrs, hrg⟩ := ih ((vs ++ vs') :: vss) (d :: cs) (by simpa using hn)
        ⟨by simpa using hl, fun k hk' => by
          cases k with
          | zero => exact ⟨hds, hdg⟩
          | succ k => exact hk (k + 2) (by simpa using hk')⟩
      refine ⟨r, ?_, by simpa using hrs, by simpa [List.append_assoc] using hrg⟩
      rw [Contain.cat, contain_fields h0.1 h0.2, contain_fields h1.1 h1.2]
      simpa [hd] using hr

/-- A constant, a run-time value, two constants, a run-time value. -/
example : ∃ c, Contain.make [.unit 0, .val 5, .unit 1, .unit 2, .val (7 : Nat)] = some c ∧
    c.get 1 = some (.val 5) ∧ c.get 2 = some (.unit 1) ∧ c.get 4 = some (.val 7) ∧ c.get 5 = none ∧
    Contain.data c.obj = [5, 7] := ⟨_, rfl, by decide⟩

example : ∃ cs c, [[.unit 0, .val 5], [], [.val (7 : Nat), .unit 1]].mapM Contain.make = some cs ∧
    Contain.cat cs = some c ∧ c.size = 4 ∧ c.get 2 = some (.val 7) := by
  obtain ⟨c, hc, hs, hg⟩ := C54_cat [[.unit 0, .val 5], [], [.val (7 : Nat), .unit 1]] _ rfl
  exact ⟨_, c, rfl, hc, hs, hg 2⟩

end Noarr
