import Verif.IndexSpace
import Verif.Flat

/-
C48: `index_space_size` is the number of elements that `for_each` visits.
-/

namespace Noarr

theorem sumVals_num {vs : List Val} {v : Val} {k : Nat} (h : sumVals .ideal vs = some v) (hk : v.Num k) :
    ∃ ks : List Nat, vs.map Val.nat? = ks.map some ∧ k = ks.sum := by
  have key : ∀ (vs : List Val) (v : Val) (k : Nat), (vs.foldl (·.add .ideal ·) v).Num k →
      ∃ x, v.nat? = some x ∧ ∃ ks : List Nat, vs.map Val.nat? = ks.map some ∧ k = x + ks.sum := by
    intro vs
    induction vs with
    | nil => intro v k h; exact ⟨k, h, [], rfl, by simp⟩
    | cons w vs ih =>
      intro v k h
      obtain ⟨x, hx, ks, h1, h2⟩ := ih _ _ h
      obtain ⟨a, b, ha, hb, rfl⟩ := Val.nat?_add.1 hx
      exact ⟨a, ha, b :: ks, by simp [hb, h1], by simp [h2]; omega⟩
  cases vs with
  | nil => cases h
  | cons w vs =>
    obtain rfl := Option.some.inj h
    obtain ⟨x, hx, ks, h1, h2⟩ := key vs w k hk
    exact ⟨x :: ks, by simp [hx, h1], by simp [h2]⟩

theorem seqAll_sum {α β : Type} {f : α → Option (List β)} {l : List α} {r : List β} {g : α → Nat}
    (h : seqAll (l.map f) = some r) (hg : ∀ i ∈ l, ∀ a, f i = some a → a.length = g i) :
    r.length = (l.map g).sum := by
  induction l generalizing r with
  | nil => cases h; rfl
  | cons i l ih =>
    simp only [List.map_cons, seqAll, bind, Option.bind_eq_some_iff, Option.some.injEq] at h
    obtain ⟨a, ha, b, hb, rfl⟩ := h
    simp [hg i (by simp) a ha, ih hb fun j hj => hg j (by simp [hj])]

theorem walk_size {s : Struct} (ht : s.tame) (hf : s.firm fun _ => false)
    (hu : (s.sem .ideal).sig.uniq) {N : Sig}
    (hone : ∀ d l, N.hasSingle d → (s.sem .ideal).len d .empty = some l → l.Num 1)
    {st : State} (hlen : ∀ e, st (.len e) = none) (hA : Sig.At st (s.sem .ideal).sig N) {ps : List Path}
    (h : walk (s.sem .ideal) N.tree st = some ps) {v : Val} {k : Nat}
    (hv : indexSpaceSizeOf .ideal (s.sem .ideal) N.tree = some v) (hk : v.Num k) : ps.length = k := by
  induction N generalizing st ps v k with
  | scalar z =>
    simp [Sig.tree, walk] at h; subst h
    cases hv; cases hk; rfl
  | void =>
    simp [Sig.tree, walk] at h; subst h
    cases hv; cases hk; rfl
  | ill => simp [Sig.tree, walk] at h
  | fn d a r ih =>
    have hfd := hA.find hu (d := d) (.inl ⟨d, a, r, rfl, by simp⟩)
    have hr : ∀ v, Sig.At (st.set (.idx d) v) (s.sem .ideal).sig r := by
      intro v
      refine Sig.At.trans (hA.congr hu ?_) (.fn (.refl _))
      intro e he
      simp only [Sig.anyAccept, Bool.or_eq_false_iff, beq_eq_false_iff_ne] at he
      simp [State.set, Ne.symm he.1]
    simp only [Sig.tree, walk, hfd, ↓reduceDIte, bind, Option.bind_eq_some_iff] at h
    obtain ⟨l, hl, m, hm, h⟩ := h
    simp only [Sig.tree, indexSpaceSizeOf, ↓reduceDIte, bind, Option.bind_eq_some_iff, Option.some.injEq] at hv
    obtain ⟨l', hl', x, hx, rfl⟩ := hv
    have hg : Grow .empty st := ⟨fun e => by simp [State.empty, hlen e], fun e x h => by simp [State.empty] at h⟩
    have hfirm : Firm s st := by
      have : (fun e => st.has (.len e)) = fun _ => false := by
        funext e; simp [State.has, hlen e]
      unfold Firm; rw [this]; exact hf
    have := (s.grows .ideal ht).len _ _ d l' l hg hfirm hl' hl
    subst this
    obtain ⟨a', b', ha, hb, rfl⟩ := Val.nat?_mul.1 hk
    rw [hm] at ha; cases ha
    rw [seqAll_sum (g := fun _ => b') h]
    · rw [List.map_const', List.sum_replicate_nat, List.length_range]
    · intro i _ a ha
      simp only [Option.map_eq_some_iff] at ha
      obtain ⟨qs, hqs, rfl⟩ := ha
      simpa using ih hone (by intro e; simp [State.set, hlen e]) (hr _) hqs hx hb
  | dep d n rs ih =>
    have hfd := hA.find hu (d := d) (.inr ⟨d, n, rs, rfl, by simp⟩)
    have hr : ∀ k : Fin n, Sig.At (st.set (.idx d) (.lit k)) (s.sem .ideal).sig (rs k) := by
      intro k
      refine Sig.At.trans (hA.congr hu ?_) (.dep (k := k) ?_ (.refl _))
      · intro e he
        simp only [Sig.anyAccept, Bool.or_eq_false_iff, beq_eq_false_iff_ne] at he
        simp [State.set, Ne.symm he.1]
      · simp [State.set, Sig.litIdx]
    simp only [Sig.tree, walk, hfd] at h
    have hlen' : ∀ (i : Nat) e, (st.set (.idx d) (.lit i)) (.len e) = none := by
      intro i e; simp [State.set, hlen e]
    have hi := fun i ps v k => ih i (st := st.set (.idx d) (.lit i)) (ps := ps) (v := v) (k := k) (fun e l he => hone e l (.inr ⟨i, he⟩)) (hlen' i) (hr i)
    simp only [Sig.tree, indexSpaceSizeOf] at hv
    by_cases hn : n = 1
    · subst hn
      simp only [↓reduceDIte, bind, Option.bind_eq_some_iff, Option.some.injEq] at hv
      obtain ⟨l', hl', x, hx, rfl⟩ := hv
      obtain ⟨a', b', ha, hb, rfl⟩ := Val.nat?_mul.1 hk
      have h1 := hone d l' (.inl ⟨rfl, rfl⟩) hl'
      rw [show l'.nat? = some 1 from h1] at ha; cases ha
      rw [seqAll_sum (g := fun _ => b') h]
      · rw [List.map_const', List.sum_replicate_nat, List.length_finRange]
      · intro i _ a ha
        simp only [Option.map_eq_some_iff] at ha
        obtain ⟨qs, hqs, rfl⟩ := ha
        rw [Subsingleton.elim i 0] at hqs
        simpa using hi 0 _ _ _ hqs hx hb
    · simp only [hn, ↓reduceDIte, bind, Option.bind_eq_some_iff] at hv
      obtain ⟨vs, hvs, hv⟩ := hv
      obtain ⟨ks, h1, rfl⟩ := sumVals_num hv hk
      have h2 := mapM_some hvs
      have hlenv : vs.length = n := by
        have := congrArg List.length h2; simpa using this
      have hlenk : ks.length = n := by
        have := congrArg List.length h1; simp at this; omega
      have hget : ∀ i : Fin n, indexSpaceSizeOf .ideal (s.sem .ideal) (rs i).tree = some (vs[i.1]'(by omega)) ∧
          (vs[i.1]'(by omega)).nat? = some (ks[i.1]'(by omega)) := by
        intro i
        constructor
        · have := congrArg (fun l => l[i.1]?) h2
          simpa [hlenv] using this.symm
        · have := congrArg (fun l => l[i.1]?) h1
          simpa [hlenv, hlenk] using this
      rw [seqAll_sum (g := fun i => ks[i.1]'(by omega)) h]
      · congr 1
        apply List.ext_getElem
        · simp [hlenk]
        · intro j h1 h2; simp
      · intro i _ a ha
        simp only [Option.map_eq_some_iff] at ha
        obtain ⟨qs, hqs, rfl⟩ := ha
        simpa using hi i _ _ _ hqs (hget i).1 (hget i).2

/-- C48: if `index_space_size(s)` compiles and is a number, and the traversal compiles, it is the
number of elements that the traversal visits. This includes structures with tuples; a tuple dimension
with a single field must have the length one (the code multiplies by it). -/
theorem C48_index_space_size_counts_visits {s : Struct} (ht : s.tame) (hf : s.firm fun _ => false)
    (hu : (s.sem .ideal).sig.uniq)
    (hone : ∀ d l, (s.sem .ideal).sig.hasSingle d → (s.sem .ideal).len d .empty = some l → l.Num 1)
    {v : Val} {k : Nat} (hv : s.indexSpaceSize .ideal = some v) (hk : v.Num k) {sts : List State}
    (h : (Traverser.mk s []).forEach .ideal [] = some sts) : sts.length = k := by
  obtain ⟨ps, h1, h2⟩ := forEach_states (t := ⟨s, []⟩) hu h
  have h3 := walk_size ht hf hu hone (fun _ => rfl) (.refl _) h1 hv hk
  have := congrArg List.length h2
  simp at this
  omega

/-- C48: for a structure without tuples, with the lengths `N`: both compile, and are the product of the
lengths. -/
theorem C48_index_space_size_of_cubes {s : Struct} {N : Dim → Nat} (hf : (s.sem .ideal).sig.flat)
    (hu : (s.sem .ideal).sig.uniq) (hN : HasLengths (s.sem .ideal) N) :
    ∃ v sts, s.indexSpaceSize .ideal = some v ∧ v.Num ((s.sem .ideal).sig.dimList.map N).prod ∧
      (Traverser.mk s []).forEach .ideal [] = some sts ∧
      sts.length = ((s.sem .ideal).sig.dimList.map N).prod := by
  obtain ⟨sts, h1, -, h2, -⟩ := forEach_flat hf hu hN
  have key : ∀ M : Sig, M.flat → (∀ q, M.anyAccept q = true → (s.sem .ideal).sig.anyAccept q = true) →
      ∃ v, indexSpaceSizeOf .ideal (s.sem .ideal) M.tree = some v ∧ v.Num (M.dimList.map N).prod := by
    intro M
    induction M with
    | scalar z => intro _ _; exact ⟨_, rfl, rfl⟩
    | void => intro h _; exact absurd h id
    | ill => intro h _; exact absurd h id
    | dep => intro h _; exact absurd h id
    | fn d l r ih =>
      intro h hq
      obtain ⟨x, hx, hxn⟩ := ih h fun q hq' => hq q (by simp [Sig.anyAccept, hq'])
      obtain ⟨y, hy, hyn⟩ := hN d (hq d (by simp [Sig.anyAccept])) .empty (fun _ => rfl) rfl
      refine ⟨y.mul .ideal x, by simp [Sig.tree, indexSpaceSizeOf, hy, hx], ?_⟩
      exact Val.nat?_mul.2 ⟨_, _, hyn, hxn, by simp [Sig.dimList]⟩
  obtain ⟨v, h3, h4⟩ := key _ hf fun q h => h
  exact ⟨v, sts, h3, h4, h1, h2⟩

/-- A matrix of 3 x 4 in blocks, and a tuple of three numbers in a vector of two. -/
example :
    let s := Struct.apply (.vector 1 (.vector 0 (.scalar 4 4)))
      [.setLength 0 (.dyn 4), .setLength 1 (.lit 3), .intoBlocks 0 2 3, .setLength 3 (.lit 2)]
    let t := Struct.apply (.vector 1 (.tuple 0 3 fun _ => .scalar 4 4)) [.setLength 1 (.dyn 2)]
    s.indexSpaceSize .ideal = some (.dyn 12) ∧
    ((Traverser.mk s []).forEach .ideal []).map List.length = some 12 ∧
    t.indexSpaceSize .ideal = some (.dyn 6) ∧
    ((Traverser.mk t []).forEach .ideal []).map List.length = some 6 ∧
    (s.sem .ideal).sig.uniq ∧ (t.sem .ideal).sig.uniq ∧ (s.sem .ideal).sig.flat ∧
    (s.firm fun _ => false) ∧ (t.firm fun _ => false) ∧ s.tame ∧ t.tame := by
  refine ⟨by decide, by decide, by decide, by decide, ?_, ?_, trivial, ?_, ?_, ?_, ?_⟩
  · exact ⟨rfl, rfl, rfl, trivial⟩
  · exact ⟨rfl, fun i => ⟨rfl, trivial⟩⟩
  · trivial
  · intro i; trivial
  · simp [Struct.apply, Struct.tame, View.tame, Struct.plain, Struct.hard, Struct.soft,
      Struct.stale, View.hard, View.soft, View.stale]
  · exact ⟨fun _ => trivial, trivial⟩

/-- C48 does not extend to a vector inside a tuple: `index_space_size` asks for its length without an
index in the tuple and does not compile, while the traversal does. -/
theorem C48_not_for_vectors_in_tuples :
    let t := Struct.tuple 0 2 fun _ => Struct.apply (.vector 1 (.scalar 4 4)) [.setLength 1 (.dyn 3)]
    t.indexSpaceSize .ideal = none ∧
    ((Traverser.mk t []).forEach .ideal []).map List.length = some 6 := by
  exact ⟨by decide, by decide⟩

end Noarr
