import Verif.Props.Sums
import Verif.Props.CudaBags
import Verif.Props.Renaming

/-
C80: renamed views of bags in programs (docs/structs/rename.md).
-/

namespace Noarr

/-- The index space of an array after its dimensions have been renamed. A name that is only an old one is not a dimension
of it. -/
def Space.renamed (ps : List (Dim × Dim)) (I : Space) : Space where
  own q := !(decide (q ∈ ps.map Prod.fst) && decide (q ∉ ps.map Prod.snd)) && I.own (Sig.renameDim (ps.map Prod.swap) q)
  has st := (∀ q ∈ ps.map Prod.fst, q ∉ ps.map Prod.snd → st.Without q) ∧ I.has (renameState ps st)
  size st := I.size (renameState ps st)
  length d st n := I.length (Sig.renameDim (ps.map Prod.swap) d) (renameState ps st) n

theorem Sig.needs_mapDims_of {S : Sig} {f : Dim → Dim} {st u : State} {e : Dim}
    (hag : ∀ e, S.anyAccept e = true → u (.idx e) = st (.idx (f e))) (h : S.needs u e) : (S.mapDims f).needs st (f e) := by
  induction S with
  | scalar s => exact absurd h id
  | void => exact absurd h id
  | ill => exact absurd h id
  | fn d l r ih =>
    rcases h with rfl | h
    · exact .inl rfl
    · exact .inr (ih (fun e he => hag e (accept_fn.2 (.inr he))) h)
  | dep d n rs ih =>
    rcases h with rfl | ⟨k, hk, h⟩
    · exact .inl rfl
    · refine .inr ⟨k, ?_, ih k (fun e he => hag e (accept_dep.2 (.inr ⟨k, he⟩))) h⟩
      rw [← hag d (accept_dep.2 (.inl rfl))]
      exact hk

theorem Sig.wf_mapDims {S : Sig} {f : Dim → Dim} : (S.mapDims f).wf = S.wf := by
  induction S with
  | scalar s => rfl
  | void => rfl
  | ill => rfl
  | fn d l r ih => simp [Sig.mapDims, Sig.wf, ih]
  | dep d n rs ih => simp [Sig.mapDims, Sig.wf, ih]

theorem renameState_remove {ps : List (Dim × Dim)} (h1 : (ps.map Prod.fst).Nodup) (h2 : (ps.map Prod.snd).Nodup) {n : Dim}
    (hn : n ∈ ps.map Prod.fst ∨ n ∉ ps.map Prod.snd) (st : State) :
    renameState ps (st.remove (.idx (Sig.renameDim ps n))) = (renameState ps st).remove (.idx n) := by
  funext t
  cases t with
  | len m => simp [renameState_len, State.remove]
  | idx m =>
    simp only [renameState_idx, State.remove, Tag.idx.injEq]
    by_cases hm : m ∈ ps.map Prod.fst ∨ m ∉ ps.map Prod.snd
    · rw [if_pos hm, if_pos hm]
      by_cases e : m = n
      · subst e; simp
      · have : Sig.renameDim ps m ≠ Sig.renameDim ps n := fun h => e (by
          have := congrArg (Sig.renameDim (ps.map Prod.swap)) h
          rwa [renameDim_swap h1 h2 m (by grind), renameDim_swap h1 h2 n (by grind)] at this)
        rw [if_neg this, if_neg e]
    · rw [if_neg hm, if_neg hm]; simp

theorem renameState_empty (ps : List (Dim × Dim)) : renameState ps .empty = .empty := by
  funext t
  cases t <;> simp [renameState_idx, renameState_len, State.empty]

/-- C80: a renamed layout is a layout for the renamed array. -/
theorem C80_renamed_layout {I : Space} {s : Struct} (h : I.LaidOut s) (ps : List (Dim × Dim))
    (hok : renameOk ps (s.sem .ideal).sig = true) (ht : ∀ q ∈ ps.map Prod.fst, s.names q) :
    (I.renamed ps).LaidOut (.view (.rename ps) s) := by
  have hok' := hok
  simp only [renameOk, Bool.and_eq_true, decide_eq_true_eq, List.all_eq_true, Bool.or_eq_true, Bool.not_eq_true'] at hok'
  obtain ⟨⟨h1, h2⟩, h3⟩ := hok'
  have hsig : ((Struct.view (.rename ps) s).sem .ideal).sig = (s.sem .ideal).sig.mapDims (Sig.renameDim ps) := by
    simp [Struct.sem, ViewSem.toSem, View.sem, renameSem, hok]
  have hkeep : ∀ e, (s.sem .ideal).sig.anyAccept e = true → e ∈ ps.map Prod.fst ∨ e ∉ ps.map Prod.snd := by
    intro e he
    by_cases hs : e ∈ ps.map Prod.snd
    · rcases h3 e hs with h | h
      · rw [h] at he; cases he
      · exact .inl h
    · exact .inr hs
  have hag : ∀ (st : State) e, (s.sem .ideal).sig.anyAccept e = true →
      renameState ps st (.idx e) = st (.idx (Sig.renameDim ps e)) := fun st e he => by
    rw [renameState_idx, if_pos (hkeep e he)]
  have hneeds : ∀ (st : State) e, (s.sem .ideal).sig.needs (renameState ps st) e →
      ((Struct.view (.rename ps) s).sem .ideal).sig.needs st (Sig.renameDim ps e) := fun st e he => by
    rw [hsig]; exact Sig.needs_mapDims_of (hag st) he
  have hold : ∀ q, q ∈ ps.map Prod.fst ∧ q ∉ ps.map Prod.snd ∨
      ∃ n, (n ∈ ps.map Prod.fst ∨ n ∉ ps.map Prod.snd) ∧ Sig.renameDim ps n = q := fun q => by
    by_cases hq : q ∈ ps.map Prod.fst ∧ q ∉ ps.map Prod.snd
    · exact .inl hq
    · exact .inr ⟨_, renameDim_swap_keep h2 q, renameDim_swap' h1 h2 q hq⟩
  have hhard : ∀ n, (n ∈ ps.map Prod.fst ∨ n ∉ ps.map Prod.snd) → s.hard n →
      (Struct.view (.rename ps) s).hard (Sig.renameDim ps n) := fun n hn hh => ⟨n, hh, hn, rfl⟩
  have hsound : (Struct.view (.rename ps) s).Sound :=
    ⟨⟨by rw [hsig, Sig.wf_mapDims]; exact h.sound.wf.sig, h.sound.wf⟩, ⟨h.sound.noAlias, trivial⟩, ⟨h.sound.tame, h1, h2⟩, ⟨h.sound.sane, trivial⟩, h.sound.exact, trivial⟩
  refine ⟨hsound, ⟨h.tidy, ht⟩, fun q hq => ?_, ?_, fun u hu => ?_, fun u u' hu hu' hne => ?_, fun u hu => ?_,
    fun d st n hl => ?_⟩
  · obtain ⟨n, hn, hk, rfl⟩ := hq
    have e := renameDim_swap h1 h2 n (by grind)
    simp only [Space.renamed, e, h.names n hn, Bool.and_true]
    by_cases hf : n ∈ ps.map Prod.fst
    · simp [renameDim_mem_snd hf]
    · rw [renameDim_of_not_mem hf]; simp [hf]
  · obtain ⟨v, N, hv, hN⟩ := h.total
    exact ⟨v, N, by simpa [Struct.sem, ViewSem.toSem, View.sem, renameSem, renameState_empty] using hv, hN⟩
  · have ha := h.accessible _ hu.2
    refine ⟨fun q i n hq hi hl => ?_, fun w hw => ?_, ⟨trivial, fun w hw => ?_⟩, fun q hq i hi => ?_, fun d => ?_, ?_, ?_⟩
    · rcases hold q with ho | ⟨m, hm, rfl⟩
      · rw [(hu.1 q ho.1 ho.2).1] at hi; cases hi
      · refine ha.valid m i n (fun hh => hq (hhard m hm hh)) (by rw [renameState_idx, if_pos hm, hi]) ?_
        simp only [Struct.sem, ViewSem.toSem, View.sem, renameSem, renameState_remove h1 h2 hm,
          renameDim_swap h1 h2 m (by grind)] at hl
        rwa [Struct.len_guard] at hl
    · cases hw
      exact ⟨trivial, ha.pre⟩
    · cases hw
      exact ha.rigid
    · obtain ⟨n, hn, hk, rfl⟩ := hq
      exact ha.const n hn i (by rw [renameState_idx, if_pos hk, hi])
    · rcases hold d with ho | ⟨m, hm, rfl⟩
      · exact (hu.1 d ho.1 ho.2).2
      · have := ha.noLen m
        rwa [renameState_len, if_pos hm] at this
    · simpa [Struct.sem, ViewSem.toSem, View.sem, renameSem] using ha.size
    · simpa [Struct.sem, ViewSem.toSem, View.sem, renameSem] using ha.off
  · have hne' : renameState ps u ≠ renameState ps u' := fun e => hne (by
      funext t
      cases t with
      | idx q =>
        rcases hold q with ho | ⟨m, hm, rfl⟩
        · rw [(hu.1 q ho.1 ho.2).1, (hu'.1 q ho.1 ho.2).1]
        · have := congrFun e (.idx m)
          rwa [renameState_idx, renameState_idx, if_pos hm, if_pos hm] at this
      | len q =>
        rcases hold q with ho | ⟨m, hm, rfl⟩
        · rw [(hu.1 q ho.1 ho.2).2, (hu'.1 q ho.1 ho.2).2]
        · have := congrFun e (.len m)
          rwa [renameState_len, renameState_len, if_pos hm, if_pos hm] at this)
    obtain ⟨hA, q, hq, hn⟩ := h.differ _ _ hu.2 hu'.2 hne'
    refine ⟨fun q hh n1 n2 => ?_, Sig.renameDim ps q, hq.imp (hneeds u q) (hneeds u' q), ?_⟩
    · obtain ⟨n, hn, hk, rfl⟩ := hh
      have := hA n hn (fun h => n1 (hneeds u n h)) fun h => n2 (hneeds u' n h)
      rwa [renameState_idx, renameState_idx, if_pos hk, if_pos hk] at this
    · have hk : q ∈ ps.map Prod.fst ∨ q ∉ ps.map Prod.snd := hkeep q (hq.elim Sig.needs_anyAccept Sig.needs_anyAccept)
      rwa [renameState_idx, renameState_idx, if_pos hk, if_pos hk] at hn
  · simpa [Struct.sem, ViewSem.toSem, View.sem, renameSem, Space.renamed] using h.elem _ hu.2
  · obtain ⟨v, hv, hN⟩ := h.length _ _ _ hl
    refine ⟨v, ?_, hN⟩
    simp only [Struct.sem, ViewSem.toSem, View.sem, renameSem]
    rw [Struct.len_guard]
    exact hv

/-- C80: the same for an array with the lengths `N`. The lengths of the renamed array are `N'`. -/
theorem C80_renamed_box {ds : List Dim} {N : Dim → Nat} {e : Nat} {s : Struct} (h : (Space.box ds N e).LaidOut s)
    (ps : List (Dim × Dim)) (hok : renameOk ps (s.sem .ideal).sig = true) (ht : ∀ q ∈ ps.map Prod.fst, s.names q)
    (hds : ∀ q ∈ ds, q ∈ ps.map Prod.fst ∨ q ∉ ps.map Prod.snd) {ds' : List Dim}
    (hds' : ∀ q, q ∈ ds' ↔ q ∈ ds.map (newName ps)) {N' : Dim → Nat} (hN : ∀ q ∈ ds, N' (newName ps q) = N q) :
    (Space.box ds' N' e).LaidOut (.view (.rename ps) s) ∧
      ∀ u, OnBox (· ∈ ds') N' u → OnBox (· ∈ ds) N (renameState ps u) := by
  have hL := C80_renamed_layout h ps hok ht
  simp only [renameOk, Bool.and_eq_true, decide_eq_true_eq] at hok
  obtain ⟨⟨h1, h2⟩, -⟩ := hok
  have hold : ∀ q ∈ ds', ¬ (q ∈ ps.map Prod.fst ∧ q ∉ ps.map Prod.snd) := by
    intro q hq ho
    obtain ⟨n, hn, rfl⟩ := List.mem_map.1 ((hds' q).1 hq)
    by_cases hf : n ∈ ps.map Prod.fst
    · exact ho.2 (renameDim_mem_snd hf)
    · rw [newName, renameDim_of_not_mem hf] at ho; exact hf ho.1
  have hbox : ∀ u, OnBox (· ∈ ds') N' u → OnBox (· ∈ ds) N (renameState ps u) := by
    intro u hu
    refine ⟨fun q hq => ?_, fun q hq => ?_, fun q => ?_⟩
    · obtain ⟨k, hk, hk'⟩ := hu.ok (newName ps q) ((hds' _).2 (List.mem_map.2 ⟨q, hq, rfl⟩))
      exact ⟨k, hN q hq ▸ hk, by rw [renameState_idx, if_pos (hds q hq), hk']⟩
    · rw [renameState_idx]
      split
      · next hk =>
        refine hu.only _ fun hm => hq ?_
        obtain ⟨n, hn, he⟩ := List.mem_map.1 ((hds' _).1 hm)
        have := congrArg (Sig.renameDim (ps.map Prod.swap)) he
        have hn' := hds n hn
        rw [newName, renameDim_swap h1 h2 n (by grind), renameDim_swap h1 h2 q (by grind)] at this
        exact this ▸ hn
      · rfl
    · rw [renameState_len, hu.noLen]; simp
  have has : ∀ u, (Space.box ds' N' e).has u → ((Space.box ds N e).renamed ps).has u := fun u hu =>
    ⟨fun q h1 h2 => ⟨hu.only q fun hq => hold q hq ⟨h1, h2⟩, hu.noLen q⟩, hbox u hu⟩
  refine ⟨⟨hL.sound, hL.tidy, fun q hq => ?_, hL.total, fun u hu => hL.accessible u (has u hu),
    fun u u' hu hu' => hL.differ u u' (has u hu) (has u' hu'), fun u hu => hL.elem u (has u hu), fun _ _ _ h => h.elim⟩, hbox⟩
  obtain ⟨n, hn, -, rfl⟩ := hq
  simp only [Space.box, decide_eq_true_eq]
  exact (hds' _).2 (List.mem_map.2 ⟨n, by simpa [Space.box] using h.names n hn, rfl⟩)

/-- C80: a renamed view of a bag has the elements of the bag; and assigning to it is assigning to the bag. -/
theorem C80_renamed_bag (A : Arith) (b : Bag) (ps : List (Dim × Dim)) (u : State) :
    (b.apply [.rename ps]).get A u = b.get A (renameState ps u) ∧
    ∀ v, (b.apply [.rename ps]).set A u v = (b.set A (renameState ps u) v).map (·.apply [.rename ps]) := by
  have hp : (Struct.view (.rename ps) b.structure_).place A u = b.structure_.place A (renameState ps u) := by
    simp [Struct.place, Struct.sem, ViewSem.toSem, View.sem, renameSem]
  have hs : ∀ v, (Struct.view (.rename ps) b.structure_).setAt A b.data u v =
      b.structure_.setAt A b.data (renameState ps u) v := fun v => by
    unfold Struct.setAt; rw [hp]
  refine ⟨?_, fun v => ?_⟩
  · simp only [Bag.get, Bag.apply, Struct.apply]
    unfold Struct.getAt
    rw [hp]
  · simp only [Bag.set, Bag.apply, Struct.apply, hs]
    cases b.structure_.setAt A b.data (renameState ps u) v <;> rfl

theorem renamed_bagFor {b : Bag} (ps : List (Dim × Dim)) (h : BagFor b.structure_ b) :
    BagFor (b.apply [.rename ps]).structure_ (b.apply [.rename ps]) :=
  ⟨rfl, fun v n hv hn => h.2 v n (by
    simpa [Bag.apply, Struct.apply, Struct.sem, ViewSem.toSem, View.sem, renameSem, renameState_empty] using hv) hn⟩

theorem Prog.run_structure {α : Type} {A : Arith} {p : Prog α} {B B' : Bags} {a : α} (h : p.run A B = .ok (a, B')) (x : Nat) :
    (B' x).structure_ = (B x).structure_ := by
  induction p generalizing B with
  | done a => cases h; rfl
  | get y st k ih =>
    simp only [Prog.run] at h
    cases hg : (B y).get A st with
    | error e => rw [hg] at h; cases h
    | ok v => rw [hg] at h; exact ih _ h
  | set y st v k ih =>
    simp only [Prog.run] at h
    cases hg : (B y).set A st v with
    | error e => rw [hg] at h; cases h
    | ok b =>
      rw [hg] at h
      rw [ih h]
      by_cases hx : x = y
      · subst hx
        simp only [Bags.put, if_true]
        simp only [Bag.set] at hg
        cases hs : (B x).structure_.setAt A (B x).data st v with
        | error e => rw [hs] at hg; cases hg
        | ok m => rw [hs] at hg; cases hg; rfl
      · simp only [Bags.put, hx, if_false]
  | length y d st k ih =>
    simp only [Prog.run] at h
    cases hg : (B y).lengthAt A d st with
    | error e => rw [hg] at h; cases h
    | ok v => rw [hg] at h; exact ih _ h

/-- C80: copying through a renamed view, `traverser(to).for_each([&](auto state) { to[state] = from_view[state]; })`, where
`from_view` is `from ^ rename<...>()` (docs/structs/rename.md). The element of `to` at some indices gets the value of the
element of `from` at the same indices under the old names; `from` stays as it was. -/
theorem C80_copy {ds : List Dim} {N : Dim → Nat} {e : Nat} (frm to : Bag) (hf : (Space.box ds N e).LaidOut frm.structure_)
    (hbf : BagFor frm.structure_ frm) (ps : List (Dim × Dim)) (hok : renameOk ps (frm.structure_.sem .ideal).sig = true)
    (hps : ∀ q ∈ ps.map Prod.fst, frm.structure_.names q) (hds : ∀ q ∈ ds, q ∈ ps.map Prod.fst ∨ q ∉ ps.map Prod.snd)
    {ds' : List Dim} (hds' : ∀ q, q ∈ ds' ↔ q ∈ ds.map (newName ps)) {N' : Dim → Nat}
    (hN : ∀ q ∈ ds, N' (newName ps q) = N q) (ht : (Space.box ds' N' e).LaidOut to.structure_) (hbt : BagFor to.structure_ to)
    (t : Traverser) (sts : List State) (hs : t.forEach .ideal [] = some sts) (hnd : sts.Nodup)
    (hsts : ∀ u, u ∈ sts ↔ OnBox (· ∈ ds') N' u) :
    ∃ p B', t.forEachProg .ideal (assign 1 fun st => .get 0 st fun v => .done (st, v)) = some p ∧
      p.run .ideal (fun x => if x = 0 then frm.apply [.rename ps] else to) = .ok ((), B') ∧
      (B' 0).structure_ = frm.structure_.apply [.rename ps] ∧ (B' 1).structure_ = to.structure_ ∧
      ∀ u, OnBox (· ∈ ds') N' u → (B' 1).get .ideal u = frm.get .ideal (renameState ps u) ∧
        (Bag.mk frm.structure_ (B' 0).data).get .ideal (renameState ps u) = frm.get .ideal (renameState ps u) := by
  obtain ⟨L, -⟩ := C80_renamed_box hf ps hok hps hds hds' hN
  let B : Bags := fun x => if x = 0 then frm.apply [.rename ps] else to
  have hL : ∀ x, (Space.box ds' N' e).LaidOut (B x).structure_ := by
    intro x
    by_cases hx : x = 0
    · simp only [B, hx, if_true]; exact L
    · simp only [B, hx, if_false]; exact ht
  have hG : ∀ x, BagFor (B x).structure_ (B x) := by
    intro x
    by_cases hx : x = 0
    · simp only [B, hx, if_true]; exact renamed_bagFor ps hbf
    · simp only [B, hx, if_false]; exact hbt
  have hB : BagsHold (fun _ => .box ds' N' e) B fun x u => match (B x).get .ideal u with
      | .ok v => v
      | .error _ => [] := by
    refine ⟨hL, hG, fun x u hu => ?_⟩
    obtain ⟨⟨v, hv, -⟩, -⟩ := (hL x).access (hG x) hu
    simp only [hv]
  obtain ⟨p, B', h1, h2, h3, h4, h5⟩ := C73_copy (.box ds' N' e) t sts hs hnd
    (fun st hst => Space.box_self ((hsts st).1 hst)) (fun u hu => (hsts u).2 hu) _ B hB
  have e0 : B 0 = frm.apply [.rename ps] := rfl
  refine ⟨p, B', h1, h2, by rw [h3 0, e0]; rfl, h3 1, fun u hu => ⟨?_, ?_⟩⟩
  · rw [h4 u hu, e0, (C80_renamed_bag .ideal frm ps u).1]
  · have h := h5 0 u (by decide) hu
    rw [e0, (C80_renamed_bag .ideal frm ps u).1] at h
    rw [← h, ← (C80_renamed_bag .ideal ⟨frm.structure_, (B' 0).data⟩ ps u).1]
    congr 1
    have := h3 0
    rw [e0] at this
    show Bag.mk (frm.apply [.rename ps]).structure_ (B' 0).data = B' 0
    rw [← this]

theorem renameState_atV {i x : Dim} (k : Nat) : renameState [(i, x)] (atV x k) = atV i k := by
  funext g
  cases g <;> simp [renameState, Sig.renameDim, atV, State.set, State.empty] <;> grind

theorem renameState_shift {i j k : Dim} (hij : i ≠ j) (hjk : j ≠ k) (x y : Nat) :
    renameState [(i, j), (j, k)] (atNM j k x y) = atNM i j x y := by
  funext g
  cases g <;> simp [renameState, Sig.renameDim, atNM, State.withAll, State.set, State.empty] <;> grind

theorem renameState_second {i j k : Dim} (hik : i ≠ k) (x y : Nat) :
    renameState [(j, k)] (atNM i k x y) = atNM i j x y := by
  funext g
  cases g <;> simp [renameState, Sig.renameDim, atNM, State.withAll, State.set, State.empty] <;> grind

theorem renameState_swap {i j : Dim} (hij : i ≠ j) (x y : Nat) :
    renameState [(i, j), (j, i)] (atNM i j x y) = atNM i j y x := by
  funext g
  cases g <;> simp [renameState, Sig.renameDim, atNM, State.withAll, State.set, State.empty] <;> grind

/-- C80: `a ^ rename<'i', 'j', 'j', 'i'>()` is the transposed matrix: reading and assigning. -/
theorem C80_transposed (A : Arith) (a : Bag) {i j : Dim} (hij : i ≠ j) (x y : Nat) :
    (a.apply [.rename [(i, j), (j, i)]]).get A (atNM i j x y) = a.get A (atNM i j y x) ∧
    ∀ v, (a.apply [.rename [(i, j), (j, i)]]).set A (atNM i j x y) v =
      (a.set A (atNM i j y x) v).map (·.apply [.rename [(i, j), (j, i)]]) := by
  have := C80_renamed_bag A a [(i, j), (j, i)] (atNM i j x y)
  rwa [renameState_swap hij] at this

/-- C80: `matmul(a, b ^ rename<'i', 'j', 'j', 'k'>(), c ^ rename<'j', 'k'>())` (docs/structs/rename.md), for matrices which all
have the dimensions `i` and `j`: `a` has `n` x `m` elements, `b` has `m` x `p`, and `c` has `n` x `p`. The function `matmul`
is the loop of C73, over a traverser that visits all combinations of `i`, `j` and `k`. The product is added to `c`. -/
theorem C80_matrix_product {R : Type} [Add R] [Mul R] (hadd : ∀ a b c : R, a + b + c = a + c + b) (E : ElemType R)
    {i j k : Dim} (hij : i ≠ j) (hik : i ≠ k) (hjk : j ≠ k) {n m p : Nat} (a b c : Bag)
    (la : (Space.box [i, j] (fun q => if q = i then n else m) E.size).LaidOut a.structure_)
    (lb : (Space.box [i, j] (fun q => if q = i then m else p) E.size).LaidOut b.structure_)
    (lc : (Space.box [i, j] (fun q => if q = i then n else p) E.size).LaidOut c.structure_)
    (ga : BagFor a.structure_ a) (gb : BagFor b.structure_ b) (gc : BagFor c.structure_ c)
    (kb : (b.structure_.sem .ideal).sig.anyAccept k = false) (kc : (c.structure_.sem .ideal).sig.anyAccept k = false)
    (nb : b.structure_.names i ∧ b.structure_.names j) (nc : c.structure_.names j) (t : Traverser) (sts : List State)
    (ht : t.forEach .ideal [] = some sts) (hnd : sts.Nodup)
    (hsts : ∀ u, u ∈ sts ↔ OnBox (· ∈ [i, k, j]) (fun q => if q = i then n else if q = j then m else p) u) :
    ∃ prog B', t.forEachProg .ideal (addProduct E) = some prog ∧
      prog.run .ideal (fun x => if x = 0 then a else if x = 1 then b.apply [.rename [(i, j), (j, k)]] else
        c.apply [.rename [(j, k)]]) = .ok ((), B') ∧
      ∀ x y, x < n → y < p → ∃ (as bs : Nat → List UInt8) (old new : List UInt8), (∀ z, z < m → a.get .ideal (atNM i j x z) = .ok (as z) ∧
          b.get .ideal (atNM i j z y) = .ok (bs z)) ∧ c.get .ideal (atNM i j x y) = .ok old ∧
        (Bag.mk c.structure_ (B' 2).data).get .ideal (atNM i j x y) = .ok new ∧
        E.dec new = (List.range m).foldl (fun r z => r + E.dec (as z) * E.dec (bs z)) (E.dec old) := by
  let N : Dim → Nat := fun q => if q = i then n else if q = j then m else p
  have hji := hij.symm
  have hki := hik.symm
  have hkj := hjk.symm
  obtain ⟨Lb, -⟩ := C80_renamed_box (ds' := [j, k]) (N' := N) lb [(i, j), (j, k)]
    (by simp [renameOk, kb, hij, hjk]) (by simp [nb]) (by simp) (by simp [newName, Sig.renameDim, hji])
    (by simp [newName, Sig.renameDim, N, hji, hki, hkj])
  obtain ⟨Lc, -⟩ := C80_renamed_box (ds' := [i, k]) (N' := N) lc [(j, k)]
    (by simp [renameOk, kc]) (by simp [nc]) (by simp [hik]) (by simp [newName, Sig.renameDim, hij])
    (by simp [newName, Sig.renameDim, N, hij, hji, hki, hkj])
  have La : (Space.box [i, j] N E.size).LaidOut a.structure_ := by
    have hbox : ∀ u, OnBox (· ∈ [i, j]) N u → OnBox (· ∈ [i, j]) (fun q => if q = i then n else m) u := fun u hu =>
      ⟨fun q hq => by
        have := hu.ok q hq
        rcases List.mem_cons.1 hq with rfl | hq
        · simpa [N] using this
        · cases List.mem_singleton.1 hq
          simpa [N, hji] using this, hu.only, hu.noLen⟩
    exact ⟨la.sound, la.tidy, la.names, la.total, fun u hu => la.accessible u (hbox u hu),
      fun u u' hu hu' => la.differ u u' (hbox u hu) (hbox u' hu'), fun u hu => la.elem u (hbox u hu), fun _ _ _ h => h.elim⟩
  let I : Nat → Space := fun x => if x = 0 then .box [i, j] N E.size else if x = 1 then .box [j, k] N E.size else
    .box [i, k] N E.size
  let B : Bags := fun x => if x = 0 then a else if x = 1 then b.apply [.rename [(i, j), (j, k)]] else c.apply [.rename [(j, k)]]
  have hL : ∀ x, (I x).LaidOut (B x).structure_ := by
    intro x
    simp only [I, B]
    split
    · exact La
    · split
      · exact Lb
      · exact Lc
  have hG : ∀ x, BagFor (B x).structure_ (B x) := by
    intro x
    simp only [B]
    split
    · exact ga
    · split
      · exact renamed_bagFor _ gb
      · exact renamed_bagFor _ gc
  let V : Arrays := fun x u => match (B x).get .ideal u with
    | .ok v => v
    | .error _ => []
  have hB : BagsHold I B V := by
    refine ⟨hL, hG, fun x u hu => ?_⟩
    obtain ⟨⟨v, hv, -⟩, -⟩ := (hL x).access (hG x) hu
    simp only [V, hv]
  obtain ⟨prog, B', V', g1, g2, g3, g4, g5⟩ := C73_matrix_product hadd E hik hij hkj N I rfl rfl rfl t sts ht hnd hsts V B hB
  have r2 := Prog.run_structure g2
  refine ⟨prog, B', g1, g2, fun x y hx hy => ?_⟩
  have hNi : N i = n := by simp [N]
  have hNj : N j = m := by simp [N, hji]
  have hNk : N k = p := by simp [N, hki, hkj]
  have h0 : ∀ z, z < m → a.get .ideal (atNM i j x z) = .ok (V 0 (atNM i j x z)) := fun z hz =>
    hB.value 0 _ (atNM_onBox hij (by rw [hNi]; exact hx) (by rw [hNj]; exact hz))
  have h1 : ∀ z, z < m → b.get .ideal (atNM i j z y) = .ok (V 1 (atNM j k z y)) := fun z hz => by
    rw [← renameState_shift hij hjk, ← (C80_renamed_bag .ideal b _ _).1]
    exact hB.value 1 _ (atNM_onBox hjk (by rw [hNj]; exact hz) (by rw [hNk]; exact hy))
  have hu := atNM_onBox (N := N) hik (by rw [hNi]; exact hx) (by rw [hNk]; exact hy)
  have h2 : c.get .ideal (atNM i j x y) = .ok (V 2 (atNM i k x y)) := by
    rw [← renameState_second hik, ← (C80_renamed_bag .ideal c _ _).1]
    exact hB.value 2 _ hu
  have h3 : (Bag.mk c.structure_ (B' 2).data).get .ideal (atNM i j x y) = .ok (V' 2 (atNM i k x y)) := by
    rw [← renameState_second hik, ← (C80_renamed_bag .ideal ⟨c.structure_, (B' 2).data⟩ _ _).1, ← g3.value 2 _ hu]
    congr 1
    show Bag.mk (B 2).structure_ (B' 2).data = B' 2
    rw [← r2 2]
  refine ⟨fun z => V 0 (atNM i j x z), fun z => V 1 (atNM j k z y), _, _, fun z hz => ⟨h0 z hz, h1 z hz⟩, h2, h3, ?_⟩
  rw [g5 x y (by rw [hNi]; exact hx) (by rw [hNk]; exact hy), hNj]

/-! ### Examples -/

/-- Copying a vector in the dimension 0 ('i') into one in the dimension 1 ('x'). -/
example (xs : Mem) (hxs : xs.length = 42 * 4) (ys : Mem) (hys : ys.length = 42 * 4) :
    ∃ p B', (Traverser.mk (vectorOf 1 42 4) []).forEachProg .ideal (assign 1 fun st => .get 0 st fun v => .done (st, v)) = some p ∧
      p.run .ideal (fun x => if x = 0 then (Bag.mk (vectorOf 0 42 4) xs).apply [.rename [(0, 1)]] else ⟨vectorOf 1 42 4, ys⟩) =
        .ok ((), B') ∧
      ∀ k, k < 42 → (B' 1).get .ideal (atV 1 k) = (Bag.mk (vectorOf 0 42 4) xs).get .ideal (atV 0 k) := by
  have big : ∀ d (m : Mem), m.length = 42 * 4 → BagFor (vectorOf d 42 4) ⟨vectorOf d 42 4, m⟩ := by
    intro d m hm
    refine ⟨rfl, fun w M hw hM => ?_⟩
    obtain ⟨w', h1, h2⟩ := vectorOf_size d 42 4
    cases h1.symm.trans hw
    have : 42 * 4 = M := by simpa [Val.Num] using (h2.symm.trans hM)
    rw [← this, hm]
    exact Nat.le_refl _
  obtain ⟨p, B', h1, h2, -, -, h3⟩ := C80_copy (ds := [0]) (N := fun _ => 42) (ds' := [1]) (N' := fun _ => 42)
    ⟨vectorOf 0 42 4, xs⟩ ⟨vectorOf 1 42 4, ys⟩ (vectorOf_laidOut 0 (fun _ => 42) 4) (big 0 xs hxs) [(0, 1)]
    (by simp [renameOk, vectorOf_sig, Sig.anyAccept]) (by simp [vectorOf, Struct.apply, Struct.names, View.names]) (by simp)
    (by simp [newName, Sig.renameDim]) (fun _ _ => rfl) (vectorOf_laidOut 1 (fun _ => 42) 4) (big 1 ys hys) _ _
    (vectorOf_forEach 1 42 4) (vector_nodup 1 42) (fun u => mem_vector (N := fun _ => 42))
  refine ⟨p, B', h1, h2, fun k hk => ?_⟩
  rw [(h3 _ (atV_box hk)).1, renameState_atV]

/-- The structures of three matrices with 2 x 3, 3 x 4 and 2 x 4 elements after the renaming; 'i', 'j' and 'k' are 0, 1 and
2. -/
def c80Structs : Fin 3 → Struct
  | 0 => matrixRows 0 1 2 3
  | 1 => (matrixColumns 0 1 3 4).apply [.rename [(0, 1), (1, 2)]]
  | 2 => (matrixRows 0 1 2 4).apply [.rename [(1, 2)]]

theorem c80_sigs : ((c80Structs 0).sem .ideal).sig = .fn 1 .dynamic (.fn 0 .dynamic (.scalar 4)) ∧
    ((c80Structs 1).sem .ideal).sig = .fn 1 .dynamic (.fn 2 .dynamic (.scalar 4)) ∧
    ((c80Structs 2).sem .ideal).sig = .fn 2 .dynamic (.fn 0 .dynamic (.scalar 4)) := ⟨rfl, rfl, rfl⟩

theorem c80_traversal : ∃ sts, (Traverser.mk (.union 3 c80Structs) []).forEach .ideal [] = some sts ∧ sts.Nodup ∧
    ∀ u, u ∈ sts ↔ OnBox (· ∈ [0, 2, 1]) (fun q => if q = 0 then 2 else if q = 1 then 3 else 4) u := by
  obtain ⟨e0, e1, e2⟩ := c80_sigs
  obtain ⟨sts, g1, g2, g3⟩ := C31_visits_the_union_box_partial .ideal c80Structs
    (fun q => if q = 0 then 2 else if q = 1 then 3 else 4)
    (fun n => match n with
      | 0 => ⟨rfl, rfl, trivial⟩
      | 1 => ⟨rfl, rfl, trivial⟩
      | 2 => ⟨rfl, rfl, trivial⟩)
    (fun n => match n with
      | 0 => trivial
      | 1 => trivial
      | 2 => trivial)
    (fun q n hq _ st hl hi => by
      match n with
      | 0 =>
        rw [e0] at hq
        simp [Sig.anyAccept] at hq
        rcases hq with rfl | rfl <;>
        simp [c80Structs, matrixRows, Struct.apply, Struct.sem, View.sem, ViewSem.toSem, setLengthSem, vectorSem, guardLen,
          State.set, State.has, State.removeAll, hi, Val.Num, Val.nat?]
      | 1 =>
        rw [e1] at hq
        simp [Sig.anyAccept] at hq
        rcases hq with rfl | rfl <;>
        simp [c80Structs, matrixColumns, Struct.apply, Struct.sem, View.sem, ViewSem.toSem, setLengthSem, vectorSem, guardLen,
          renameSem, renameState, Sig.renameDim, State.set, State.has, State.removeAll, hi, Val.Num, Val.nat?]
      | 2 =>
        rw [e2] at hq
        simp [Sig.anyAccept] at hq
        rcases hq with rfl | rfl <;>
        simp [c80Structs, matrixRows, Struct.apply, Struct.sem, View.sem, ViewSem.toSem, setLengthSem, vectorSem, guardLen,
          renameSem, renameState, Sig.renameDim, State.set, State.has, State.removeAll, hi, Val.Num, Val.nat?])
  refine ⟨sts, g1, g2, ?_⟩
  rwa [union_dims (s := c80Structs) (i := 0) (j := 2) (k := 1) (by rw [e0]; simp [Sig.anyAccept]; grind)
    (by rw [e1]; simp [Sig.anyAccept]; grind) (by rw [e2]; simp [Sig.anyAccept]; grind)] at g3

/-- The product of these matrices, for any contents. -/
example (ma mb mc : Mem) (ha : ma.length = 24) (hb : mb.length = 48) (hc : mc.length = 32) :
    ∃ prog B', (Traverser.mk (.union 3 c80Structs) []).forEachProg .ideal (addProduct c70Int) = some prog ∧
      prog.run .ideal (fun x => if x = 0 then ⟨matrixRows 0 1 2 3, ma⟩ else if x = 1 then
        (Bag.mk (matrixColumns 0 1 3 4) mb).apply [.rename [(0, 1), (1, 2)]] else
        (Bag.mk (matrixRows 0 1 2 4) mc).apply [.rename [(1, 2)]]) = .ok ((), B') := by
  obtain ⟨sts, g1, g2, g3⟩ := c80_traversal
  have lay : ∀ n m, (Space.box [0, 1] (fun q => if q = 0 then n else m) 4).LaidOut (matrixRows 0 1 n m) := by
    intro n m
    refine Space.box_of_matrix (by decide) (C72_matrix_layouts (by decide) (C70_rows 0 1 (by decide) n m) ?_ fun q hq => ?_)
    · simp [matrixRows, Struct.apply, Struct.tidy]
    · simp only [matrixRows, Struct.apply, Struct.names, View.names, or_false] at hq; exact hq.symm
  have lay' : ∀ n m, (Space.box [0, 1] (fun q => if q = 0 then n else m) 4).LaidOut (matrixColumns 0 1 n m) := by
    intro n m
    refine Space.box_of_matrix (by decide) (C72_matrix_layouts (by decide) (C70_columns 0 1 (by decide) n m) ?_ fun q hq => ?_)
    · simp [matrixColumns, Struct.apply, Struct.tidy]
    · simp only [matrixColumns, Struct.apply, Struct.names, View.names, or_false] at hq; exact hq
  have big : ∀ (s : Struct) (m : Mem) v k, (s.sem .ideal).size .empty = some v → v.Num k → m.length = k → BagFor s ⟨s, m⟩ := by
    intro s m v k hv hk hm
    refine ⟨rfl, fun v' k' hv' hk' => ?_⟩
    rw [hv] at hv'; cases hv'
    rw [hm]
    exact Nat.le_of_eq (Option.some.inj (hk'.symm.trans hk))
  obtain ⟨prog, B', h1, h2, -⟩ := C80_matrix_product (i := 0) (j := 1) (k := 2) (fun a b c => by grind) c70Int (by decide)
    (by decide) (by decide) (n := 2) (m := 3) (p := 4) ⟨matrixRows 0 1 2 3, ma⟩ ⟨matrixColumns 0 1 3 4, mb⟩
    ⟨matrixRows 0 1 2 4, mc⟩ (lay 2 3) (lay' 3 4) (lay 2 4) (big _ _ (.dyn 24) 24 rfl rfl ha) (big _ _ (.dyn 48) 48 rfl rfl hb)
    (big _ _ (.dyn 32) 32 rfl rfl hc) rfl rfl (by simp [matrixColumns, Struct.apply, Struct.names, View.names])
    (by simp [matrixRows, Struct.apply, Struct.names, View.names]) _ sts g1 g2 g3
  exact ⟨prog, B', h1, h2⟩

/-- The transposed view of a matrix with 2 x 3 elements: its element (2, 1) is the element (1, 2) of the matrix, the last
one. -/
example (m : Mem) (hm : m.length = 24) :
    ((Bag.mk (matrixRows 0 1 2 3) m).apply [.rename [(0, 1), (1, 0)]]).get .ideal (atNM 0 1 2 1) = .ok (m.drop 20) := by
  rw [(C80_transposed .ideal _ (by decide) 2 1).1]
  have : (matrixRows 0 1 2 3).place .ideal (atNM 0 1 1 2) = .ok (20, 4) := rfl
  simp only [Bag.get, Struct.getAt, this, hm, Bind.bind, Except.bind]
  rw [if_pos (by decide), List.take_of_length_le (by simp [hm])]

end Noarr
