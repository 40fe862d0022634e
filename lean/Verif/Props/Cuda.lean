import Verif.CudaLemmas
import Verif.RangeSpec
import Verif.StepShare
import Verif.Proto

/-
C52, C53: traversals distributed among the threads of a GPU.
-/

namespace Noarr

/-- C52: `cuda_threads` with some dimensions (one for blocks and one for threads, for each dimension of the
grid), where each thread of the kernel calls `for_each` of the traverser it gets: the threads together visit
what `for_each` of the whole traverser visits, each element once - whatever the interleaving of the threads.
The lengths of the dimensions are 32-bit numbers. -/
theorem C52_threads_visit_each_element_once (A : Arith) (c : CudaTraverser) (ht : c.trav.top.tame)
    (hf : c.trav.top.firm fun _ => false) (hw : (c.trav.top.sem A).sig.wf = true)
    (hu : (c.trav.top.sem A).sig.uniq)
    (hl : ∀ st, (∀ q, st (.len q) = none) → LengthsKnown (c.trav.top.sem A) st)
    (hn : (c.pairs.map Prod.fst ++ c.pairs.map Prod.snd).Nodup)
    (ho : ∀ d ∈ c.pairs.map Prod.fst ++ c.pairs.map Prod.snd, Outside (c.trav.top.sem A) d)
    (h32 : ∀ d ∈ c.pairs.map Prod.fst ++ c.pairs.map Prod.snd, ∀ l n, (c.trav.top.sem A).len d .empty = some l →
      l.Num n → n < 2 ^ 32)
    (xss : List (List State)) (h : c.run A = some xss) (run : List State) (hr : Interleaved xss run)
    (sts : List State) (hall : c.trav.forEach A [] = some sts) : run.Perm sts :=
  hr.perm.trans (cuda_perm A c ht hf hw hu hl hn ho h32 xss h sts hall)

/-- C52: `operator bool` tells whether there is any thread to be run (a kernel with an empty grid must not
be launched). -/
theorem C52_bool_tells_whether_there_are_threads (A : Arith) (c : CudaTraverser)
    (h32 : ∀ d ∈ c.pairs.map Prod.fst ++ c.pairs.map Prod.snd, ∀ l n, (c.trav.top.sem A).len d .empty = some l →
      l.Num n → n < 2 ^ 32)
    (b : Bool) (h : c.nonEmpty A = some b) :
    ∃ ths, c.threads A = some ths ∧ (b = true ↔ ths ≠ []) := by
  simp only [CudaTraverser.nonEmpty, bind, Option.bind_eq_some_iff, Option.some.injEq] at h
  obtain ⟨ls, h1, ns, h2, rfl⟩ := h
  have h1 := mapM_some h1
  have h2 := mapM_some h2
  have key : ∀ ds : List Dim, ∀ ls' : List Val, ∀ ns' : List Nat,
      (∀ d ∈ ds, d ∈ c.pairs.map Prod.fst ++ c.pairs.map Prod.snd) →
      ls'.map some = ds.map (fun d => (c.trav.top.sem A).len d .empty) →
      ns'.map some = ls'.map Val.nat? → ds.mapM (c.extent A) = some ns' := by
    intro ds
    induction ds with
    | nil =>
      intro ls' ns' _ h1 h2
      simp only [List.map_nil, List.map_eq_nil_iff] at h1
      subst h1
      simp only [List.map_nil, List.map_eq_nil_iff] at h2
      subst h2; rfl
    | cons d ds ih =>
      intro ls' ns' hd h1 h2
      cases ls' with
      | nil => cases h1
      | cons l ls' =>
        cases ns' with
        | nil => cases h2
        | cons n ns' =>
          simp only [List.map_cons, List.cons.injEq] at h1 h2
          have := ih ls' ns' (fun e he => hd e (by simp [he])) h1.2 h2.2
          simp only [List.mapM_cons, this, CudaTraverser.extent, ← h1.1, ← h2.1, bind, pure, Option.bind_some,
            Nat.mod_eq_of_lt (h32 d (hd d (by simp)) l n h1.1.symm h2.1.symm)]
  -- split into the two lists
  have hlen : ns.length = c.pairs.length + c.pairs.length := by
    have a := congrArg List.length h1
    have b := congrArg List.length h2
    simp only [List.length_map, List.length_append] at a b
    omega
  have split : ∀ ds es : List Dim, ∀ ns : List Nat, (ds ++ es).mapM (c.extent A) = some ns →
      ∃ n1 n2, ns = n1 ++ n2 ∧ ds.mapM (c.extent A) = some n1 ∧ es.mapM (c.extent A) = some n2 := by
    intro ds es ns h
    rw [List.mapM_append] at h
    simp only [bind, Option.bind_eq_some_iff, pure, Option.some.injEq] at h
    obtain ⟨n1, h1, n2, h2, rfl⟩ := h
    exact ⟨n1, n2, rfl, h1, h2⟩
  obtain ⟨n1, n2, rfl, hs, hf⟩ := split _ _ _ (key _ ls ns (fun d hd => by
    rcases List.mem_append.1 hd with hd | hd
    · exact List.mem_append.2 (.inr hd)
    · exact List.mem_append.2 (.inl hd)) h1 h2)
  have hg : c.gridDim A = some n2 := by
    rw [← hf, CudaTraverser.gridDim]; exact (mapM_map_left _ _ _).symm
  have hb : c.blockDim A = some n1 := by
    rw [← hs, CudaTraverser.blockDim]; exact (mapM_map_left _ _ _).symm
  have box : ∀ ns : List Nat, (ns.all fun n => n != 0) = true ↔ indexBox ns ≠ [] := by
    intro ns
    induction ns with
    | nil => simp [indexBox]
    | cons n ns ih =>
      simp only [List.all_cons, Bool.and_eq_true, ih, indexBox, ne_eq, List.flatMap_eq_nil_iff, List.mem_range,
        List.map_eq_nil_iff, bne_iff_ne]
      constructor
      · rintro ⟨h1, h2⟩ h3
        exact h2 (h3 0 (by omega))
      · intro h
        refine ⟨?_, ?_⟩
        · rintro rfl; exact h (fun i hi => absurd hi (by omega))
        · intro h2; exact h (fun _ _ => h2)
  refine ⟨_, by simp only [CudaTraverser.threads, hg, hb, bind, Option.bind_some]; rfl, ?_⟩
  simp only [List.all_append, Bool.and_eq_true, box, ne_eq, List.flatMap_eq_nil_iff, List.map_eq_nil_iff]
  constructor
  · rintro ⟨h1, h2⟩ h3
    cases hx : indexBox n2 with
    | nil => exact h2 hx
    | cons x xs => exact h1 (h3 x (by simp [hx]))
  · intro h
    exact ⟨fun h1 => h (fun _ _ => h1), fun h2 => h (by simp [h2])⟩

/-! ### Examples -/

/-- An array of 2 rows with 6 elements; each row is traversed in blocks of 3. -/
def c52Base : Struct :=
  .view (.setLength 1 (.dyn 6)) (.view (.setLength 0 (.dyn 2)) (.vector 0 (.vector 1 (.scalar 4 4))))

/-- A block of threads for each block of 3 elements, a thread for each element in it. -/
def c52Example : CudaTraverser := ⟨⟨c52Base, [.intoBlocks 1 2 3, .setLength 3 (.lit 3)]⟩, [(2, 3)]⟩

example : c52Example.trav.top.tame ∧ c52Example.trav.top.firm fun _ => false := by
  simp [c52Example, Traverser.top, c52Base, Struct.apply, Struct.tame, View.tame, Struct.firm,
    Struct.plain, Struct.hard, Struct.soft, Struct.stale, View.hard, View.soft, View.stale]

theorem c52Example_sig : (c52Example.trav.top.sem .ideal).sig =
    .fn 0 .dynamic (.fn 2 .dynamic (.fn 3 (.static 3) (.scalar 4))) := rfl

example : (c52Example.trav.top.sem .ideal).sig.wf = true ∧ (c52Example.trav.top.sem .ideal).sig.uniq := by
  rw [c52Example_sig]
  exact ⟨by decide, rfl, rfl, rfl, trivial⟩

example (st : State) (hn : ∀ q, st (.len q) = none) : LengthsKnown (c52Example.trav.top.sem .ideal) st := by
  intro q hq _
  rw [c52Example_sig] at hq
  have hb0 : ∀ u : State, u (.idx 0) = none → (c52Base.sem .ideal).hasLen 0 u = some true ∧
      (c52Base.sem .ideal).len 0 u = some (.dyn 2) := by
    intro u hu
    simp [c52Base, Struct.sem, View.sem, ViewSem.toSem, setLengthSem, vectorSem, guardLen, State.has, State.set, hu]
  have hb1 : ∀ u : State, u (.idx 1) = none → (c52Base.sem .ideal).hasLen 1 u = some true ∧
      (c52Base.sem .ideal).len 1 u = some (.dyn 6) := by
    intro u hu
    simp [c52Base, Struct.sem, View.sem, ViewSem.toSem, setLengthSem, vectorSem, guardLen, State.has, State.set,
      State.removeAll, hu]
  have ht : c52Example.trav.top.sem .ideal = (setLengthSem 3 (.lit 3)
      ((intoBlocksSem .ideal 1 2 3 (c52Base.sem .ideal)).toSem (c52Base.sem .ideal))).toSem
      ((intoBlocksSem .ideal 1 2 3 (c52Base.sem .ideal)).toSem (c52Base.sem .ideal)) := rfl
  rw [ht]
  generalize c52Base.sem .ideal = S at hb0 hb1
  rcases hq with rfl | rfl | rfl | hq
  · cases h2 : st (.idx 2) <;> cases h3 : st (.idx 3) <;>
      simp [ViewSem.toSem, setLengthSem, intoBlocksSem, intoBlocksSub, blocksClean, guardLen, State.set,
        State.remove, State.removeAll, hn, h2, h3, hb0]
  · simp [ViewSem.toSem, setLengthSem, intoBlocksSem, intoBlocksSub, blocksClean, guardLen, State.set, State.has,
        State.remove, State.removeAll, hn, hb1]
  · simp [ViewSem.toSem, setLengthSem, intoBlocksSem, intoBlocksSub, blocksClean, guardLen, State.set, State.has,
        State.remove, State.removeAll, hn]
  · exact absurd hq id

example : ∀ d ∈ c52Example.pairs.map Prod.fst ++ c52Example.pairs.map Prod.snd,
    Outside (c52Example.trav.top.sem .ideal) d := by
  intro d hd
  simp only [c52Example, List.map_cons, List.map_nil, List.cons_append, List.nil_append, List.mem_cons,
    List.not_mem_nil, or_false] at hd
  rcases hd with rfl | rfl
  · exact ⟨_, _, rfl⟩
  · exact ⟨_, _, rfl⟩

example : c52Example.gridDim .ideal = some [2] ∧ c52Example.blockDim .ideal = some [3] ∧
    c52Example.nonEmpty .ideal = some true := by decide

/-- Each of the 6 threads visits the elements of one column. -/
example : ∃ xss, c52Example.run .ideal = some xss ∧ xss.map List.length = [2, 2, 2, 2, 2, 2] := ⟨_, rfl, rfl⟩

example : ∃ sts, c52Example.trav.forEach .ideal [] = some sts ∧ sts.length = 12 := ⟨_, rfl, rfl⟩

/-- A vector of 2^32 pairs; a block for each of them, a thread for each element of the pair. -/
def c52Long : CudaTraverser :=
  ⟨⟨.view (.setLength 1 (.dyn 2)) (.view (.setLength 0 (.dyn (2 ^ 32))) (.vector 0 (.vector 1 (.scalar 4 4)))), []⟩,
    [(0, 1)]⟩

/-- The dimensions of the grid are computed as 32-bit numbers (interop/cuda_traverser.cuh:188): a longer
dimension is cut off without any warning. Here no thread is run at all, although `operator bool` says that
there are some to be run. -/
theorem C52_long_dimensions_are_cut_off :
    c52Long.nonEmpty .ideal = some true ∧ c52Long.run .ideal = some [] ∧
    Addresses (c52Long.trav.top.sem .ideal) (State.empty.set (.idx 0) (.dyn 0) |>.set (.idx 1) (.dyn 0)) := by
  refine ⟨by decide, rfl, ?_⟩
  have hs : (c52Long.trav.top.sem .ideal).sig = .fn 0 .dynamic (.fn 1 .dynamic (.scalar 4)) := rfl
  constructor
  · intro q hq
    rw [hs] at hq
    rcases hq with rfl | rfl | hq
    · exact ⟨0, .dyn (2 ^ 32), 2 ^ 32, rfl, rfl, rfl, by decide⟩
    · exact ⟨0, .dyn 2, 2, rfl, rfl, rfl, by decide⟩
    · exact absurd hq id
  · intro q hq
    rw [hs]
    simp only [State.set, State.empty, Tag.idx.injEq] at hq
    by_cases h1 : q = 1
    · subst h1; exact .inr (.inl rfl)
    · by_cases h0 : q = 0
      · subst h0; exact .inl rfl
      · simp [h0, h1] at hq
  · intro q; simp [State.set, State.empty]

/-! ### C53 -/

/-- C53: `n` threads, each of which calls `for_each` of the traverser ordered by `cuda_step<Dim>` (that is,
`step<Dim>(rank, n)`), visit together what `for_each` of the traverser visits, each element once - for any
length of the dimension, also one that `n` does not divide or that is less than `n`, and whatever the
interleaving. The dimension is an ordinary one and is in all the fields of tuples. -/
theorem C53_step_shares_the_traversal (t : Traverser) (d : Dim) (n : Nat) (hn : 0 < n) (ht : t.top.tame)
    (hf : t.top.firm fun _ => false) (hw : t.top.wf .ideal) (hd : t.top.noDup .ideal) (hm : t.top.unmixed .ideal)
    (hdep : ¬ (t.top.sem .ideal).sig.hasDep d) (hall : (t.top.sem .ideal).sig.allAccept d = true)
    (hl : ∀ st, (∀ q, st (.len q) = none) → LengthsKnown (t.top.sem .ideal) st) (xss : List (List State))
    (h : (List.range n).mapM (fun rank => (t.order [cudaStep d rank n]).forEach .ideal []) = some xss)
    (run : List State) (hr : Interleaved xss run)
    (sts : List State) (hs : t.forEach .ideal [] = some sts) : run.Perm sts :=
  hr.perm.trans (step_share_views hn ht hf hw hd hm hdep hall hl h hs)

/-- C53: the same for `cuda_step` without a dimension, which uses the top dimension of the traverser. -/
theorem C53_step_of_the_top_dimension (pt : ProtoTraverser) (t : Traverser) (hp : pt.traverser .ideal = some t)
    (d : Dim) (l : ArgLen) (r : Sig) (hsig : (t.top.sem .ideal).sig = .fn d l r) (n : Nat) (hn : 0 < n)
    (ht : t.top.tame) (hf : t.top.firm fun _ => false) (hw : t.top.wf .ideal) (hd : t.top.noDup .ideal)
    (hm : t.top.unmixed .ideal)
    (hl : ∀ st, (∀ q, st (.len q) = none) → LengthsKnown (t.top.sem .ideal) st) (xss : List (List State))
    (h : (List.range n).mapM (fun rank =>
      ((pt.reorder (.autoStep (.dyn rank) (.dyn n))).traverser .ideal).bind fun t => t.forEach .ideal []) = some xss)
    (run : List State) (hr : Interleaved xss run)
    (sts : List State) (hs : t.forEach .ideal [] = some sts) : run.Perm sts := by
  have hu := hd.uniq
  rw [hsig] at hu
  refine C53_step_shares_the_traversal t d n hn ht hf hw hd hm ?_ ?_ hl xss ?_ run hr sts hs
  · rw [hsig]
    intro h'
    have := Sig.hasDep_accept (S := r) h'
    rw [hu.1] at this; cases this
  · rw [hsig]; simp [Sig.allAccept]
  · rw [← h]
    congr 1
    funext rank
    simp only [ProtoTraverser.traverser, Option.map_eq_some_iff] at hp
    obtain ⟨vs, h1, rfl⟩ := hp
    have hsig' : ((pt.base.apply vs).sem .ideal).sig = .fn d l r := hsig
    simp [ProtoTraverser.traverser, ProtoTraverser.reorder, Proto.andThen, Proto.views, h1, hsig', Traverser.order,
      cudaStep]

/-- The 2 x 6 array, by columns. -/
def c53Example : Traverser := ⟨c52Base, [.hoist 1]⟩

/-- The columns shared by 4 threads: two of them have two columns, the others have one. -/
example : ∃ xss, (List.range 4).mapM (fun rank => (c53Example.order [cudaStep 1 rank 4]).forEach .ideal []) =
    some xss ∧ xss.map List.length = [4, 4, 2, 2] := ⟨_, rfl, rfl⟩

/-- With more threads than columns, some of the threads have nothing to do. -/
example : ∃ xss, (List.range 8).mapM (fun rank => (c53Example.order [cudaStep 1 rank 8]).forEach .ideal []) =
    some xss ∧ xss.map List.length = [2, 2, 2, 2, 2, 2, 0, 0] := ⟨_, rfl, rfl⟩

theorem c53Example_sig : (c53Example.top.sem .ideal).sig = .fn 1 .dynamic (.fn 0 .dynamic (.scalar 4)) := rfl

example : c53Example.top.tame ∧ c53Example.top.firm fun _ => false := by
  simp [c53Example, Traverser.top, c52Base, Struct.apply, Struct.tame, View.tame, Struct.firm]

example : c53Example.top.wf .ideal ∧ c53Example.top.noDup .ideal :=
  ⟨⟨by decide, by decide, by decide, by decide, by decide, trivial⟩,
    ⟨rfl, rfl, trivial⟩, ⟨rfl, rfl, trivial⟩, ⟨rfl, rfl, trivial⟩, ⟨rfl, rfl, trivial⟩, ⟨rfl, trivial⟩, trivial⟩

example : c53Example.top.unmixed .ideal := by
  intro q _ h
  simp [c53Example, c52Base, Traverser.top, Struct.apply, Struct.hard, View.hard] at h

example (st : State) (hn : ∀ q, st (.len q) = none) : LengthsKnown (c53Example.top.sem .ideal) st := by
  intro q hq _
  rw [c53Example_sig] at hq
  rcases hq with rfl | rfl | hq
  · simp [c53Example, c52Base, Traverser.top, Struct.apply, Struct.sem, View.sem, ViewSem.toSem, hoistSem,
      setLengthSem, vectorSem, guardLen, State.has, State.set, State.remove, State.removeAll]
  · simp [c53Example, c52Base, Traverser.top, Struct.apply, Struct.sem, View.sem, ViewSem.toSem, hoistSem,
      setLengthSem, vectorSem, guardLen, State.has, State.set, State.remove, State.removeAll]
  · exact absurd hq id

/-- `traverser(s) ^ hoist<1>()`, as a proto-structure. -/
example : (ProtoTraverser.mk c52Base (.view (.hoist 1))).traverser .ideal = some c53Example := rfl

end Noarr
