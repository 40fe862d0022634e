import Verif.CudaBags
import Verif.Props.Parallel
import Verif.Props.ReduceBags

/-
C76: kernels that compute a value in each thread and store it in a bag.
-/

namespace Noarr
variable {I : Nat → Space}

theorem reduceKernel_uses {α β : Type} {e : State → Prog β} {op : α → β → α} {enc : α → List UInt8} {out : Nat}
    {val : State → β} {V : Arrays} {st u : State} (hu : (I out).At st u) (henc : ∀ a, (enc a).length = (I out).size u)
    {xs : List State} (he : ∀ x ∈ xs, ∃ us, (e x).Uses I V us (val x) V ∧ ∀ y w b, (y, w, b) ∈ us → y ≠ out ∧ b = false)
    (zero : α) :
    ∃ us, (reduceKernel e op zero enc out xs st).Uses I V us ()
        (V.put out u (enc (xs.foldl (fun a x => op a (val x)) zero))) ∧
      (∀ y w b, (y, w, b) ∈ us → y ≠ out ∧ b = false ∨ y = out ∧ w = u) ∧ (out, u, true) ∈ us := by
  induction xs generalizing zero with
  | nil =>
    refine ⟨_, .set u hu (henc zero) .done, fun y w b hm => ?_, List.mem_singleton.2 rfl⟩
    cases List.mem_singleton.1 hm
    exact .inr ⟨rfl, rfl⟩
  | cons x xs ih =>
    obtain ⟨us, h1, h2⟩ := he x (List.mem_cons_self ..)
    obtain ⟨us', h3, h4, h5⟩ := ih (fun x hx => he x (List.mem_cons_of_mem _ hx)) (op zero (val x))
    refine ⟨us ++ us', h1.bind h3, fun y w b hm => ?_, List.mem_append_right _ h5⟩
    rcases List.mem_append.1 hm with hm | hm
    · exact .inl (h2 y w b hm)
    · exact h4 y w b hm

/-- C76: threads with such kernels, each for an element of its own, which it stores without reading it: whatever the
interleaving, no access is undefined, there is no data race, and each of these elements gets the value computed from the
states of its thread. Nothing else is changed. `ths` are the threads: the state where each stores its result, and the
states it visits. -/
theorem C76_kernels {α β : Type} (e : State → Prog β) (op : α → β → α) (zero : α) (enc : α → List UInt8) (out : Nat)
    (ths : List (State × List State)) (key : State → State) (val : State → β) (V : Arrays)
    (hk : ∀ th ∈ ths, (I out).At th.1 (key th.1)) (henc : ∀ th ∈ ths, ∀ a, (enc a).length = (I out).size (key th.1))
    (he : ∀ th ∈ ths, ∀ x ∈ th.2, ∃ us, (e x).Uses I V us (val x) V ∧ ∀ y w b, (y, w, b) ∈ us → y ≠ out ∧ b = false)
    (hd : ths.Pairwise fun a b => key a.1 ≠ key b.1) (B : Bags) (hB : BagsHold I B V) :
    ∃ R, RunsTo I (ths.map fun th => reduceKernel e op zero enc out th.2 th.1) B R ∧
      (∀ th ∈ ths, R out (key th.1) = enc (th.2.foldl (fun a x => op a (val x)) zero)) ∧
      ∀ x u, (x = out → ∀ th ∈ ths, key th.1 ≠ u) → R x u = V x u := by
  have key1 : ∀ i : Nat, ∃ us : List Use, ∀ th, ths[i]? = some th →
      (reduceKernel e op zero enc out th.2 th.1).Uses I V us ()
        (V.put out (key th.1) (enc (th.2.foldl (fun a x => op a (val x)) zero))) ∧
      (∀ y w b, (y, w, b) ∈ us → y ≠ out ∧ b = false ∨ y = out ∧ w = key th.1) ∧ (out, key th.1, true) ∈ us := by
    intro i
    cases hi : ths[i]? with
    | none => exact ⟨[], fun _ e => (nomatch e)⟩
    | some th =>
      have hm := List.mem_of_getElem? hi
      obtain ⟨us, h⟩ := reduceKernel_uses (hk th hm) (henc th hm) (he th hm) (op := op) zero
      exact ⟨us, fun _ e => by cases e; exact h⟩
  obtain ⟨us, hus⟩ := Classical.axiomOfChoice key1
  have hget : ∀ (i : Nat) (p : Prog Unit), (ths.map fun th => reduceKernel e op zero enc out th.2 th.1)[i]? = some p →
      ∃ th : State × List State, ths[i]? = some th ∧ p = reduceKernel e op zero enc out th.2 th.1 := by
    intro i p hi
    rw [List.getElem?_map, Option.map_eq_some_iff] at hi
    obtain ⟨th, h1, h2⟩ := hi
    exact ⟨th, h1, h2.symm⟩
  have hd' : ∀ i j (hi : i < ths.length) (hj : j < ths.length), i ≠ j → key ths[i].1 ≠ key ths[j].1 := by
    rw [List.pairwise_iff_getElem] at hd
    intro i j hi hj hij
    rcases Nat.lt_or_gt_of_ne hij with h | h
    · exact hd i j hi hj h
    · exact (hd j i hj hi h).symm
  obtain ⟨R, h1, h2⟩ := C74_threads (I := I) (ths.map fun th => reduceKernel e op zero enc out th.2 th.1) V us
    (fun i => match ths[i]? with
      | some th => V.put out (key th.1) (enc (th.2.foldl (fun a x => op a (val x)) zero))
      | none => V)
    (fun i p hi => by
      obtain ⟨th, hth, rfl⟩ := hget i p hi
      simp only [hth]
      exact (hus i th hth).1)
    (fun i j hi hj hij x u w w' hm hm' => by
      simp only [List.length_map] at hi hj
      rcases (hus i _ (List.getElem?_eq_getElem hi)).2.1 x u w hm with ⟨h1, h2⟩ | ⟨h1, h2⟩ <;>
        rcases (hus j _ (List.getElem?_eq_getElem hj)).2.1 x u w' hm' with ⟨h1', h2'⟩ | ⟨h1', h2'⟩
      · exact ⟨h2, h2'⟩
      · exact absurd h1' h1
      · exact absurd h1 h1'
      · exact absurd (h2.symm.trans h2') (hd' i j hi hj hij)) B hB
  simp only [List.length_map] at h1
  refine ⟨R, h2, fun th hth => ?_, fun x u hx => ?_⟩
  · obtain ⟨i, hi, rfl⟩ := List.getElem_of_mem hth
    have hi' := List.getElem?_eq_getElem hi
    rw [(h1 out (key ths[i].1)).1 i hi (hus i _ hi').2.2]
    simp only [hi', Arrays.put, and_self, if_true]
  · refine (h1 x u).2 fun i hi hm => ?_
    rcases (hus i _ (List.getElem?_eq_getElem hi)).2.1 x u true hm with ⟨-, h⟩ | ⟨h, h'⟩
    · cases h
    · exact hx h _ (List.getElem_mem hi) h'.symm

/-- One such kernel after the other, in one thread. -/
theorem inTurn_uses {α β : Type} {e : State → Prog β} {op : α → β → α} {enc : α → List UInt8} {out : Nat} {zero : α}
    {key : State → State} {val : State → β} {V : Arrays} {secs : List (State × List State)}
    (hk : ∀ sec ∈ secs, (I out).At sec.1 (key sec.1)) (henc : ∀ sec ∈ secs, ∀ a, (enc a).length = (I out).size (key sec.1))
    (he : ∀ sec ∈ secs, ∀ x ∈ sec.2, ∃ us, (e x).Uses I V us (val x) V ∧ ∀ y w b, (y, w, b) ∈ us → y ≠ out ∧ b = false)
    (hd : secs.Pairwise fun a b => key a.1 ≠ key b.1) {W : Arrays} (hW : ∀ y u, y ≠ out → W y u = V y u) :
    ∃ us R, (CudaTraverser.launchDims.inTurn (secs.map fun sec => reduceKernel e op zero enc out sec.2 sec.1)).Uses I W us () R ∧
      (∀ y w b, (y, w, b) ∈ us → y ≠ out ∧ b = false ∨ y = out ∧ ∃ sec ∈ secs, w = key sec.1) ∧
      (∀ sec ∈ secs, (out, key sec.1, true) ∈ us ∧
        R out (key sec.1) = enc (sec.2.foldl (fun a x => op a (val x)) zero)) := by
  induction secs generalizing W with
  | nil => exact ⟨[], W, .done, fun _ _ _ h => (nomatch h), fun _ h => (nomatch h)⟩
  | cons sec secs ih =>
    obtain ⟨us, h1, h2, h3⟩ := reduceKernel_uses (V := W) (val := val) (hk sec (List.mem_cons_self ..))
      (henc sec (List.mem_cons_self ..)) (fun x hx => by
        obtain ⟨us, g1, g2⟩ := he sec (List.mem_cons_self ..) x hx
        obtain ⟨W', g3, -⟩ := g1.frame (W := W) fun y u w hm => hW y u (g2 y u w hm).1
        have : W' = W := by
          funext y u
          exact g3.unwritten fun hm => by cases (g2 y u true hm).2
        rw [this] at g3
        exact ⟨us, g3, g2⟩) (op := op) zero
    obtain ⟨hd1, hd2⟩ := List.pairwise_cons.1 hd
    obtain ⟨us', R, h4, h5, h6⟩ := ih (fun s hs => hk s (List.mem_cons_of_mem _ hs))
      (fun s hs => henc s (List.mem_cons_of_mem _ hs)) (fun s hs => he s (List.mem_cons_of_mem _ hs)) hd2
      (W := W.put out (key sec.1) (enc (sec.2.foldl (fun a x => op a (val x)) zero)))
      (fun y u hy => by simp only [Arrays.put, hy, false_and, if_false]; exact hW y u hy)
    refine ⟨us ++ us', R, h1.bind h4, fun y w b hm => ?_, fun s hs => ?_⟩
    · rcases List.mem_append.1 hm with hm | hm
      · rcases h2 y w b hm with h | ⟨h, h'⟩
        · exact .inl h
        · exact .inr ⟨h, sec, List.mem_cons_self .., h'⟩
      · rcases h5 y w b hm with h | ⟨h, s, hs, h'⟩
        · exact .inl h
        · exact .inr ⟨h, s, List.mem_cons_of_mem _ hs, h'⟩
    · rcases List.mem_cons.1 hs with rfl | hs
      · refine ⟨List.mem_append_left _ h3, ?_⟩
        rw [h4.unwritten fun hm => ?_]
        · simp [Arrays.put]
        · rcases h5 _ _ _ hm with ⟨h, -⟩ | ⟨-, s', hs', h'⟩
          · exact h rfl
          · exact hd1 s' hs' h'
      · exact ⟨List.mem_append_right _ (h6 s hs).1, (h6 s hs).2⟩

/-- C76: the same for kernels that do this in each call of `for_dims`: a thread has any number of calls, also none. Each
call, of whichever thread, has an element of its own. -/
theorem C76_kernels_with_sections {α β : Type} (e : State → Prog β) (op : α → β → α) (zero : α) (enc : α → List UInt8)
    (out : Nat) (ths : List (List (State × List State))) (key : State → State) (val : State → β) (V : Arrays)
    (hk : ∀ th ∈ ths, ∀ sec ∈ th, (I out).At sec.1 (key sec.1))
    (henc : ∀ th ∈ ths, ∀ sec ∈ th, ∀ a, (enc a).length = (I out).size (key sec.1))
    (he : ∀ th ∈ ths, ∀ sec ∈ th, ∀ x ∈ sec.2, ∃ us, (e x).Uses I V us (val x) V ∧
      ∀ y w b, (y, w, b) ∈ us → y ≠ out ∧ b = false)
    (hd : ths.flatten.Pairwise fun a b => key a.1 ≠ key b.1) (B : Bags) (hB : BagsHold I B V) :
    ∃ R, RunsTo I (ths.map fun th => CudaTraverser.launchDims.inTurn
        (th.map fun sec => reduceKernel e op zero enc out sec.2 sec.1)) B R ∧
      (∀ th ∈ ths, ∀ sec ∈ th, R out (key sec.1) = enc (sec.2.foldl (fun a x => op a (val x)) zero)) ∧
      ∀ x u, (x = out → ∀ th ∈ ths, ∀ sec ∈ th, key sec.1 ≠ u) → R x u = V x u := by
  rw [List.pairwise_flatten] at hd
  have key1 : ∀ i : Nat, ∃ uR : List Use × Arrays, ∀ th, ths[i]? = some th →
      (CudaTraverser.launchDims.inTurn (th.map fun sec => reduceKernel e op zero enc out sec.2 sec.1)).Uses I V uR.1 () uR.2 ∧
      (∀ y w b, (y, w, b) ∈ uR.1 → y ≠ out ∧ b = false ∨ y = out ∧ ∃ sec ∈ th, w = key sec.1) ∧
      (∀ sec ∈ th, (out, key sec.1, true) ∈ uR.1 ∧
        uR.2 out (key sec.1) = enc (sec.2.foldl (fun a x => op a (val x)) zero)) := by
    intro i
    cases hi : ths[i]? with
    | none => exact ⟨([], V), fun _ e => (nomatch e)⟩
    | some th =>
      have hm := List.mem_of_getElem? hi
      obtain ⟨us, R, h⟩ := inTurn_uses (hk th hm) (henc th hm) (he th hm) (hd.1 th hm) (W := V) (fun _ _ _ => rfl)
        (op := op) (zero := zero)
      exact ⟨(us, R), fun _ e => by cases e; exact h⟩
  obtain ⟨uR, hus⟩ := Classical.axiomOfChoice key1
  have hd' : ∀ i j (hi : i < ths.length) (hj : j < ths.length), i ≠ j → ∀ s ∈ ths[i], ∀ s' ∈ ths[j], key s.1 ≠ key s'.1 := by
    have hd := hd.2
    rw [List.pairwise_iff_getElem] at hd
    intro i j hi hj hij s hs s' hs'
    rcases Nat.lt_or_gt_of_ne hij with h | h
    · exact hd i j hi hj h s hs s' hs'
    · exact (hd j i hj hi h s' hs' s hs).symm
  obtain ⟨R, h1, h2⟩ := C74_threads (I := I) (ths.map fun th => CudaTraverser.launchDims.inTurn
      (th.map fun sec => reduceKernel e op zero enc out sec.2 sec.1)) V (fun i => (uR i).1) (fun i => (uR i).2)
    (fun i p hi => by
      rw [List.getElem?_map, Option.map_eq_some_iff] at hi
      obtain ⟨th, hth, rfl⟩ := hi
      exact (hus i th hth).1)
    (fun i j hi hj hij x u w w' hm hm' => by
      simp only [List.length_map] at hi hj
      rcases (hus i _ (List.getElem?_eq_getElem hi)).2.1 x u w hm with ⟨h1, h2⟩ | ⟨h1, s, hs, h2⟩ <;>
        rcases (hus j _ (List.getElem?_eq_getElem hj)).2.1 x u w' hm' with ⟨h1', h2'⟩ | ⟨h1', s', hs', h2'⟩
      · exact ⟨h2, h2'⟩
      · exact absurd h1' h1
      · exact absurd h1 h1'
      · exact absurd (h2.symm.trans h2') (hd' i j hi hj hij s hs s' hs')) B hB
  simp only [List.length_map] at h1
  refine ⟨R, h2, fun th hth sec hsec => ?_, fun x u hx => ?_⟩
  · obtain ⟨i, hi, rfl⟩ := List.getElem_of_mem hth
    obtain ⟨g1, g2⟩ := (hus i _ (List.getElem?_eq_getElem hi)).2.2 sec hsec
    exact ((h1 out (key sec.1)).1 i hi g1).trans g2
  · refine (h1 x u).2 fun i hi hm => ?_
    rcases (hus i _ (List.getElem?_eq_getElem hi)).2.1 x u true hm with ⟨-, h⟩ | ⟨h, sec, hsec, h'⟩
    · cases h
    · exact hx h _ (List.getElem_mem hi) sec hsec h'.symm

/-! ### The product of matrices -/

/-- `scalar<T>() ^ array<'d', n>() ^ array<'e', m>()`, with `sizeof(T)` being `z` -/
def arrayOf2 (d : Dim) (n : Nat) (e : Dim) (m : Nat) (z : Nat) : Struct :=
  .apply (.vector e (.apply (.vector d (.scalar z z)) [.setLength d (.lit n)])) [.setLength e (.lit m)]

/-- The structures of docs/Traverser.md:577-580, with any lengths; 'i' is 0, 'j' is 1, and 'k' is 2. -/
def matmulStructs (ni nj nk z : Nat) : Fin 3 → Struct
  | 0 => arrayOf2 0 ni 1 nj z
  | 1 => arrayOf2 1 nj 2 nk z
  | 2 => arrayOf2 0 ni 2 nk z

/-- `cuda_threads<'I', 'i', 'K', 'k'>(traverser(a, b, c).order(into_blocks<'i', 'I', 'i'>(block_size) ^ into_blocks<'k',
'K', 'k'>(block_size)))` (docs/Traverser.md:582-585); 'I' is 3, and 'K' is 4. -/
def matmulCuda (ni nj nk z b : Nat) : CudaTraverser :=
  ⟨⟨.union 3 (matmulStructs ni nj nk z),
    [.intoBlocks 0 3 0, .setLength 0 (.lit b), .intoBlocks 2 4 2, .setLength 2 (.lit b)]⟩, [(3, 0), (4, 2)]⟩

section
variable (ni nj nk z b x y u v : Nat)

theorem matmul_sig : (cudaFixed ((matmulCuda ni nj nk z b).trav.top.sem .ideal)
    (CudaTraverser.fixes (matmulCuda ni nj nk z b).pairs [x, y] [u, v])).sig = .fn 1 (.static nj) (.scalar z) := by
  have h0 : (unionSem 3 fun i => (matmulStructs ni nj nk z i).sem .ideal).sig =
      .fn 2 (.static nk) (.fn 1 (.static nj) (.fn 0 (.static ni) (.scalar z))) := rfl
  have h1 : ((matmulCuda ni nj nk z b).trav.top.sem .ideal).sig =
    .fn 4 .dynamic (.fn 2 (.static b) (.fn 1 (.static nj) (.fn 3 .dynamic (.fn 0 (.static b) (.scalar z))))) := by
    simp only [matmulCuda, Traverser.top, Struct.apply, Struct.sem, View.sem, ViewSem.toSem, setLengthSem, intoBlocksSem,
      h0]
    rfl
  simp only [matmulCuda, CudaTraverser.fixes, cudaFixed, cudaFixSem, ViewSem.toSem] at h1 ⊢
  rw [h1]
  rfl

theorem matmul_len : (cudaFixed ((matmulCuda ni nj nk z b).trav.top.sem .ideal)
    (CudaTraverser.fixes (matmulCuda ni nj nk z b).pairs [x, y] [u, v])).len 1 .empty = some (.lit nj) := rfl

theorem matmul_walk (S : Sem) (hS : S = cudaFixed ((matmulCuda ni nj nk z b).trav.top.sem .ideal)
    (CudaTraverser.fixes (matmulCuda ni nj nk z b).pairs [x, y] [u, v])) :
    walk S S.sig.tree .empty = some ((List.range nj).map fun w => [(1, Val.dyn w)]) := by
  have h1 : S.sig = .fn 1 (.static nj) (.scalar z) := by rw [hS, matmul_sig]
  have h2 : S.len 1 .empty = some (.lit nj) := by rw [hS, matmul_len]
  rw [h1, Sig.tree, walk, h1]
  simp only [Sig.find, if_true, h2, Val.nat?, walk, Sig.tree, dite_true, Option.map_some, List.map_cons, List.map_nil, bind, Option.bind]
  exact seqAll_single _ _

theorem matmul_state (hb : b ≠ 0) (w : Nat) :
    (do
      let st ← stateAt .ideal (matmulCuda ni nj nk z b).trav.top [.fix 1 (.dyn w)] .empty
      stateAt .ideal (matmulCuda ni nj nk z b).trav.base (matmulCuda ni nj nk z b).trav.views
        (cudaState (CudaTraverser.fixes (matmulCuda ni nj nk z b).pairs [x, y] [u, v]) st)) =
      some (at3 0 2 1 (x * b + u) (y * b + v) w) := by
  have h1 : (Val.add .ideal (Val.mul .ideal (.dyn x) (.lit b)) (.dyn u)) = .dyn (x * b + u) := by
    simp [Val.add, Val.mul, hb, Val.ofDyn, Arith.ideal]
  have h2 : (Val.add .ideal (Val.mul .ideal (.dyn y) (.lit b)) (.dyn v)) = .dyn (y * b + v) := by
    simp [Val.add, Val.mul, hb, Val.ofDyn, Arith.ideal]
  simp [matmulCuda, CudaTraverser.fixes, cudaState, stateAt, View.sem, setLengthSem, intoBlocksSem, intoBlocksSub,
    blocksClean, fixSem, State.set, State.remove, State.removeAll, h1, h2]
  funext g
  cases g <;> simp [at3, State.withAll, State.set, State.empty, State.remove, State.removeAll] <;> grind

theorem matmul_innerState (hb : b ≠ 0) : (matmulCuda ni nj nk z b).innerState .ideal [x, y] [u, v] =
    some (atNM 0 2 (x * b + u) (y * b + v)) := by
  have h1 : (Val.add .ideal (Val.mul .ideal (.dyn x) (.lit b)) (.dyn u)) = .dyn (x * b + u) := by
    simp [Val.add, Val.mul, hb, Val.ofDyn, Arith.ideal]
  have h2 : (Val.add .ideal (Val.mul .ideal (.dyn y) (.lit b)) (.dyn v)) = .dyn (y * b + v) := by
    simp [Val.add, Val.mul, hb, Val.ofDyn, Arith.ideal]
  simp [CudaTraverser.innerState, matmulCuda, CudaTraverser.fixes, cudaState, stateAt, View.sem, setLengthSem,
    intoBlocksSem, intoBlocksSub, blocksClean, State.set, State.remove, State.removeAll, h1, h2]
  funext g
  cases g <;> simp [atNM, State.withAll, State.set, State.empty, State.remove, State.removeAll] <;> grind

theorem matmul_inner (hb : b ≠ 0) : (matmulCuda ni nj nk z b).inner .ideal [x, y] [u, v] =
    some ((List.range nj).map (at3 0 2 1 (x * b + u) (y * b + v))) := by
  unfold CudaTraverser.inner
  simp only [matmul_walk ni nj nk z b x y u v _ rfl, bind, Option.bind]
  induction List.range nj with
  | nil => rfl
  | cons w l ih =>
    have := matmul_state ni nj nk z b x y u v hb w
    simp only [bind, Option.bind] at this
    simp only [List.map_cons, List.mapM_cons, List.map_nil, this, ih]
    rfl

/-- The numbers of all the threads. -/
def matmulThreads (gi gk b : Nat) : List (List Nat × List Nat) :=
  (indexBox [gi, gk]).flatMap fun bs => (indexBox [b, b]).map fun ts => (bs, ts)

theorem mem_matmulThreads {gi gk : Nat} {th : List Nat × List Nat} : th ∈ matmulThreads gi gk b ↔
    ∃ x y u v, x < gi ∧ y < gk ∧ u < b ∧ v < b ∧ th = ([x, y], [u, v]) := by
  simp only [matmulThreads, indexBox, List.mem_flatMap, List.mem_map, List.mem_range, List.mem_singleton]
  constructor
  · rintro ⟨_, ⟨x, hx, _, ⟨y, hy, _, rfl, rfl⟩, rfl⟩, _, ⟨u, hu, _, ⟨v, hv, _, rfl, rfl⟩, rfl⟩, rfl⟩
    exact ⟨x, y, u, v, hx, hy, hu, hv, rfl⟩
  · rintro ⟨x, y, u, v, hx, hy, hu, hv, rfl⟩
    exact ⟨_, ⟨x, hx, _, ⟨y, hy, _, rfl, rfl⟩, rfl⟩, _, ⟨u, hu, _, ⟨v, hv, _, rfl, rfl⟩, rfl⟩, rfl⟩

theorem indexBox_nodup (ns : List Nat) : (indexBox ns).Nodup := by
  induction ns with
  | nil => simp [indexBox]
  | cons n ns ih =>
    rw [indexBox, List.Nodup, List.pairwise_flatMap]
    refine ⟨fun i _ => ?_, List.Pairwise.imp ?_ List.nodup_range⟩
    · rw [List.pairwise_map]
      exact List.Pairwise.imp (fun h e => h (List.cons.inj e).2) ih
    · intro i j hij a ha c hc e
      obtain ⟨a', -, rfl⟩ := List.mem_map.1 ha
      obtain ⟨c', -, rfl⟩ := List.mem_map.1 hc
      exact hij (List.cons.inj e).1

theorem matmulThreads_nodup (gi gk : Nat) : (matmulThreads gi gk b).Nodup := by
  rw [matmulThreads, List.Nodup, List.pairwise_flatMap]
  refine ⟨fun bs _ => ?_, List.Pairwise.imp ?_ (indexBox_nodup _)⟩
  · rw [List.pairwise_map]
    exact List.Pairwise.imp (fun h e => h (Prod.mk.inj e).2) (indexBox_nodup _)
  · intro i j hij a ha c hc e
    obtain ⟨a', -, rfl⟩ := List.mem_map.1 ha
    obtain ⟨c', -, rfl⟩ := List.mem_map.1 hc
    exact hij (Prod.mk.inj e).1

theorem matmul_threads (hb : 0 < b) (hb' : b < 2 ^ 32) (hi : ni / b < 2 ^ 32) (hk : nk / b < 2 ^ 32) :
    (matmulCuda ni nj nk z b).threads .ideal = some (matmulThreads (ni / b) (nk / b) b) := by
  have l3 : ((matmulCuda ni nj nk z b).trav.top.sem .ideal).len 3 .empty =
      some ((Val.lit ni).div .ideal (.lit b)) := rfl
  have l4 : ((matmulCuda ni nj nk z b).trav.top.sem .ideal).len 4 .empty =
      some ((Val.lit nk).div .ideal (.lit b)) := rfl
  have l0 : ((matmulCuda ni nj nk z b).trav.top.sem .ideal).len 0 .empty = some (.lit b) := rfl
  have l2 : ((matmulCuda ni nj nk z b).trav.top.sem .ideal).len 2 .empty = some (.lit b) := rfl
  have hd : ∀ n, (Val.lit n).div .ideal (.lit b) = .lit (n / b) := by
    intro n
    simp [Val.div, Arith.ideal, Nat.ne_of_gt hb, Val.ofLit]
  rw [hd] at l3 l4
  have hp : (matmulCuda ni nj nk z b).pairs = [(3, 0), (4, 2)] := rfl
  have hg : (matmulCuda ni nj nk z b).gridDim .ideal = some [ni / b, nk / b] := by
    simp [CudaTraverser.gridDim, hp, CudaTraverser.extent, l3, l4, Val.nat?, Nat.mod_eq_of_lt hi, Nat.mod_eq_of_lt hk]
  have hbl : (matmulCuda ni nj nk z b).blockDim .ideal = some [b, b] := by
    simp [CudaTraverser.blockDim, hp, CudaTraverser.extent, l0, l2, Val.nat?, Nat.mod_eq_of_lt hb']
  simp only [CudaTraverser.threads, hg, hbl, bind, Option.bind, matmulThreads]

theorem indexBox_two (n m : Nat) : (indexBox [n, m]).length = n * m := by
  simp [indexBox, List.length_flatMap, List.map_const', List.sum_replicate_nat]

theorem matmulThreads_length (gi gk : Nat) : (matmulThreads gi gk b).length = gi * gk * (b * b) := by
  simp [matmulThreads, List.length_flatMap, indexBox_two, List.map_const', List.sum_replicate_nat]

end

/-- C76: the matrix product of docs/Traverser.md, "CUDA", with any lengths, any block size, and bags of any layouts.
Whatever the interleaving of the threads, no access is undefined, there is no data race, and the threads write the elements
`c[i, k]` where `i` and `k` are in whole blocks: each gets the sum of the products `a[i, j] * b[j, k]`, in the order of `j`.
The elements beyond the last whole block are not written, which is silent if the block size does not divide the lengths.
The matrices `a` and `b` (bags 0 and 1) and all other bags are unchanged. -/
theorem C76_matrix_product {R : Type} [Add R] [Mul R] (E : ElemType R) (zero : R) (ni nj nk b : Nat) (hb : 0 < b)
    (hb' : b < 2 ^ 32) (hi : ni / b < 2 ^ 32) (hk : nk / b < 2 ^ 32) (N : Dim → Nat) (hN0 : N 0 = ni) (hN1 : N 1 = nj)
    (hN2 : N 2 = nk) (h0 : I 0 = .box [0, 1] N E.size) (h1 : I 1 = .box [1, 2] N E.size)
    (h2 : I 2 = .box [0, 2] N E.size) (V : Arrays) (B : Bags) (hB : BagsHold I B V) :
    ∃ ps R', (matmulCuda ni nj nk E.size b).launch .ideal
        (reduceKernel (product E) (fun r p => r + p) zero E.enc 2) = some ps ∧ ps.length = ni / b * (nk / b) * (b * b) ∧
      RunsTo I ps B R' ∧ (∀ x u, x ≠ 2 → R' x u = V x u) ∧
      (∀ x y, x < ni / b * b → y < nk / b * b → R' 2 (atNM 0 2 x y) = E.enc ((List.range nj).foldl
        (fun r w => r + E.dec (V 0 (atNM 0 1 x w)) * E.dec (V 1 (atNM 1 2 w y))) zero)) ∧
      ∀ x y, ni / b * b ≤ x ∨ nk / b * b ≤ y → R' 2 (atNM 0 2 x y) = V 2 (atNM 0 2 x y) := by
  let row (th : List Nat × List Nat) : Nat := th.1.getD 0 0 * b + th.2.getD 0 0
  let col (th : List Nat × List Nat) : Nat := th.1.getD 1 0 * b + th.2.getD 1 0
  let f (th : List Nat × List Nat) : State × List State :=
    (atNM 0 2 (row th) (col th), (List.range nj).map (at3 0 2 1 (row th) (col th)))
  have hlaunch : (matmulCuda ni nj nk E.size b).launch .ideal
      (reduceKernel (product E) (fun r p => r + p) zero E.enc 2) = some (((matmulThreads (ni / b) (nk / b) b).map f).map fun th =>
        reduceKernel (product E) (fun r p => r + p) zero E.enc 2 th.2 th.1) := by
    simp only [CudaTraverser.launch, matmul_threads ni nj nk E.size b hb hb' hi hk, bind, Option.bind]
    rw [List.map_map]
    refine mapM_map fun th hth => ?_
    obtain ⟨x, y, u, v, -, -, -, -, rfl⟩ := (mem_matmulThreads b).1 hth
    simp only [matmul_inner _ _ _ _ b x y u v (Nat.ne_of_gt hb), matmul_innerState _ _ _ _ b x y u v (Nat.ne_of_gt hb)]
    rfl
  have hbound : ∀ g x u, x < g → u < b → x * b + u < g * b := by
    intro g x u hx hu
    have := Nat.mul_le_mul_right b hx
    rw [Nat.succ_mul] at this
    omega
  have hdm : ∀ x x' u u', u < b → u' < b → x * b + u = x' * b + u' → x = x' ∧ u = u' := by
    intro x x' u u' hu hu' e
    have h1 := congrArg (· / b) e
    have h2 := congrArg (· % b) e
    simp only [Nat.mul_comm _ b, Nat.mul_add_div hb, Nat.div_eq_of_lt hu, Nat.div_eq_of_lt hu', Nat.add_zero,
      Nat.mul_add_mod, Nat.mod_eq_of_lt hu, Nat.mod_eq_of_lt hu'] at h1 h2
    exact ⟨h1, h2⟩
  have hbox : ∀ th ∈ matmulThreads (ni / b) (nk / b) b, row th < ni / b * b ∧ col th < nk / b * b := by
    intro th hth
    obtain ⟨x, y, u, v, hx, hy, hu, hv, rfl⟩ := (mem_matmulThreads b).1 hth
    exact ⟨hbound (ni / b) x u hx hu, hbound (nk / b) y v hy hv⟩
  have hon : ∀ th ∈ matmulThreads (ni / b) (nk / b) b, ∀ w, w < nj → OnBox (· ∈ [0, 2, 1]) N (at3 0 2 1 (row th) (col th) w) := by
    intro th hth w hw
    refine (at3_onBox (by decide) (by decide) (by decide)).2 ⟨_, _, w, ?_, ?_, ?_, rfl⟩
    · rw [hN0]; exact Nat.lt_of_lt_of_le (hbox th hth).1 (Nat.div_mul_le_self ..)
    · rw [hN2]; exact Nat.lt_of_lt_of_le (hbox th hth).2 (Nat.div_mul_le_self ..)
    · rw [hN1]; exact hw
  have hat2 : ∀ th ∈ matmulThreads (ni / b) (nk / b) b, (I 2).At (atNM 0 2 (row th) (col th)) (atNM 0 2 (row th) (col th)) := by
    intro th hth
    rw [h2]
    obtain ⟨hx, hy⟩ := hbox th hth
    have : OnBox (· ∈ [0, 2]) N (atNM 0 2 (row th) (col th)) := by
      refine ⟨fun q hq => ?_, fun q hq => ?_, fun q => by simp [atNM, State.withAll, State.set, State.empty]⟩
      · simp only [List.mem_cons, List.not_mem_nil, or_false] at hq
        rcases hq with rfl | rfl
        · exact ⟨row th, by rw [hN0]; exact Nat.lt_of_lt_of_le hx (Nat.div_mul_le_self ..), by simp [atNM, State.withAll, State.set]⟩
        · exact ⟨col th, by rw [hN2]; exact Nat.lt_of_lt_of_le hy (Nat.div_mul_le_self ..), by simp [atNM, State.withAll, State.set]⟩
      · simp only [List.mem_cons, List.not_mem_nil, or_false, not_or] at hq
        simp [atNM, State.withAll, State.set, State.empty, hq.1, hq.2]
    refine ⟨?_, this, this.noLen⟩
    funext g
    cases g <;> simp [Space.box, atNM, State.only, State.withAll, State.set, State.empty] <;> grind
  obtain ⟨R', g1, g2, g3⟩ := C76_kernels (I := I) (product E) (fun r p => r + p) zero E.enc 2
    ((matmulThreads (ni / b) (nk / b) b).map f) id
    (fun st => E.dec (V 0 (st.only fun q => decide (q ∈ [0, 1]))) * E.dec (V 1 (st.only fun q => decide (q ∈ [1, 2])))) V
    (fun th hth => by
      obtain ⟨th', h, rfl⟩ := List.mem_map.1 hth
      exact hat2 th' h)
    (fun th _ a => by rw [E.enc_length, h2]; rfl)
    (fun th hth st hst => by
      obtain ⟨th', h, rfl⟩ := List.mem_map.1 hth
      obtain ⟨w, hw, rfl⟩ := List.mem_map.1 hst
      have := hon th' h w (List.mem_range.1 hw)
      refine ⟨_, .get _ (by rw [h0]; exact Space.box_at this (by simp)) (.get _ (by rw [h1]; exact Space.box_at this (by simp))
        .done), fun y w b hm => ?_⟩
      simp only [List.mem_cons, Prod.mk.injEq, List.not_mem_nil, or_false] at hm
      rcases hm with ⟨rfl, -, rfl⟩ | ⟨rfl, -, rfl⟩ <;> exact ⟨by decide, rfl⟩)
    (by
      rw [List.pairwise_map]
      refine List.Pairwise.imp_of_mem ?_ (matmulThreads_nodup b (ni / b) (nk / b))
      intro th th' hth hth' hne he
      obtain ⟨x, y, u, v, -, -, hu, hv, rfl⟩ := (mem_matmulThreads b).1 hth
      obtain ⟨x', y', u', v', -, -, hu', hv', rfl⟩ := (mem_matmulThreads b).1 hth'
      obtain ⟨e1, e2⟩ := atNM_inj (by decide) he
      obtain ⟨rfl, rfl⟩ := hdm _ _ _ _ hu hu' e1
      obtain ⟨rfl, rfl⟩ := hdm _ _ _ _ hv hv' e2
      exact hne rfl) B hB
  refine ⟨_, R', hlaunch, ?_, g1, fun x u hx => g3 x u fun h => absurd h hx, fun x y hx hy => ?_, fun x y hxy => ?_⟩
  · simp [matmulThreads_length]
  · have hth : ([x / b, y / b], [x % b, y % b]) ∈ matmulThreads (ni / b) (nk / b) b :=
      (mem_matmulThreads b).2 ⟨_, _, _, _, (Nat.div_lt_iff_lt_mul hb).2 hx, (Nat.div_lt_iff_lt_mul hb).2 hy, Nat.mod_lt _ hb,
        Nat.mod_lt _ hb, rfl⟩
    have hr : row ([x / b, y / b], [x % b, y % b]) = x := Nat.div_add_mod' x b
    have hc : col ([x / b, y / b], [x % b, y % b]) = y := Nat.div_add_mod' y b
    have := g2 _ (List.mem_map.2 ⟨_, hth, rfl⟩)
    simp only [f, hr, hc, id] at this
    rw [this, List.foldl_map]
    simp only [(at3_only (i := 0) (j := 2) (k := 1) (by decide) (by decide) (by decide) x y _).1,
      (at3_only (i := 0) (j := 2) (k := 1) (by decide) (by decide) (by decide) x y _).2.1]
  · refine g3 2 _ fun _ th hth he => ?_
    obtain ⟨th', h, rfl⟩ := List.mem_map.1 hth
    obtain ⟨e1, e2⟩ := atNM_inj (by decide) he
    have := hbox th' h
    omega

/-- The layouts of matrices (C70) are layouts for boxes of indices. -/
theorem MatrixLayout.laidOut {s : Struct} {n m : Dim} {e : Nat} (hnm : n ≠ m) {N : Dim → Nat}
    (h : MatrixLayout s n m (N n) (N m) e) (ht : s.tidy) (hn : ∀ q, s.names q → q = n ∨ q = m) :
    (Space.box [n, m] N e).LaidOut s := by
  have h := C72_matrix_layouts hnm h ht hn
  have hm : ∀ u, OnBox (· ∈ [n, m]) N u → (Space.matrix n m (N n) (N m) e).has u := by
    intro u hu
    obtain ⟨x, hx, hx'⟩ := hu.ok n (by simp)
    obtain ⟨y, hy, hy'⟩ := hu.ok m (by simp)
    refine ⟨x, y, hx, hy, ?_⟩
    funext g
    cases g with
    | idx q =>
      simp only [atNM, State.withAll, List.foldl, State.set, State.empty, Tag.idx.injEq]
      split
      · next h => rw [h, hy']
      · split
        · next h => rw [h, hx']
        · next h1 h2 => exact hu.only q (by simp [h1, h2])
    | len q => simp [hu.noLen q, atNM, State.withAll, State.set, State.empty]
  exact ⟨h.sound, h.tidy, fun q hq => by simpa [Space.box] using hn q hq, h.total, fun u hu => h.accessible u (hm u hu),
    fun u u' hu hu' => h.differ u u' (hm u hu) (hm u' hu'), fun u hu => h.elem u (hm u hu), fun _ _ _ h => h.elim⟩

theorem atNM_onBox {n m : Dim} (hnm : n ≠ m) {N : Dim → Nat} {x y : Nat} (hx : x < N n) (hy : y < N m) :
    OnBox (· ∈ [n, m]) N (atNM n m x y) := by
  refine ⟨fun q hq => ?_, fun q hq => ?_, fun q => by simp [atNM, State.withAll, State.set, State.empty]⟩
  · simp only [List.mem_cons, List.not_mem_nil, or_false] at hq
    rcases hq with rfl | rfl
    · exact ⟨x, hx, (atNM_idx hnm x y).1⟩
    · exact ⟨y, hy, (atNM_idx hnm x y).2⟩
  · simp only [List.mem_cons, List.not_mem_nil, or_false, not_or] at hq
    simp [atNM, State.withAll, State.set, State.empty, hq.1, hq.2]

/-- The index spaces of the three matrices. -/
def matmulSpaces (ni nj nk e x : Nat) : Space :=
  let N : Dim → Nat := fun q => if q = 0 then ni else if q = 1 then nj else nk
  if x = 0 then .box [0, 1] N e else if x = 1 then .box [1, 2] N e else .box [0, 2] N e

/-- Bags with the three matrices hold the values that can be read from them. -/
theorem matmulBags_hold {ni nj nk e : Nat} (A0 A1 A2 : Bag)
    (l0 : MatrixLayout A0.structure_ 0 1 ni nj e) (l1 : MatrixLayout A1.structure_ 1 2 nj nk e)
    (l2 : MatrixLayout A2.structure_ 0 2 ni nk e) (t0 : A0.structure_.tidy) (t1 : A1.structure_.tidy)
    (t2 : A2.structure_.tidy) (n0 : ∀ q, A0.structure_.names q → q = 0 ∨ q = 1)
    (n1 : ∀ q, A1.structure_.names q → q = 1 ∨ q = 2) (n2 : ∀ q, A2.structure_.names q → q = 0 ∨ q = 2)
    (g0 : BagFor A0.structure_ A0) (g1 : BagFor A1.structure_ A1) (g2 : BagFor A2.structure_ A2) :
    ∃ V, BagsHold (matmulSpaces ni nj nk e) (fun x => if x = 0 then A0 else if x = 1 then A1 else A2) V := by
  let N : Dim → Nat := fun q => if q = 0 then ni else if q = 1 then nj else nk
  let B : Bags := fun x => if x = 0 then A0 else if x = 1 then A1 else A2
  have hL : ∀ x, (matmulSpaces ni nj nk e x).LaidOut (B x).structure_ := by
    intro x
    simp only [matmulSpaces, B]
    split
    · exact MatrixLayout.laidOut (N := N) (by decide) l0 t0 n0
    · split
      · exact MatrixLayout.laidOut (N := N) (by decide) l1 t1 n1
      · exact MatrixLayout.laidOut (N := N) (by decide) l2 t2 n2
  have hG : ∀ x, BagFor (B x).structure_ (B x) := by
    intro x
    simp only [B]
    split
    · exact g0
    · split
      · exact g1
      · exact g2
  refine ⟨fun x u => match (B x).get .ideal u with
    | .ok v => v
    | .error _ => [], hL, hG, fun x u hu => ?_⟩
  obtain ⟨⟨v, hv, -⟩, -⟩ := (hL x).access (hG x) hu
  simp only [B] at hv
  simp only [B, hv]

/-- C76: the matrix product with three bags, where the block size divides the lengths of the result. The layouts of the
matrices may be any (C70); the structures of the traverser need not be those of the bags. All the executions of the kernel
are bounded and free of undefined accesses and of data races, and each one in which all threads come to the end leaves
the product in `c`, of the elements that were in `a` and `b`, and does not change `a` and `b`. -/
theorem C76_matrix_product_of_bags {R : Type} [Add R] [Mul R] (E : ElemType R) (zero : R) (ni nj nk b : Nat) (hb : 0 < b)
    (hb' : b < 2 ^ 32) (hi : ni / b < 2 ^ 32) (hk : nk / b < 2 ^ 32) (hni : b ∣ ni) (hnk : b ∣ nk) (A0 A1 A2 : Bag)
    (l0 : MatrixLayout A0.structure_ 0 1 ni nj E.size) (l1 : MatrixLayout A1.structure_ 1 2 nj nk E.size)
    (l2 : MatrixLayout A2.structure_ 0 2 ni nk E.size) (t0 : A0.structure_.tidy) (t1 : A1.structure_.tidy)
    (t2 : A2.structure_.tidy) (n0 : ∀ q, A0.structure_.names q → q = 0 ∨ q = 1)
    (n1 : ∀ q, A1.structure_.names q → q = 1 ∨ q = 2) (n2 : ∀ q, A2.structure_.names q → q = 0 ∨ q = 2)
    (g0 : BagFor A0.structure_ A0) (g1 : BagFor A1.structure_ A1) (g2 : BagFor A2.structure_ A2) :
    ∃ ps, (matmulCuda ni nj nk E.size b).launch .ideal (reduceKernel (product E) (fun r p => r + p) zero E.enc 2) = some ps ∧
      ps.length = ni * nk ∧ ∃ M, ∀ log qs C,
        Execution .ideal ps (fun x => if x = 0 then A0 else if x = 1 then A1 else A2) log qs C →
        (∀ p ∈ qs, p.isDone = false → ∃ r, p.step .ideal C = .ok r) ∧
        (∀ i j a b, (i, some a) ∈ log → (j, some b) ∈ log → i ≠ j → ¬ a.conflicts b) ∧ log.length ≤ M ∧
        ((∀ p ∈ qs, p.isDone = true) →
          (∀ x y, x < ni → y < nj → (C 0).get .ideal (atNM 0 1 x y) = A0.get .ideal (atNM 0 1 x y)) ∧
          (∀ x y, x < nj → y < nk → (C 1).get .ideal (atNM 1 2 x y) = A1.get .ideal (atNM 1 2 x y)) ∧
          ∀ x y, x < ni → y < nk → ∃ as bs : Nat → List UInt8,
            (∀ w, w < nj → A0.get .ideal (atNM 0 1 x w) = .ok (as w) ∧ A1.get .ideal (atNM 1 2 w y) = .ok (bs w)) ∧
            (C 2).get .ideal (atNM 0 2 x y) =
              .ok (E.enc ((List.range nj).foldl (fun r w => r + E.dec (as w) * E.dec (bs w)) zero))) := by
  obtain ⟨V, hB⟩ := matmulBags_hold A0 A1 A2 l0 l1 l2 t0 t1 t2 n0 n1 n2 g0 g1 g2
  obtain ⟨ps, R', h1, h2, ⟨M, h3⟩, h4, h5, -⟩ := C76_matrix_product E zero ni nj nk b hb hb' hi hk
    (fun q => if q = 0 then ni else if q = 1 then nj else nk) rfl rfl rfl rfl rfl rfl V _ hB
  refine ⟨ps, h1, ?_, M, fun log qs C hC => ?_⟩
  · obtain ⟨p, rfl⟩ := hni
    obtain ⟨q, rfl⟩ := hnk
    rw [h2, Nat.mul_div_cancel_left _ hb, Nat.mul_div_cancel_left _ hb]
    ac_rfl
  · obtain ⟨e1, e2, e3, -, e5⟩ := h3 log qs C hC
    refine ⟨e1, e2, e3, fun hd => ?_⟩
    have hC' := e5 hd
    refine ⟨fun x y hx hy => ?_, fun x y hx hy => ?_, fun x y hx hy => ⟨fun w => V 0 (atNM 0 1 x w), fun w => V 1 (atNM 1 2 w y),
      fun w hw => ⟨?_, ?_⟩, ?_⟩⟩
    · have hu : (matmulSpaces ni nj nk E.size 0).has (atNM 0 1 x y) := atNM_onBox (by decide) hx hy
      rw [hC'.value 0 _ hu, h4 0 _ (by decide)]
      exact (hB.value 0 _ hu).symm
    · have hu : (matmulSpaces ni nj nk E.size 1).has (atNM 1 2 x y) := atNM_onBox (by decide) hx hy
      rw [hC'.value 1 _ hu, h4 1 _ (by decide)]
      exact (hB.value 1 _ hu).symm
    · exact hB.value 0 _ (atNM_onBox (by decide) hx hw)
    · exact hB.value 1 _ (atNM_onBox (by decide) hw hy)
    · rw [hC'.value 2 _ (atNM_onBox (by decide) hx hy), h5 x y (by rw [Nat.div_mul_cancel hni]; exact hx)
        (by rw [Nat.div_mul_cancel hnk]; exact hy)]

/-- The lengths of docs/Traverser.md, with the first matrix stored by columns and the others by rows. -/
example (m0 m1 m2 : Mem) (h0 : m0.length = 3000 * 4000 * 4) (h1 : m1.length = 4000 * 5000 * 4)
    (h2 : m2.length = 3000 * 5000 * 4) :
    ∃ ps, (matmulCuda 3000 4000 5000 4 8).launch .ideal (reduceKernel (product c70Int) (fun r p => r + p) 0 c70Int.enc 2) =
      some ps ∧ ps.length = 3000 * 5000 ∧ ∃ M, ∀ log qs C,
        Execution .ideal ps (fun x => if x = 0 then ⟨matrixColumns 0 1 3000 4000, m0⟩ else if x = 1 then
          ⟨matrixRows 1 2 4000 5000, m1⟩ else ⟨matrixRows 0 2 3000 5000, m2⟩) log qs C →
        (∀ p ∈ qs, p.isDone = false → ∃ r, p.step .ideal C = .ok r) ∧ log.length ≤ M := by
  have big : ∀ (s : Struct) (m : Mem) v k, (s.sem .ideal).size .empty = some v → v.Num k → m.length = k → BagFor s ⟨s, m⟩ := by
    intro s m v k hv hk hm
    refine ⟨rfl, fun v' k' hv' hk' => ?_⟩
    rw [hv] at hv'; cases hv'
    rw [hm]
    exact Nat.le_of_eq (Option.some.inj (hk'.symm.trans hk))
  have t1 : ∀ n m x y, (matrixRows n m x y).tidy := by intros; simp [matrixRows, Struct.apply, Struct.tidy]
  have t2 : ∀ n m x y, (matrixColumns n m x y).tidy := by intros; simp [matrixColumns, Struct.apply, Struct.tidy]
  obtain ⟨ps, e1, e2, M, e3⟩ := C76_matrix_product_of_bags c70Int 0 3000 4000 5000 8 (by decide) (by decide) (by decide) (by decide)
    (by decide) (by decide) ⟨matrixColumns 0 1 3000 4000, m0⟩ ⟨matrixRows 1 2 4000 5000, m1⟩ ⟨matrixRows 0 2 3000 5000, m2⟩
    (C70_columns 0 1 (by decide) _ _) (C70_rows 1 2 (by decide) _ _) (C70_rows 0 2 (by decide) _ _)
    (t2 ..) (t1 ..) (t1 ..)
    (fun q hq => by simp only [matrixColumns, Struct.apply, Struct.names, View.names, or_false] at hq; exact hq)
    (fun q hq => by simp only [matrixRows, Struct.apply, Struct.names, View.names, or_false] at hq; exact hq.symm)
    (fun q hq => by simp only [matrixRows, Struct.apply, Struct.names, View.names, or_false] at hq; exact hq.symm)
    (big _ _ (.dyn (3000 * (4000 * 4))) _ rfl rfl h0) (big _ _ (.dyn (5000 * (4000 * 4))) _ rfl rfl (h1.trans (by decide)))
    (big _ _ (.dyn (5000 * (3000 * 4))) _ rfl rfl (h2.trans (by decide)))
  exact ⟨ps, e1, e2, M, fun log qs C h => ⟨(e3 log qs C h).1, (e3 log qs C h).2.2.1⟩⟩

/-! ### The product of matrices, with lengths that are not multiples of the block size -/

/-- `cuda_threads<'I', 'i', 'K', 'k'>(traverser(a, b, c).order(into_blocks_dynamic<'i', 'I', 'i', 'r'>(block_size) ^
into_blocks_dynamic<'k', 'K', 'k', 's'>(block_size)))` (docs/Traverser.md:613-616); 'r' is 5, and 's' is 6. -/
def matmulCudaDyn (ni nj nk z b : Nat) : CudaTraverser :=
  ⟨⟨.union 3 (matmulStructs ni nj nk z),
    [.intoBlocksDyn 0 3 0 5, .setLength 0 (.lit b), .intoBlocksDyn 2 4 2 6, .setLength 2 (.lit b)]⟩, [(3, 0), (4, 2)]⟩

section
variable (ni nj nk z b x y u v : Nat)

theorem matmulDyn_sig : (cudaFixed ((matmulCudaDyn ni nj nk z b).trav.top.sem .ideal)
    (CudaTraverser.fixes (matmulCudaDyn ni nj nk z b).pairs [x, y] [u, v])).sig =
      .fn 6 .dynamic (.fn 1 (.static nj) (.fn 5 .dynamic (.scalar z))) := by
  have h0 : (unionSem 3 fun i => (matmulStructs ni nj nk z i).sem .ideal).sig =
      .fn 2 (.static nk) (.fn 1 (.static nj) (.fn 0 (.static ni) (.scalar z))) := rfl
  have h1 : ((matmulCudaDyn ni nj nk z b).trav.top.sem .ideal).sig =
    .fn 4 .dynamic (.fn 2 (.static b) (.fn 6 .dynamic (.fn 1 (.static nj) (.fn 3 .dynamic (.fn 0 (.static b)
      (.fn 5 .dynamic (.scalar z))))))) := by
    simp only [matmulCudaDyn, Traverser.top, Struct.apply, Struct.sem, View.sem, ViewSem.toSem, setLengthSem, intoBlocksDynSem,
      h0]
    rfl
  simp only [matmulCudaDyn, CudaTraverser.fixes, cudaFixed, cudaFixSem, ViewSem.toSem] at h1 ⊢
  rw [h1]
  rfl

theorem matmulDyn_len5 : (cudaFixed ((matmulCudaDyn ni nj nk z b).trav.top.sem .ideal)
    (CudaTraverser.fixes (matmulCudaDyn ni nj nk z b).pairs [x, y] [u, v])).len 5 .empty =
      some (((Val.mul .ideal (.dyn x) (.lit b)).add .ideal (.dyn u)).ltVal (.lit ni)) := rfl

theorem matmulDyn_len6 : (cudaFixed ((matmulCudaDyn ni nj nk z b).trav.top.sem .ideal)
    (CudaTraverser.fixes (matmulCudaDyn ni nj nk z b).pairs [x, y] [u, v])).len 6 (State.empty.set (.idx 5) (.dyn 0)) =
      some (((Val.mul .ideal (.dyn y) (.lit b)).add .ideal (.dyn v)).ltVal (.lit nk)) := rfl

theorem matmulDyn_len1 : (fixedSem .ideal (cudaFixed ((matmulCudaDyn ni nj nk z b).trav.top.sem .ideal)
    (CudaTraverser.fixes (matmulCudaDyn ni nj nk z b).pairs [x, y] [u, v])) [(5, .dyn 0), (6, .dyn 0)]).len 1 .empty =
      some (.lit nj) := rfl

theorem matmulDyn_sig1 (S : Sem) (h : S.sig =
      .fn 6 .dynamic (.fn 1 (.static nj) (.fn 5 .dynamic (.scalar z)))) : (fixedSem .ideal S [(5, .dyn 0), (6, .dyn 0)]).sig =
      .fn 1 (.static nj) (.scalar z) := by
  simp only [fixedSem, View.sem, fixSem, ViewSem.toSem, h]
  rfl

theorem node_eq {d : Dim} {n m : Nat} {f : Fin n → DimTree} {t : DimTree} (h : n = m) (hf : ∀ i, f i = t) :
    DimTree.node d n f = .node d m fun _ => t := by
  subst h
  rw [funext hf]

theorem two_reorder (a b : Dim) (hab : a ≠ b) : (DimTree.node a 1 fun _ => .node b 1 fun _ => .leaf).reorder [b, a] =
      .node b 1 fun _ => .node a 1 fun _ => .leaf := by
  have ha : (DimTree.node a 1 fun _ => .node b 1 fun _ => .leaf).branches a = 1 := by simp [DimTree.branches]
  have hb : (DimTree.node a 1 fun _ => .node b 1 fun _ => .leaf).branches b = 1 := by simp [DimTree.branches, hab]; rfl
  have h6 : (DimTree.node a 1 fun _ => .node b 1 fun _ => .leaf).hoist a =
      .node a 1 fun _ => .node b 1 fun _ => .leaf :=
    node_eq ha fun i => by
      have : i.1 = 0 := by have := Nat.lt_of_lt_of_eq i.2 ha; omega
      simp [DimTree.fix, this]
  simp only [DimTree.reorder, h6]
  refine node_eq hb fun i => ?_
  have : i.1 = 0 := by have := Nat.lt_of_lt_of_eq i.2 hb; omega
  simp [DimTree.fix, hab, this]
theorem matmulDyn_sections (hb : b ≠ 0) : (matmulCudaDyn ni nj nk z b).sections .ideal [5, 6] [x, y] [u, v] =
    some (if x * b + u < ni ∧ y * b + v < nk then
      [(atNM 0 2 (x * b + u) (y * b + v), (List.range nj).map (at3 0 2 1 (x * b + u) (y * b + v)))] else []) := by
  have h1 : (Val.add .ideal (Val.mul .ideal (.dyn x) (.lit b)) (.dyn u)) = .dyn (x * b + u) := by
    simp [Val.add, Val.mul, hb, Val.ofDyn, Arith.ideal]
  have h2 : (Val.add .ideal (Val.mul .ideal (.dyn y) (.lit b)) (.dyn v)) = .dyn (y * b + v) := by
    simp [Val.add, Val.mul, hb, Val.ofDyn, Arith.ideal]
  have hs : (do
      let st ← stateAt .ideal (matmulCudaDyn ni nj nk z b).trav.top [.fix 5 (.dyn 0), .fix 6 (.dyn 0)] .empty
      stateAt .ideal (matmulCudaDyn ni nj nk z b).trav.base (matmulCudaDyn ni nj nk z b).trav.views
        (cudaState (CudaTraverser.fixes (matmulCudaDyn ni nj nk z b).pairs [x, y] [u, v]) st)) =
      some (atNM 0 2 (x * b + u) (y * b + v)) := by
    simp [matmulCudaDyn, CudaTraverser.fixes, cudaState, stateAt, View.sem, setLengthSem, intoBlocksDynSem, intoBlocksDynSub,
      blocksDynClean, fixSem, State.set, State.remove, State.removeAll, State.has, h1, h2]
    funext g
    cases g <;> simp [atNM, State.withAll, State.set, State.empty, State.remove, State.removeAll] <;> grind
  have hw : ∀ w, (do
      let st ← stateAt .ideal (matmulCudaDyn ni nj nk z b).trav.top [.fix 5 (.dyn 0), .fix 6 (.dyn 0), .fix 1 (.dyn w)] .empty
      stateAt .ideal (matmulCudaDyn ni nj nk z b).trav.base (matmulCudaDyn ni nj nk z b).trav.views
        (cudaState (CudaTraverser.fixes (matmulCudaDyn ni nj nk z b).pairs [x, y] [u, v]) st)) =
      some (at3 0 2 1 (x * b + u) (y * b + v) w) := by
    intro w
    simp [matmulCudaDyn, CudaTraverser.fixes, cudaState, stateAt, View.sem, setLengthSem, intoBlocksDynSem, intoBlocksDynSub,
      blocksDynClean, fixSem, State.set, State.remove, State.removeAll, State.has, h1, h2]
    funext g
    cases g <;> simp [at3, State.withAll, State.set, State.empty, State.remove, State.removeAll] <;> grind
  have hsig := matmulDyn_sig ni nj nk z b x y u v
  have hsig1 := matmulDyn_sig1 nj z _ hsig
  have l5 := matmulDyn_len5 ni nj nk z b x y u v
  have l6 := matmulDyn_len6 ni nj nk z b x y u v
  have l1 := matmulDyn_len1 ni nj nk z b x y u v
  rw [h1] at l5
  rw [h2] at l6
  have htree : (Sig.fn 6 .dynamic (.fn 1 (.static nj) (.fn 5 .dynamic (.scalar z)))).tree.filter (fun d => [5, 6].contains d) =
    .node 6 1 fun _ => .node 5 1 fun _ => .leaf := by
    simp [Sig.tree, DimTree.filter]
  have hre : (DimTree.node 6 1 fun _ => .node 5 1 fun _ => .leaf).reorder [5, 6] =
      .node 5 1 fun _ => .node 6 1 fun _ => .leaf := two_reorder 6 5 (by decide)
  have hwalk' : walk (fixedSem .ideal (cudaFixed ((matmulCudaDyn ni nj nk z b).trav.top.sem .ideal)
    (CudaTraverser.fixes (matmulCudaDyn ni nj nk z b).pairs [x, y] [u, v])) [(5, .dyn 0), (6, .dyn 0)])
      (fixedSem .ideal (cudaFixed ((matmulCudaDyn ni nj nk z b).trav.top.sem .ideal)
    (CudaTraverser.fixes (matmulCudaDyn ni nj nk z b).pairs [x, y] [u, v])) [(5, .dyn 0), (6, .dyn 0)]).sig.tree .empty =
      some ((List.range nj).map fun w => [(1, Val.dyn w)]) := by
    rw [hsig1, Sig.tree, walk, hsig1]
    simp only [Sig.find, if_true, l1, Val.nat?, walk, Sig.tree, dite_true, Option.map_some, List.map_cons, List.map_nil, bind, Option.bind]
    exact seqAll_single _ _
  have hwalk : walk (cudaFixed ((matmulCudaDyn ni nj nk z b).trav.top.sem .ideal)
    (CudaTraverser.fixes (matmulCudaDyn ni nj nk z b).pairs [x, y] [u, v])) (.node 5 1 fun _ => .node 6 1 fun _ => .leaf) .empty =
      some (if x * b + u < ni ∧ y * b + v < nk then [[(5, .dyn 0), (6, .dyn 0)]] else []) := by
    rw [walk, hsig]
    simp only [Sig.find, l5, Val.ltVal, Val.nat?, walk, hsig, bind, Option.bind, dite_true, if_true]
    by_cases hx : x * b + u < ni
    · simp only [hx, if_true, true_and, List.range_one, List.map_cons, List.map_nil]
      simp only [l6, Val.ltVal]
      by_cases hy : y * b + v < nk
      · simp [hy, seqAll]
      · simp [hy, seqAll]
    · simp [hx, seqAll]
  unfold CudaTraverser.sections
  simp only [hsig, htree, hre, hwalk, bind, Option.bind]
  have hc : ([5, 6].all fun d => (DimTree.node 6 1 fun _ => .node 5 1 fun _ => .leaf).contains d) = true := by
    simp [DimTree.contains]
  simp only [hc, if_true]
  split
  · have : ((List.range nj).map fun w => [((1 : Dim), Val.dyn w)]).mapM (fun p' => (stateAt .ideal (matmulCudaDyn ni nj nk z b).trav.top
          (([(5, Val.dyn 0), (6, Val.dyn 0)] ++ p').map fun di => View.fix di.1 di.2) .empty).bind fun st =>
        stateAt .ideal (matmulCudaDyn ni nj nk z b).trav.base (matmulCudaDyn ni nj nk z b).trav.views
          (cudaState (CudaTraverser.fixes (matmulCudaDyn ni nj nk z b).pairs [x, y] [u, v]) st)) =
        some ((List.range nj).map (at3 0 2 1 (x * b + u) (y * b + v))) := by
      rw [List.mapM_map]
      exact mapM_map fun w _ => hw w
    simp only [bind, Option.bind, List.map_cons, List.cons_append, List.nil_append] at this hs
    simp only [List.mapM_cons, List.mapM_nil, hwalk', bind, Option.bind, pure, List.map_cons, List.map_nil,
      List.cons_append, List.nil_append, this, hs]
  · rfl

theorem matmulDyn_threads (hb : 0 < b) (hb' : b < 2 ^ 32) (hi : (ni + b - 1) / b < 2 ^ 32)
    (hk : (nk + b - 1) / b < 2 ^ 32) : (matmulCudaDyn ni nj nk z b).threads .ideal =
      some (matmulThreads ((ni + b - 1) / b) ((nk + b - 1) / b) b) := by
  have l3 : ((matmulCudaDyn ni nj nk z b).trav.top.sem .ideal).len 3 .empty =
      some (ceilDiv .ideal (.lit ni) (.lit b)) := rfl
  have l4 : ((matmulCudaDyn ni nj nk z b).trav.top.sem .ideal).len 4 .empty =
      some (ceilDiv .ideal (.lit nk) (.lit b)) := rfl
  have l0 : ((matmulCudaDyn ni nj nk z b).trav.top.sem .ideal).len 0 .empty = some (.lit b) := rfl
  have l2 : ((matmulCudaDyn ni nj nk z b).trav.top.sem .ideal).len 2 .empty = some (.lit b) := rfl
  have hd : ∀ n, ceilDiv .ideal (.lit n) (.lit b) = .lit ((n + b - 1) / b) := by
    intro n
    have h1 : 1 ≤ n + b := by omega
    simp [ceilDiv, Val.add, Val.sub, Val.div, Arith.ideal, Nat.ne_of_gt hb, Val.ofLit, h1]
  rw [hd] at l3 l4
  have hp : (matmulCudaDyn ni nj nk z b).pairs = [(3, 0), (4, 2)] := rfl
  have hg : (matmulCudaDyn ni nj nk z b).gridDim .ideal = some [(ni + b - 1) / b, (nk + b - 1) / b] := by
    simp [CudaTraverser.gridDim, hp, CudaTraverser.extent, l3, l4, Val.nat?, Nat.mod_eq_of_lt hi, Nat.mod_eq_of_lt hk]
  have hbl : (matmulCudaDyn ni nj nk z b).blockDim .ideal = some [b, b] := by
    simp [CudaTraverser.blockDim, hp, CudaTraverser.extent, l0, l2, Val.nat?, Nat.mod_eq_of_lt hb']
  simp only [CudaTraverser.threads, hg, hbl, bind, Option.bind, matmulThreads]

end

/-- C76: the matrix product of docs/Traverser.md with `into_blocks_dynamic` and `for_dims<'r', 's'>`, with any lengths and
any block size. There are enough threads for each element of `c` to be written, by one of them: it gets the sum of the
products, and there is no access beyond the matrices. -/
theorem C76_matrix_product_any_lengths {R : Type} [Add R] [Mul R] (E : ElemType R) (zero : R) (ni nj nk b : Nat) (hb : 0 < b)
    (hb' : b < 2 ^ 32) (hi : (ni + b - 1) / b < 2 ^ 32) (hk : (nk + b - 1) / b < 2 ^ 32) (N : Dim → Nat) (hN0 : N 0 = ni)
    (hN1 : N 1 = nj) (hN2 : N 2 = nk) (h0 : I 0 = .box [0, 1] N E.size) (h1 : I 1 = .box [1, 2] N E.size)
    (h2 : I 2 = .box [0, 2] N E.size) (V : Arrays) (B : Bags) (hB : BagsHold I B V) :
    ∃ ps R', (matmulCudaDyn ni nj nk E.size b).launchDims .ideal [5, 6]
        (reduceKernel (product E) (fun r p => r + p) zero E.enc 2) = some ps ∧
      RunsTo I ps B R' ∧ (∀ x u, x ≠ 2 → R' x u = V x u) ∧
      ∀ x y, x < ni → y < nk → R' 2 (atNM 0 2 x y) = E.enc ((List.range nj).foldl
        (fun r w => r + E.dec (V 0 (atNM 0 1 x w)) * E.dec (V 1 (atNM 1 2 w y))) zero) := by
  let row (th : List Nat × List Nat) : Nat := th.1.getD 0 0 * b + th.2.getD 0 0
  let col (th : List Nat × List Nat) : Nat := th.1.getD 1 0 * b + th.2.getD 1 0
  let f (th : List Nat × List Nat) : List (State × List State) :=
    if row th < ni ∧ col th < nk then
      [(atNM 0 2 (row th) (col th), (List.range nj).map (at3 0 2 1 (row th) (col th)))] else []
  let ths := matmulThreads ((ni + b - 1) / b) ((nk + b - 1) / b) b
  have hlaunch : (matmulCudaDyn ni nj nk E.size b).launchDims .ideal [5, 6]
      (reduceKernel (product E) (fun r p => r + p) zero E.enc 2) = some ((ths.map f).map fun th =>
        CudaTraverser.launchDims.inTurn (th.map fun sec =>
          reduceKernel (product E) (fun r p => r + p) zero E.enc 2 sec.2 sec.1)) := by
    simp only [CudaTraverser.launchDims, matmulDyn_threads ni nj nk E.size b hb hb' hi hk, bind, Option.bind]
    rw [List.map_map]
    refine mapM_map fun th hth => ?_
    obtain ⟨x, y, u, v, -, -, -, -, rfl⟩ := (mem_matmulThreads b).1 hth
    simp only [matmulDyn_sections _ _ _ _ b x y u v (Nat.ne_of_gt hb)]
    rfl
  have hdm : ∀ x x' u u', u < b → u' < b → x * b + u = x' * b + u' → x = x' ∧ u = u' := by
    intro x x' u u' hu hu' e
    have h1 := congrArg (· / b) e
    have h2 := congrArg (· % b) e
    simp only [Nat.mul_comm _ b, Nat.mul_add_div hb, Nat.div_eq_of_lt hu, Nat.div_eq_of_lt hu', Nat.add_zero,
      Nat.mul_add_mod, Nat.mod_eq_of_lt hu, Nat.mod_eq_of_lt hu'] at h1 h2
    exact ⟨h1, h2⟩
  have hf : ∀ th sec, sec ∈ f th → row th < ni ∧ col th < nk ∧
      sec = (atNM 0 2 (row th) (col th), (List.range nj).map (at3 0 2 1 (row th) (col th))) := by
    intro th sec hsec
    simp only [f] at hsec
    split at hsec
    · next h => exact ⟨h.1, h.2, List.mem_singleton.1 hsec⟩
    · cases hsec
  obtain ⟨R', g1, g2, g3⟩ := C76_kernels_with_sections (I := I) (product E) (fun r p => r + p) zero E.enc 2 (ths.map f) id
    (fun st => E.dec (V 0 (st.only fun q => decide (q ∈ [0, 1]))) * E.dec (V 1 (st.only fun q => decide (q ∈ [1, 2])))) V
    (fun th hth sec hsec => by
      obtain ⟨th', -, rfl⟩ := List.mem_map.1 hth
      obtain ⟨hx, hy, rfl⟩ := hf th' sec hsec
      have : OnBox (· ∈ [0, 2]) N (atNM 0 2 (row th') (col th')) :=
        atNM_onBox (by decide) (by rw [hN0]; exact hx) (by rw [hN2]; exact hy)
      rw [h2]
      refine ⟨?_, this, this.noLen⟩
      funext g
      cases g <;> simp [Space.box, atNM, State.only, State.withAll, State.set, State.empty] <;> grind)
    (fun th _ sec _ a => by rw [E.enc_length, h2]; rfl)
    (fun th hth sec hsec st hst => by
      obtain ⟨th', -, rfl⟩ := List.mem_map.1 hth
      obtain ⟨hx, hy, rfl⟩ := hf th' sec hsec
      obtain ⟨w, hw, rfl⟩ := List.mem_map.1 hst
      have : OnBox (· ∈ [0, 2, 1]) N (at3 0 2 1 (row th') (col th') w) :=
        (at3_onBox (by decide) (by decide) (by decide)).2 ⟨_, _, w, by rw [hN0]; exact hx, by rw [hN2]; exact hy,
          by rw [hN1]; exact List.mem_range.1 hw, rfl⟩
      refine ⟨_, .get _ (by rw [h0]; exact Space.box_at this (by simp)) (.get _ (by rw [h1]; exact Space.box_at this (by simp))
        .done), fun y w b hm => ?_⟩
      simp only [List.mem_cons, Prod.mk.injEq, List.not_mem_nil, or_false] at hm
      rcases hm with ⟨rfl, -, rfl⟩ | ⟨rfl, -, rfl⟩ <;> exact ⟨by decide, rfl⟩)
    (by
      rw [List.pairwise_flatten]
      refine ⟨fun l hl => ?_, ?_⟩
      · obtain ⟨th, -, rfl⟩ := List.mem_map.1 hl
        simp only [f]
        split <;> simp
      · rw [List.pairwise_map]
        refine List.Pairwise.imp_of_mem ?_ (matmulThreads_nodup b _ _)
        intro th th' hth hth' hne sec hsec sec' hsec' he
        obtain ⟨x, y, u, v, -, -, hu, hv, rfl⟩ := (mem_matmulThreads b).1 hth
        obtain ⟨x', y', u', v', -, -, hu', hv', rfl⟩ := (mem_matmulThreads b).1 hth'
        obtain ⟨-, -, rfl⟩ := hf _ sec hsec
        obtain ⟨-, -, rfl⟩ := hf _ sec' hsec'
        obtain ⟨e1, e2⟩ := atNM_inj (by decide) he
        obtain ⟨rfl, rfl⟩ := hdm _ _ _ _ hu hu' e1
        obtain ⟨rfl, rfl⟩ := hdm _ _ _ _ hv hv' e2
        exact hne rfl) B hB
  refine ⟨_, R', hlaunch, g1, fun x u hx => g3 x u fun h => absurd h hx, fun x y hx hy => ?_⟩
  have hceil : ∀ n k, k < n → k / b < (n + b - 1) / b := by
    intro n k hk
    have h1 := Nat.div_add_mod (n + b - 1) b
    have h2 := Nat.mod_lt (n + b - 1) hb
    refine (Nat.div_lt_iff_lt_mul hb).2 ?_
    rw [Nat.mul_comm]
    omega
  have hth : ([x / b, y / b], [x % b, y % b]) ∈ ths :=
    (mem_matmulThreads b).2 ⟨_, _, _, _, hceil ni x hx, hceil nk y hy, Nat.mod_lt _ hb, Nat.mod_lt _ hb, rfl⟩
  have hr : row ([x / b, y / b], [x % b, y % b]) = x := Nat.div_add_mod' x b
  have hc : col ([x / b, y / b], [x % b, y % b]) = y := Nat.div_add_mod' y b
  have := g2 _ (List.mem_map.2 ⟨_, hth, rfl⟩) (atNM 0 2 x y, (List.range nj).map (at3 0 2 1 x y))
    (by simp only [f, hr, hc, hx, hy, and_self, if_true, List.mem_singleton])
  simp only [id] at this
  rw [this, List.foldl_map]
  simp only [(at3_only (i := 0) (j := 2) (k := 1) (by decide) (by decide) (by decide) x y _).1,
    (at3_only (i := 0) (j := 2) (k := 1) (by decide) (by decide) (by decide) x y _).2.1]

/-- The lengths of docs/Traverser.md that are not multiples of the block size. -/
example (m0 m1 m2 : Mem) (h0 : m0.length = 3500 * 4500 * 4) (h1 : m1.length = 4500 * 5500 * 4)
    (h2 : m2.length = 3500 * 5500 * 4) :
    ∃ V ps R, BagsHold (matmulSpaces 3500 4500 5500 4) (fun x => if x = 0 then ⟨matrixColumns 0 1 3500 4500, m0⟩ else if x = 1 then
          ⟨matrixRows 1 2 4500 5500, m1⟩ else ⟨matrixRows 0 2 3500 5500, m2⟩) V ∧
      (matmulCudaDyn 3500 4500 5500 4 8).launchDims .ideal [5, 6]
        (reduceKernel (product c70Int) (fun r p => r + p) 0 c70Int.enc 2) = some ps ∧
      RunsTo (matmulSpaces 3500 4500 5500 4) ps (fun x => if x = 0 then ⟨matrixColumns 0 1 3500 4500, m0⟩ else if x = 1 then
          ⟨matrixRows 1 2 4500 5500, m1⟩ else ⟨matrixRows 0 2 3500 5500, m2⟩) R ∧
      R 2 (atNM 0 2 3499 5499) = c70Int.enc ((List.range 4500).foldl
        (fun r w => r + c70Int.dec (V 0 (atNM 0 1 3499 w)) * c70Int.dec (V 1 (atNM 1 2 w 5499))) 0) := by
  have big : ∀ (s : Struct) (m : Mem) v k, (s.sem .ideal).size .empty = some v → v.Num k → m.length = k → BagFor s ⟨s, m⟩ := by
    intro s m v k hv hk hm
    refine ⟨rfl, fun v' k' hv' hk' => ?_⟩
    rw [hv] at hv'; cases hv'
    rw [hm]
    exact Nat.le_of_eq (Option.some.inj (hk'.symm.trans hk))
  have t1 : ∀ n m x y, (matrixRows n m x y).tidy := by intros; simp [matrixRows, Struct.apply, Struct.tidy]
  have t2 : ∀ n m x y, (matrixColumns n m x y).tidy := by intros; simp [matrixColumns, Struct.apply, Struct.tidy]
  obtain ⟨V, hB⟩ := matmulBags_hold (e := 4)
    ⟨matrixColumns 0 1 3500 4500, m0⟩ ⟨matrixRows 1 2 4500 5500, m1⟩ ⟨matrixRows 0 2 3500 5500, m2⟩
    (C70_columns 0 1 (by decide) _ _) (C70_rows 1 2 (by decide) _ _) (C70_rows 0 2 (by decide) _ _)
    (t2 ..) (t1 ..) (t1 ..)
    (fun q hq => by simp only [matrixColumns, Struct.apply, Struct.names, View.names, or_false] at hq; exact hq)
    (fun q hq => by simp only [matrixRows, Struct.apply, Struct.names, View.names, or_false] at hq; exact hq.symm)
    (fun q hq => by simp only [matrixRows, Struct.apply, Struct.names, View.names, or_false] at hq; exact hq.symm)
    (big _ _ (.dyn (3500 * (4500 * 4))) _ rfl rfl h0) (big _ _ (.dyn (5500 * (4500 * 4))) _ rfl rfl (h1.trans (by decide)))
    (big _ _ (.dyn (5500 * (3500 * 4))) _ rfl rfl (h2.trans (by decide)))
  obtain ⟨ps, R, e1, e2, -, e3⟩ := C76_matrix_product_any_lengths c70Int 0 3500 4500 5500 8 (by decide) (by decide) (by decide)
    (by decide) (fun q => if q = 0 then 3500 else if q = 1 then 4500 else 5500) rfl rfl rfl rfl rfl rfl V _ hB
  exact ⟨V, ps, R, hB, e1, e2, e3 3499 5499 (by decide) (by decide)⟩

end Noarr
