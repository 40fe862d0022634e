import Verif.Props.Cuda
import Verif.Props.Parallel
import Verif.Props.ReduceBags

/-
C78: loops over bags that are shared by CUDA threads with cuda_step (docs/structs/cuda_step.md).
-/

namespace Noarr
variable {I : Nat → Space}

theorem mapM_each (body : State → Prog Unit) {α : Type} (f : α → Traverser) {l : List α} {ps : List (Prog Unit)}
    (h : l.mapM (fun x => (f x).forEachProg .ideal body) = some ps) :
    ∃ xss, l.mapM (fun x => (f x).forEach .ideal []) = some xss ∧ ps = xss.map (Prog.each body) := by
  induction l generalizing ps with
  | nil => cases h; exact ⟨[], rfl, rfl⟩
  | cons x l ih =>
    rw [List.mapM_cons, Option.bind_eq_bind, Option.bind_eq_some_iff] at h
    obtain ⟨p, h1, h⟩ := h
    rw [Option.bind_eq_bind, Option.bind_eq_some_iff] at h
    obtain ⟨qs, h2, h3⟩ := h
    cases h3
    obtain ⟨xss, h4, rfl⟩ := ih h2
    obtain ⟨xs, h5, rfl⟩ := Option.map_eq_some_iff.1 h1
    exact ⟨xs :: xss, by rw [List.mapM_cons, h5, h4]; rfl, rfl⟩

/-- C78: `n` threads, each of which runs `t.order(cuda_step<d>(group)).for_each(body)`, where the iterations do not disturb
each other. Whatever the interleaving, no operation is undefined, there is no data race, and in the end the bags hold what
`t.for_each(body)` gives in a single thread. It does not matter how many threads there are. -/
theorem C78_step_loop (t : Traverser) (d : Dim) (n : Nat) (hn : 0 < n) (ht : t.top.tame)
    (hf : t.top.firm fun _ => false) (hw : t.top.wf .ideal) (hd : t.top.noDup .ideal) (hm : t.top.unmixed .ideal)
    (hdep : ¬ (t.top.sem .ideal).sig.hasDep d) (hall : (t.top.sem .ideal).sig.allAccept d = true)
    (hl : ∀ st, (∀ q, st (.len q) = none) → LengthsKnown (t.top.sem .ideal) st) (body : State → Prog Unit)
    (ps : List (Prog Unit))
    (h : (List.range n).mapM (fun rank => (t.order [cudaStep d rank n]).forEachProg .ideal body) = some ps)
    (sts : List State) (hs : t.forEach .ideal [] = some sts) (V : Arrays) (us : State → List Use) (Vs : State → Arrays)
    (hu : ∀ st ∈ sts, (body st).Uses I V (us st) () (Vs st)) (ha : sts.Pairwise fun a b => NoConflict (us a) (us b))
    (B : Bags) (hB : BagsHold I B V) :
    ∃ p B' R, t.forEachProg .ideal body = some p ∧ p.run .ideal B = .ok ((), B') ∧ BagsHold I B' R ∧
      RunsTo I ps B R := by
  obtain ⟨xss, h1, rfl⟩ := mapM_each body _ h
  have hp := step_share_views hn ht hf hw hd hm hdep hall hl h1 hs
  obtain ⟨B', R, g1, g2, g3⟩ := C74_iterations body sts V us Vs hu ha B hB xss hp
  exact ⟨_, B', R, by rw [Traverser.forEachProg, hs]; rfl, g1, g2, g3⟩

/-- C78: the same for loops that update the elements of a bag, of which several iterations can be for one element: if the
element determines the index in the dimension that is shared out, there is no data race. -/
theorem C78_step_accumulate {β : Type} {out : Nat} {e : State → Prog (State × β)} {op : List UInt8 → β → List UInt8}
    {key : State → State} {val : State → β} (hop' : ∀ w a b, op (op w a) b = op (op w b) a) (s : Struct) (d : Dim)
    (n : Nat) (hn : 0 < n) (ht : s.tame) (hf : s.firm fun _ => false) (hw : s.wf .ideal) (hd : s.noDup .ideal)
    (hm : s.unmixed .ideal) (hdep : ¬ (s.sem .ideal).sig.hasDep d) (hall : (s.sem .ideal).sig.allAccept d = true)
    (hl : ∀ st, (∀ q, st (.len q) = none) → LengthsKnown (s.sem .ideal) st) (ps : List (Prog Unit))
    (h : (List.range n).mapM (fun rank =>
      (Traverser.mk s [cudaStep d rank n]).forEachProg .ideal (accumulate out e op)) = some ps)
    (sts : List State) (hs : (Traverser.mk s []).forEach .ideal [] = some sts) (V : Arrays)
    (he : ∀ st ∈ sts, OnlyReads I V out e key val st)
    (hop : ∀ st ∈ sts, ∀ w, w.length = (I out).size (key st) → (op w (val st)).length = (I out).size (key st))
    (hk : ∀ st ∈ sts, ∀ st' ∈ sts, key st = key st' → st (.idx d) = st' (.idx d)) (B : Bags) (hB : BagsHold I B V) :
    RunsTo I ps B (V.accumulated out op key val sts) := by
  obtain ⟨xss, h1, rfl⟩ := mapM_each _ _ h
  have hp := step_share hn ht hf hw hd hm hdep hall hl h1 hs
  have hmem : ∀ st ∈ xss.flatten, st ∈ sts := fun st hst => hp.mem_iff.1 hst
  have hR : V.accumulated out op key val sts = V.accumulated out op key val xss.flatten := by
    funext y u
    simp only [Arrays.accumulated, foldAt_perm hop' hp]
  rw [hR]
  refine C74_accumulate V xss (fun st hst => he st (hmem st hst)) (fun st hst => hop st (hmem st hst)) ?_ B hB
  have hxs := mapM_some h1
  have key1 : (xss.map some).Pairwise fun a b => ∀ xs ys, a = some xs → b = some ys → xs ∈ xss → ys ∈ xss →
      ∀ st ∈ xs, ∀ st' ∈ ys, key st ≠ key st' := by
    rw [hxs]
    refine List.pairwise_map.2 ((List.pairwise_lt_range (n := n)).imp_of_mem ?_)
    intro r r' hr hr' hlt xs ys e1 e2 hx hy st hst st' hst' hkey
    obtain ⟨-, i, j, hi, g1⟩ := ((step_states hn ht hf hw hd hm hdep hall hl r xs e1).2 st).1 hst
    obtain ⟨-, i', j', hi', g2⟩ := ((step_states hn ht hf hw hd hm hdep hall hl r' ys e2).2 st').1 hst'
    have := hk st (hmem st (List.mem_flatten.2 ⟨_, hx, hst⟩)) st' (hmem st' (List.mem_flatten.2 ⟨_, hy, hst'⟩)) hkey
    rw [hi, hi'] at this
    cases this
    have hr := List.mem_range.1 hr
    have hr' := List.mem_range.1 hr'
    have e1 : i % n = r := by rw [g1, Nat.mul_comm, Nat.mul_add_mod, Nat.mod_eq_of_lt hr]
    have e2 : i % n = r' := by rw [g2, Nat.mul_comm, Nat.mul_add_mod, Nat.mod_eq_of_lt hr']
    omega
  rw [List.pairwise_map] at key1
  exact key1.imp_of_mem fun hx hy h => h _ _ rfl rfl hx hy

/-! ### Structures without tuples -/

theorem Sig.flat_noDep {S : Sig} (h : S.flat) (d : Dim) : ¬ S.hasDep d := by
  induction S with
  | scalar s => exact id
  | void => exact id
  | ill => exact id
  | fn e l r ih => exact ih h
  | dep => exact absurd h id

theorem Sig.flat_allAccept {S : Sig} (h : S.flat) {d : Dim} (hd : S.anyAccept d = true) : S.allAccept d = true := by
  induction S with
  | scalar s => exact hd
  | void => exact absurd h id
  | ill => exact absurd h id
  | fn e l r ih =>
    simp only [Sig.anyAccept, Sig.allAccept, Bool.or_eq_true] at hd ⊢
    exact hd.imp id (ih h)
  | dep => exact absurd h id

theorem Sig.flat_step {S : Sig} (h : S.flat) {a k : Val} {d : Dim} : (S.replace (Sig.stepRepl a k) [d]).flat := by
  induction S with
  | scalar s => trivial
  | void => exact absurd h id
  | ill => exact absurd h id
  | fn e l r ih =>
    by_cases he : e = d
    · subst he; simpa [Sig.replace, Sig.stepRepl, Sig.flat] using h
    · simpa [Sig.replace, he, Sig.flat] using ih h
  | dep => exact absurd h id

theorem HasLengths.known {S : Sem} {N : Dim → Nat} (hu : S.sig.uniq) (h : HasLengths S N) {st : State}
    (hst : ∀ q, st (.len q) = none) : LengthsKnown S st := by
  refine (lengthsKnown_iff hu).2 fun q hq => ?_
  obtain ⟨l, hl, -⟩ := h q (Sig.entry_accept hq) (st.remove (.idx q)) (fun e => by simp [State.remove, hst])
    (by simp [State.remove])
  rw [hl]; rfl

/-- C78: such a kernel compiles for every structure without tuples and with fixed lengths, whatever the number of threads
and the rank. -/
theorem C78_step_compiles (s : Struct) (N : Dim → Nat) (hf : (s.sem .ideal).sig.flat) (hu : (s.sem .ideal).sig.uniq)
    (hN : HasLengths (s.sem .ideal) N) (d : Dim) (n : Nat) (body : State → Prog Unit) :
    ∃ ps, (List.range n).mapM (fun rank => (Traverser.mk s [cudaStep d rank n]).forEachProg .ideal body) = some ps := by
  have hdep := Sig.flat_noDep hf d
  have key : ∀ r : Nat, r < n → ∃ xs, (Traverser.mk s [cudaStep d r n]).forEach .ideal [] = some xs := by
    intro r hr
    have hN' : HasLengths ((Struct.view (cudaStep d r n) s).sem .ideal)
        (fun q => if q = d then (N d + n - r - 1) / n else N q) := by
      intro q hq st h1 h2
      replace hq : (s.sem .ideal).sig.anyAccept q = true := by
        rw [← (Sig.step_same (a := .dyn r) (k := .dyn n) hdep).2 q]; exact hq
      by_cases e : q = d
      · subst e
        obtain ⟨l, h3, h4⟩ := hN q hq st h1 h2
        refine ⟨(((l.add .ideal (.dyn n)).sub .ideal (.dyn r)).sub .ideal (.lit 1)).div .ideal (.dyn n), ?_, ?_⟩
        · simp [Struct.sem, ViewSem.toSem, View.sem, cudaStep, stepSem, mapAt_none h2, Struct.hasLen_of_len h3, h3, guardLen]
        · simp only [if_true]
          exact Val.num_div (Val.nat?_sub.2 ⟨_, _, Val.nat?_sub.2 ⟨_, _, Val.num_add h4 rfl, rfl, by omega, rfl⟩, rfl,
            by omega, rfl⟩) rfl (by omega)
      · obtain ⟨l, h3, h4⟩ := hN q hq (st.mapAt (.idx d) fun i => (i.mul .ideal (.dyn n)).add .ideal (.dyn r))
          (fun e => by simp [State.mapAt, h1]) (by simp [State.mapAt, e, h2])
        refine ⟨l, ?_, by simpa [e] using h4⟩
        simp [Struct.sem, ViewSem.toSem, View.sem, cudaStep, stepSem, Struct.hasLen_of_len h3, h3, guardLen, e]
    obtain ⟨xs, h1, -⟩ := forEach_flat (s := .view (cudaStep d r n) s) (Sig.flat_step hf)
      (Sig.step_uniq hdep hu) hN'
    have h2 : stateAt .ideal s [cudaStep d r n] =
        fun st => some (st.mapAt (.idx d) fun i => (i.mul .ideal (.dyn n)).add .ideal (.dyn r)) := by
      funext st; rfl
    refine ⟨xs.map fun st => st.mapAt (.idx d) fun i => (i.mul .ideal (.dyn n)).add .ideal (.dyn r), ?_⟩
    rw [forEach_top, show (Traverser.mk s [cudaStep d r n]).top = .view (cudaStep d r n) s from rfl, h1]
    simp only [Option.bind_some, h2]
    clear h1
    induction xs with
    | nil => rfl
    | cons x xs ih => rw [List.mapM_cons, ih]; rfl
  have : ∀ l : List Nat, (∀ r ∈ l, r < n) →
      ∃ ps, l.mapM (fun rank => (Traverser.mk s [cudaStep d rank n]).forEachProg .ideal body) = some ps := by
    intro l
    induction l with
    | nil => exact fun _ => ⟨[], rfl⟩
    | cons r l ih =>
      intro hl
      obtain ⟨xs, h1⟩ := key r (hl r (List.mem_cons_self ..))
      obtain ⟨ps, h2⟩ := ih fun r' hr' => hl r' (List.mem_cons_of_mem _ hr')
      exact ⟨Prog.each body xs :: ps, by rw [List.mapM_cons, h2, Traverser.forEachProg, h1]; rfl⟩
  exact this _ fun r hr => List.mem_range.1 hr

/-! ### Vectors -/

local macro "vec_simp" ts:Lean.Parser.Tactic.simpLemma,* : tactic => `(tactic| simp [vectorOf, Struct.apply, Struct.sem, View.sem, ViewSem.toSem, setLengthSem, vectorSem, scalarSem, guardLen,
      State.set, State.has, State.removeAll, State.remove, State.empty, Sig.replace, Sig.setLengthRepl, Sig.anyAccept, Sig.needs, Sig.wf, Val.mul, Val.Num, Val.nat?, Val.ofDyn, Arith.ideal, $ts,*])

theorem vectorOf_sig (d : Dim) (n e : Nat) : ((vectorOf d n e).sem .ideal).sig = .fn d .dynamic (.scalar e) := by
  vec_simp ArgLen.ofVal

theorem vectorOf_lengths (d : Dim) (n e : Nat) : HasLengths ((vectorOf d n e).sem .ideal) fun _ => n := by
  intro q hq st h1 h2
  rw [vectorOf_sig] at hq
  have : q = d := by simpa [Sig.anyAccept] using Eq.symm (by simpa [Sig.anyAccept] using hq : d = q)
  subst this
  vec_simp h2, h1

/-- Bags with vectors of the same length. -/
def vectorBags {R : Type} (E : ElemType R) (i : Dim) (n : Nat) (ls : Nat → List R) : Bags :=
  fun x => ⟨vectorOf i n E.size, (ls x).flatMap E.enc⟩

/-- The arrays in such bags. -/
def vectorArrays {R : Type} (E : ElemType R) (i : Dim) (ls : Nat → List R) : Arrays :=
  fun x u => ((ls x).map E.enc).getD (((u (.idx i)).bind Val.nat?).getD 0) []

theorem vectorArrays_at {R : Type} (E : ElemType R) (i : Dim) (ls : Nat → List R) (x k : Nat) (h : k < (ls x).length) :
    vectorArrays E i ls x (atV i k) = E.enc (ls x)[k] := by
  have : ((atV i k (.idx i)).bind Val.nat?).getD 0 = k := by simp [atV, State.set, Val.nat?]
  simp [vectorArrays, this, h]

theorem vectorBags_hold {R : Type} (E : ElemType R) (i : Dim) (n : Nat) (ls : Nat → List R)
    (hl : ∀ x, (ls x).length = n) :
    BagsHold (fun _ => .box [i] (fun _ => n) E.size) (vectorBags E i n ls) (vectorArrays E i ls) := by
  refine ⟨fun x => vectorOf_laidOut i (fun _ => n) E.size, fun x => ⟨rfl, fun w M hw hM => ?_⟩, fun x u hu => ?_⟩
  · obtain ⟨w', h1, h2⟩ := vectorOf_size i n E.size
    cases h1.symm.trans hw
    have : n * E.size = M := by simpa [Val.Num] using (h2.symm.trans hM)
    rw [← this]
    simp only [vectorBags]
    rw [flat_length, hl]
    exact Nat.le_refl _
  · obtain ⟨y, hy, rfl⟩ := onBox_atV hu
    have hy' : y < (ls x).length := by rw [hl]; exact hy
    rw [vectorArrays_at E i ls x y hy']
    simp only [vectorBags]
    rw [vectorOf_get _ _ _ _ _ (by rw [flat_length, hl]) hy, flat_get E (ls x) y hy']

/-- `[&](auto state) { y[state] += a * x[state]; }`, where `x` and `y` are the bags 0 and 1. -/
def axpy {R : Type} [Add R] [Mul R] (E : ElemType R) (a : R) : State → Prog Unit :=
  accumulate 1 (fun st => .get 0 st fun x => .done (st, a * E.dec x)) fun w v => E.enc (E.dec w + v)

/-- C78: `traverser(y).order(cuda_step_grid()).for_each([&](auto state) { y[state] += a * x[state]; })` for two vectors.
With any number of threads, every execution ends without undefined behaviour, and `y[k]` has become `y[k] + a * x[k]` for
each `k`. -/
theorem C78_vectors {R : Type} [Add R] [Mul R] (hadd : ∀ a b c : R, a + b + c = a + c + b) (E : ElemType R) (i : Dim)
    (a : R) (ls : Nat → List R) (len : Nat) (hl : ∀ x, (ls x).length = len) (n : Nat) (hn : 0 < n) :
    ∃ ps, (List.range n).mapM (fun rank =>
        (Traverser.mk (vectorOf i len E.size) [cudaStep i rank n]).forEachProg .ideal (axpy E a)) = some ps ∧
      ∀ res, ParallelFor .ideal ps (vectorBags E i len ls) res → ∃ C, res = .ok C ∧
        (∀ x k (h : k < len), x ≠ 1 → (C x).get .ideal (atV i k) = .ok (E.enc ((ls x)[k]'(hl x ▸ h)))) ∧
        ∀ k (h : k < len), (C 1).get .ideal (atV i k) =
          .ok (E.enc ((ls 1)[k]'(hl 1 ▸ h) + a * (ls 0)[k]'(hl 0 ▸ h))) := by
  have hsig := vectorOf_sig i len E.size
  have huniq : ((vectorOf i len E.size).sem .ideal).sig.uniq := by rw [hsig]; exact ⟨rfl, trivial⟩
  have hflat : ((vectorOf i len E.size).sem .ideal).sig.flat := by rw [hsig]; trivial
  have hlen := vectorOf_lengths i len E.size
  have hso := vectorOf_sound i len E.size
  obtain ⟨ps, hps⟩ := C78_step_compiles (vectorOf i len E.size) _ hflat huniq hlen i n (axpy E a)
  refine ⟨ps, hps, fun res hres => ?_⟩
  have hB := vectorBags_hold E i len ls hl
  have hself : ∀ k, k < len → (Space.box [i] (fun _ => len) E.size).At (atV i k) (atV i k) := fun k hk =>
    Space.box_self (atV_box hk)
  have hR := C78_step_accumulate (I := fun _ => .box [i] (fun _ => len) E.size) (out := 1) (key := id)
    (val := fun st => a * E.dec (vectorArrays E i ls 0 st))
    (e := fun st => .get 0 st fun x => .done (st, a * E.dec x)) (op := fun w v => E.enc (E.dec w + v))
    (fun w x y => by simp [E.dec_enc, hadd]) (vectorOf i len E.size) i n hn hso.tame ?_ hso.wf ?_ ?_ ?_ ?_
    (fun st hst => hlen.known huniq hst) ps hps _ (vectorOf_forEach i len E.size) (vectorArrays E i ls) ?_ ?_ ?_ _ hB
  · obtain ⟨C, h1, -, h2⟩ := hR.ends hres
    refine ⟨C, h1, fun x k h hx => ?_, fun k h => ?_⟩
    · rw [h2.value x _ (hself k h).2.1]
      simp only [Arrays.accumulated, if_neg hx]
      rw [vectorArrays_at E i ls x k (by rw [hl]; exact h)]
    · rw [h2.value 1 _ (hself k h).2.1]
      simp only [Arrays.accumulated, if_true]
      congr 1
      have : ∀ (l : List Nat) (w : List UInt8), l.Nodup → foldAt (fun w v => E.enc (E.dec w + v)) id
          (fun st => a * E.dec (vectorArrays E i ls 0 st)) (atV i k) w (l.map (atV i)) =
          if k ∈ l then E.enc (E.dec w + a * E.dec (vectorArrays E i ls 0 (atV i k))) else w := by
        intro l
        induction l with
        | nil => intro w _; rfl
        | cons m l ih =>
          intro w hnd
          obtain ⟨hm, hnd⟩ := List.nodup_cons.1 hnd
          have := ih (open Classical in if id (atV i m) = atV i k then E.enc (E.dec w + a * E.dec (vectorArrays E i ls 0 (atV i m))) else w) hnd
          simp only [foldAt, List.map_cons, List.foldl_cons] at this ⊢
          rw [this]
          by_cases hmk : m = k
          · subst hmk; simp [hm]
          · have hne : atV i m ≠ atV i k := fun h => hmk (atV_inj h)
            simp [hne, Ne.symm hmk]
      rw [this _ _ List.nodup_range, if_pos (List.mem_range.2 h), vectorArrays_at E i ls 1 k (by rw [hl]; exact h),
        vectorArrays_at E i ls 0 k (by rw [hl]; exact h), E.dec_enc, E.dec_enc]
  · simp [vectorOf, Struct.apply, Struct.firm]
  · exact ⟨huniq, ⟨rfl, trivial⟩, trivial⟩
  · intro q _ hq
    simp [vectorOf, Struct.apply, Struct.hard, View.hard] at hq
  · exact Sig.flat_noDep hflat i
  · rw [hsig]; simp [Sig.allAccept]
  · intro st hst
    obtain ⟨k, hk, rfl⟩ := List.mem_map.1 hst
    refine ⟨atV i k, _, hself k (List.mem_range.1 hk), .get _ (hself k (List.mem_range.1 hk)) .done, fun y w b hm => ?_⟩
    cases List.mem_singleton.1 hm
    exact ⟨by decide, rfl⟩
  · exact fun st _ w _ => E.enc_length _
  · rintro st - st' - rfl
    rfl

/-- 1000 numbers, and 32 or 4096 threads. -/
example (a : BitVec 32) (xs ys : List (BitVec 32)) (hx : xs.length = 1000) (hy : ys.length = 1000) (n : Nat)
    (hn : n = 32 ∨ n = 4096) :
    ∃ ps, (List.range n).mapM (fun rank =>
        (Traverser.mk (vectorOf 0 1000 4) [cudaStep 0 rank n]).forEachProg .ideal (axpy c70Int a)) = some ps ∧
      ∀ res, ParallelFor .ideal ps (vectorBags c70Int 0 1000 fun x => if x = 0 then xs else ys) res →
        ∃ C, res = .ok C ∧ (C 1).get .ideal (atV 0 999) = .ok (c70Int.enc (ys[999] + a * xs[999])) := by
  obtain ⟨ps, h1, h2⟩ := C78_vectors (fun a b c => by ac_rfl) c70Int 0 a (fun x => if x = 0 then xs else ys) 1000
    (fun x => by by_cases h : x = 0 <;> simp [h, hx, hy]) n (by omega)
  refine ⟨ps, h1, fun res hres => ?_⟩
  obtain ⟨C, h3, -, h4⟩ := h2 res hres
  exact ⟨C, h3, h4 999 (by decide)⟩

/-! ### Merged dimensions -/

/-- A matrix of 3 rows with 5 elements, the dimensions being merged: `traverser(matrix).order(merge_blocks<'i', 'j', 't'>())`. -/
def c78Merged : Traverser :=
  ⟨.apply (.vector 1 (.vector 0 (.scalar 4 4))) [.setLength 0 (.dyn 5), .setLength 1 (.dyn 3)], [.mergeBlocks 1 0 2]⟩

theorem c78Merged_sig : (c78Merged.top.sem .ideal).sig = .fn 2 .dynamic (.scalar 4) := rfl

/-- The 15 elements shared by 4 threads. -/
example (body : State → Prog Unit) (ps : List (Prog Unit))
    (h : (List.range 4).mapM (fun rank => (c78Merged.order [cudaStep 2 rank 4]).forEachProg .ideal body) = some ps)
    (sts : List State) (hs : c78Merged.forEach .ideal [] = some sts) (V : Arrays) (us : State → List Use)
    (Vs : State → Arrays) (hu : ∀ st ∈ sts, (body st).Uses I V (us st) () (Vs st))
    (ha : sts.Pairwise fun a b => NoConflict (us a) (us b)) (B : Bags) (hB : BagsHold I B V) :
    ∃ p B' R, c78Merged.forEachProg .ideal body = some p ∧ p.run .ideal B = .ok ((), B') ∧ BagsHold I B' R ∧
      RunsTo I ps B R := by
  refine C78_step_loop c78Merged 2 4 (by decide) ?_ ?_ ?_ ?_ ?_ ?_ ?_ ?_ body ps h sts hs V us Vs hu ha B hB
  · simp [c78Merged, Traverser.top, Struct.apply, Struct.tame, View.tame, Struct.plain, Struct.hard, Struct.soft,
      Struct.stale, View.hard, View.soft, View.stale]
  · simp [c78Merged, Traverser.top, Struct.apply, Struct.firm]
  · exact ⟨by decide, by decide, by decide, by decide, by decide, trivial⟩
  · exact ⟨⟨rfl, trivial⟩, ⟨rfl, rfl, trivial⟩, ⟨rfl, rfl, trivial⟩, ⟨rfl, rfl, trivial⟩, ⟨rfl, trivial⟩, trivial⟩
  · intro q _ h
    simp [c78Merged, Traverser.top, Struct.apply, Struct.hard, View.hard] at h
  · rw [c78Merged_sig]; exact id
  · rw [c78Merged_sig]; rfl
  · intro st hst q hq _
    rw [c78Merged_sig] at hq
    rcases hq with rfl | hq
    · simp [c78Merged, Traverser.top, Struct.apply, Struct.sem, View.sem, ViewSem.toSem, mergeBlocksSem,
        setLengthSem, vectorSem, guardLen, State.has, State.set, State.remove, State.removeAll, mergeBlocksSub, blocksClean, hst]
    · exact absurd hq id

example : ∃ ps, (List.range 4).mapM (fun rank => (c78Merged.order [cudaStep 2 rank 4]).forEach .ideal []) = some ps ∧
    ps.map List.length = [4, 4, 4, 3] := ⟨_, rfl, rfl⟩

end Noarr
