import Verif.Props.Program
import Verif.Props.Union

/-
C73: loops over traversers that update the elements of a bag.
-/

namespace Noarr

/-- The body of a loop that updates an element of the bag `out`: in the state `st` it computes (by the program `e`,
which may read from any bags) a state and a value, and does `out[state] = op(out[state], value)`. -/
def accumulate {β : Type} (out : Nat) (e : State → Prog (State × β)) (op : List UInt8 → β → List UInt8) (st : State) :
    Prog Unit :=
  (e st).bind fun uv => .get out uv.1 fun w => .set out uv.1 (op w uv.2) (.done ())

/-- The body of a loop that assigns: `out[state] = value`. -/
def assign (out : Nat) (e : State → Prog (State × List UInt8)) (st : State) : Prog Unit :=
  (e st).bind fun uv => .set out uv.1 uv.2 (.done ())

open Classical in
/-- What should become of an element: the values of those iterations that are for it, one after another. -/
noncomputable def foldAt {β : Type} (op : List UInt8 → β → List UInt8) (key : State → State) (val : State → β) (u : State)
    (w : List UInt8) (sts : List State) : List UInt8 :=
  sts.foldl (fun w st => if key st = u then op w (val st) else w) w

open Classical in
/-- The arrays after a loop: only the array `out` changes. -/
noncomputable def Arrays.accumulated {β : Type} (V : Arrays) (out : Nat) (op : List UInt8 → β → List UInt8)
    (key : State → State) (val : State → β) (sts : List State) : Arrays :=
  fun y u => if y = out then foldAt op key val u (V y u) sts else V y u

/-- In the state `st`, the program `e` computes the value `val st` for the element `key st` of the array `out`. It reads
nothing of the array `out`, and writes nothing. -/
def Computes {β : Type} (I : Nat → Space) (V : Arrays) (out : Nat) (e : State → Prog (State × β)) (key : State → State)
    (val : State → β) (st : State) : Prop :=
  ∀ V' : Arrays, (∀ y, y ≠ out → V' y = V y) →
    ∃ u, (I out).At u (key st) ∧ (e st).Yields I V' (u, val st) V'

section
variable {β : Type} {I : Nat → Space} {out : Nat} {e : State → Prog (State × β)} {op : List UInt8 → β → List UInt8}
  {key : State → State} {val : State → β}

theorem accumulate_yields {V : Arrays} {sts : List State} (he : ∀ st ∈ sts, Computes I V out e key val st)
    (hop : ∀ st ∈ sts, ∀ w, w.length = (I out).size (key st) → (op w (val st)).length = (I out).size (key st))
    (hV : ∀ u, (I out).has u → (V out u).length = (I out).size u) :
    (Prog.each (accumulate out e op) sts).Yields I V () (V.accumulated out op key val sts) := by
  induction sts generalizing V with
  | nil =>
    have : V.accumulated out op key val [] = V := by
      funext y u; simp [Arrays.accumulated, foldAt]
    rw [this]; exact .done
  | cons st sts ih =>
    obtain ⟨u, hu, hy⟩ := he st (List.mem_cons_self ..) V fun _ _ => rfl
    have hlen := hop st (List.mem_cons_self ..) _ (hV _ hu.2.1)
    have hput : ∀ y, y ≠ out → (V.put out (key st) (op (V out (key st)) (val st))) y = V y := by
      intro y hy; funext w; simp [Arrays.put, hy]
    have h1 : (accumulate out e op st).Yields I V () (V.put out (key st) (op (V out (key st)) (val st))) :=
      hy.bind (.get (key st) hu (.set (key st) hu hlen .done))
    have h2 := ih (V := V.put out (key st) (op (V out (key st)) (val st)))
      (fun s hs V' hV' => he s (List.mem_cons_of_mem _ hs) V' fun y hy => (hV' y hy).trans (hput y hy))
      (fun s hs => hop s (List.mem_cons_of_mem _ hs)) (fun w hw => by
        simp only [Arrays.put]
        split
        · next h => rw [h.2]; exact hlen
        · exact hV w hw)
    have h3 : (V.put out (key st) (op (V out (key st)) (val st))).accumulated out op key val sts =
        V.accumulated out op key val (st :: sts) := by
      funext y w
      simp only [Arrays.accumulated]
      split
      · next h =>
        subst h
        simp only [foldAt, List.foldl_cons, Arrays.put]
        by_cases hw : w = key st
        · subst hw; simp
        · rw [if_neg fun h => hw h.2, if_neg (Ne.symm hw)]
      · next h => rw [hput y h]
    rw [← h3]
    exact h1.bind h2

/-- C73: a loop over any traversal that updates one element of a bag per iteration. Every element ends up as the fold of
the values that are meant for it, in the order of the traversal. All the other elements, and all the other bags, keep
their values. -/
theorem C73_accumulate (t : Traverser) (sts : List State) (ht : t.forEach .ideal [] = some sts) (V : Arrays)
    (he : ∀ st ∈ sts, Computes I V out e key val st)
    (hop : ∀ st ∈ sts, ∀ w, w.length = (I out).size (key st) → (op w (val st)).length = (I out).size (key st))
    (B : Bags) (hB : BagsHold I B V) :
    ∃ p B', t.forEachProg .ideal (accumulate out e op) = some p ∧ p.run .ideal B = .ok ((), B') ∧
      (∀ x, (B' x).structure_ = (B x).structure_) ∧ BagsHold I B' (V.accumulated out op key val sts) := by
  obtain ⟨B', h1, h2, h3⟩ := (accumulate_yields he hop fun u hu => hB.length_eq hu).run hB
  exact ⟨_, B', by rw [Traverser.forEachProg, ht]; rfl, h1, h2, h3⟩

theorem foldAt_perm (hop : ∀ w a b, op (op w a) b = op (op w b) a) {sts sts' : List State} (h : sts.Perm sts') (u : State)
    (w : List UInt8) : foldAt op key val u w sts = foldAt op key val u w sts' := by
  unfold foldAt
  refine h.foldl_eq' (fun x _ y _ z => ?_) w
  split <;> split <;> first | rfl | exact hop _ _ _

/-- C73: if the operation may be applied in any order, then neither the order of the traversal nor the layouts matter:
two traversers that visit the same states, and bags with any two layouts, end up with the same values. -/
theorem C73_order_and_layouts_do_not_matter (t t' : Traverser) (sts sts' : List State)
    (ht : t.forEach .ideal [] = some sts) (ht' : t'.forEach .ideal [] = some sts') (hsts : sts.Perm sts') (V : Arrays)
    (he : ∀ st ∈ sts, Computes I V out e key val st)
    (hsize : ∀ st ∈ sts, ∀ w, w.length = (I out).size (key st) → (op w (val st)).length = (I out).size (key st))
    (hop : ∀ w a b, op (op w a) b = op (op w b) a) (B C : Bags) (hB : BagsHold I B V) (hC : BagsHold I C V) :
    ∃ p p' B' C' V', t.forEachProg .ideal (accumulate out e op) = some p ∧
      t'.forEachProg .ideal (accumulate out e op) = some p' ∧ p.run .ideal B = .ok ((), B') ∧
      p'.run .ideal C = .ok ((), C') ∧ BagsHold I B' V' ∧ BagsHold I C' V' := by
  obtain ⟨p, B', h1, h2, -, h3⟩ := C73_accumulate t sts ht V he hsize B hB
  obtain ⟨p', C', g1, g2, -, g3⟩ := C73_accumulate t' sts' ht' V (fun st h => he st (hsts.mem_iff.2 h))
    (fun st h => hsize st (hsts.mem_iff.2 h)) C hC
  refine ⟨p, p', B', C', _, h1, g1, h2, g2, h3, ?_⟩
  have : V.accumulated out op key val sts = V.accumulated out op key val sts' := by
    funext y u
    simp only [Arrays.accumulated]
    split
    · exact foldAt_perm hop hsts u _
    · rfl
  rw [this]; exact g3

end

theorem assign_yields (out : Nat) {I : Nat → Space} {p : Prog (State × List UInt8)}
    {V V' : Arrays} {u k : State} {v : List UInt8} (h : p.Yields I V (u, v) V') (hk : (I out).At u k)
    (hv : v.length = (I out).size k) :
    (p.bind fun uv => Prog.set out uv.1 uv.2 (.done ())).Yields I V () (V'.put out k v) :=
  h.bind (.set k hk hv .done)

/-- C73: a loop that assigns to a different element in every iteration. Each of these elements ends up with its value;
all the other elements, and all the other bags, keep theirs. -/
theorem C73_assign {I : Nat → Space} {out : Nat} {e : State → Prog (State × List UInt8)} {key : State → State}
    {val : State → List UInt8} (t : Traverser) (sts : List State) (ht : t.forEach .ideal [] = some sts) (V : Arrays)
    (he : ∀ st ∈ sts, Computes I V out e key val st) (hv : ∀ st ∈ sts, (val st).length = (I out).size (key st))
    (hd : sts.Pairwise fun st st' => key st ≠ key st') (B : Bags) (hB : BagsHold I B V) :
    ∃ p B' V', t.forEachProg .ideal (assign out e) = some p ∧ p.run .ideal B = .ok ((), B') ∧
      (∀ x, (B' x).structure_ = (B x).structure_) ∧ BagsHold I B' V' ∧ (∀ st ∈ sts, V' out (key st) = val st) ∧
      ∀ y u, (y ≠ out ∨ ∀ st ∈ sts, key st ≠ u) → V' y u = V y u := by
  have key : ∃ V', (Prog.each (assign out e) sts).Yields I V () V' ∧ (∀ st ∈ sts, V' out (key st) = val st) ∧
      ∀ y u, (y ≠ out ∨ ∀ st ∈ sts, key st ≠ u) → V' y u = V y u := by
    clear hB ht
    induction sts generalizing V with
    | nil => exact ⟨V, .done, fun _ h => (nomatch h), fun _ _ _ => rfl⟩
    | cons st sts ih =>
      obtain ⟨u, hu, hy⟩ := he st (List.mem_cons_self ..) V fun _ _ => rfl
      have hput : ∀ y, y ≠ out → (V.put out (key st) (val st)) y = V y := by
        intro y hy; funext w; simp [Arrays.put, hy]
      have h1 := assign_yields out hy hu (hv st (List.mem_cons_self ..))
      rw [List.pairwise_cons] at hd
      obtain ⟨V', g1, g2, g3⟩ := ih (V := V.put out (key st) (val st))
        (fun s hs V' hV' => he s (List.mem_cons_of_mem _ hs) V' fun y hy => (hV' y hy).trans (hput y hy))
        (fun s hs => hv s (List.mem_cons_of_mem _ hs)) hd.2
      refine ⟨V', h1.bind g1, fun s hs => ?_, fun y w hyw => ?_⟩
      · rcases List.mem_cons.1 hs with rfl | hs
        · rw [g3 out (key s) (.inr fun s' hs' => (hd.1 s' hs').symm)]
          simp [Arrays.put]
        · exact g2 s hs
      · rw [g3 y w (hyw.imp id fun h s hs => h s (List.mem_cons_of_mem _ hs))]
        simp only [Arrays.put]
        rw [if_neg]
        rintro ⟨rfl, rfl⟩
        rcases hyw with h | h
        · exact h rfl
        · exact h st (List.mem_cons_self ..) rfl
  obtain ⟨V', h, hV⟩ := key
  obtain ⟨B', h1, h2, h3⟩ := h.run hB
  exact ⟨_, B', V', by rw [Traverser.forEachProg, ht]; rfl, h1, h2, h3, hV⟩

/-- C73: copying an array element by element, `traverser(s) | [&](auto state) { out[state] = in[state]; }`. Afterwards the
bag `out` (1) has the values of the bag `in` (0), whatever the two layouts and the order of the traversal are. -/
theorem C73_copy (I : Space) (t : Traverser) (sts : List State) (ht : t.forEach .ideal [] = some sts) (hd : sts.Nodup)
    (hat : ∀ st ∈ sts, I.At st st) (hall : ∀ u, I.has u → u ∈ sts) (V : Arrays) (B : Bags)
    (hB : BagsHold (fun _ => I) B V) :
    ∃ p B', t.forEachProg .ideal (assign 1 fun st => .get 0 st fun v => .done (st, v)) = some p ∧
      p.run .ideal B = .ok ((), B') ∧ (∀ x, (B' x).structure_ = (B x).structure_) ∧
      (∀ u, I.has u → (B' 1).get .ideal u = (B 0).get .ideal u) ∧
      ∀ y u, y ≠ 1 → I.has u → (B' y).get .ideal u = (B y).get .ideal u := by
  obtain ⟨p, B', V', h1, h2, h3, h4, h5, h6⟩ := C73_assign (I := fun _ => I) (out := 1)
    (e := fun st => .get 0 st fun v => .done (st, v)) (key := id) (val := fun st => V 0 st) t sts ht V
    (fun st hst V' hV' => ⟨st, hat st hst, .get st (hat st hst) (by rw [hV' 0 (by decide)]; exact .done)⟩)
    (fun st hst => hB.length_eq (x := 0) (hat st hst).2.1) hd B hB
  refine ⟨p, B', h1, h2, h3, fun u hu => ?_, fun y u hy hu => ?_⟩
  · rw [h4.value 1 u hu, hB.value 0 u hu]
    exact congrArg _ (h5 u (hall u hu))
  · rw [h4.value y u hu, hB.value y u hu, h6 y u (.inl hy)]

/-! ### The product of matrices -/

/-- The index space of an array with the given dimensions and lengths. -/
def Space.box (ds : List Dim) (N : Dim → Nat) (e : Nat) : Space where
  own q := decide (q ∈ ds)
  has := OnBox (· ∈ ds) N
  size _ := e
  length _ _ _ := False

theorem Space.box_at {ds ds' : List Dim} {N : Dim → Nat} {e : Nat} {u : State} (h : OnBox (· ∈ ds') N u)
    (hds : ∀ q ∈ ds, q ∈ ds') : (Space.box ds N e).At u (u.only fun q => decide (q ∈ ds)) := by
  refine ⟨rfl, ⟨fun q hq => ?_, fun q hq => ?_, fun _ => rfl⟩, h.noLen⟩
  · obtain ⟨k, h1, h2⟩ := h.ok q (hds q hq)
    exact ⟨k, h1, by simp [State.only, hq, h2]⟩
  · simp [State.only, hq]

/-- the state with three indices -/
def at3 (i j k : Dim) (x y z : Nat) : State := State.empty.withAll [(i, .dyn x), (j, .dyn y), (k, .dyn z)]

section
variable {i j k : Dim}

theorem at3_onBox (hij : i ≠ j) (hik : i ≠ k) (hjk : j ≠ k) {N : Dim → Nat} {u : State} :
    OnBox (· ∈ [i, j, k]) N u ↔ ∃ x y z, x < N i ∧ y < N j ∧ z < N k ∧ u = at3 i j k x y z := by
  constructor
  · intro h
    obtain ⟨x, hx, hx'⟩ := h.ok i (by simp)
    obtain ⟨y, hy, hy'⟩ := h.ok j (by simp)
    obtain ⟨z, hz, hz'⟩ := h.ok k (by simp)
    refine ⟨x, y, z, hx, hy, hz, ?_⟩
    funext t
    cases t with
    | len q => rw [h.noLen]; simp [at3, State.withAll, State.set, State.empty]
    | idx q =>
      by_cases h3 : q = k
      · subst h3; simp [hz', at3, State.withAll, State.set]
      by_cases h2 : q = j
      · subst h2; simp [hy', at3, State.withAll, State.set, h3]
      by_cases h1 : q = i
      · subst h1; simp [hx', at3, State.withAll, State.set, h3, h2]
      rw [h.only q (by simp [h1, h2, h3])]
      simp [at3, State.withAll, State.set, State.empty, h1, h2, h3]
  · rintro ⟨x, y, z, hx, hy, hz, rfl⟩
    refine ⟨fun q hq => ?_, fun q hq => ?_, fun q => by simp [at3, State.withAll, State.set, State.empty]⟩
    · simp only [List.mem_cons, List.not_mem_nil, or_false] at hq
      rcases hq with rfl | rfl | rfl
      · exact ⟨x, hx, by simp [at3, State.withAll, State.set, hij, hik]⟩
      · exact ⟨y, hy, by simp [at3, State.withAll, State.set, hjk]⟩
      · exact ⟨z, hz, by simp [at3, State.withAll, State.set]⟩
    · simp only [List.mem_cons, List.not_mem_nil, or_false, not_or] at hq
      simp [at3, State.withAll, State.set, State.empty, hq]

theorem at3_only (hij : i ≠ j) (hik : i ≠ k) (hjk : j ≠ k) (x y z : Nat) :
    ((at3 i j k x y z).only fun q => decide (q ∈ [i, k])) = atNM i k x z ∧
    ((at3 i j k x y z).only fun q => decide (q ∈ [k, j])) = atNM k j z y ∧
    ((at3 i j k x y z).only fun q => decide (q ∈ [i, j])) = atNM i j x y := by
  refine ⟨?_, ?_, ?_⟩ <;> funext t <;> cases t <;>
    simp [at3, atNM, State.only, State.withAll, State.set, State.empty] <;> grind

theorem at3_inj (hij : i ≠ j) (hik : i ≠ k) (hjk : j ≠ k) {x y z x' y' z' : Nat}
    (h : at3 i j k x y z = at3 i j k x' y' z') : x = x' ∧ y = y' ∧ z = z' := by
  have h1 := congrFun h (.idx i)
  have h2 := congrFun h (.idx j)
  have h3 := congrFun h (.idx k)
  simp [at3, State.withAll, State.set, hij, hik, hjk] at h1 h2 h3
  exact ⟨h1, h2, h3⟩

theorem atNM_inj (hij : i ≠ j) {x y x' y' : Nat} (h : atNM i j x y = atNM i j x' y') : x = x' ∧ y = y' := by
  have h1 := congrFun h (.idx i)
  have h2 := congrFun h (.idx j)
  simp [atNM, State.withAll, State.set, hij] at h1 h2
  exact ⟨h1, h2⟩

end

theorem dec_foldAt {R : Type} [Add R] (E : ElemType R) (key : State → State) (val : State → R) (u : State) (w : List UInt8)
    (sts : List State) : E.dec (foldAt (fun w v => E.enc (E.dec w + v)) key val u w sts) =
      open Classical in (sts.filter fun st => key st = u).foldl (fun r st => r + val st) (E.dec w) := by
  unfold foldAt
  induction sts generalizing w with
  | nil => rfl
  | cons st sts ih =>
    rw [List.foldl_cons, ih]
    by_cases h : key st = u
    · simp [h, E.dec_enc]
    · simp [h]

/-- `[&](auto state) { c[state] += a[state] * b[state]; }`, where `a`, `b` and `c` are the bags 0, 1 and 2. -/
def addProduct {R : Type} [Add R] [Mul R] (E : ElemType R) : State → Prog Unit :=
  accumulate 2 (fun st => .get 0 st fun a => .get 1 st fun b => .done (st, E.dec a * E.dec b))
    fun w v => E.enc (E.dec w + v)

theorem product_value {R : Type} [Add R] [Mul R] (hadd : ∀ a b c : R, a + b + c = a + c + b) (E : ElemType R)
    {i j k : Dim} (hij : i ≠ j) (hik : i ≠ k) (hjk : j ≠ k) (N : Dim → Nat) (sts : List State) (hnd : sts.Nodup)
    (hsts : ∀ u, u ∈ sts ↔ OnBox (· ∈ [i, j, k]) N u) (V : Arrays) (x y : Nat) (hx : x < N i) (hy : y < N j) :
    E.dec (V.accumulated 2 (fun w v => E.enc (E.dec w + v)) (fun st => st.only fun q => decide (q ∈ [i, j]))
      (fun st => E.dec (V 0 (st.only fun q => decide (q ∈ [i, k]))) * E.dec (V 1 (st.only fun q => decide (q ∈ [k, j]))))
      sts 2 (atNM i j x y)) = (List.range (N k)).foldl
        (fun r z => r + E.dec (V 0 (atNM i k x z)) * E.dec (V 1 (atNM k j z y))) (E.dec (V 2 (atNM i j x y))) := by
  simp only [Arrays.accumulated, if_true]
  rw [dec_foldAt]
  classical
  have hperm : (sts.filter fun st => decide ((st.only fun q => decide (q ∈ [i, j])) = atNM i j x y)).Perm
      ((List.range (N k)).map fun z => at3 i j k x y z) := by
    refine (List.perm_ext_iff_of_nodup (hnd.filter _) ?_).2 fun u => ?_
    · exact List.pairwise_map.2 (List.nodup_range.imp fun h e => h (at3_inj hij hik hjk e).2.2)
    · simp only [List.mem_filter, decide_eq_true_eq, List.mem_map, List.mem_range, hsts, at3_onBox hij hik hjk]
      constructor
      · rintro ⟨⟨x', y', z, -, -, hz, rfl⟩, he⟩
        rw [(at3_only hij hik hjk x' y' z).2.2] at he
        obtain ⟨rfl, rfl⟩ := atNM_inj hij he
        exact ⟨z, hz, rfl⟩
      · rintro ⟨z, hz, rfl⟩
        exact ⟨⟨x, y, z, hx, hy, hz, rfl⟩, (at3_only hij hik hjk x y z).2.2⟩
  rw [hperm.foldl_eq' (fun a _ b _ c => hadd ..), List.foldl_map]
  simp only [(at3_only hij hik hjk x y _).1, (at3_only hij hik hjk x y _).2.1]

/-- C73: the product of two matrices with a single loop over a traverser,
`traverser(a, b, c) | [&](auto state) { c[state] += a[state] * b[state]; }`. In whatever order the traverser visits the
combinations of `i`, `j` and `k`, and whatever the three layouts are, the product is added to `c`. -/
theorem C73_matrix_product {R : Type} [Add R] [Mul R] (hadd : ∀ a b c : R, a + b + c = a + c + b) (E : ElemType R)
    {i j k : Dim} (hij : i ≠ j) (hik : i ≠ k) (hjk : j ≠ k) (N : Dim → Nat) (I : Nat → Space)
    (h0 : I 0 = .box [i, k] N E.size) (h1 : I 1 = .box [k, j] N E.size) (h2 : I 2 = .box [i, j] N E.size)
    (t : Traverser) (sts : List State) (ht : t.forEach .ideal [] = some sts) (hnd : sts.Nodup)
    (hsts : ∀ u, u ∈ sts ↔ OnBox (· ∈ [i, j, k]) N u) (V : Arrays) (B : Bags) (hB : BagsHold I B V) :
    ∃ p B' V', t.forEachProg .ideal (addProduct E) = some p ∧ p.run .ideal B = .ok ((), B') ∧ BagsHold I B' V' ∧
      (∀ y u, y ≠ 2 → V' y u = V y u) ∧
      ∀ x y, x < N i → y < N j → E.dec (V' 2 (atNM i j x y)) = (List.range (N k)).foldl
        (fun r z => r + E.dec (V 0 (atNM i k x z)) * E.dec (V 1 (atNM k j z y))) (E.dec (V 2 (atNM i j x y))) := by
  let key : State → State := fun st => st.only fun q => decide (q ∈ [i, j])
  let val : State → R := fun st => E.dec (V 0 (st.only fun q => decide (q ∈ [i, k]))) *
    E.dec (V 1 (st.only fun q => decide (q ∈ [k, j])))
  obtain ⟨p, B', g1, g2, -, g4⟩ := C73_accumulate (I := I) (out := 2) (key := key) (val := val)
    (e := fun st => .get 0 st fun a => .get 1 st fun b => .done (st, E.dec a * E.dec b))
    (op := fun w v => E.enc (E.dec w + v)) t sts ht V (fun st hst V' hV' => by
      have hbox := (hsts st).1 hst
      have a0 : (I 0).At st (st.only fun q => decide (q ∈ [i, k])) := by
        rw [h0]; exact Space.box_at hbox (by simp)
      have a1 : (I 1).At st (st.only fun q => decide (q ∈ [k, j])) := by
        rw [h1]; exact Space.box_at hbox (by simp)
      have a2 : (I 2).At st (key st) := by
        rw [h2]; exact Space.box_at hbox (by simp)
      refine ⟨st, a2, .get _ a0 (.get _ a1 ?_)⟩
      rw [hV' 0 (by decide), hV' 1 (by decide)]
      exact .done)
    (fun st _ w _ => by rw [E.enc_length, h2]; rfl) B hB
  exact ⟨p, B', _, g1, g2, g4, fun y u hy => by simp [Arrays.accumulated, hy],
    product_value hadd E hij hik hjk N sts hnd hsts V⟩

theorem union_dims {i j k : Dim} {s : Fin 3 → Struct}
    (d0 : ∀ q, ((s 0).sem .ideal).sig.anyAccept q = true ↔ q ∈ [i, k])
    (d1 : ∀ q, ((s 1).sem .ideal).sig.anyAccept q = true ↔ q ∈ [k, j])
    (d2 : ∀ q, ((s 2).sem .ideal).sig.anyAccept q = true ↔ q ∈ [i, j]) :
    (fun q => ∃ n, ((s n).sem .ideal).sig.anyAccept q = true) = (· ∈ [i, j, k]) := by
  funext q
  simp only [eq_iff_iff]
  constructor
  · rintro ⟨n, hn⟩
    match n with
    | 0 => have := (d0 q).1 hn; simp at this; grind
    | 1 => have := (d1 q).1 hn; simp at this; grind
    | 2 => have := (d2 q).1 hn; simp at this; grind
  · intro hq
    simp only [List.mem_cons, List.not_mem_nil, or_false] at hq
    rcases hq with rfl | rfl | rfl
    · exact ⟨0, (d0 _).2 (by simp)⟩
    · exact ⟨1, (d1 _).2 (by simp)⟩
    · exact ⟨0, (d0 _).2 (by simp)⟩

/-- C73: the same for a traverser of three structures (those of the bags, or others with the same dimensions and lengths),
whatever the order of their dimensions is: it compiles, and visits the combinations of `i`, `j` and `k`. -/
theorem C73_matrix_product_by_traverser {R : Type} [Add R] [Mul R] (hadd : ∀ a b c : R, a + b + c = a + c + b)
    (E : ElemType R) {i j k : Dim} (hij : i ≠ j) (hik : i ≠ k) (hjk : j ≠ k) (N : Dim → Nat) (I : Nat → Space)
    (h0 : I 0 = .box [i, k] N E.size) (h1 : I 1 = .box [k, j] N E.size) (h2 : I 2 = .box [i, j] N E.size)
    (V : Arrays) (B : Bags) (hB : BagsHold I B V) (s : Fin 3 → Struct)
    (hu : ∀ n, ((s n).sem .ideal).sig.uniq) (hf : ∀ n, ((s n).sem .ideal).sig.flat)
    (d0 : ∀ q, ((s 0).sem .ideal).sig.anyAccept q = true ↔ q ∈ [i, k])
    (d1 : ∀ q, ((s 1).sem .ideal).sig.anyAccept q = true ↔ q ∈ [k, j])
    (d2 : ∀ q, ((s 2).sem .ideal).sig.anyAccept q = true ↔ q ∈ [i, j])
    (hN : ∀ n q, ((s n).sem .ideal).sig.anyAccept q = true → ∀ st : State, (∀ e, st (.len e) = none) →
      st (.idx q) = none → ∃ l, ((s n).sem .ideal).len q st = some l ∧ l.Num (N q)) :
    ∃ p B' V', (Traverser.mk (.union 3 s) []).forEachProg .ideal (addProduct E) = some p ∧
      p.run .ideal B = .ok ((), B') ∧ BagsHold I B' V' ∧ (∀ y u, y ≠ 2 → V' y u = V y u) ∧
      ∀ x y, x < N i → y < N j → E.dec (V' 2 (atNM i j x y)) = (List.range (N k)).foldl
        (fun r z => r + E.dec (V 0 (atNM i k x z)) * E.dec (V 1 (atNM k j z y))) (E.dec (V 2 (atNM i j x y))) := by
  obtain ⟨sts, g1, g2, g3⟩ := C31_visits_the_union_box_partial .ideal s N hu hf (fun q n hq _ => hN n q hq)
  rw [union_dims d0 d1 d2] at g3
  exact C73_matrix_product hadd E hij hik hjk N I h0 h1 h2 _ sts g1 g2 g3 V B hB

/-! ### Examples -/

theorem Space.box_of_matrix {n m : Dim} (hnm : n ≠ m) {N : Dim → Nat} {e : Nat} {s : Struct}
    (h : (Space.matrix n m (N n) (N m) e).LaidOut s) : (Space.box [n, m] N e).LaidOut s := by
  have has : ∀ u, (Space.box [n, m] N e).has u → (Space.matrix n m (N n) (N m) e).has u := by
    intro u hu
    obtain ⟨x, hx, hx'⟩ := hu.ok n (by simp)
    obtain ⟨y, hy, hy'⟩ := hu.ok m (by simp)
    refine ⟨x, y, hx, hy, ?_⟩
    funext t
    cases t with
    | len q => rw [hu.noLen]; simp [atNM, State.withAll, State.set, State.empty]
    | idx q =>
      by_cases h2 : q = m
      · subst h2; simp [hy', atNM, State.withAll, State.set]
      by_cases h1 : q = n
      · subst h1; simp [hx', atNM, State.withAll, State.set, h2]
      rw [hu.only q (by simp [h1, h2]), atNM_other x y h1 h2]
  exact ⟨h.sound, h.tidy, fun q hq => by simpa [Space.box, Space.matrix] using h.names q hq, h.total,
    fun u hu => h.accessible u (has u hu), fun u u' hu hu' => h.differ u u' (has u hu) (has u' hu'),
    fun u hu => h.elem u (has u hu), fun _ _ _ h => h.elim⟩

/-- `a` by rows, `b` by columns, `c` in tiles; lengths 4, 6 and 2. -/
def c73Structs : Fin 3 → Struct
  | 0 => matrixRows 0 2 4 2
  | 1 => matrixColumns 2 1 2 6
  | 2 => matrixTiles 0 1 2 3 2 3 2 2

def c73Len : Dim → Nat
  | 0 => 4
  | 1 => 6
  | _ => 2

def c73Spaces : Nat → Space
  | 0 => .box [0, 2] c73Len 4
  | 1 => .box [2, 1] c73Len 4
  | _ => .box [0, 1] c73Len 4

theorem c73LaidOut : (c73Spaces 0).LaidOut (c73Structs 0) ∧ (c73Spaces 1).LaidOut (c73Structs 1) ∧
    (c73Spaces 2).LaidOut (c73Structs 2) := by
  refine ⟨?_, ?_, ?_⟩
  · refine Space.box_of_matrix (by decide) (C72_matrix_layouts (by decide) (C70_rows 0 2 (by decide) 4 2) ?_ fun q hq => ?_)
    · simp [c73Structs, matrixRows, Struct.apply, Struct.tidy]
    · simp only [c73Structs, matrixRows, Struct.apply, Struct.names, View.names, or_false] at hq; exact hq.symm
  · refine Space.box_of_matrix (by decide)
      (C72_matrix_layouts (by decide) (C70_columns 2 1 (by decide) 2 6) ?_ fun q hq => ?_)
    · simp [c73Structs, matrixColumns, Struct.apply, Struct.tidy]
    · simp only [c73Structs, matrixColumns, Struct.apply, Struct.names, View.names, or_false] at hq; exact hq
  · exact Space.box_of_matrix (by decide) (c72Tiles 2 3 2 2)

/-- The loop adds the product of `a` and `b` to `c`, for 32-bit integers in these layouts and any contents. -/
example (V : Arrays) (B : Bags) (hB : BagsHold c73Spaces B V) :
    ∃ p B' V', (Traverser.mk (.union 3 c73Structs) []).forEachProg .ideal (addProduct c70Int) = some p ∧
      p.run .ideal B = .ok ((), B') ∧ BagsHold c73Spaces B' V' ∧ (∀ y u, y ≠ 2 → V' y u = V y u) ∧
      ∀ x y, x < 4 → y < 6 → c70Int.dec (V' 2 (atNM 0 1 x y)) = (List.range 2).foldl
        (fun r z => r + c70Int.dec (V 0 (atNM 0 2 x z)) * c70Int.dec (V 1 (atNM 2 1 z y)))
        (c70Int.dec (V 2 (atNM 0 1 x y))) := by
  refine C73_matrix_product_by_traverser (i := 0) (j := 1) (k := 2) (fun a b c => by grind) c70Int (by decide)
    (by decide) (by decide) c73Len c73Spaces rfl rfl rfl V B hB c73Structs ?_ ?_ ?_ ?_ ?_ ?_
  · intro n; match n with
    | 0 => exact ⟨rfl, rfl, trivial⟩
    | 1 => exact ⟨rfl, rfl, trivial⟩
    | 2 => exact ⟨rfl, rfl, trivial⟩
  · intro n; match n with
    | 0 => exact trivial
    | 1 => exact trivial
    | 2 => exact trivial
  · intro q
    have e : ((c73Structs 0).sem .ideal).sig = .fn 2 .dynamic (.fn 0 .dynamic (.scalar 4)) := rfl
    simp [e, Sig.anyAccept]; grind
  · intro q
    have e : ((c73Structs 1).sem .ideal).sig = .fn 2 .dynamic (.fn 1 .dynamic (.scalar 4)) := rfl
    simp [e, Sig.anyAccept]; grind
  · intro q
    have e : ((c73Structs 2).sem .ideal).sig = .fn 1 .dynamic (.fn 0 .dynamic (.scalar 4)) := rfl
    simp [e, Sig.anyAccept]; grind
  · intro n q hq st hl hi
    match n with
    | 0 =>
      have e : ((c73Structs 0).sem .ideal).sig = .fn 2 .dynamic (.fn 0 .dynamic (.scalar 4)) := rfl
      rw [e] at hq
      simp [Sig.anyAccept] at hq
      rcases hq with rfl | rfl <;>
      simp [c73Structs, matrixRows, Struct.apply, Struct.sem, View.sem, ViewSem.toSem, setLengthSem, vectorSem, guardLen,
        State.set, State.has, State.removeAll, hi, Val.Num, Val.nat?, c73Len]
    | 1 =>
      have e : ((c73Structs 1).sem .ideal).sig = .fn 2 .dynamic (.fn 1 .dynamic (.scalar 4)) := rfl
      rw [e] at hq
      simp [Sig.anyAccept] at hq
      rcases hq with rfl | rfl <;>
      simp [c73Structs, matrixColumns, Struct.apply, Struct.sem, View.sem, ViewSem.toSem, setLengthSem, vectorSem, guardLen,
        State.set, State.has, State.removeAll, hi, Val.Num, Val.nat?, c73Len]
    | 2 =>
      have e : ((c73Structs 2).sem .ideal).sig = .fn 1 .dynamic (.fn 0 .dynamic (.scalar 4)) := rfl
      rw [e] at hq
      simp [Sig.anyAccept] at hq
      have key : ∀ st' : State, (∀ q, q = 0 ∨ q = 1 → st' (.idx q) = st (.idx q)) → (∀ e, st' (.len e) = none) →
          ((c73Structs 2).sem .ideal).len q st = ((c73Structs 2).sem .ideal).len q st' := by
        intro st' h1 h2
        have hn : ∀ q, (c73Structs 2).names q ↔ q = 0 ∨ q = 1 := by
          intro q
          simp only [c73Structs, matrixTiles, Struct.apply, Struct.names, View.names, List.mem_cons, List.not_mem_nil,
            or_false]
          grind
        have ht : (c73Structs 2).tidy := by simp [c73Structs, matrixTiles, Struct.apply, Struct.tidy]
        exact ((C71_only_own_dimensions .ideal ht (st := st) (st' := st') fun q hq =>
          ⟨(h1 q ((hn q).1 hq)).symm, by rw [hl, h2]⟩).2.2.2.2.1 q ((hn q).2 (hq.symm.imp Eq.symm Eq.symm))).2
      rcases hq with rfl | rfl
      · cases h0 : st (.idx 0) with
        | none =>
          rw [key .empty (fun q h => by rcases h with rfl | rfl <;> simp [State.empty, h0, hi]) fun _ => rfl]
          exact ⟨_, rfl, rfl⟩
        | some v =>
          rw [key (State.empty.set (.idx 0) v)
            (fun q h => by rcases h with rfl | rfl <;> simp [State.empty, State.set, h0, hi]) fun _ => rfl]
          exact ⟨_, rfl, rfl⟩
      · cases h1 : st (.idx 1) with
        | none =>
          rw [key .empty (fun q h => by rcases h with rfl | rfl <;> simp [State.empty, h1, hi]) fun _ => rfl]
          exact ⟨_, rfl, rfl⟩
        | some v =>
          rw [key (State.empty.set (.idx 1) v)
            (fun q h => by rcases h with rfl | rfl <;> simp [State.empty, State.set, h1, hi]) fun _ => rfl]
          exact ⟨_, rfl, rfl⟩

/-- Copying a matrix of 2 columns and 3 rows from any of its layouts to any other one. -/
example (V : Arrays) (B : Bags) (hB : BagsHold (fun _ => Space.matrix 0 1 2 3 4) B V) :
    ∃ p B', (Traverser.mk (matrixRows 0 1 2 3) []).forEachProg .ideal
        (assign 1 fun st => .get 0 st fun v => .done (st, v)) = some p ∧
      p.run .ideal B = .ok ((), B') ∧ ∀ i j, i < 2 → j < 3 → (B' 1).get .ideal (atNM 0 1 i j) =
        (B 0).get .ideal (atNM 0 1 i j) := by
  let sts : List State := (List.range 3).flatMap fun j => (List.range 2).map fun i =>
    (((State.empty.remove (.len 0)).set (.idx 0) (.dyn i)).remove (.len 1)).set (.idx 1) (.dyn j)
  have hsts : sts = (List.range 3).flatMap fun j => (List.range 2).map fun i => atNM 0 1 i j := by
    simp only [sts]
    congr 1; funext j; congr 1; funext i; funext t
    simp only [atNM, State.withAll, List.foldl, State.set, State.remove, State.empty]
    grind
  have hmem : ∀ u, u ∈ sts ↔ (Space.matrix 0 1 2 3 4).has u := by
    intro u
    rw [hsts]
    simp only [List.mem_flatMap, List.mem_map, List.mem_range, Space.matrix]
    exact ⟨fun ⟨j, hj, i, hi, h⟩ => ⟨i, j, hi, hj, h.symm⟩, fun ⟨i, j, hi, hj, h⟩ => ⟨j, hj, i, hi, h.symm⟩⟩
  have hnd : sts.Nodup := by
    rw [hsts, List.Nodup, List.pairwise_flatMap]
    refine ⟨fun j _ => List.pairwise_map.2 (List.nodup_range.imp fun h e => h (atNM_inj (by decide) e).1),
      List.nodup_range.imp fun h => ?_⟩
    intro u hu u' hu' e
    obtain ⟨i, -, rfl⟩ := List.mem_map.1 hu
    obtain ⟨i', -, rfl⟩ := List.mem_map.1 hu'
    exact h (atNM_inj (by decide) e).2
  have hat : ∀ st ∈ sts, (Space.matrix 0 1 2 3 4).At st st := by
    intro st hst
    obtain ⟨i, j, hi, hj, rfl⟩ := (hmem st).1 hst
    exact Space.matrix_at hi hj
  obtain ⟨p, B', h1, h2, -, h4, -⟩ := C73_copy (Space.matrix 0 1 2 3 4) ⟨matrixRows 0 1 2 3, []⟩ sts (by rfl) hnd
    hat (fun u hu => (hmem u).2 hu) V B hB
  exact ⟨p, B', h1, h2, fun i j hi hj => h4 _ ⟨i, j, hi, hj, rfl⟩⟩

end Noarr
