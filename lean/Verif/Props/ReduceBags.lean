import Verif.ReduceBags
import Verif.ReduceSplit
import Verif.Props.Parallel
import Verif.Props.Matrix

/-
C75: parallel reduction into a bag.
-/

namespace Noarr
variable {I : Nat → Space}

/-- The functions that `tbb_reduce` is meant for (docs/Traverser.md, "Parallel reduction"): `f_neut` assigns the neutral
value; `f_acc` updates one element, which may depend on what is read (as in the example of a histogram); `f_join` is
`left[state] = join(left[state], right[state])`. -/
def bagReducer {β : Type} (e : State → Prog (State × β)) (op : List UInt8 → β → List UInt8) (zero : List UInt8)
    (join : List UInt8 → List UInt8 → List UInt8) : BagReducer where
  neut st c := .set c st zero (.done ())
  acc st c := accumulate c e op st
  join st l r := accumulate l (fun st => .get r st fun b => .done (st, b)) join st

/-- What the functions have to satisfy: on the values in question (`good`), all of one size, the operation may be applied
in any order, and joining with a value which was accumulated separately, from the neutral one, is the same as
accumulating. -/
structure Reduces {β : Type} (S : Space) (good : List UInt8 → Prop) (op : List UInt8 → β → List UInt8)
    (zero : List UInt8) (join : List UInt8 → List UInt8 → List UInt8) : Prop where
  size : ∀ w u, good w → S.has u → w.length = S.size u
  op_size : ∀ w u v, S.has u → w.length = S.size u → (op w v).length = S.size u
  join_size : ∀ w u w', S.has u → w.length = S.size u → (join w w').length = S.size u
  good_zero : good zero
  good_op : ∀ w v, good w → good (op w v)
  good_join : ∀ w w', good w → good w' → good (join w w')
  comm : ∀ w a b, good w → op (op w a) b = op (op w b) a
  join_zero : ∀ w, good w → join w zero = w
  join_op : ∀ w w' v, good w → good w' → join w (op w' v) = op (join w w') v

section
variable {β : Type} {S : Space} {good : List UInt8 → Prop} {op : List UInt8 → β → List UInt8} {zero : List UInt8}
  {join : List UInt8 → List UInt8 → List UInt8} {key : State → State} {val : State → β}

theorem Reduces.fold_good (h : Reduces S good op zero join) (u : State) (xs : List State) {w : List UInt8} (hw : good w) :
    good (foldAt op key val u w xs) := by
  induction xs generalizing w with
  | nil => exact hw
  | cons x xs ih =>
    simp only [foldAt, List.foldl_cons]
    refine ih ?_
    split
    · exact h.good_op _ _ hw
    · exact hw

theorem Reduces.fold_perm (h : Reduces S good op zero join) (u : State) {xs ys : List State} (hp : xs.Perm ys)
    {w : List UInt8} (hw : good w) : foldAt op key val u w xs = foldAt op key val u w ys := by
  induction hp generalizing w with
  | nil => rfl
  | cons x _ ih =>
    simp only [foldAt, List.foldl_cons]
    refine ih ?_
    split
    · exact h.good_op _ _ hw
    · exact hw
  | swap x y l =>
    simp only [foldAt, List.foldl_cons]
    congr 1
    split <;> split <;> first | rfl | exact h.comm _ _ _ hw
  | trans _ _ ih1 ih2 => rw [ih1 hw, ih2 hw]

theorem Reduces.join_fold (h : Reduces S good op zero join) (u : State) (xs : List State) {w w' : List UInt8}
    (hw : good w) (hw' : good w') : join w (foldAt op key val u w' xs) = foldAt op key val u (join w w') xs := by
  induction xs generalizing w' with
  | nil => rfl
  | cons x xs ih =>
    simp only [foldAt, List.foldl_cons] at ih ⊢
    split
    · rw [ih (h.good_op _ _ hw'), h.join_op _ _ _ hw hw']
    · exact ih hw'

theorem Reduces.join_all (h : Reduces S good op zero join) (u : State) (xss : List (List State)) (f : Nat → List UInt8)
    (hf : ∀ i xs, xss[i]? = some xs → f i = foldAt op key val u zero xs) {w : List UInt8} (hw : good w) :
    (List.range xss.length).foldl (fun w i => join w (f i)) w = foldAt op key val u w xss.flatten := by
  induction xss generalizing f w with
  | nil => rfl
  | cons xs xss ih =>
    rw [List.length_cons, List.range_succ_eq_map, List.foldl_cons, List.foldl_map, hf 0 xs rfl,
      h.join_fold u xs hw h.good_zero, h.join_zero w hw,
      ih (fun i => f (i + 1)) (fun i ys hi => hf (i + 1) ys (by simpa using hi)) (h.fold_good u xs hw)]
    simp only [foldAt, List.flatten_cons, List.foldl_append]

end

open Classical in
/-- some elements of the array `c` get the value `z` -/
noncomputable def Arrays.filled (V : Arrays) (c : Nat) (z : List UInt8) (outs : List State) : Arrays :=
  fun y u => if y = c ∧ u ∈ outs then z else V y u

theorem filled_uses {c : Nat} {z : List UInt8} {outs : List State} (hat : ∀ u ∈ outs, (I c).At u u)
    (hz : ∀ u ∈ outs, z.length = (I c).size u) (V : Arrays) :
    ∃ us, (Prog.each (fun st => Prog.set c st z (.done ())) outs).Uses I V us () (V.filled c z outs) ∧
      (∀ y w b, (y, w, b) ∈ us → y = c) ∧ ∀ u ∈ outs, (c, u, true) ∈ us := by
  induction outs generalizing V with
  | nil =>
    have : V.filled c z [] = V := by funext y u; simp [Arrays.filled]
    rw [this]
    exact ⟨[], .done, fun _ _ _ h => (nomatch h), fun _ h => (nomatch h)⟩
  | cons st sts ih =>
    obtain ⟨us, h1, h2, h3⟩ := ih (fun u hu => hat u (List.mem_cons_of_mem _ hu))
      (fun u hu => hz u (List.mem_cons_of_mem _ hu)) (V.put c st z)
    have : (V.put c st z).filled c z sts = V.filled c z (st :: sts) := by
      funext y u
      simp only [Arrays.filled, Arrays.put, List.mem_cons]
      by_cases hy : y = c <;> by_cases hu : u ∈ sts <;> by_cases hs : u = st <;> simp [hy, hu, hs]
    rw [← this]
    refine ⟨(c, st, true) :: us, .set st (hat st (List.mem_cons_self ..)) (hz st (List.mem_cons_self ..)) h1,
      fun y w b hm => ?_, fun u hu => ?_⟩
    · rcases List.mem_cons.1 hm with e | hm
      · cases e; rfl
      · exact h2 y w b hm
    · rcases List.mem_cons.1 hu with rfl | hu
      · exact List.mem_cons_self ..
      · exact List.mem_cons_of_mem _ (h3 u hu)

/-- Threads that safely come to some values cannot end in any other way. -/
theorem RunsTo.ends {ps : List (Prog Unit)} {B : Bags} {R : Arrays} (h : RunsTo I ps B R) {res : Except Fail Bags}
    (hr : ParallelFor .ideal ps B res) :
    ∃ C, res = .ok C ∧ (∀ x, (C x).structure_ = (B x).structure_) ∧ BagsHold I C R := by
  obtain ⟨N, h⟩ := h
  cases hr with
  | done he hd =>
    obtain ⟨-, -, -, h4, h5⟩ := h _ _ _ he
    exact ⟨_, rfl, h4, h5 hd⟩
  | fail he hp hd hs =>
    obtain ⟨r, hr⟩ := (h _ _ _ he).1 _ hp hd
    rw [hs] at hr; cases hr
  | race he ha hb hij hc => exact absurd hc ((h _ _ _ he).2.1 _ _ _ _ ha hb hij)

theorem foldAt_each {op : List UInt8 → List UInt8 → List UInt8} {val : State → List UInt8} {u : State} {w : List UInt8}
    {outs : List State} (hn : outs.Nodup) (hu : u ∈ outs) : foldAt op (fun st => st) val u w outs = op w (val u) := by
  induction outs generalizing w with
  | nil => exact nomatch hu
  | cons st outs ih =>
    rw [List.nodup_cons] at hn
    simp only [foldAt, List.foldl_cons]
    by_cases e : st = u
    · subst e
      rw [if_pos rfl]
      exact foldAt_none (key := fun st => st) fun s hs e => hn.1 (e ▸ hs)
    · rw [if_neg e]
      exact ih hn.2 ((List.mem_cons.1 hu).resolve_left fun h => e h.symm)

section
variable {β : Type} {K out : Nat} {good : List UInt8 → Prop} {e : State → Prog (State × β)}
  {op : List UInt8 → β → List UInt8} {zero : List UInt8} {join : List UInt8 → List UInt8 → List UInt8}
  {key : State → State} {val : State → β}

theorem thread_uses (hR : Reduces (I out) good op zero join) {outs : List State} (hall : ∀ u, (I out).has u → u ∈ outs)
    (hat : ∀ u ∈ outs, (I out).At u u) {V : Arrays} {xs : List State}
    (he : ∀ st ∈ xs, ∃ u us, (I out).At u (key st) ∧ (e st).Uses I V us (u, val st) V ∧
      ∀ y w b, (y, w, b) ∈ us → y < K ∧ y ≠ out ∧ b = false) {c : Nat} (hc : K ≤ c) (hI : I c = I out) {V' : Arrays}
    (hV : ∀ x, x < K → V' x = V x) :
    ∃ us, ((bagReducer e op zero join).thread outs c xs).Uses I V' us ()
        ((V'.filled c zero outs).accumulated c op key val xs) ∧
      (∀ y w b, (y, w, b) ∈ us → y = c ∨ y < K ∧ b = false) ∧ ∀ u ∈ outs, (c, u, true) ∈ us := by
  obtain ⟨us, h1, h2, h3⟩ := filled_uses (I := I) (c := c) (z := zero) (outs := outs) (fun u hu => hI ▸ hat u hu)
    (fun u hu => by rw [hI]; exact hR.size _ _ hR.good_zero (hat u hu).2.1) V'
  have hV' : ∀ x, x < K → (V'.filled c zero outs) x = V x := by
    intro x hx
    funext u
    rw [Arrays.filled, if_neg fun h => by omega, hV x hx]
  obtain ⟨us', h4, h5, h6⟩ := accumulate_uses_of (I := I) (P := (· < K)) (fun y hy => by omega) (out := c) (e := e) (op := op) (key := key) (val := val) (sts := xs)
    (V := V'.filled c zero outs) (fun st hst => by
      obtain ⟨u, us, g1, g2, g3⟩ := he st hst
      obtain ⟨W, g4, -⟩ := g2.frame (W := V'.filled c zero outs) fun x u w hm => by rw [hV' x (g3 _ _ _ hm).1]
      have : W = V'.filled c zero outs := by
        funext x u
        exact g4.unwritten fun hm => absurd (g3 _ _ _ hm).2.2 (by decide)
      subst this
      exact ⟨u, us, hI ▸ g1, g4, fun y w b hm => ⟨(g3 y w b hm).1, (g3 y w b hm).2.2⟩⟩)
    (fun st hst w hw => by
      obtain ⟨u, us, g1, -⟩ := he st hst
      rw [hI] at hw ⊢
      exact hR.op_size _ _ _ g1.2.1 hw)
    (fun u hu => by
      rw [hI] at hu ⊢
      rw [Arrays.filled, if_pos ⟨rfl, hall u hu⟩]
      exact hR.size _ _ hR.good_zero hu)
  have h5' : ∀ y w b, (y, w, b) ∈ us' → y = c ∨ y < K ∧ b = false := by
    intro y w b hm
    rcases h5 y w b hm with h | ⟨h, -⟩
    · exact .inr h
    · exact .inl h
  exact ⟨us ++ us', h1.bind h4, fun y w b hm => (List.mem_append.1 hm).elim (fun hm => .inl (h2 y w b hm)) (h5' y w b),
    fun u hu => List.mem_append_left _ (h3 u hu)⟩

theorem combine_yields (hR : Reduces (I out) good op zero join) {outs : List State} (hn : outs.Nodup)
    (hat : ∀ u ∈ outs, (I out).At u u) (cs : List Nat) (hcs : ∀ c ∈ cs, c ≠ out ∧ I c = I out) {W : Arrays}
    (hW : ∀ x u, (I x).has u → (W x u).length = (I x).size u) :
    ∃ W', ((bagReducer e op zero join).combine outs out cs).Yields I W () W' ∧ (∀ x, x ≠ out → W' x = W x) ∧
      ∀ u ∈ outs, W' out u = cs.foldl (fun w c => join w (W c u)) (W out u) := by
  induction cs generalizing W with
  | nil => exact ⟨W, .done, fun _ _ => rfl, fun _ _ => rfl⟩
  | cons c cs ih =>
    obtain ⟨hco, hcI⟩ := hcs c (List.mem_cons_self ..)
    have h1 := accumulate_yields (I := I) (out := out) (e := fun st => .get c st fun b => .done (st, b)) (op := join)
      (key := fun st => st) (val := W c) (V := W) (sts := outs) (fun st hst V' hV' => by
        refine ⟨st, hat st hst, ?_⟩
        rw [← hV' c hco]
        exact .get st (by rw [hcI]; exact hat st hst) .done)
      (fun st hst w hw => hR.join_size _ _ _ (hat st hst).2.1 hw) (hW out)
    have hW' : ∀ x u, (I x).has u →
        (W.accumulated out join (fun st => st) (W c) outs x u).length = (I x).size u := by
      intro x u hu
      simp only [Arrays.accumulated]
      split
      · next e =>
        subst e
        by_cases hm : u ∈ outs
        · rw [foldAt_each hn hm]; exact hR.join_size _ _ _ hu (hW x u hu)
        · rw [foldAt_none (key := fun st => st) (u := u) fun s hs e => hm (by subst e; exact hs)]; exact hW x u hu
      · exact hW x u hu
    obtain ⟨W', g1, g2, g3⟩ := ih (fun c hc => hcs c (List.mem_cons_of_mem _ hc)) hW'
    refine ⟨W', h1.bind g1, fun x hx => ?_, fun u hu => ?_⟩
    · rw [g2 x hx]; funext u; simp only [Arrays.accumulated, if_neg hx]
    · rw [g3 u hu, List.foldl_cons]
      simp only [Arrays.accumulated, if_true, foldAt_each hn hu]
      clear g1 g2 g3 ih h1
      generalize join (W out u) (W c u) = w
      induction cs generalizing w with
      | nil => rfl
      | cons c' cs ih' =>
        have := (hcs c' (by simp)).1
        simp only [List.foldl_cons, if_neg this]
        exact ih' (fun c hc => hcs c (by
          rcases List.mem_cons.1 hc with rfl | hc
          · exact List.mem_cons_self ..
          · exact List.mem_cons_of_mem _ (List.mem_cons_of_mem _ hc))) _

theorem withCopies_hold {B : Bags} {V : Arrays} (hB : BagsHold I B V) (hI : ∀ x, K ≤ x → I x = I out) {size : Val} {n : Nat}
    (hs : ((B out).structure_.sem .ideal).size .empty = some size) (hn : size.nat? = some n) {fresh : List Mem}
    (hf : ∀ f ∈ fresh, f.length = n) :
    ∃ V', BagsHold I (B.withCopies K out fresh) V' ∧ ∀ x, x < K → V' x = V x := by
  have hl : ∀ x, (I x).LaidOut (B.withCopies K out fresh x).structure_ := by
    intro x
    simp only [Bags.withCopies]
    split
    · exact hB.layout x
    · next hx =>
      split
      · rw [hI x (by omega)]; exact hB.layout out
      · exact hB.layout x
  have hb : ∀ x, BagFor (B.withCopies K out fresh x).structure_ (B.withCopies K out fresh x) := by
    intro x
    simp only [Bags.withCopies]
    split
    · exact hB.large x
    · split
      · next m hm =>
        refine ⟨rfl, fun v N hv hN => ?_⟩
        have hN : v.nat? = some N := hN
        rw [hs] at hv; cases hv
        rw [hn] at hN; cases hN
        exact Nat.le_of_eq (hf _ (List.mem_of_getElem? hm)).symm
      · exact hB.large x
  refine ⟨fun x u => if x < K then V x u else ((B.withCopies K out fresh x).get .ideal u).toOption.getD [],
    ⟨hl, hb, fun x u hu => ?_⟩, fun x hx => by funext u; exact if_pos hx⟩
  by_cases hx : x < K
  · rw [if_pos hx]
    have : B.withCopies K out fresh x = B x := by rw [Bags.withCopies, if_pos hx]
    rw [this]
    exact hB.value x u hu
  · rw [if_neg hx]
    obtain ⟨⟨v, hv, -⟩, -⟩ := (hl x).access (hb x) hu
    rw [hv]; rfl

/-- C75: `tbb_reduce` into a bag. Bags are numbered below `K`, `out` is the output. `f_acc` computes (by `e`, which may
read all the bags but the output) an element of the output and a value, and updates the element. However the range is
split and distributed, whatever the memory of the copies contains, and in whatever order the operations of the threads
are executed: there is no undefined behaviour, no data race, every element of the output ends up as the fold of the
values that are meant for it, and nothing else changes. If the output is shared, values for the same element must come
from the same index in the outermost dimension of the traverser. -/
theorem C75_reduction_into_a_bag (t : Traverser) (sts : List State) (hs : t.forEach .ideal [] = some sts)
    (huniq : (t.top.sem .ideal).sig.uniq) (V : Arrays) (B : Bags) (hB : BagsHold I B V) (ho : out < K)
    (hI : ∀ x, K ≤ x → I x = I out) (hR : Reduces (I out) good op zero join)
    (hgood : ∀ u, (I out).has u → good (V out u)) (outs : List State)
    (houts : (Traverser.mk (B out).structure_ []).forEach .ideal [] = some outs) (hn : outs.Nodup)
    (hall : ∀ u, (I out).has u → u ∈ outs) (hat : ∀ u ∈ outs, (I out).At u u)
    (he : ∀ st ∈ sts, ∃ u us, (I out).At u (key st) ∧ (e st).Uses I V us (u, val st) V ∧
      ∀ y w b, (y, w, b) ∈ us → y < K ∧ y ≠ out ∧ b = false)
    (hk : ∀ r, t.range .ideal = some r → ((B out).structure_.sem .ideal).sig.allAccept r.dim = true → Splits t r.dim ∧
      ∀ st ∈ sts, ∀ st' ∈ sts, key st = key st' → SameNum (st (.idx r.dim)) (st' (.idx r.dim)))
    (res : Except Fail Bags) (h : TbbReduceBags .ideal t (bagReducer e op zero join) K out B res) :
    ∃ C, res = .ok C ∧ (∀ x, x < K → (C x).structure_ = (B x).structure_) ∧
      ∀ x u, x < K → (I x).has u → (C x).get .ideal u = .ok (V.accumulated out op key val sts x u) := by
  cases h with
  | @shared r tree leaves threads xss _ hr hacc hl hp hx hrun =>
    have hperm := threads_perm hr huniq hs hl hp hx
    obtain ⟨hsplit, hk⟩ := hk r hr hacc
    have hmem : ∀ xs ∈ xss, ∀ st ∈ xs, st ∈ sts := fun xs hxs st hst =>
      hperm.subset (List.mem_flatten.2 ⟨xs, hxs, hst⟩)
    have hpw := threads_pairwise hr huniq hl hp hx hsplit
    have hruns := C74_accumulate (I := I) (out := out) (e := e) (op := op) (key := key) (val := val) V xss
      (fun st hst => by
        obtain ⟨u, us, g1, g2, g3⟩ := he st (hperm.subset hst)
        exact ⟨u, us, g1, g2, fun y w b hm => (g3 y w b hm).2⟩)
      (fun st hst w hw => by
        obtain ⟨u, us, g1, -⟩ := he st (hperm.subset hst)
        exact hR.op_size _ _ _ g1.2.1 hw)
      (List.Pairwise.imp_of_mem (fun {xs ys} hxs hys hd st hst st' hst' hkey =>
        hd st hst st' hst' (hk st (hmem xs hxs st hst) st' (hmem ys hys st' hst') hkey)) hpw) B hB
    obtain ⟨C, rfl, h1, h2⟩ := hruns.ends hrun
    refine ⟨C, rfl, fun x _ => h1 x, fun x u _ hu => ?_⟩
    rw [h2.value x u hu]
    simp only [Arrays.accumulated]
    split
    · next e =>
      subst e
      rw [hR.fold_perm u hperm (hgood u hu)]
    · rfl
  | @copies r tree leaves threads xss outs' size n fresh mid hr hacc hl hp hx houts' hsz hnn hlen hfresh hrun =>
    rw [houts] at houts'; cases houts'
    have hperm := threads_perm hr huniq hs hl hp hx
    have hmem : ∀ xs ∈ xss, ∀ st ∈ xs, st ∈ sts := fun xs hxs st hst =>
      hperm.subset (List.mem_flatten.2 ⟨xs, hxs, hst⟩)
    obtain ⟨V', hV', hVK⟩ := withCopies_hold hB hI hsz hnn hfresh
    have key1 : ∀ i : Nat, ∃ us : List Use, ∀ xs, xss[i]? = some xs →
        ((bagReducer e op zero join).thread outs (K + i) xs).Uses I V' us ()
          ((V'.filled (K + i) zero outs).accumulated (K + i) op key val xs) ∧
        (∀ y w b, (y, w, b) ∈ us → y = K + i ∨ y < K ∧ b = false) ∧ ∀ u ∈ outs, (K + i, u, true) ∈ us := by
      intro i
      cases hi : xss[i]? with
      | none => exact ⟨[], fun _ e => (nomatch e)⟩
      | some xs =>
        have hxs := List.mem_of_getElem? hi
        obtain ⟨us, g⟩ := thread_uses (I := I) (K := K) hR hall hat (fun st hst => he st (hmem xs hxs st hst))
          (Nat.le_add_right K i) (hI _ (Nat.le_add_right K i)) hVK
        exact ⟨us, fun _ e => by cases e; exact g⟩
    obtain ⟨us, hus⟩ := Classical.axiomOfChoice key1
    have hget : ∀ i p, (xss.zipIdx.map fun xi => (bagReducer e op zero join).thread outs (K + xi.2) xi.1)[i]? = some p →
        ∃ xs, xss[i]? = some xs ∧ p = (bagReducer e op zero join).thread outs (K + i) xs := by
      intro i p hi
      rw [List.getElem?_map, List.getElem?_zipIdx] at hi
      cases hxi : xss[i]? with
      | none => simp [hxi] at hi
      | some xs =>
        simp only [hxi, Option.map_some, Option.some.injEq, Nat.zero_add] at hi
        exact ⟨xs, rfl, hi.symm⟩
    obtain ⟨R, h5, h6⟩ := C74_threads (I := I)
      (xss.zipIdx.map fun xi => (bagReducer e op zero join).thread outs (K + xi.2) xi.1) V' us
      (fun i => (V'.filled (K + i) zero outs).accumulated (K + i) op key val (xss.getD i []))
      (fun i p hi => by
        obtain ⟨xs, hxi, rfl⟩ := hget i p hi
        have : xss.getD i [] = xs := by simp [hxi]
        rw [this]
        exact (hus i xs hxi).1)
      (fun i j hi hj hij x u w w' hm hm' => by
        simp only [List.length_map, List.length_zipIdx] at hi hj
        rcases (hus i _ (List.getElem?_eq_getElem hi)).2.1 x u w hm with h1 | ⟨h1, h2⟩ <;>
          rcases (hus j _ (List.getElem?_eq_getElem hj)).2.1 x u w' hm' with h1' | ⟨h1', h2'⟩
        · omega
        · omega
        · omega
        · exact ⟨h2, h2'⟩) _ hV'
    simp only [List.length_map, List.length_zipIdx] at h5
    obtain ⟨C, rfl, h7, h8⟩ := h6.ends hrun
    have hRK : ∀ x, x < K → R x = V x := by
      intro x hx
      funext u
      rw [(h5 x u).2 fun i hi hm => ?_, hVK x hx]
      rcases (hus i _ (List.getElem?_eq_getElem hi)).2.1 x u true hm with h1 | ⟨-, h2⟩
      · omega
      · cases h2
    have hRc : ∀ i xs, xss[i]? = some xs → ∀ u ∈ outs, R (K + i) u = foldAt op key val u zero xs := by
      intro i xs hi u hu
      obtain ⟨hil, rfl⟩ := List.getElem?_eq_some_iff.1 hi
      rw [(h5 (K + i) u).1 i hil ((hus i _ hi).2.2 u hu)]
      simp only [Arrays.accumulated, if_true, Arrays.filled, hu, and_self, List.getD_eq_getElem?_getD, hi,
        Option.getD_some]
    obtain ⟨W, g1, g2, g3⟩ := combine_yields (I := I) (e := e) hR hn hat ((List.range xss.length).map (K + ·))
      (fun c hc => by
        obtain ⟨i, -, rfl⟩ := List.mem_map.1 hc
        exact ⟨by omega, hI _ (Nat.le_add_right K i)⟩) (W := R) (fun x u hu => h8.length_eq hu)
    obtain ⟨C', g4, g5, g6⟩ := g1.run h8
    refine ⟨C', by simp only [Except.bind_ok, g4], fun x hx => ?_, fun x u hx hu => ?_⟩
    · rw [g5, h7, Bags.withCopies, if_pos hx]
    · rw [g6.value x u hu]
      simp only [Arrays.accumulated]
      split
      · next e =>
        subst e
        rw [g3 u (hall u hu), List.foldl_map, hR.join_all (key := key) (val := val) u xss _
          (fun i xs hi => hRc i xs hi u (hall u hu)) (by rw [hRK x hx]; exact hgood u hu), hRK x hx,
          hR.fold_perm u hperm (hgood u hu)]
      · next hne => rw [g2 x hne, hRK x hx]

end
/-- `noarr::idx<'v'>(x)` -/
def atV (v : Dim) (x : Nat) : State := State.empty.set (.idx v) (.dyn x)

/-- The functions of the histogram (docs/Traverser.md, "Parallel reduction"): bag 0 has the values, of one byte each; `f_acc`
is `histo[idx<'v'>(values[state])] += 1`. -/
def histogram {R : Type} [Add R] (E : ElemType R) (zero one : R) (v : Dim) : BagReducer :=
  bagReducer (fun st => .get 0 st fun b => .done (atV v (b.headD 0).toNat, ())) (fun w _ => E.enc (E.dec w + one))
    (E.enc zero) fun w w' => E.enc (E.dec w + E.dec w')

theorem atV_box {v : Dim} {N : Dim → Nat} {x : Nat} (hx : x < N v) : OnBox (· ∈ [v]) N (atV v x) := by
  refine ⟨fun q hq => ?_, fun q hq => ?_, fun _ => rfl⟩
  · rw [List.mem_singleton] at hq
    subst hq
    exact ⟨x, hx, by simp [atV, State.set]⟩
  · simp only [List.mem_singleton] at hq
    simp [atV, State.set, State.empty, hq]

theorem only_of_box {ds : List Dim} {N : Dim → Nat} {u : State} (h : OnBox (· ∈ ds) N u) :
    u.only (fun q => decide (q ∈ ds)) = u := by
  funext g
  cases g with
  | idx q =>
    simp only [State.only]
    by_cases hq : q ∈ ds
    · simp [hq]
    · simp [hq, h.only q hq]
  | len q => simp [State.only, h.noLen q]

theorem Space.box_self {ds : List Dim} {N : Dim → Nat} {e : Nat} {u : State} (h : OnBox (· ∈ ds) N u) :
    (Space.box ds N e).At u u := by
  have := Space.box_at (e := e) h (ds := ds) fun _ h => h
  rwa [only_of_box h] at this

theorem counter_reduces {R : Type} [Add R] (E : ElemType R) (zero one : R) (h0 : ∀ a : R, a + zero = a)
    (hassoc : ∀ a b c : R, a + (b + c) = a + b + c) (ds : List Dim) (N : Dim → Nat) :
    Reduces (β := Unit) (.box ds N E.size) (fun w => ∃ x, w = E.enc x) (fun w _ => E.enc (E.dec w + one)) (E.enc zero)
      fun w w' => E.enc (E.dec w + E.dec w') where
  size := by rintro _ u ⟨x, rfl⟩ -; exact E.enc_length x
  op_size _ _ _ _ _ := E.enc_length _
  join_size _ _ _ _ _ := E.enc_length _
  good_zero := ⟨_, rfl⟩
  good_op _ _ _ := ⟨_, rfl⟩
  good_join _ _ _ _ := ⟨_, rfl⟩
  comm _ _ _ _ := rfl
  join_zero := by rintro _ ⟨x, rfl⟩; simp only [E.dec_enc, h0]
  join_op _ _ _ _ _ := by simp only [E.dec_enc, hassoc]

/-- `a`, increased by one `n` times -/
def addTimes {R : Type} [Add R] (one : R) : Nat → R → R
  | 0, a => a
  | n + 1, a => addTimes one n (a + one)

open Classical in
theorem foldAt_count {R : Type} [Add R] (E : ElemType R) (one : R) (key : State → State) (u : State) (sts : List State)
    (a : R) : foldAt (fun w (_ : Unit) => E.enc (E.dec w + one)) key (fun _ => ()) u (E.enc a) sts =
      E.enc (addTimes one (sts.countP fun st => decide (key st = u)) a) := by
  induction sts generalizing a with
  | nil => rfl
  | cons st sts ih =>
    simp only [foldAt, List.foldl_cons, List.countP_cons] at ih ⊢
    by_cases h : key st = u
    · simp only [h, if_true, decide_true, E.dec_enc, addTimes]
      exact ih _
    · simp only [h, if_false, decide_false, Bool.false_eq_true, Nat.add_zero]
      exact ih _

/-- C75: the histogram of docs/Traverser.md. The values (bag 0) are bytes in a bag with any dimensions and any layout; the
histogram (bag 1) has 256 counters in the dimension `v`, with any layout. The reduction adds to each counter the number of
elements that have this value, and leaves the values alone. -/
theorem C75_histogram {R : Type} [Add R] (E : ElemType R) (zero one : R) (h0 : ∀ a : R, a + zero = a)
    (hassoc : ∀ a b c : R, a + (b + c) = a + b + c) (v : Dim) (ds : List Dim) (N : Dim → Nat) (hN : N v = 256)
    (hI0 : I 0 = .box ds N 1) (hI1 : ∀ x, x ≠ 0 → I x = .box [v] N E.size) (t : Traverser) (sts : List State)
    (hs : t.forEach .ideal [] = some sts) (huniq : (t.top.sem .ideal).sig.uniq)
    (hsts : ∀ u, u ∈ sts ↔ OnBox (· ∈ ds) N u) (V : Arrays) (B : Bags) (hB : BagsHold I B V)
    (henc : ∀ x, x < 256 → ∃ a, V 1 (atV v x) = E.enc a) (outs : List State)
    (houts : (Traverser.mk (B 1).structure_ []).forEach .ideal [] = some outs) (hn : outs.Nodup)
    (hbox : ∀ u, u ∈ outs ↔ OnBox (· ∈ [v]) N u)
    (hv : ∀ r, t.range .ideal = some r → ((B 1).structure_.sem .ideal).sig.allAccept r.dim = false)
    (res : Except Fail Bags) (h : TbbReduceBags .ideal t (histogram E zero one v) 2 1 B res) :
    ∃ C, res = .ok C ∧ (∀ u, OnBox (· ∈ ds) N u → (C 0).get .ideal u = .ok (V 0 u)) ∧
      ∀ x, x < 256 → (C 1).get .ideal (atV v x) = .ok (E.enc
        (addTimes one (sts.filter fun st => V 0 st = [UInt8.ofNat x]).length (E.dec (V 1 (atV v x))))) := by
  have hI1' := hI1 1 (by decide)
  have hat : ∀ u, OnBox (· ∈ [v]) N u → (I 1).At u u := fun u hu => by rw [hI1']; exact Space.box_self hu
  have hlen : ∀ st ∈ sts, (V 0 st).length = 1 := fun st hst => by
    have := hB.length_eq (x := 0) (u := st) (by rw [hI0]; exact (hsts st).1 hst)
    rwa [hI0] at this
  have hvx : ∀ u, OnBox (· ∈ [v]) N u → ∃ x, x < 256 ∧ u = atV v x := by
    intro u hu
    obtain ⟨x, hx, hux⟩ := hu.ok v (by simp)
    refine ⟨x, hN ▸ hx, ?_⟩
    funext g
    cases g with
    | idx q =>
      by_cases hq : q = v
      · subst hq; rw [hux]; simp [atV, State.set]
      · rw [hu.only q (by simpa using hq)]; simp [atV, State.set, State.empty, hq]
    | len q => rw [hu.noLen q]; rfl
  obtain ⟨C, h1, h2, h3⟩ := C75_reduction_into_a_bag (I := I) (K := 2) (out := 1)
    (good := fun w => ∃ x, w = E.enc x) (op := fun w (_ : Unit) => E.enc (E.dec w + one)) (zero := E.enc zero)
    (join := fun w w' => E.enc (E.dec w + E.dec w'))
    (e := fun st => .get 0 st fun b => .done (atV v (b.headD 0).toNat, ()))
    (key := fun st => atV v ((V 0 st).headD 0).toNat) (val := fun _ => ()) t sts hs huniq V B hB (by decide)
    (fun x hx => by rw [hI1 x (by omega), hI1']) (by rw [hI1']; exact counter_reduces E zero one h0 hassoc [v] N)
    (fun u hu => by
      rw [hI1'] at hu
      obtain ⟨x, hx, rfl⟩ := hvx u hu
      exact henc x hx) outs houts hn (fun u hu => (hbox u).2 (by rw [hI1'] at hu; exact hu))
    (fun u hu => hat u ((hbox u).1 hu))
    (fun st hst => by
      refine ⟨atV v ((V 0 st).headD 0).toNat, [(0, st, false)], hat _ (atV_box ?_),
        .get st (by rw [hI0]; exact Space.box_self ((hsts st).1 hst)) .done, fun y w b hm => ?_⟩
      · rw [hN]; exact ((V 0 st).headD 0).toNat_lt
      · rw [List.mem_singleton] at hm
        cases hm
        exact ⟨by decide, by decide, rfl⟩)
    (fun r hr hacc => absurd (hv r hr) (by simp [hacc])) res h
  refine ⟨C, h1, fun u hu => ?_, fun x hx => ?_⟩
  · rw [h3 0 u (by decide) (by rw [hI0]; exact hu)]
    simp [Arrays.accumulated]
  · rw [h3 1 (atV v x) (by decide) (by rw [hI1']; exact atV_box (by omega))]
    obtain ⟨a, ha⟩ := henc x hx
    simp only [Arrays.accumulated, if_true, ha, foldAt_count, E.dec_enc]
    rw [List.countP_eq_length_filter]
    congr 4
    refine List.filter_congr fun st hst => ?_
    have hl := hlen st hst
    generalize V 0 st = w at hl
    match w, hl with
    | [b], _ =>
      simp only [List.headD_cons, List.cons.injEq, and_true]
      refine decide_eq_decide.2 ⟨?_, ?_⟩
      · intro e
        have := congrFun e (.idx v)
        simp only [atV, State.set, if_true, Option.some.injEq, Val.dyn.injEq] at this
        rw [← this]; simp
      · rintro rfl
        rw [UInt8.toNat_ofNat_of_lt' (by simpa using hx)]

/-! ### The histogram of a vector, and a witness -/

/-- `scalar<T>() ^ vector<'d'>(n)`, with `sizeof(T)` being `e`. -/
def vectorOf (d : Dim) (n e : Nat) : Struct := .apply (.vector d (.scalar e e)) [.setLength d (.dyn n)]

theorem vectorOf_sound (d : Dim) (n e : Nat) : (vectorOf d n e).Sound := by
  refine ⟨?_, ?_, ?_, ?_, ?_⟩
  · refine ⟨?_, ?_, trivial⟩
    · simp [Struct.sem, View.sem, ViewSem.toSem, vectorSem, setLengthSem, scalarSem, Sig.anyAccept, Sig.replace,
        Sig.setLengthRepl, Sig.wf]
    · simp [Struct.sem, vectorSem, scalarSem, Sig.anyAccept, Sig.wf]
  all_goals simp [vectorOf, Struct.apply, Struct.noAlias, Struct.tame, View.tame, Struct.sane, Struct.exact, View.exact]

local macro "vec_simp" ts:Lean.Parser.Tactic.simpLemma,* : tactic => `(tactic| simp [vectorOf, Struct.apply, Struct.sem, View.sem, ViewSem.toSem, setLengthSem, vectorSem, scalarSem, guardLen,
      State.set, State.has, State.removeAll, State.remove, State.empty, Sig.replace, Sig.setLengthRepl, Sig.anyAccept, Sig.needs, Sig.wf, Val.mul, Val.Num, Val.nat?, Val.ofDyn, Arith.ideal, $ts,*])

theorem seqAll_single {α β : Type} (f : α → β) (l : List α) : seqAll (l.map fun x => some [f x]) = some (l.map f) := by
  induction l with
  | nil => rfl
  | cons x l ih => simp only [List.map_cons, seqAll, ih]; rfl

theorem vectorOf_forEach (d : Dim) (n e : Nat) :
    (Traverser.mk (vectorOf d n e) []).forEach .ideal [] = some ((List.range n).map (atV d)) := by
  have h1 : walk ((vectorOf d n e).sem .ideal) ((vectorOf d n e).sem .ideal).sig.tree .empty =
      some ((List.range n).map fun i => [(d, .dyn i)]) := by
    have ht : ((vectorOf d n e).sem .ideal).sig.tree = .node d 1 fun _ => .leaf := by
      vec_simp Sig.tree
    have hf : ∃ l r, ((vectorOf d n e).sem .ideal).sig.find d .empty = .fn d l r := by
      vec_simp Sig.find
    have hl : ((vectorOf d n e).sem .ideal).len d .empty = some (.dyn n) := by
      vec_simp Sig.find
    obtain ⟨l, r, hf⟩ := hf
    rw [ht, walk, hf]
    simp only [hl, Val.nat?, walk, dite_true, Option.map_some, List.map_cons, List.map_nil, bind, Option.bind]
    exact seqAll_single _ _
  simp only [Traverser.forEach, Traverser.forSections, Traverser.run, Traverser.top, Struct.apply, h1]
  simp only [Option.map_some, List.map_map, bind, Option.bind]
  induction List.range n with
  | nil => rfl
  | cons x l ih =>
    have hx : ((Traverser.mk (vectorOf d n e) []).visit [(d, .dyn x)]).state .ideal = some (atV d x) := by
      simp only [Traverser.visit, Traverser.order, Traverser.state, stateAt, View.sem, fixSem, atV, List.map_cons,
        List.map_nil, List.nil_append, bind, Option.bind]
      congr 1
      funext g
      cases g <;> simp [State.set, State.remove, State.empty]
    simp only [List.map_cons, List.mapM_cons, Function.comp_apply, hx, ih]
    rfl

theorem vectorOf_traversed (d : Dim) (n e : Nat) : Traversed (vectorOf d n e) ((List.range n).map (atV d)) := by
  refine ⟨trivial, ?_, vectorOf_forEach d n e, ?_, ?_, ?_⟩
  · intro q _ hq
    simp [vectorOf, Struct.apply, Struct.hard, View.hard] at hq
  · intro st _ u _
    exact ⟨trivial, trivial⟩
  · intro st hst
    obtain ⟨x, hx, rfl⟩ := List.mem_map.1 hst
    vec_simp atV
  · intro st hst
    obtain ⟨x, hx, rfl⟩ := List.mem_map.1 hst
    vec_simp atV

theorem vectorOf_size (d : Dim) (n e : Nat) :
    ∃ v, ((vectorOf d n e).sem .ideal).size .empty = some v ∧ v.Num (n * e) := by
  by_cases he : e = 0
  · subst he
    vec_simp atV
  · vec_simp atV, he

theorem vectorOf_elem (d : Dim) (n e : Nat) (u : State) : ((vectorOf d n e).sem .ideal).elem u = some e := by
  vec_simp atV

theorem vectorOf_place (d : Dim) (n e x : Nat) : (vectorOf d n e).place .ideal (atV d x) = .ok (x * e, e) := by
  by_cases he : e = 0
  · subst he
    vec_simp atV, Struct.place, Val.add, Val.ofLit
  · vec_simp atV, he, Struct.place, Val.add

theorem onBox_atV {v : Dim} {N : Dim → Nat} {u : State} (hu : OnBox (· ∈ [v]) N u) : ∃ x, x < N v ∧ u = atV v x := by
  obtain ⟨x, hx, hux⟩ := hu.ok v (by simp)
  refine ⟨x, hx, ?_⟩
  funext g
  cases g with
  | idx q =>
    by_cases hq : q = v
    · subst hq; rw [hux]; simp [atV, State.set]
    · rw [hu.only q (by simpa using hq)]; simp [atV, State.set, State.empty, hq]
  | len q => rw [hu.noLen q]; rfl

theorem mem_vector {d : Dim} {N : Dim → Nat} {u : State} : u ∈ (List.range (N d)).map (atV d) ↔ OnBox (· ∈ [d]) N u := by
  constructor
  · intro h
    obtain ⟨x, hx, rfl⟩ := List.mem_map.1 h
    exact atV_box (List.mem_range.1 hx)
  · intro h
    obtain ⟨x, hx, rfl⟩ := onBox_atV h
    exact List.mem_map.2 ⟨x, List.mem_range.2 hx, rfl⟩

theorem atV_inj {d : Dim} {x y : Nat} (h : atV d x = atV d y) : x = y := by
  have := congrFun h (.idx d)
  simpa [atV, State.set] using this

theorem vector_nodup (d : Dim) (n : Nat) : ((List.range n).map (atV d)).Nodup := by
  rw [List.Nodup, List.pairwise_map]
  exact List.Pairwise.imp (fun h e => h (atV_inj e)) List.nodup_range

theorem range_getD (l : List UInt8) : (List.range l.length).map (fun k => l.getD k 0) = l := by
  refine List.ext_getElem (by simp) fun k h1 h2 => ?_
  simp [h2]

theorem vectorOf_laidOut (d : Dim) (N : Dim → Nat) (e : Nat) : (Space.box [d] N e).LaidOut (vectorOf d (N d) e) := by
  obtain ⟨v, hv, hN⟩ := vectorOf_size d (N d) e
  have h := C72_traversed_structures_are_layouts ((List.range (N d)).map (atV d)) (fun q => decide (q ∈ [d])) (fun _ => e)
    (vectorOf d (N d) e) (vectorOf_sound d (N d) e) (by simp [vectorOf, Struct.apply, Struct.tidy])
    (by simp [vectorOf, Struct.apply, Struct.names, View.names]) v _ hv hN _ (vectorOf_traversed d (N d) e) (.refl _)
    (fun u _ => vectorOf_elem d (N d) e u)
  exact ⟨h.sound, h.tidy, h.names, h.total, fun u hu => h.accessible u (mem_vector.2 hu),
    fun u u' hu hu' => h.differ u u' (mem_vector.2 hu) (mem_vector.2 hu'), fun u hu => h.elem u (mem_vector.2 hu),
    fun _ _ _ h => h.elim⟩

theorem vectorOf_get (d : Dim) (n e x : Nat) (m : Mem) (hm : m.length = n * e) (hx : x < n) :
    (Bag.mk (vectorOf d n e) m).get .ideal (atV d x) = .ok ((m.drop (x * e)).take e) := by
  have : x * e + e ≤ m.length := by rw [hm, ← Nat.succ_mul]; exact Nat.mul_le_mul_right e hx
  simp only [Bag.get, Struct.getAt, vectorOf_place, Except.bind_ok, this, if_true]

theorem flat_get {R : Type} (E : ElemType R) : ∀ (l : List R) (x : Nat) (h : x < l.length),
    ((l.flatMap E.enc).drop (x * E.size)).take E.size = E.enc l[x]
  | a :: l, 0, _ => by
    simp [List.flatMap_cons, E.enc_length]
  | a :: l, x + 1, h => by
    rw [List.flatMap_cons, List.drop_append, List.drop_eq_nil_of_le (by rw [E.enc_length, Nat.succ_mul]; omega),
      List.nil_append, E.enc_length, Nat.succ_mul, Nat.add_sub_cancel, flat_get E l x (by simpa using h)]
    rfl

theorem flat_length {R : Type} (E : ElemType R) (l : List R) : (l.flatMap E.enc).length = l.length * E.size := by
  induction l with
  | nil => simp
  | cons a l ih => simp [List.flatMap_cons, ih, E.enc_length, Nat.succ_mul, Nat.add_comm]

/-- C75: the program of docs/Traverser.md, with the values in a vector and the histogram in an array. However the range is
split and whatever the threads do at which moment, `data.count x` is added to the counter of each value `x`. -/
theorem C75_histogram_of_vectors {R : Type} [Add R] (E : ElemType R) (zero one : R) (h0 : ∀ a : R, a + zero = a)
    (hassoc : ∀ a b c : R, a + (b + c) = a + b + c) (i v : Dim) (hiv : i ≠ v) (data : List UInt8) (counts : List R)
    (hc : counts.length = 256) (res : Except Fail Bags)
    (h : TbbReduceBags .ideal ⟨vectorOf i data.length 1, []⟩ (histogram E zero one v) 2 1
      (fun x => if x = 0 then ⟨vectorOf i data.length 1, data⟩ else ⟨vectorOf v 256 E.size, counts.flatMap E.enc⟩) res) :
    ∃ C, res = .ok C ∧ (∀ x (hx : x < data.length), (C 0).get .ideal (atV i x) = .ok [data[x]]) ∧
      ∀ x (hx : x < 256), (C 1).get .ideal (atV v x) =
        .ok (E.enc (addTimes one (data.count (UInt8.ofNat x)) counts[x])) := by
  let N : Dim → Nat := fun q => if q = i then data.length else 256
  have hNi : N i = data.length := by simp [N]
  have hNv : N v = 256 := by simp [N, Ne.symm hiv]
  let V : Arrays := fun y u => if y = 0 then [data.getD (((u (.idx i)).bind Val.nat?).getD 0) 0] else
    ((counts.map E.enc).getD (((u (.idx v)).bind Val.nat?).getD 0) [])
  have hat : ∀ d x, ((atV d x (.idx d)).bind Val.nat?).getD 0 = x := by simp [atV, State.set, Val.nat?]
  have hV0 : ∀ x (hx : x < data.length), V 0 (atV i x) = [data[x]] := by
    intro x hx
    simp only [V, if_true, hat]
    simp [hx]
  have hV1 : ∀ y x (hx : x < 256), y ≠ 0 → V y (atV v x) = E.enc (counts[x]'(hc ▸ hx)) := by
    intro y x hx hy
    simp only [V, hy, if_false, hat]
    simp [hc, hx]
  have L0 := vectorOf_laidOut i N 1
  have L1 := vectorOf_laidOut v N E.size
  rw [hNi] at L0
  rw [hNv] at L1
  let B : Bags := fun x => if x = 0 then ⟨vectorOf i data.length 1, data⟩ else ⟨vectorOf v 256 E.size, counts.flatMap E.enc⟩
  let I : Nat → Space := fun x => if x = 0 then .box [i] N 1 else .box [v] N E.size
  have hlarge : ∀ d n e (m : Mem), m.length = n * e → BagFor (vectorOf d n e) ⟨vectorOf d n e, m⟩ := by
    intro d n e m hm
    refine ⟨rfl, fun w M hw hM => ?_⟩
    obtain ⟨w', h1, h2⟩ := vectorOf_size d n e
    rw [h1] at hw; cases hw
    have : n * e = M := by simpa [Val.Num] using (h2.symm.trans hM)
    rw [← this, hm]
    exact Nat.le_refl _
  have hB : BagsHold I B V := by
    refine ⟨fun x => ?_, fun x => ?_, fun x u hu => ?_⟩
    · by_cases hx : x = 0
      · simp only [I, B, hx, if_true]; exact L0
      · simp only [I, B, hx, if_false]; exact L1
    · by_cases hx : x = 0
      · simp only [B, hx, if_true]; exact hlarge _ _ _ _ (by simp)
      · simp only [B, hx, if_false]; exact hlarge _ _ _ _ (by rw [flat_length, hc])
    · by_cases hx : x = 0
      · simp only [I, hx, if_true] at hu
        obtain ⟨y, hy, rfl⟩ := onBox_atV hu
        rw [hNi] at hy
        simp only [B, hx, if_true, hV0 y hy]
        rw [vectorOf_get _ _ _ _ _ (by simp) hy]
        simp [List.take_one, hy]
      · simp only [I, hx, if_false] at hu
        obtain ⟨y, hy, rfl⟩ := onBox_atV hu
        rw [hNv] at hy
        simp only [B, hx, if_false, hV1 x y hy hx]
        rw [vectorOf_get _ _ _ _ _ (by rw [flat_length, hc]) hy, flat_get E counts y (by omega)]
  obtain ⟨C, h1, h2, h3⟩ := C75_histogram (I := I) E zero one h0 hassoc v [i] N hNv rfl
    (fun x hx => by simp [I, hx]) ⟨vectorOf i data.length 1, []⟩ _ (vectorOf_forEach i data.length 1)
    (by vec_simp Traverser.top, Sig.uniq) (fun u => by rw [← hNi]; exact mem_vector) V B hB
    (fun x hx => ⟨_, hV1 1 x hx (by decide)⟩) _ (vectorOf_forEach v 256 E.size)
    (vector_nodup v 256) (fun u => by rw [← hNv]; exact mem_vector)
    (fun r hr => by
      have hr' : r.dim = i := by
        simp only [Traverser.range] at hr
        revert hr
        vec_simp Traverser.top
        rintro rfl
        rfl
      rw [hr']
      have : ∀ n e, ((vectorOf v n e).sem .ideal).sig.allAccept i = false := by
        intro n e
        vec_simp Sig.allAccept, Ne.symm hiv
      exact this 256 E.size) res h
  refine ⟨C, h1, fun x hx => ?_, fun x hx => ?_⟩
  · rw [h2 _ (atV_box (by rw [hNi]; exact hx)), hV0 x hx]
  · rw [h3 x hx, hV1 1 x hx (by decide), E.dec_enc]
    congr 3
    have : (fun st => decide (V 0 st = [UInt8.ofNat x])) ∘ atV i = fun k => decide (data.getD k 0 = UInt8.ofNat x) := by
      funext k
      simp only [Function.comp_apply, V, if_true, hat, List.cons.injEq, and_true]
    rw [List.filter_map, List.length_map, this]
    conv => rhs; rw [← range_getD data]
    rw [List.count, List.countP_map, List.countP_eq_length_filter]
    congr 1

/-- A single thread always comes to an end. -/
theorem ParallelFor.single {A : Arith} (p : Prog Unit) (B : Bags) : ∃ res, ParallelFor A [p] B res := by
  have key : ∀ (q : Prog Unit) log C, Execution A [p] B log [q] C → ∃ res, ParallelFor A [p] B res := by
    intro q
    induction q with
    | done a => exact fun log C h => ⟨_, .done h (by simp [Prog.isDone])⟩
    | get x st k ih =>
      intro log C h
      cases hq : (Prog.get x st k).step A C with
      | error e => exact ⟨_, .fail h (List.mem_singleton.2 rfl) rfl hq⟩
      | ok r =>
        obtain ⟨q', C', a⟩ := r
        have hq' : ∃ v, q' = k v := by
          simp only [Prog.step] at hq
          cases h1 : (C x).get A st with
          | error e => rw [h1] at hq; cases hq
          | ok v =>
            cases h2 : (C x).structure_.place A st with
            | error e => rw [h1, h2] at hq; cases hq
            | ok w =>
              simp only [h1, h2, Except.bind_ok, Except.ok.injEq, Prod.mk.injEq] at hq
              exact ⟨v, hq.1.symm⟩
        obtain ⟨v, rfl⟩ := hq'
        exact ih v _ _ (.step (i := 0) h rfl rfl hq)
    | set x st v k ih =>
      intro log C h
      cases hq : (Prog.set x st v k).step A C with
      | error e => exact ⟨_, .fail h (List.mem_singleton.2 rfl) rfl hq⟩
      | ok r =>
        obtain ⟨q', C', a⟩ := r
        have hq' : q' = k := by
          simp only [Prog.step] at hq
          cases h1 : (C x).set A st v with
          | error e => rw [h1] at hq; cases hq
          | ok v =>
            cases h2 : (C x).structure_.place A st with
            | error e => rw [h1, h2] at hq; cases hq
            | ok w =>
              simp only [h1, h2, Except.bind_ok, Except.ok.injEq, Prod.mk.injEq] at hq
              exact hq.1.symm
        subst hq'
        exact ih _ _ (.step (i := 0) h rfl rfl hq)
    | length x d st k ih =>
      intro log C h
      cases hq : (Prog.length x d st k).step A C with
      | error e => exact ⟨_, .fail h (List.mem_singleton.2 rfl) rfl hq⟩
      | ok r =>
        obtain ⟨q', C', a⟩ := r
        have hq' : ∃ n, q' = k n := by
          simp only [Prog.step] at hq
          cases h1 : (C x).lengthAt A d st with
          | error e => rw [h1] at hq; cases hq
          | ok n =>
            simp only [h1, Except.bind_ok, Except.ok.injEq, Prod.mk.injEq] at hq
            exact ⟨n, hq.1.symm⟩
        obtain ⟨n, rfl⟩ := hq'
        exact ih n _ _ (.step (i := 0) h rfl rfl hq)
  exact key p [] B .start

/-- The hypotheses of the theorem hold, and such executions exist: four values, and counters that started at 3. -/
example : ∃ res, TbbReduceBags .ideal ⟨vectorOf 0 4 1, []⟩ (histogram c70Int 0 1 1) 2 1
      (fun x => if x = 0 then ⟨vectorOf 0 4 1, [7, 9, 7, 7]⟩ else
        ⟨vectorOf 1 256 4, (List.replicate 256 (3 : BitVec 32)).flatMap c70Int.enc⟩) res ∧
    ∃ C, res = .ok C ∧ (C 1).get .ideal (atV 1 7) = .ok [6, 0, 0, 0] ∧ (C 1).get .ideal (atV 1 9) = .ok [4, 0, 0, 0] := by
  let r : Range := ⟨0, vectorOf 0 4 1, [], 0, 4⟩
  obtain ⟨mid, hmid⟩ := ParallelFor.single (A := .ideal)
    ((histogram c70Int 0 1 1).thread ((List.range 256).map (atV 1)) 2 ((threadStates .ideal [r]).getD []))
    (Bags.withCopies (fun x => if x = 0 then ⟨vectorOf 0 4 1, [7, 9, 7, 7]⟩ else
        ⟨vectorOf 1 256 4, (List.replicate 256 (3 : BitVec 32)).flatMap c70Int.enc⟩) 2 1 [List.replicate 1024 0])
  have h : TbbReduceBags .ideal ⟨vectorOf 0 4 1, []⟩ (histogram c70Int 0 1 1) 2 1
      (fun x => if x = 0 then ⟨vectorOf 0 4 1, [7, 9, 7, 7]⟩ else
        ⟨vectorOf 1 256 4, (List.replicate 256 (3 : BitVec 32)).flatMap c70Int.enc⟩) _ :=
    .copies (r := r) (tree := .leaf) (leaves := [r]) (threads := [[r]]) (xss := [(threadStates .ideal [r]).getD []])
      (outs := (List.range 256).map (atV 1)) (size := .dyn 1024) (n := 1024) (fresh := [List.replicate 1024 0])
      rfl rfl rfl (.refl _) rfl (vectorOf_forEach 1 256 4) rfl rfl rfl
      (fun f hf => by cases List.mem_singleton.1 hf; exact List.length_replicate) hmid
  refine ⟨_, h, ?_⟩
  obtain ⟨C, h1, -, h2⟩ := C75_histogram_of_vectors c70Int 0 1 (by simp) (fun a b c => (BitVec.add_assoc a b c).symm)
    0 1 (by decide) [7, 9, 7, 7] (List.replicate 256 3) List.length_replicate _ h
  refine ⟨C, h1, ?_, ?_⟩
  · rw [h2 7 (by decide), List.getElem_replicate]
    rfl
  · rw [h2 9 (by decide), List.getElem_replicate]
    rfl

/-- The threads of the example below: one value each. -/
def c75Threads : List (List Range) := [[⟨0, vectorOf 0 2 1, [], 0, 1⟩], [⟨0, vectorOf 0 2 1, [], 1, 2⟩]]

/-- The output must not have a dimension with the name of the one that is split, unless the elements are updated by that
index: then the output is shared, although two threads can update the same counter. Here the values and the
counters are both in the dimension 0; the value is 0 twice. The behaviour is undefined; and even if it is not seen as
such, an update can be lost. -/
theorem C75_same_dimension_races : ∃ B : Bags, (B 0).structure_ = vectorOf 0 2 1 ∧ (B 0).data = [0, 0] ∧
    (B 1).structure_ = vectorOf 0 2 4 ∧ (B 1).get .ideal (atV 0 0) = .ok [0, 0, 0, 0] ∧
    TbbReduceBags .ideal ⟨vectorOf 0 2 1, []⟩ (histogram c70Int 0 1 0) 2 1 B (.error .ub) ∧
    ∃ C, TbbReduceBags .ideal ⟨vectorOf 0 2 1, []⟩ (histogram c70Int 0 1 0) 2 1 B (.ok C) ∧
      (C 1).get .ideal (atV 0 0) = .ok [1, 0, 0, 0] := by
  refine ⟨fun x => if x = 0 then ⟨vectorOf 0 2 1, [0, 0]⟩ else ⟨vectorOf 0 2 4, List.replicate 8 0⟩, rfl, rfl, rfl, rfl, ?_⟩
  have hrun : ∃ log C, Execution .ideal
      (((c75Threads.mapM (threadStates .ideal)).getD []).map (Prog.each ((histogram c70Int 0 1 0).acc · 1)))
      (fun x => if x = 0 then ⟨vectorOf 0 2 1, [0, 0]⟩ else ⟨vectorOf 0 2 4, List.replicate 8 0⟩) log
      [.done (), .done ()] C ∧ (C 1).get .ideal (atV 0 0) = .ok [1, 0, 0, 0] ∧
      (0, some ⟨1, 0, 4, true⟩) ∈ log ∧ (1, some ⟨1, 0, 4, false⟩) ∈ log := by
    refine ⟨_, _, .step (i := 1) (.step (i := 0) (.step (i := 1) (.step (i := 0) (.step (i := 1) (.step (i := 0) .start
      rfl rfl rfl) rfl rfl rfl) rfl rfl rfl) rfl rfl rfl) rfl rfl rfl) rfl rfl rfl, rfl, ?_, ?_⟩
    · exact List.mem_append_left _ (List.mem_append_right _ (List.mem_singleton.2 rfl))
    · exact List.mem_append_left _ (List.mem_append_left _ (List.mem_append_right _ (List.mem_singleton.2 rfl)))
  obtain ⟨log, C, h1, h2, h3, h4⟩ := hrun
  have key : ∀ res, ParallelFor .ideal
      (((c75Threads.mapM (threadStates .ideal)).getD []).map (Prog.each ((histogram c70Int 0 1 0).acc · 1)))
      (fun x => if x = 0 then ⟨vectorOf 0 2 1, [0, 0]⟩ else ⟨vectorOf 0 2 4, List.replicate 8 0⟩) res →
      TbbReduceBags .ideal ⟨vectorOf 0 2 1, []⟩ (histogram c70Int 0 1 0) 2 1
      (fun x => if x = 0 then ⟨vectorOf 0 2 1, [0, 0]⟩ else ⟨vectorOf 0 2 4, List.replicate 8 0⟩) res := fun res h =>
    .shared (r := ⟨0, vectorOf 0 2 1, [], 0, 2⟩) (tree := .node .leaf .leaf)
      (leaves := [⟨0, vectorOf 0 2 1, [], 0, 1⟩, ⟨0, vectorOf 0 2 1, [], 1, 2⟩])
      (threads := c75Threads) rfl rfl rfl (.refl _) rfl h
  exact ⟨key _ (.race h1 h3 h4 (by decide) ⟨rfl, .inl rfl, 0, by decide⟩), C,
    key _ (.done h1 (by simp [Prog.isDone])), h2⟩
end Noarr
