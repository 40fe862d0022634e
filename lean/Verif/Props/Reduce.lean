import Verif.ReduceSplit

/-
C34: parallel reduction.
-/

set_option linter.unusedSimpArgs false

namespace Noarr

/-- Visiting the state `st` of the input updates the element of the output that `st` refers to: it is the
same as that of a visited state of the output, and the two states have the same indices (in those
dimensions that the output needs). -/
def Feeds (out : Struct) (outs : List State) (st : State) : Prop :=
  ∃ o ∈ outs, out.place .ideal st = out.place .ideal o ∧
    ∀ q, (out.sem .ideal).sig.needs o q → SameNum (st (.idx q)) (o (.idx q))

/-- The setting of a reduction: the input `t` is traversed in the states `sts`, the output `out` in the
states `outs`. All elements of the output are of one type (of `E` bytes); before the reduction, the
memory `m` holds some value in each of them. -/
structure ReduceOk {α : Type} (t : Traverser) (R : Reducer α) (out : Struct) (E : Nat) (sts outs : List State)
    (m : Mem) : Prop where
  input : t.forEach .ideal [] = some sts
  uniq : (t.top.sem .ideal).sig.uniq
  sound : out.Sound
  output : Traversed out outs
  elem : ∀ o ∈ outs, (out.sem .ideal).elem o = some E
  pos : 0 < E
  monoid : R.Ok E
  feeds : ∀ st ∈ sts, Feeds out outs st
  size : ∃ v N, (out.sem .ideal).size .empty = some v ∧ v.Num N ∧ N ≤ m.length
  init : ∀ o ∈ outs, ∃ x, out.getAt .ideal m o = .ok (R.enc x)

/-- Different indices in the top dimension `d` of the traverser, which the threads are given, are different
indices in the dimension `d` of the states that are visited. -/
def Splits (t : Traverser) (d : Dim) : Prop :=
  ∀ i j, i ≠ j → ∀ xs ys, (t.order [.fix d (.dyn i)]).forEach .ideal [] = some xs →
    (t.order [.fix d (.dyn j)]).forEach .ideal [] = some ys → ∀ st ∈ xs, ∀ st' ∈ ys,
    ¬ SameNum (st (.idx d)) (st' (.idx d))

section
variable {α : Type} {t : Traverser} {R : Reducer α} {out : Struct} {E : Nat} {sts outs : List State} {m : Mem}

/-- the offset of the element of the output -/
private def offOf (out : Struct) (st : State) : Nat := ((out.place .ideal st).toOption.getD (0, 0)).1

private theorem ReduceOk.facts (h : ReduceOk t R out E sts outs m) :
    (∃ v N, (out.sem .ideal).size .empty = some v ∧ v.nat? = some N ∧ N ≤ m.length ∧
      ∀ k ∈ outs.map (offOf out), k + E ≤ N) ∧
    KeyOk .ideal out E (outs.map (offOf out)) (offOf out) outs ∧
    KeyOk .ideal out E (outs.map (offOf out)) (offOf out) sts ∧
    Apart E (outs.map (offOf out)) ∧ (outs.map (offOf out)).Nodup ∧
    ∃ v, Rep R.enc E (outs.map (offOf out)) m v m := by
  obtain ⟨z, N, hz, hN, hle⟩ := h.size
  obtain ⟨pl, h1, h2⟩ := h.output.places h.sound hz hN
  have hpl : ∀ o ∈ outs, out.place .ideal o = .ok (offOf out o, E) ∧ pl o = (offOf out o, E) := by
    intro o ho
    obtain ⟨g1, g2, -⟩ := h1 o ho
    rw [h.elem o ho] at g2
    have : pl o = (offOf out o, E) := by
      simp only [offOf, g1, Except.toOption, Option.getD_some]
      exact Prod.ext rfl (Option.some.inj g2).symm
    exact ⟨by rw [g1, this], this⟩
  have hb : ∀ k ∈ outs.map (offOf out), k + E ≤ N := by
    intro k hk
    obtain ⟨o, ho, rfl⟩ := List.mem_map.1 hk
    have := (h1 o ho).2.2
    rw [(hpl o ho).2] at this
    exact this
  have hap : (outs.map (offOf out)).Pairwise fun k k' => k + E ≤ k' ∨ k' + E ≤ k := by
    rw [List.pairwise_map]
    refine h2.imp_of_mem fun {a b} ha hb hab => ?_
    rw [(hpl a ha).2, (hpl b hb).2] at hab
    exact hab
  have hpos := h.pos
  have hap' : Apart E (outs.map (offOf out)) := by
    intro k hk k' hk' hne
    exact pairwise_ne (fun _ _ => Or.symm) hap hk hk' hne
  have houts : KeyOk .ideal out E (outs.map (offOf out)) (offOf out) outs :=
    fun o ho => ⟨(hpl o ho).1, List.mem_map_of_mem ho⟩
  refine ⟨⟨z, N, hz, hN, hle, hb⟩, houts, ?_, hap', ?_, ?_⟩
  · intro st hst
    obtain ⟨o, ho, hp, -⟩ := h.feeds st hst
    have : offOf out st = offOf out o := by rw [offOf, hp, ← offOf]
    rw [this]
    exact ⟨hp.trans (hpl o ho).1, List.mem_map_of_mem ho⟩
  · exact hap.imp fun {a b} h => by omega
  · refine ⟨fun k => R.dec (bytes m k E), rfl, fun k hk => Nat.le_trans (hb k hk) hle, fun k hk => ?_, fun _ _ => rfl⟩
    obtain ⟨o, ho, rfl⟩ := List.mem_map.1 hk
    obtain ⟨x, hx⟩ := h.init o ho
    rw [getAt_of_place (hpl o ho).1 (Nat.le_trans (hb _ hk) hle)] at hx
    have hx := Except.ok.inj hx
    show _ = R.enc (R.dec _)
    rw [hx, h.monoid.dec]

/-- The output needs a dimension that its signature accepts. -/
private theorem ReduceOk.needs (h : ReduceOk t R out E sts outs m) {d : Dim}
    (hd : (out.sem .ideal).sig.allAccept d = true) {o : State} (ho : o ∈ outs) :
    (out.sem .ideal).sig.needs o d := by
  have hnd : out.noDup .ideal := out.noDup_of_noAlias .ideal h.sound.wf h.sound.noAlias
  obtain ⟨ps, h1, h2⟩ := forEach_states (t := ⟨out, []⟩) hnd.uniq h.output.visits
  have h3 : outs = ps.map fun p => p.state .empty := by
    have : outs.map some = (ps.map fun p => p.state .empty).map some := by
      rw [h2, List.map_map]; rfl
    exact (List.map_inj_right (fun _ _ h => Option.some.inj h)).1 this
  rw [h3] at ho
  obtain ⟨p, hp, rfl⟩ := List.mem_map.1 ho
  have F := Nested.facts hnd.uniq (.refl _) (fun _ _ => rfl) ((walk_mem (out.sem .ideal) hnd.uniq (.refl _) h1 p).1 hp)
  rw [Sig.needs_iff_entry]
  refine Sig.entry_of_allAccept hd fun e n _ hen => ?_
  have hv := F.ok e (Sig.needs_iff_entry.2 ⟨_, hen⟩)
  obtain ⟨rs, hrs⟩ := (Sig.find_entry hnd.uniq hen).2 n rfl
  simp only [Visited, hrs] at hv
  exact hv

private theorem ReduceOk.apart (h : ReduceOk t R out E sts outs m) {d : Dim}
    (hd : (out.sem .ideal).sig.allAccept d = true) {st st' : State} (hst : st ∈ sts) (hst' : st' ∈ sts)
    (hne : ¬ SameNum (st (.idx d)) (st' (.idx d))) :
    offOf out st + E ≤ offOf out st' ∨ offOf out st' + E ≤ offOf out st := by
  obtain ⟨-, ho, hs, hap, -⟩ := h.facts
  obtain ⟨o, ho1, hp, hq⟩ := h.feeds st hst
  obtain ⟨o', ho1', hp', hq'⟩ := h.feeds st' hst'
  have e1 : offOf out st = offOf out o := by simp only [offOf, hp]
  have e2 : offOf out st' = offOf out o' := by simp only [offOf, hp']
  obtain ⟨a, b, n, g1, g2, g3, g4⟩ := hq d (h.needs hd ho1)
  obtain ⟨a', b', n', g1', g2', g3', g4'⟩ := hq' d (h.needs hd ho1')
  obtain ⟨v, N, hz, hN, -⟩ := h.size
  obtain ⟨hacc, hpw⟩ := h.output.accessible h.sound
  obtain ⟨pl, q1, q2⟩ := h.output.places h.sound hz hN
  have hoo : o ≠ o' := by
    rintro rfl
    rw [g2] at g2'; cases g2'
    have := Val.Num.eq g4 g4'
    subst this
    exact hne ⟨a, a', n, g1, g1', g3, g3'⟩
  rw [e1, e2]
  have key : ∀ x ∈ outs, ∀ y ∈ outs, x ≠ y → offOf out x + E ≤ offOf out y ∨ offOf out y + E ≤ offOf out x := by
    have hpl : ∀ o ∈ outs, pl o = (offOf out o, E) := by
      intro o ho
      obtain ⟨r1, r2, -⟩ := q1 o ho
      rw [h.elem o ho] at r2
      simp only [offOf, r1, Except.toOption, Option.getD_some]
      exact Prod.ext rfl (Option.some.inj r2).symm
    have hpp : outs.Pairwise fun x y => offOf out x + E ≤ offOf out y ∨ offOf out y + E ≤ offOf out x := by
      refine q2.imp_of_mem fun {a b} ha hb hab => ?_
      rw [hpl a ha, hpl b hb] at hab
      exact hab
    intro x hx y hy hxy
    exact pairwise_ne (fun _ _ => Or.symm) hpp hx hy hxy
  exact key o ho1 o' ho1' hoo

end

/-- C34: however the traversal is split and distributed among threads, whatever memory their private copies
are made of, in whatever order the copies are joined and (if the output is shared) the threads access the
output, the reduction ends with the memory that a sequential `for_each` with `f_acc` ends with; that one
succeeds. The functions are to form a commutative monoid.

Partial: the claim is made for all traversers, but if the output accepts the top dimension of the traverser,
different top indices must mean different indices into the output (`Splits`; a sufficient condition is
`C34_top_dimension_splits`). Otherwise the claim is false, see `C34_shared_output_races`. -/
theorem C34_reduction_is_sequential_partial {α : Type} (t : Traverser) (R : Reducer α) (out : Struct) (E : Nat)
    (sts outs : List State) (m : Mem) (h : ReduceOk t R out E sts outs m)
    (hsplit : ∀ r, t.range .ideal = some r → (out.sem .ideal).sig.allAccept r.dim = true → Splits t r.dim) :
    ∃ m', callAll (R.accAt .ideal out) sts m = .ok m' ∧
      ∀ res, TbbReduce .ideal t R out m res → res = .ok m' := by
  obtain ⟨⟨z, N, hz, hN, hle, hb⟩, houts, hsts, hap, hnd, v, hrep⟩ := h.facts
  obtain ⟨m', e, hm'⟩ := accs_rep h.monoid hap sts hsts hrep
  refine ⟨m', e, ?_⟩
  intro res hres
  cases hres with
  | @shared r tree leaves threads xss _ hr hacc hl hp hx hrun =>
    have hperm := threads_perm hr h.uniq h.input hl hp hx
    have hmem : ∀ xs ∈ xss, ∀ st ∈ xs, st ∈ sts := fun xs hxs st hst =>
      hperm.subset (List.mem_flatten.2 ⟨xs, hxs, hst⟩)
    obtain ⟨m2, e2, h2⟩ := shared_rep (key := offOf out) (v := v) h.monoid hap hrun
      (by
        intro w hw
        obtain ⟨xs, hxs, rfl⟩ := List.mem_map.1 hw
        intro st hst
        exact hsts st (hmem xs hxs st (by simpa using hst)))
      (by
        rw [List.pairwise_map]
        refine List.Pairwise.imp_of_mem ?_ (threads_pairwise hr h.uniq hl hp hx (hsplit r hr hacc))
        intro xs ys hxs hys hxy st hst st' hst'
        simp only [Option.toList_none, List.map_nil, List.nil_append] at hst hst'
        have := h.apart hacc (hmem xs hxs st hst) (hmem ys hys st' hst') (hxy st hst st' hst')
        have := h.pos
        omega)
      hrep
      (by
        intro w hw st b e
        obtain ⟨xs, hxs, rfl⟩ := List.mem_map.1 hw
        cases e)
    rw [e2]
    congr 1
    refine h2.ext (hm'.congr fun k _ => ?_)
    rw [List.map_map]
    have : (xss.map ((fun w : Worker => w.held.toList.map Prod.fst ++ w.todo) ∘ fun xs => ⟨none, xs⟩)) = xss :=
      (List.map_congr_left (fun _ _ => rfl)).trans (List.map_id _)
    rw [this]
    exact (total_perm h.monoid hperm k _).symm
  | @copies r tree leaves threads xss outs' size n fresh hr hacc hl hp hx houts' hsz hn hlen hfresh =>
    have hperm := threads_perm hr h.uniq h.input hl hp hx
    rw [h.output.visits] at houts'; cases houts'
    rw [hz] at hsz; cases hsz
    rw [hN] at hn; cases hn
    have hxl : fresh.length = xss.length := by
      rw [hlen, mapM_states hx, List.length_map]
    obtain ⟨m2, e2, h2⟩ := combine_rep (key := offOf out) (v := v) h.monoid outs houts hap hnd (fresh.zip xss)
      (by
        intro fx hfx k hk
        rw [hfresh fx.1 (List.of_mem_zip hfx).1]
        exact hb k hk)
      (by
        intro fx hfx st hst
        exact hsts st (hperm.subset (List.mem_flatten.2 ⟨fx.2, (List.of_mem_zip hfx).2, hst⟩)))
      hrep
    rw [e2]
    congr 1
    refine h2.ext (hm'.congr fun k _ => ?_)
    rw [List.map_snd_zip (by omega)]
    exact (total_perm h.monoid hperm k _).symm

/-- C34: what the sequential accumulation leaves in memory: each element of the output is combined with
the inputs of the states that refer to it. -/
theorem C34_accumulated_values {α : Type} (t : Traverser) (R : Reducer α) (out : Struct) (E : Nat)
    (sts outs : List State) (m : Mem) (h : ReduceOk t R out E sts outs m) (m' : Mem)
    (hm : callAll (R.accAt .ideal out) sts m = .ok m') (o : State) (ho : o ∈ outs) (x : α)
    (hx : out.getAt .ideal m o = .ok (R.enc x)) :
    ∃ same : List State, (∀ st, st ∈ same ↔ st ∈ sts ∧ out.place .ideal st = out.place .ideal o) ∧
      same.Sublist sts ∧
      out.getAt .ideal m' o = .ok (R.enc (same.foldl (fun a st => R.op a (R.input st)) x)) := by
  obtain ⟨-, houts, hsts, hap, -, v, hrep⟩ := h.facts
  obtain ⟨m2, e, hm2⟩ := accs_rep h.monoid hap sts hsts hrep
  rw [hm] at e; cases e
  refine ⟨sts.filter fun st => decide (offOf out st = offOf out o), ?_, List.filter_sublist, ?_⟩
  · intro st
    rw [List.mem_filter, decide_eq_true_eq]
    refine and_congr_right fun hst => ?_
    rw [(hsts st hst).1, (houts o ho).1]
    simp
  · rw [get_rep hrep (houts o ho).1 (houts o ho).2] at hx
    rw [get_rep hm2 (houts o ho).1 (houts o ho).2]
    have : v (offOf out o) = x := by
      have := congrArg R.dec (Except.ok.inj hx)
      rwa [h.monoid.dec, h.monoid.dec] at this
    rw [this]
    rfl

/-- C34: if the output accepts the dimension in which the range is split (and so it is shared), what
different leaves of the split range write are disjoint bytes. Partial: with the hypothesis `Splits`, without
which this is false (`C34_shared_output_races`). -/
theorem C34_leaves_write_disjoint_bytes_partial {α : Type} (t : Traverser) (R : Reducer α) (out : Struct) (E : Nat)
    (sts outs : List State) (m : Mem) (h : ReduceOk t R out E sts outs m) (r : Range)
    (hr : t.range .ideal = some r) (hacc : (out.sem .ideal).sig.allAccept r.dim = true)
    (hsplit : Splits t r.dim) (tree : SplitTree) (leaves : List Range) (hl : tree.leaves r = some leaves) :
    leaves.Pairwise fun l l' => ∀ xs ys, l.forEach .ideal = some xs → l'.forEach .ideal = some ys →
      ∀ st ∈ xs, ∀ st' ∈ ys, ∃ k k', out.place .ideal st = .ok (k, E) ∧ out.place .ideal st' = .ok (k', E) ∧
        (k + E ≤ k' ∨ k' + E ≤ k) := by
  obtain ⟨-, houts, hsts, hap, -⟩ := h.facts
  obtain ⟨l, s, v, h1, h2, h3, h4, h5, h6⟩ := Traverser.range_eq hr
  have hlr := leaves_ranges tree r (by omega) leaves hl
  obtain ⟨parts, hparts, hf, -⟩ := C33_parallel_for_each t r hr h.uniq sts h.input tree leaves hl
  have hmem : ∀ l ∈ leaves, ∀ xs, l.forEach .ideal = some xs → ∀ st ∈ xs, st ∈ sts := by
    intro l hll xs hxs st hst
    have : some xs ∈ parts.map some := by
      rw [← hparts, ← hxs]; exact List.mem_map_of_mem hll
    obtain ⟨ys, hys, e⟩ := List.mem_map.1 this
    cases e
    rw [← hf]
    exact List.mem_flatten.2 ⟨_, hys, hst⟩
  refine List.Pairwise.imp_of_mem ?_ hlr.2
  intro p p' hp hp' hle xs ys hxs hys st hst st' hst'
  have m1 := hmem p hp xs hxs st hst
  have m2 := hmem p' hp' ys hys st' hst'
  refine ⟨_, _, (hsts st m1).1, (hsts st' m2).1, h.apart hacc m1 m2 ?_⟩
  obtain ⟨g1, g2, g3, -⟩ := hlr.1 p hp
  obtain ⟨g1', g2', g3', -⟩ := hlr.1 p' hp'
  obtain ⟨i, i1, i2, xs', hxs', hsx⟩ := p.states_mem h1 h.uniq h2 g1 (g2.trans h5) (g3.trans h6) (st := st)
    (by rw [Range.states, hxs]; exact hst)
  obtain ⟨j, j1, j2, ys', hys', hsy⟩ := p'.states_mem h1 h.uniq h2 g1' (g2'.trans h5) (g3'.trans h6) (st := st')
    (by rw [Range.states, hys]; exact hst')
  exact hsplit i j (by omega) xs' ys' hxs' hys' st hsx st' hsy

/-! ### When different top indices are different indices of the output -/

/-- The view does not change the index in the dimension `d`, or only by a translation or a stride. -/
def View.spreads (d : Dim) : View → Prop
  | .shift e a => e ≠ d ∨ ∃ n, a.Num n
  | .slice e a _ => e ≠ d ∨ ∃ n, a.Num n
  | .span e a _ => e ≠ d ∨ ∃ n, a.Num n
  | .step e a k => e ≠ d ∨ ∃ n m, a.Num n ∧ k.Num m ∧ m ≠ 0
  | v => d ∉ v.dims

private theorem spreads_idx {d : Dim} {v : View} (hv : v.spreads d) :
    ∃ f : Nat → Nat, (∀ i j, f i = f j → i = j) ∧ ∀ (S : Sem) (st u : State) (x : Val) (i : Nat),
      (v.sem .ideal S).sub st = some u → st (.idx d) = some x → x.Num i →
      ∃ y, u (.idx d) = some y ∧ y.Num (f i) := by
  have other : d ∉ v.dims → ∃ f : Nat → Nat, (∀ i j, f i = f j → i = j) ∧
      ∀ (S : Sem) (st u : State) (x : Val) (i : Nat),
      (v.sem .ideal S).sub st = some u → st (.idx d) = some x → x.Num i →
      ∃ y, u (.idx d) = some y ∧ y.Num (f i) := fun hd =>
    ⟨id, fun _ _ h => h, fun S st u x i hu hx hi => ⟨x, by rw [sub_idx hd hu, hx], hi⟩⟩
  have add : ∀ a n, a.Num n → ∀ (x : Val) (i : Nat), x.Num i → (x.add .ideal a).Num (i + n) := by
    intro a n ha x i hi
    exact Val.nat?_add.2 ⟨i, n, hi, ha, rfl⟩
  cases v with
  | shift e a =>
    by_cases he : e = d
    · subst he
      obtain ⟨n, hn⟩ := hv.resolve_left (fun h => h rfl)
      refine ⟨(· + n), fun i j h => by simpa using h, fun S st u x i hu hx hi => ?_⟩
      cases hu
      exact ⟨x.add .ideal a, by simp [State.mapAt, hx], add a n hn x i hi⟩
    · exact other (by simpa [View.dims] using Ne.symm he)
  | slice e a b =>
    by_cases he : e = d
    · subst he
      obtain ⟨n, hn⟩ := hv.resolve_left (fun h => h rfl)
      refine ⟨(· + n), fun i j h => by simpa using h, fun S st u x i hu hx hi => ?_⟩
      cases hu
      exact ⟨x.add .ideal a, by simp [State.mapAt, hx], add a n hn x i hi⟩
    · exact other (by simpa [View.dims] using Ne.symm he)
  | span e a b =>
    by_cases he : e = d
    · subst he
      obtain ⟨n, hn⟩ := hv.resolve_left (fun h => h rfl)
      refine ⟨(· + n), fun i j h => by simpa using h, fun S st u x i hu hx hi => ?_⟩
      cases hu
      exact ⟨x.add .ideal a, by simp [State.mapAt, hx], add a n hn x i hi⟩
    · exact other (by simpa [View.dims] using Ne.symm he)
  | step e a b =>
    by_cases he : e = d
    · subst he
      obtain ⟨n, m, hn, hm, h0⟩ := hv.resolve_left (fun h => h rfl)
      refine ⟨fun i => i * m + n, fun i j h => ?_, fun S st u x i hu hx hi => ?_⟩
      · exact Nat.eq_of_mul_eq_mul_right (by omega) (Nat.add_right_cancel h)
      cases hu
      refine ⟨(x.mul .ideal b).add .ideal a, by simp [State.mapAt, hx], add a n hn _ _ ?_⟩
      exact Val.nat?_mul.2 ⟨i, m, hi, hm, rfl⟩
    · exact other (by simpa [View.dims] using Ne.symm he)
  | _ => exact other hv

private theorem spreads_all (d : Dim) (s : Struct) (vs : List View) (hv : ∀ v ∈ vs, v.spreads d) :
    ∃ f : Nat → Nat, (∀ i j, f i = f j → i = j) ∧ ∀ (st u : State) (x : Val) (i : Nat),
      stateAt .ideal s vs st = some u → st (.idx d) = some x → x.Num i →
      ∃ y, u (.idx d) = some y ∧ y.Num (f i) := by
  induction vs generalizing s with
  | nil =>
    exact ⟨id, fun _ _ h => h, fun st u x i hu hx hi => ⟨x, by cases hu; exact hx, hi⟩⟩
  | cons v vs ih =>
    obtain ⟨f, hf, h⟩ := spreads_idx (hv v (List.mem_cons_self ..))
    obtain ⟨g, hg, h'⟩ := ih (.view v s) fun w hw => hv w (List.mem_cons_of_mem _ hw)
    refine ⟨f ∘ g, fun i j e => hg _ _ (hf _ _ e), fun st u x i hu hx hi => ?_⟩
    simp only [stateAt, bind, Option.bind_eq_some_iff] at hu
    obtain ⟨w, hw, hu⟩ := hu
    obtain ⟨y, hy, hn⟩ := h' st w x i hw hx hi
    exact h _ w u y _ hu hy hn

/-- C34: if the order of the traverser leaves the top dimension as it is in the traversed structure, or
translates it, or takes every k-th index, then different top indices are different indices of the visited
states, and the output can be shared. -/
theorem C34_top_dimension_splits (t : Traverser) (r : Range) (hr : t.range .ideal = some r)
    (hu : (t.top.sem .ideal).sig.uniq) (hv : ∀ v ∈ t.views, v.spreads r.dim) : Splits t r.dim := by
  obtain ⟨l, s, v, h1, -⟩ := Traverser.range_eq hr
  obtain ⟨f, hf, h⟩ := spreads_all r.dim t.base t.views hv
  have key : ∀ i xs, (t.order [.fix r.dim (.dyn i)]).forEach .ideal [] = some xs → ∀ st ∈ xs,
      ∃ y, st (.idx r.dim) = some y ∧ y.Num (f i) := by
    intro i xs hx st hst
    have hsig : ((t.order [.fix r.dim (.dyn i)]).top.sem .ideal).sig = s := by
      simp [Traverser.order, Traverser.top, Struct.apply_append, Struct.apply, Struct.sem, View.sem, ViewSem.toSem,
        fixSem]
      have : (t.base.apply t.views).sem .ideal = t.top.sem .ideal := rfl
      rw [this, h1]
      simp [Sig.replace, Sig.fixRepl]
    have hu' : ((t.order [.fix r.dim (.dyn i)]).top.sem .ideal).sig.uniq := by
      rw [hsig]; rw [h1] at hu; exact hu.2
    obtain ⟨ps, -, h2⟩ := forEach_states hu' hx
    have : some st ∈ xs.map some := List.mem_map_of_mem hst
    rw [h2] at this
    obtain ⟨p, -, hp⟩ := List.mem_map.1 this
    simp only [Traverser.order, stateAt_append, Option.bind_eq_some_iff] at hp
    obtain ⟨w, hw, hp⟩ := hp
    simp only [stateAt, bind, Option.bind_some] at hw
    cases hw
    exact h _ st (.dyn i) i hp (by simp [State.set]) rfl
  intro i j hij xs ys hx hy st hst st' hst'
  rintro ⟨a, b, n, g1, g2, g3, g4⟩
  obtain ⟨y, e1, e2⟩ := key i xs hx st hst
  obtain ⟨y', e1', e2'⟩ := key j ys hy st' hst'
  rw [e1] at g1; cases g1
  rw [e1'] at g2; cases g2
  exact hij (hf _ _ ((Val.Num.eq e2 g3).trans (Val.Num.eq g4 e2')))

/-! ### Examples -/

/-- Counting: bytes with addition. -/
def c34Reducer : Reducer UInt8 := ⟨0, (· + ·), fun _ => 1, fun x => [x], fun b => b.headD 0⟩

theorem c34Reducer_ok : c34Reducer.Ok 1 where
  assoc := UInt8.add_assoc
  comm := UInt8.add_comm
  neut := UInt8.zero_add
  length _ := rfl
  dec _ := rfl

/-- A matrix of 2 rows (dimension 1) and 3 columns (dimension 0) ... -/
def c34Input : Traverser :=
  ⟨.apply (.vector 1 (.vector 0 (.scalar 4 4))) [.setLength 0 (.dyn 3), .setLength 1 (.dyn 2)], []⟩

/-- ... reduced to one byte per row, or per column. -/
def c34Out (d : Dim) (n : Nat) : Struct := .apply (.vector d (.scalar 1 1)) [.setLength d (.dyn n)]

theorem c34Out_sound (d : Dim) (n : Nat) : (c34Out d n).Sound := by
  refine ⟨?_, ?_, ?_, ?_, ?_⟩
  · refine ⟨?_, ?_, trivial⟩
    · simp [Struct.sem, View.sem, ViewSem.toSem, vectorSem, setLengthSem, scalarSem, Sig.anyAccept, Sig.replace,
        Sig.setLengthRepl, Sig.wf]
    · simp [Struct.sem, vectorSem, scalarSem, Sig.anyAccept, Sig.wf]
  all_goals simp [c34Out, Struct.apply, Struct.noAlias, Struct.tame, View.tame, Struct.sane, Struct.exact, View.exact]

/-- `Feeds` for these outputs, as something that can be computed. -/
def c34Check (d : Dim) (n : Nat) (st o : State) : Bool :=
  (((c34Out d n).place .ideal st).toOption == ((c34Out d n).place .ideal o).toOption) &&
  ((c34Out d n).place .ideal o).toOption.isSome &&
  ((st (.idx d)).bind Val.nat? == (o (.idx d)).bind Val.nat?) && ((o (.idx d)).bind Val.nat?).isSome

theorem c34Feeds {d : Dim} {n : Nat} {outs : List State} {st : State}
    (h : outs.any fun o => c34Check d n st o) : Feeds (c34Out d n) outs st := by
  obtain ⟨o, ho, h⟩ := List.any_eq_true.1 h
  simp only [c34Check, Bool.and_eq_true, beq_iff_eq] at h
  obtain ⟨⟨⟨h1, h2⟩, h3⟩, h4⟩ := h
  refine ⟨o, ho, ?_, ?_⟩
  · cases e : (c34Out d n).place .ideal o with
    | error x => rw [e] at h2; cases h2
    | ok p =>
      cases e' : (c34Out d n).place .ideal st with
      | error x => rw [e, e'] at h1; cases h1
      | ok p' =>
        rw [e, e'] at h1
        cases h1; rfl
  · intro q hq
    have : q = d := by
      simpa [c34Out, Struct.apply, Struct.sem, View.sem, ViewSem.toSem, vectorSem, setLengthSem, scalarSem,
        Sig.anyAccept, Sig.replace, Sig.setLengthRepl, Sig.needs] using hq
    subst this
    obtain ⟨k, hk⟩ := Option.isSome_iff_exists.1 h4
    rw [hk] at h3
    simp only [Option.bind_eq_some_iff] at h3 hk
    obtain ⟨a, ha, ha'⟩ := h3
    obtain ⟨b, hb, hb'⟩ := hk
    exact ⟨a, b, k, ha, hb, ha', hb'⟩

theorem c34Out_traversed (d : Dim) (n : Nat) (outs : List State)
    (h : (Traverser.mk (c34Out d n) []).forEach .ideal [] = some outs)
    (hs : ∀ st ∈ outs, (((c34Out d n).sem .ideal).size st).isSome)
    (ho : ∀ st ∈ outs, (((c34Out d n).sem .ideal).off st (.lit 0)).isSome) : Traversed (c34Out d n) outs := by
  refine ⟨trivial, ?_, h, ?_, hs, ho⟩
  · intro q _ hq
    simp [c34Out, Struct.apply, Struct.hard, View.hard] at hq
  · intro st _ u _
    exact ⟨trivial, trivial⟩

theorem c34Init {out : Struct} {m : Mem} {o : State}
    (h : ((out.getAt .ideal m o).toOption.map List.length) = some 1) :
    ∃ x, out.getAt .ideal m o = .ok (c34Reducer.enc x) := by
  cases e : out.getAt .ideal m o with
  | error x => rw [e] at h; cases h
  | ok b =>
    rw [e] at h
    match b, h with
    | [x], _ => exact ⟨x, rfl⟩

/-- The hypotheses hold for both outputs: the output by rows is shared, that by columns is not. -/
theorem c34Example : ∃ sts outs outs', sts.length = 6 ∧ outs.length = 2 ∧ outs'.length = 3 ∧
    ReduceOk c34Input c34Reducer (c34Out 1 2) 1 sts outs [5, 6] ∧
    ReduceOk c34Input c34Reducer (c34Out 0 3) 1 sts outs' [5, 6, 7] := by
  refine ⟨(c34Input.forEach .ideal []).getD [], ((Traverser.mk (c34Out 1 2) []).forEach .ideal []).getD [],
    ((Traverser.mk (c34Out 0 3) []).forEach .ideal []).getD [], by decide, by decide, by decide, ?_, ?_⟩
  · refine ⟨rfl, ⟨rfl, rfl, trivial⟩, c34Out_sound 1 2, c34Out_traversed 1 2 _ rfl (by decide) (by decide),
      by decide, by decide, c34Reducer_ok, ?_, ⟨_, _, rfl, rfl, by decide⟩, ?_⟩
    · intro st hst
      apply c34Feeds
      revert st
      decide
    · intro o ho
      apply c34Init
      revert o
      decide
  · refine ⟨rfl, ⟨rfl, rfl, trivial⟩, c34Out_sound 0 3, c34Out_traversed 0 3 _ rfl (by decide) (by decide),
      by decide, by decide, c34Reducer_ok, ?_, ⟨_, _, rfl, rfl, by decide⟩, ?_⟩
    · intro st hst
      apply c34Feeds
      revert st
      decide
    · intro o ho
      apply c34Init
      revert o
      decide

example : ((c34Out 1 2).sem .ideal).sig.allAccept 1 = true := rfl
example : ((c34Out 0 3).sem .ideal).sig.allAccept 1 = false := rfl
example : ∃ r, c34Input.range .ideal = some r ∧ r.dim = 1 ∧ Splits c34Input r.dim :=
  ⟨_, rfl, rfl, C34_top_dimension_splits c34Input _ rfl ⟨rfl, rfl, trivial⟩ (by simp [c34Input])⟩

deriving instance DecidableEq for Except

/-! ### The output is shared although threads update the same elements -/

/-- A 2 by 2 matrix whose rows (dimension 1) and columns are merged into one dimension that is again
called 1 ... -/
def c34Merged : Traverser :=
  ⟨.apply (.vector 1 (.vector 0 (.scalar 4 4))) [.setLength 0 (.dyn 2), .setLength 1 (.dyn 2)],
    [.mergeBlocks 1 0 1]⟩

/-- C34: `tbb_reduce` shares the output if it has a dimension with the *name* of the top dimension of the
traverser. If the order of the traverser has given this name a different meaning, as
`order(merge_blocks<'x', 'y', 'x'>())` does, threads with different top indices update the same element,
and the result depends on the schedule: here, of the four updates of two counters, one is lost. All other
hypotheses of `C34_reduction_is_sequential_partial` hold. -/
theorem C34_shared_output_races : ∃ sts outs m',
    ReduceOk c34Merged c34Reducer (c34Out 1 2) 1 sts outs [0, 0] ∧
    callAll (c34Reducer.accAt .ideal (c34Out 1 2)) sts [0, 0] = .ok m' ∧
    ∃ res, TbbReduce .ideal c34Merged c34Reducer (c34Out 1 2) [0, 0] res ∧ res ≠ .ok m' := by
  refine ⟨(c34Merged.forEach .ideal []).getD [], ((Traverser.mk (c34Out 1 2) []).forEach .ideal []).getD [],
    [2, 2], ?_, rfl, .ok [1, 2], ?_, ?_⟩
  · refine ⟨rfl, ⟨rfl, trivial⟩, c34Out_sound 1 2, c34Out_traversed 1 2 _ rfl (by decide) (by decide),
      by decide, by decide, c34Reducer_ok, ?_, ⟨_, _, rfl, rfl, by decide⟩, ?_⟩
    · intro st hst
      apply c34Feeds
      revert st
      decide
    · intro o ho
      apply c34Init
      revert o
      decide
  · have hr : c34Merged.range .ideal = some ⟨1, c34Merged.base, c34Merged.views, 0, 4⟩ := rfl
    let l (i : Nat) : Range := ⟨1, c34Merged.base, c34Merged.views, i, i + 1⟩
    refine .shared (tree := .node (.node .leaf .leaf) (.node .leaf .leaf)) (threads := [[l 0], [l 1], [l 2], [l 3]])
      hr rfl rfl (.refl _) rfl ?_
    refine .read (pre := []) (b := [0]) (by decide) (.read (pre := [_]) (b := [0]) (by decide) ?_)
    refine .write (pre := []) (m' := [1, 0]) (by decide) (.write (pre := [_]) (m' := [1, 0]) (by decide) ?_)
    refine .read (pre := [_, _]) (b := [0]) (by decide) (.write (pre := [_, _]) (m' := [1, 1]) (by decide) ?_)
    refine .read (pre := [_, _, _]) (b := [1]) (by decide) (.write (pre := [_, _, _]) (m' := [1, 2]) (by decide) ?_)
    exact .done (by simp)
  · intro h; cases h

/-- A run with private copies, made of memory with arbitrary contents: the rows of the matrix of 2 rows and
3 columns are added up by two threads, the second of which gets the first row. -/
example : TbbReduce .ideal c34Input c34Reducer (c34Out 0 3) [5, 6, 7] (.ok [7, 8, 9]) := by
  let l (i : Nat) : Range := ⟨1, c34Input.base, c34Input.views, i, i + 1⟩
  have h := TbbReduce.copies (A := .ideal) (t := c34Input) (R := c34Reducer) (out := c34Out 0 3) (m := [5, 6, 7])
    (r := ⟨1, c34Input.base, c34Input.views, 0, 2⟩) (tree := .node .leaf .leaf) (leaves := [l 0, l 1])
    (threads := [[l 1], [l 0]]) (fresh := [[1, 2, 3], [0, 255, 0]]) rfl rfl rfl (List.Perm.swap ..) rfl rfl rfl rfl
    rfl (by decide)
  exact h

end Noarr
