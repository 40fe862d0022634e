import Verif.OrderLemmas
import Verif.SelectMore
import Verif.FlatViews
import Verif.Cuda
import Verif.PlannerLemmas

/-
Lemmas about threads that share a traversal by `step`.
-/

namespace Noarr

section
variable {d : Dim} {a k : Val}

theorem Sig.step_same {S : Sig} (hd : ¬ S.hasDep d) :
    (S.replace (Sig.stepRepl a k) [d]).wf = S.wf ∧
    ∀ q, (S.replace (Sig.stepRepl a k) [d]).anyAccept q = S.anyAccept q := by
  induction S with
  | scalar s => exact ⟨rfl, fun _ => rfl⟩
  | void => exact ⟨rfl, fun _ => rfl⟩
  | ill => exact ⟨rfl, fun _ => rfl⟩
  | fn e l r ih =>
    obtain ⟨h1, h2⟩ := ih hd
    by_cases he : e = d
    · subst he; simp [Sig.replace, Sig.stepRepl, Sig.wf, Sig.anyAccept]
    · simp [Sig.replace, he, Sig.wf, Sig.anyAccept, h1, h2]
  | dep e n rs ih =>
    simp only [Sig.hasDep, not_or, not_exists] at hd
    simp [Sig.replace, Ne.symm hd.1, Sig.wf, Sig.anyAccept, fun i => (ih i (hd.2 i)).1,
      fun i => (ih i (hd.2 i)).2]

theorem Sig.step_uniq {S : Sig} (hd : ¬ S.hasDep d) (hu : S.uniq) : (S.replace (Sig.stepRepl a k) [d]).uniq := by
  induction S with
  | scalar s => trivial
  | void => trivial
  | ill => trivial
  | fn e l r ih =>
    by_cases he : e = d
    · subst he; simpa [Sig.replace, Sig.stepRepl, Sig.uniq] using hu
    · simp only [Sig.replace, List.mem_singleton, he, if_false, Sig.uniq]
      exact ⟨by rw [(Sig.step_same (S := r) hd).2]; exact hu.1, ih hd hu.2⟩
  | dep e n rs ih =>
    simp only [Sig.hasDep, not_or, not_exists] at hd
    simp only [Sig.replace, List.mem_singleton, Ne.symm hd.1, if_false, Sig.uniq]
    exact fun i => ⟨by rw [(Sig.step_same (hd.2 i)).2]; exact (hu i).1, ih i (hd.2 i) (hu i).2⟩

theorem Sig.entry_step {S : Sig} (hd : ¬ S.hasDep d) {st : State} {q : Dim} {o : Option Nat} :
    (S.replace (Sig.stepRepl a k) [d]).entry st q o ↔ S.entry st q o := by
  induction S with
  | scalar s => exact Iff.rfl
  | void => exact Iff.rfl
  | ill => exact Iff.rfl
  | fn e l r ih =>
    by_cases he : e = d
    · subst he; simp [Sig.replace, Sig.stepRepl, Sig.entry]
    · simp only [Sig.replace, List.mem_singleton, he, if_false, Sig.entry, ih hd]
  | dep e n rs ih =>
    simp only [Sig.hasDep, not_or, not_exists] at hd
    simp only [Sig.replace, List.mem_singleton, Ne.symm hd.1, if_false, Sig.entry, fun k => ih k (hd.2 k)]

theorem Sig.entry_stepped {S : Sig} (hd : ¬ S.hasDep d) {st u : State} (hs : ∀ e, e ≠ d → st (.idx e) = u (.idx e))
    {q : Dim} {o : Option Nat} : S.entry st q o ↔ S.entry u q o := by
  induction S with
  | scalar s => exact Iff.rfl
  | void => exact Iff.rfl
  | ill => exact Iff.rfl
  | fn e l r ih => simp only [Sig.entry, ih hd]
  | dep e n rs ih =>
    simp only [Sig.hasDep, not_or, not_exists] at hd
    simp only [Sig.entry, hs e (Ne.symm hd.1), fun k => ih k (hd.2 k)]

theorem lengthsKnown_iff {S : Sem} (hu : S.sig.uniq) {st : State} :
    LengthsKnown S st ↔ ∀ q, S.sig.entry st q none → (S.len q (st.remove (.idx q))).isSome := by
  constructor
  · intro h q hq
    refine h q (Sig.needs_iff_entry.2 ⟨_, hq⟩) fun d n rs he => ?_
    obtain ⟨l, r, hf⟩ := (Sig.find_entry hu hq).1 rfl
    rw [he] at hf; cases hf
  · intro h q hq hne
    obtain ⟨o, ho⟩ := Sig.needs_iff_entry.1 hq
    cases o with
    | none => exact h q ho
    | some n =>
      obtain ⟨rs, hf⟩ := (Sig.find_entry hu ho).2 n rfl
      exact absurd hf (hne _ _ _)

variable {s : Struct}

theorem lengthsKnown_step (hd : ¬ (s.sem .ideal).sig.hasDep d) (hu : (s.sem .ideal).sig.uniq)
    (hl : ∀ st, (∀ q, st (.len q) = none) → LengthsKnown (s.sem .ideal) st) {st : State}
    (hst : ∀ q, st (.len q) = none) : LengthsKnown ((Struct.view (.step d a k) s).sem .ideal) st := by
  refine (lengthsKnown_iff (Sig.step_uniq hd hu)).2 fun q hq => ?_
  replace hq : (s.sem .ideal).sig.entry st q none := (Sig.entry_step hd).1 hq
  by_cases e : q = d
  · subst e
    have h1 := (lengthsKnown_iff hu).1 (hl st hst) q hq
    obtain ⟨l, h1⟩ := Option.isSome_iff_exists.1 h1
    have h0 : (st.remove (.idx q)) (.idx q) = none := by simp [State.remove]
    simp [Struct.sem, ViewSem.toSem, View.sem, stepSem, mapAt_none h0, Struct.hasLen_of_len h1, h1, guardLen]
  · let u := st.mapAt (.idx d) (fun i => (i.mul .ideal k).add .ideal a)
    have hu' : ∀ e, e ≠ d → st (.idx e) = u (.idx e) := fun e he => by simp [u, State.mapAt, he]
    have h1 := (lengthsKnown_iff hu).1 (hl u (fun q => by simp [u, State.mapAt, hst])) q
      ((Sig.entry_stepped hd hu').1 hq)
    obtain ⟨l, h1⟩ := Option.isSome_iff_exists.1 h1
    have h2 : (st.remove (.idx q)).mapAt (.idx d) (fun i => (i.mul .ideal k).add .ideal a) = u.remove (.idx q) := by
      funext t
      by_cases ht : t = .idx d
      · subst ht; simp [u, State.mapAt, State.remove, Ne.symm e]
      · simp [u, State.mapAt, State.remove, ht]
    simp [Struct.sem, ViewSem.toSem, View.sem, stepSem, h2, Struct.hasLen_of_len h1, h1, guardLen, e]

theorem nodup_flatten_of {α : Type} {xss : List (List α)} (h1 : ∀ xs ∈ xss, xs.Nodup)
    (h2 : xss.Pairwise fun xs ys => ∀ x ∈ xs, x ∉ ys) : xss.flatten.Nodup := by
  refine List.pairwise_flatten.2 ⟨h1, h2.imp ?_⟩
  intro xs ys h x hx y hy e
  subst e
  exact h x hx hy

/-- What the thread `r` of `n` threads visits: the indices that are `r` modulo `n`. -/
theorem step_states {n : Nat} (hn : 0 < n) (ht : s.tame) (hf : s.firm fun _ => false) (hw : s.wf .ideal)
    (hd : s.noDup .ideal) (hm : s.unmixed .ideal) (hdep : ¬ (s.sem .ideal).sig.hasDep d)
    (hall : (s.sem .ideal).sig.allAccept d = true)
    (hl : ∀ st, (∀ q, st (.len q) = none) → LengthsKnown (s.sem .ideal) st) (r : Nat) (xs : List State)
    (hx : (Traverser.mk s [cudaStep d r n]).forEach .ideal [] = some xs) :
    xs.Nodup ∧ ∀ u, u ∈ xs ↔ Addresses (s.sem .ideal) u ∧ ∃ i j, u (.idx d) = some (.dyn i) ∧ i = j * n + r := by
  have hu := hd.uniq
  have hwv : ((Struct.view (cudaStep d r n) s).sem .ideal).sig.wf = true := by
    rw [show ((Struct.view (cudaStep d r n) s).sem .ideal).sig = _ from rfl]
    exact ((Sig.step_same hdep).1).trans hw.sig
  have huv : ((Struct.view (cudaStep d r n) s).sem .ideal).sig.uniq := Sig.step_uniq hdep hu
  have hadm : OrderAdmits .ideal (fun _ => none) s [cudaStep d r n] :=
    ⟨⟨hdep, r, n, rfl, rfl, hn⟩, hm, trivial⟩
  have hflat := forEach_order (s := s) (vs := [cudaStep d r n]) ⟨ht, trivial⟩ hf ⟨hwv, hw⟩ ⟨huv, hd⟩ hadm
    (fun p hp => lengthsKnown_step hdep hu hl (fun q => by
      rw [Path.state_len]; rfl)) hx
  refine ⟨hflat.1, fun u => ?_⟩
  rw [hflat.2 u]
  have sel := select_step (L := fun _ => none) (a := .dyn r) (n := .dyn n) (d := d) (s := s) ⟨ht, trivial⟩ hu huv hm
    hwv hdep rfl rfl hn
  constructor
  · rintro ⟨h1, h2, -⟩
    have h1 : Addresses (s.sem .ideal) u := addressesWith_none.1 h1
    have h3 := (addr_iff hu).2 h1
    obtain ⟨o, ho⟩ := Sig.entry_of_allAccept hall fun e n _ he => h3.ok e _ he
    cases o with
    | some m => exact absurd ho (nodep_entry hdep u m)
    | none =>
      obtain ⟨i, l, m, hi, -⟩ := h3.ok d _ ho
      obtain ⟨j, hj⟩ := h2 i r n hi rfl rfl
      exact ⟨h1, i, j, hi, hj⟩
  · rintro ⟨h1, i, j, hi, rfl⟩
    obtain ⟨st, h2, h3⟩ := sel.bwd u ((addr_iff hu).2 h1) (fun i' hi' => by
      rw [hi] at hi'; cases hi'; exact ⟨j, rfl⟩)
    refine ⟨addressesWith_none.2 h1, fun i' x y hi' hx hy => ?_, st, (addr_iff' huv).1 h2, h3, trivial⟩
    rw [hi] at hi'; cases hi'
    cases hx; cases hy
    exact ⟨j, rfl⟩

/-- Threads with steps of a common stride visit what a single traversal visits. -/
theorem step_share {n : Nat} (hn : 0 < n) (ht : s.tame) (hf : s.firm fun _ => false) (hw : s.wf .ideal)
    (hd : s.noDup .ideal) (hm : s.unmixed .ideal) (hdep : ¬ (s.sem .ideal).sig.hasDep d)
    (hall : (s.sem .ideal).sig.allAccept d = true)
    (hl : ∀ st, (∀ q, st (.len q) = none) → LengthsKnown (s.sem .ideal) st) {xss : List (List State)}
    (h : (List.range n).mapM (fun r => (Traverser.mk s [cudaStep d r n]).forEach .ideal []) = some xss)
    {sts : List State} (hs : (Traverser.mk s []).forEach .ideal [] = some sts) : xss.flatten.Perm sts := by
  have hu := hd.uniq
  have hv : ∀ r : Nat, (s.apply [cudaStep d r n]) = .view (cudaStep d r n) s := fun _ => rfl
  have H := step_states hn ht hf hw hd hm hdep hall hl
  have hxs := mapM_some h
  have hS : sts.Nodup ∧ ∀ u, u ∈ sts ↔ Addresses (s.sem .ideal) u := by
    have := forEach_order (s := s) (vs := []) ht hf hw hd trivial
      (fun p hp => hl _ fun q => by rw [Path.state_len]; rfl) hs
    refine ⟨this.1, fun u => (this.2 u).trans ?_⟩
    rw [← addressesWith_none]
    exact ⟨fun h => h.1, fun h => ⟨h, trivial⟩⟩
  have hget : ∀ xs ∈ xss, ∃ r, r < n ∧ (Traverser.mk s [cudaStep d r n]).forEach .ideal [] = some xs := by
    intro xs hx
    have : some xs ∈ xss.map some := List.mem_map.2 ⟨_, hx, rfl⟩
    rw [hxs] at this
    obtain ⟨r, hr, e⟩ := List.mem_map.1 this
    exact ⟨r, List.mem_range.1 hr, e⟩
  refine perm_of_nodup (nodup_flatten_of (fun xs hx => ?_) ?_) hS.1 fun u => ?_
  · obtain ⟨r, -, e⟩ := hget xs hx; exact (H r xs e).1
  · have : (xss.map some).Pairwise fun a b => ∀ xs ys, a = some xs → b = some ys → ∀ x ∈ xs, x ∉ ys := by
      rw [hxs]
      refine List.pairwise_map.2 ((List.pairwise_lt_range (n := n)).imp_of_mem ?_)
      intro r r' hr hr' hlt xs ys e e' x hx hy
      obtain ⟨-, i, j, hi, h1⟩ := ((H r xs e).2 x).1 hx
      obtain ⟨-, i', j', hi', h2⟩ := ((H r' ys e').2 x).1 hy
      rw [hi] at hi'; cases hi'
      have hr := List.mem_range.1 hr
      have hr' := List.mem_range.1 hr'
      have e1 : i % n = r := by rw [h1, Nat.mul_comm, Nat.mul_add_mod, Nat.mod_eq_of_lt hr]
      have e2 : i % n = r' := by rw [h2, Nat.mul_comm, Nat.mul_add_mod, Nat.mod_eq_of_lt hr']
      omega
    exact (List.pairwise_map.1 this).imp fun h => h _ _ rfl rfl
  · rw [hS.2, List.mem_flatten]
    constructor
    · rintro ⟨xs, hx, hu⟩
      obtain ⟨r, -, e⟩ := hget xs hx
      exact (((H r xs e).2 u).1 hu).1
    · intro h1
      have h3 := (addr_iff hu).2 h1
      obtain ⟨o, ho⟩ := Sig.entry_of_allAccept hall fun e n _ he => h3.ok e _ he
      cases o with
      | some m => exact absurd ho (nodep_entry hdep u m)
      | none =>
        obtain ⟨i, l, m, hi, -⟩ := h3.ok d _ ho
        have hr : i % n < n := Nat.mod_lt _ hn
        have : (Traverser.mk s [cudaStep d (i % n) n]).forEach .ideal [] ∈ xss.map some := by
          rw [hxs]; exact List.mem_map.2 ⟨i % n, List.mem_range.2 hr, rfl⟩
        obtain ⟨xs, hx, e⟩ := List.mem_map.1 this
        refine ⟨xs, hx, ((H _ xs e.symm).2 u).2 ⟨h1, i, i / n, hi, ?_⟩⟩
        rw [Nat.mul_comm, Nat.div_add_mod]

end

theorem forEach_order_one (A : Arith) (t : Traverser) (v : View) :
    (t.order [v]).forEach A [] = ((Traverser.mk t.top [v]).forEach A []).bind
      fun sts => sts.mapM (stateAt A t.base t.views) := by
  rw [forEach_top A (t.order [v]), forEach_top A (Traverser.mk t.top [v])]
  have h1 : (t.order [v]).top = (Traverser.mk t.top [v]).top := by
    simp [Traverser.order, Traverser.top, Struct.apply_append]
  rw [h1, Option.bind_assoc]
  congr 1
  funext sts
  have h2 : stateAt A (t.order [v]).base (t.order [v]).views =
      fun st => (stateAt A t.top [v] st).bind (stateAt A t.base t.views) := by
    funext st
    exact stateAt_append A t.base t.views [v] st
  rw [h2]
  exact mapM_bind _ _ _

/-- `step_share` below the views of a traverser. -/
theorem step_share_views {t : Traverser} {d : Dim} {n : Nat} (hn : 0 < n) (ht : t.top.tame)
    (hf : t.top.firm fun _ => false) (hw : t.top.wf .ideal) (hd : t.top.noDup .ideal) (hm : t.top.unmixed .ideal)
    (hdep : ¬ (t.top.sem .ideal).sig.hasDep d) (hall : (t.top.sem .ideal).sig.allAccept d = true)
    (hl : ∀ st, (∀ q, st (.len q) = none) → LengthsKnown (t.top.sem .ideal) st) {xss : List (List State)}
    (h : (List.range n).mapM (fun r => (t.order [cudaStep d r n]).forEach .ideal []) = some xss)
    {sts : List State} (hs : t.forEach .ideal [] = some sts) : xss.flatten.Perm sts := by
  rw [forEach_top] at hs
  obtain ⟨us, h1, h2⟩ := Option.bind_eq_some_iff.1 hs
  simp only [forEach_order_one] at h
  rw [mapM_bind] at h
  obtain ⟨yss, h3, h4⟩ := Option.bind_eq_some_iff.1 h
  have hp := step_share hn ht hf hw hd hm hdep hall hl h3 h1
  exact mapM_perm hp (mapM_flatten (mapM_some h4).symm) h2

end Noarr
