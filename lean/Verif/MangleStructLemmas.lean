import Verif.MangleStructSpec
import Verif.LikeLemmas
import Verif.MachineZ

/-
Lemmas on the textual names of the structures of the model.
-/

namespace Noarr

theorem Descs.ofList_inj {a b : List Desc} (h : Descs.ofList a = Descs.ofList b) : a = b := by
  induction a generalizing b with
  | nil => cases b with
    | nil => rfl
    | cons => cases h
  | cons x a ih => cases b with
    | nil => cases h
    | cons y b => simp only [Descs.ofList, Descs.cons.injEq] at h; rw [h.1, ih h.2]

theorem Exprs.ofList_inj {a b : List Expr} (h : Exprs.ofList a = Exprs.ofList b) : a = b := by
  induction a generalizing b with
  | nil => cases b with
    | nil => rfl
    | cons => cases h
  | cons x a ih => cases b with
    | nil => cases h
    | cons y b => simp only [Exprs.ofList, Exprs.cons.injEq] at h; rw [h.1, ih h.2]

theorem Descs.ofList_ok {a : List Desc} (h : ∀ d ∈ a, d.ok) : (Descs.ofList a).ok := by
  induction a with
  | nil => trivial
  | cons x a ih => exact ⟨h x List.mem_cons_self, ih fun d hd => h d (List.mem_cons_of_mem _ hd)⟩

theorem Val.expr_inj {v v' : Val} {e : Expr} (h : v.expr = some e) (h' : v'.expr = some e) : v = v' := by
  cases v <;> cases v' <;> cases h <;> cases h' <;> rfl

theorem Val.exprs_inj {vs vs' : List Val} {es : List Expr} (h : vs.mapM Val.expr = some es)
    (h' : vs'.mapM Val.expr = some es) : vs = vs' := by
  obtain ⟨l, g⟩ := (mapM_eq_some_iff _ _ _).1 h
  obtain ⟨l', g'⟩ := (mapM_eq_some_iff _ _ _).1 h'
  refine List.ext_getElem (by omega) fun i h1 h2 => ?_
  exact Val.expr_inj (g i h1 (by omega)) (g' i h2 (by omega))

theorem pairs_inj {a b : List (Dim × Dim)} (h : (a.flatMap fun p => [p.1, p.2]) = b.flatMap fun p => [p.1, p.2]) :
    a = b := by
  induction a generalizing b with
  | nil => cases b with
    | nil => rfl
    | cons => simp at h
  | cons x a ih => cases b with
    | nil => simp at h
    | cons y b =>
      simp only [List.flatMap_cons, List.cons_append, List.nil_append, List.cons.injEq] at h
      rw [ih h.2.2, Prod.ext h.1 h.2.1]

theorem dims_inj {N : Names} (hN : ∀ d e, N.isChar d = true → N.isChar e = true → N.dim d = N.dim e → d = e)
    {a b : List Dim} (ha : ∀ d ∈ a, N.isChar d = true) (hb : ∀ d ∈ b, N.isChar d = true)
    (h : (a.map fun d => Desc.dim (N.dim d)) = b.map fun d => Desc.dim (N.dim d)) : a = b := by
  induction a generalizing b with
  | nil => cases b with
    | nil => rfl
    | cons => simp at h
  | cons x a ih => cases b with
    | nil => simp at h
    | cons y b =>
      simp only [List.map_cons, List.cons.injEq, Desc.dim.injEq] at h
      rw [ih (fun d hd => ha d (List.mem_cons_of_mem _ hd)) (fun d hd => hb d (List.mem_cons_of_mem _ hd)) h.2,
        hN _ _ (ha _ List.mem_cons_self) (hb _ List.mem_cons_self) h.1]

/-- The number of the kind of a view. -/
def View.code : View → Nat
  | .bcast _ => 0
  | .fix _ _ => 1
  | .setLength _ _ => 2
  | .shift _ _ => 3
  | .slice _ _ _ => 4
  | .span _ _ _ => 5
  | .step _ _ _ => 6
  | .reverse _ => 7
  | .reorder _ => 8
  | .hoist _ => 9
  | .rename _ => 10
  | .join _ _ _ => 11
  | .intoBlocks _ _ _ => 12
  | .intoBlocksDyn _ _ _ _ => 13
  | .intoBlocksStat _ _ _ _ _ => 14
  | .mergeBlocks _ _ _ => 15
  | .mergeZ _ _ _ _ => 16

def viewNames : List (List Char) :=
  ["bcast_t".toList, "fix_t".toList, "set_length_t".toList, "shift_t".toList, "slice_t".toList, "span_t".toList,
    "step_t".toList, "reverse_t".toList, "reorder_t".toList, "hoist_t".toList, "rename_t".toList, "join_t".toList,
    "into_blocks_t".toList, "into_blocks_dynamic_t".toList, "into_blocks_static_t".toList, "merge_blocks_t".toList,
    "merge_zcurve_t".toList]

theorem View.name_code (v : View) : viewNames[v.code]? = some v.name := by cases v <;> rfl

theorem viewNames_nodup : viewNames.Nodup := by decide

theorem View.code_of_name {v v' : View} (h : v.name = v'.name) : v.code = v'.code := by
  obtain ⟨l, e⟩ := List.getElem?_eq_some_iff.1 v.name_code
  obtain ⟨l', e'⟩ := List.getElem?_eq_some_iff.1 v'.name_code
  have hp := List.pairwise_iff_getElem.1 viewNames_nodup
  rcases Nat.lt_trichotomy v.code v'.code with hlt | heq | hgt
  · exact absurd (e.trans (h.trans e'.symm)) (hp _ _ l l' hlt)
  · exact heq
  · exact absurd (e'.trans (h.symm.trans e.symm)) (hp _ _ l' l hgt)

set_option maxHeartbeats 1000000 in
theorem View.inj {N : Names} (hN : ∀ d e, N.isChar d = true → N.isChar e = true → N.dim d = N.dim e → d = e)
    {v v' : View} (hp : ∀ d ∈ v.params, N.isChar d = true) (hp' : ∀ d ∈ v'.params, N.isChar d = true) (hn : v.name = v'.name)
    {x x' : Desc} {ts ts' : List Desc} (hl : ts.length = v.vals.length) (hl' : ts'.length = v'.vals.length)
    (h : v.before N ++ x :: (v.after.map fun d => Desc.dim (N.dim d)) ++ ts =
      v'.before N ++ x' :: (v'.after.map fun d => Desc.dim (N.dim d)) ++ ts')
    (hv : v.vals = v'.vals) : v = v' := by
  have hc := View.code_of_name hn
  clear hn
  cases v <;> cases v' <;> first
    | exact Nat.noConfusion hc
    | (exfalso; revert hc; simp only [View.code]; decide)
    | (simp only [View.params, View.before, View.after, View.vals, List.mem_cons, List.not_mem_nil, or_false, List.cons_append, List.nil_append, List.map_nil,
        List.map_cons, List.cons.injEq, Desc.dim.injEq, Desc.value.injEq, List.length_nil, List.length_cons,
        List.length_eq_zero_iff, true_and, and_true, forall_eq_or_imp, forall_eq] at h hl hl' hv hp hp'
       first
        | (subst hl hl'; simp only [List.append_nil] at h; grind [dims_inj hN, pairs_inj])
        | grind [dims_inj hN, pairs_inj])

set_option maxHeartbeats 1000000 in
theorem View.split {N : Names} {v v' : View} (hn : v.name = v'.name)
    {x x' : Desc} {ts ts' : List Desc} (hl : ts.length = v.vals.length) (hl' : ts'.length = v'.vals.length)
    (h : v.before N ++ x :: (v.after.map fun d => Desc.dim (N.dim d)) ++ ts =
      v'.before N ++ x' :: (v'.after.map fun d => Desc.dim (N.dim d)) ++ ts') : x = x' ∧ ts = ts' := by
  have hc := View.code_of_name hn
  clear hn
  cases v <;> cases v' <;> first
    | exact Nat.noConfusion hc
    | (exfalso; revert hc; simp only [View.code]; decide)
    | (simp only [View.before, View.after, View.vals, List.cons_append, List.nil_append, List.map_nil,
        List.map_cons, List.cons.injEq, Desc.dim.injEq, Desc.value.injEq, List.length_nil, List.length_cons,
        List.length_eq_zero_iff, true_and, and_true] at h hl hl'
       first
        | (subst hl hl'; simp only [List.append_nil] at h; grind)
        | grind)

theorem View.desc_eq {N : Names} {v : View} {x d : Desc} (h : v.desc N x = some d) :
    ∃ ts, v.vals.mapM Val.desc = some ts ∧ ts.length = v.vals.length ∧ (∀ e ∈ v.params, N.isChar e = true) ∧
      d = .node v.name (.ofList (v.before N ++ x :: (v.after.map fun d => .dim (N.dim d)) ++ ts)) := by
  simp only [View.desc, bind, Option.bind_eq_some_iff, Option.ite_none_right_eq_some, Option.some.injEq] at h
  obtain ⟨ts, h1, h3, h2⟩ := h
  exact ⟨ts, h1, ((mapM_eq_some_iff _ _ _).1 h1).1, List.all_eq_true.1 h3, h2.symm⟩

/-- The name of the structure template. -/
def Struct.head : Struct → List Char
  | .scalar _ _ => "scalar".toList
  | .tuple _ _ _ => "tuple_t".toList
  | .vector _ _ => "vector_t".toList
  | .union _ _ => []
  | .view v _ => v.name

theorem Struct.desc_head {N : Names} {s : Struct} {d : Desc} (h : s.desc N = some d) : ∃ ps, d = .node s.head ps := by
  cases s with
  | scalar z a => cases h; exact ⟨_, rfl⟩
  | tuple t n fs =>
    simp only [Struct.desc, bind, Option.bind_eq_some_iff, Option.ite_none_right_eq_some, Option.some.injEq] at h
    obtain ⟨_, _, _, rfl⟩ := h; exact ⟨_, rfl⟩
  | vector d s =>
    simp only [Struct.desc, bind, Option.bind_eq_some_iff, Option.ite_none_right_eq_some, Option.some.injEq] at h
    obtain ⟨_, _, _, rfl⟩ := h; exact ⟨_, rfl⟩
  | union n ss => cases h
  | view v s =>
    simp only [Struct.desc, bind, Option.bind_eq_some_iff] at h
    obtain ⟨_, _, h⟩ := h
    obtain ⟨_, _, _, _, rfl⟩ := View.desc_eq h; exact ⟨_, rfl⟩

theorem Struct.expr_desc {N : Names} {s : Struct} {e : Expr} (h : s.expr N = some e) :
    ∃ d es, s.desc N = some d ∧ e = .node d es := by
  cases s with
  | scalar z a => cases h; exact ⟨_, _, rfl, rfl⟩
  | tuple t n fs =>
    simp only [Struct.expr, bind, Option.bind_eq_some_iff, Option.some.injEq] at h
    obtain ⟨_, h1, _, _, rfl⟩ := h; exact ⟨_, _, h1, rfl⟩
  | vector d s =>
    simp only [Struct.expr, bind, Option.bind_eq_some_iff, Option.some.injEq] at h
    obtain ⟨_, h1, _, _, rfl⟩ := h; exact ⟨_, _, h1, rfl⟩
  | union n ss => cases h
  | view v s =>
    simp only [Struct.expr, bind, Option.bind_eq_some_iff, Option.some.injEq] at h
    obtain ⟨_, h1, _, _, _, _, rfl⟩ := h; exact ⟨_, _, h1, rfl⟩

theorem names_ne : "scalar".toList ≠ "tuple_t".toList ∧ "scalar".toList ≠ "vector_t".toList ∧
    "tuple_t".toList ≠ "vector_t".toList := by decide

theorem View.name_ne (v : View) : v.name ≠ "scalar".toList ∧ v.name ≠ "tuple_t".toList ∧ v.name ≠ "vector_t".toList := by
  have h := List.mem_of_getElem? v.name_code
  have : ∀ n ∈ viewNames, n ≠ "scalar".toList ∧ n ≠ "tuple_t".toList ∧ n ≠ "vector_t".toList := by decide
  exact this _ h

/-- Two structures whose templates have the same name, by their kinds. -/
theorem Struct.head_cases {s s' : Struct} {N : Names} {d d' : Desc} (h : s.desc N = some d) (h' : s'.desc N = some d')
    (he : s.head = s'.head) :
    (∃ z a z' a', s = .scalar z a ∧ s' = .scalar z' a') ∨ (∃ t n fs t' n' fs', s = .tuple t n fs ∧ s' = .tuple t' n' fs') ∨
    (∃ e r e' r', s = .vector e r ∧ s' = .vector e' r') ∨ ∃ v r v' r', s = .view v r ∧ s' = .view v' r' ∧ v.name = v'.name := by
  cases s with
  | scalar z a => cases s' with
    | scalar z' a' => exact .inl ⟨_, _, _, _, rfl, rfl⟩
    | tuple t n fs => exact absurd he names_ne.1
    | vector e r => exact absurd he names_ne.2.1
    | union n ss => cases h'
    | view v r => exact absurd he.symm v.name_ne.1
  | tuple t n fs => cases s' with
    | scalar z' a' => exact absurd he.symm names_ne.1
    | tuple t n fs => exact .inr (.inl ⟨_, _, _, _, _, _, rfl, rfl⟩)
    | vector e r => exact absurd he names_ne.2.2
    | union n ss => cases h'
    | view v r => exact absurd he.symm v.name_ne.2.1
  | vector e r => cases s' with
    | scalar z' a' => exact absurd he.symm names_ne.2.1
    | tuple t n fs => exact absurd he.symm names_ne.2.2
    | vector e r => exact .inr (.inr (.inl ⟨_, _, _, _, rfl, rfl⟩))
    | union n ss => cases h'
    | view v r => exact absurd he.symm v.name_ne.2.2
  | union n ss => cases h
  | view v r => cases s' with
    | scalar z' a' => exact absurd he v.name_ne.1
    | tuple t n fs => exact absurd he v.name_ne.2.1
    | vector e r => exact absurd he v.name_ne.2.2
    | union n ss => cases h'
    | view v' r' => exact .inr (.inr (.inr ⟨_, _, _, _, rfl, rfl, he⟩))

theorem finRange_mapM {α : Type} {n : Nat} {f : Fin n → Option α} {l : List α}
    (h : (List.finRange n).mapM f = some l) : ∃ hl : l.length = n, ∀ i : Fin n, f i = some (l[i.val]'(by rw [hl]; exact i.isLt)) := by
  obtain ⟨h1, h2⟩ := (mapM_eq_some_iff _ _ _).1 h
  have hl : l.length = n := by simpa using h1
  refine ⟨hl, fun i => ?_⟩
  have := h2 i.val (by simp) (by rw [hl]; exact i.isLt)
  simpa using this

/-- Structures with the same expression are equal. -/
theorem Struct.expr_inj {N : Names} (hN : N.Ok) {s s' : Struct} {e : Expr} (h : s.expr N = some e)
    (h' : s'.expr N = some e) : s = s' := by
  induction s generalizing s' e with
  | scalar z a =>
    obtain ⟨d, es, h1, rfl⟩ := Struct.expr_desc h
    obtain ⟨d', es', h1', e1⟩ := Struct.expr_desc h'
    cases e1
    obtain ⟨ps, hp⟩ := Struct.desc_head h1
    obtain ⟨ps', hp'⟩ := Struct.desc_head h1'
    rcases Struct.head_cases h1 h1' (Desc.node.inj (hp.symm.trans hp')).1 with
      ⟨_, _, z', a', e1, rfl⟩ | ⟨_, _, _, _, _, _, e1, -⟩ | ⟨_, _, _, _, e1, -⟩ | ⟨_, _, _, _, e1, -⟩ <;> cases e1
    cases h1
    simp only [Struct.desc, Option.some.injEq, Desc.node.injEq, Descs.ofList, Descs.cons.injEq, Desc.type.injEq,
      true_and, and_true] at h1'
    obtain ⟨rfl, rfl⟩ := hN.elem _ _ _ _ h1'
    rfl
  | tuple t n fs ih =>
    obtain ⟨d, es, h1, rfl⟩ := Struct.expr_desc h
    obtain ⟨d', es', h1', e1⟩ := Struct.expr_desc h'
    cases e1
    obtain ⟨ps, hp⟩ := Struct.desc_head h1
    obtain ⟨ps', hp'⟩ := Struct.desc_head h1'
    rcases Struct.head_cases h1 h1' (Desc.node.inj (hp.symm.trans hp')).1 with
      ⟨_, _, _, _, e1, -⟩ | ⟨_, _, _, t', n', fs', e1, rfl⟩ | ⟨_, _, _, _, e1, -⟩ | ⟨_, _, _, _, e1, -⟩ <;> cases e1
    simp only [Struct.expr, h1, h1', bind, Option.bind_some, Option.bind_eq_some_iff, Option.some.injEq,
      Expr.node.injEq, true_and] at h h'
    obtain ⟨l, g1, g2⟩ := h
    obtain ⟨l', g1', g2'⟩ := h'
    have := Exprs.ofList_inj (g2.trans g2'.symm)
    subst this
    obtain ⟨hl, g⟩ := finRange_mapM g1
    obtain ⟨hl', g'⟩ := finRange_mapM g1'
    have hn : n = n' := hl.symm.trans hl'
    subst hn
    have hf : fs = fs' := funext fun i => ih i (g i) (g' i)
    subst hf
    simp only [Struct.desc, bind, Option.bind_eq_some_iff, Option.ite_none_right_eq_some, Option.some.injEq] at h1 h1'
    obtain ⟨q, -, c, k⟩ := h1
    obtain ⟨q', -, c', k'⟩ := h1'
    have := Descs.ofList_inj (Desc.node.inj (k.trans k'.symm)).2
    simp only [List.cons.injEq, Desc.dim.injEq] at this
    rw [hN.dim _ _ c c' this.1]
  | vector d s ih =>
    obtain ⟨d, es, h1, rfl⟩ := Struct.expr_desc h
    obtain ⟨d', es', h1', e1⟩ := Struct.expr_desc h'
    cases e1
    obtain ⟨ps, hp⟩ := Struct.desc_head h1
    obtain ⟨ps', hp'⟩ := Struct.desc_head h1'
    rcases Struct.head_cases h1 h1' (Desc.node.inj (hp.symm.trans hp')).1 with
      ⟨_, _, _, _, e1, -⟩ | ⟨_, _, _, _, _, _, e1, -⟩ | ⟨_, _, t', s', e1, rfl⟩ | ⟨_, _, _, _, e1, -⟩ <;> cases e1
    simp only [Struct.expr, h1, h1', bind, Option.bind_some, Option.bind_eq_some_iff, Option.some.injEq,
      Expr.node.injEq, true_and] at h h'
    obtain ⟨l, g1, g2⟩ := h
    obtain ⟨l', g1', g2'⟩ := h'
    have := Exprs.ofList_inj (g2.trans g2'.symm)
    simp only [List.cons.injEq, and_true] at this
    subst this
    rw [ih g1 g1']
    simp only [Struct.desc, bind, Option.bind_eq_some_iff, Option.ite_none_right_eq_some, Option.some.injEq] at h1 h1'
    obtain ⟨q, -, c, k⟩ := h1
    obtain ⟨q', -, c', k'⟩ := h1'
    have := Descs.ofList_inj (Desc.node.inj (k.trans k'.symm)).2
    simp only [List.cons.injEq, Desc.dim.injEq] at this
    rw [hN.dim _ _ c c' this.1]
  | union n ss => cases h
  | view v s ih =>
    obtain ⟨d, es, h1, rfl⟩ := Struct.expr_desc h
    obtain ⟨d', es', h1', e1⟩ := Struct.expr_desc h'
    cases e1
    obtain ⟨ps, hp⟩ := Struct.desc_head h1
    obtain ⟨ps', hp'⟩ := Struct.desc_head h1'
    rcases Struct.head_cases h1 h1' (Desc.node.inj (hp.symm.trans hp')).1 with
      ⟨_, _, _, _, e1, -⟩ | ⟨_, _, _, _, _, _, e1, -⟩ | ⟨_, _, _, _, e1, -⟩ | ⟨_, _, v', s', e1, rfl, hn⟩ <;> cases e1
    simp only [Struct.expr, h1, h1', bind, Option.bind_some, Option.bind_eq_some_iff, Option.some.injEq,
      Expr.node.injEq, true_and] at h h'
    obtain ⟨l, g1, vs, gv, g2⟩ := h
    obtain ⟨l', g1', vs', gv', g2'⟩ := h'
    have := Exprs.ofList_inj (g2.trans g2'.symm)
    simp only [List.cons.injEq] at this
    obtain ⟨rfl, rfl⟩ := this
    have hs := ih g1 g1'
    subst hs
    simp only [Struct.desc, bind, Option.bind_eq_some_iff] at h1 h1'
    obtain ⟨q, k1, k⟩ := h1
    obtain ⟨q', k1', k'⟩ := h1'
    obtain ⟨ts, a1, a2, a3, rfl⟩ := View.desc_eq k
    obtain ⟨ts', a1', a2', a3', e2⟩ := View.desc_eq k'
    rw [View.inj hN.dim a3 a3' hn a2 a2' (Descs.ofList_inj (Desc.node.inj e2).2) (Val.exprs_inj gv gv')]

theorem Val.desc_typed (v : Val) : v.typed.desc = v.desc := by cases v <;> rfl

theorem Val.desc_inj {v v' : Val} {d : Desc} (h : v.desc = some d) (h' : v'.desc = some d) : v.typed = v'.typed := by
  cases v <;> cases v' <;> simp only [Val.desc, Option.ite_none_right_eq_some, Option.some.injEq, reduceCtorEq] at h h'
  · obtain ⟨-, rfl⟩ := h
    obtain ⟨-, h'⟩ := h'
    cases h'; rfl
  · obtain ⟨-, rfl⟩ := h; cases h'
  · obtain ⟨-, rfl⟩ := h'; cases h
  · rfl

theorem Val.descs_inj {vs vs' : List Val} {ts : List Desc} (h : vs.mapM Val.desc = some ts)
    (h' : vs'.mapM Val.desc = some ts) : vs.map Val.typed = vs'.map Val.typed := by
  obtain ⟨l, g⟩ := (mapM_eq_some_iff _ _ _).1 h
  obtain ⟨l', g'⟩ := (mapM_eq_some_iff _ _ _).1 h'
  refine List.ext_getElem (by simp; omega) fun i h1 h2 => ?_
  simp only [List.length_map] at h1 h2
  simp only [List.getElem_map]
  exact Val.desc_inj (g i h1 (by omega)) (g' i h2 (by omega))

theorem View.typed_name (v : View) : v.typed.name = v.name := by cases v <;> rfl
theorem View.typed_before (N : Names) (v : View) : v.typed.before N = v.before N := by cases v <;> rfl
theorem View.typed_after (v : View) : v.typed.after = v.after := by cases v <;> rfl
theorem View.typed_params (v : View) : v.typed.params = v.params := by cases v <;> rfl
theorem View.typed_vals (v : View) : v.typed.vals = v.vals.map Val.typed := by cases v <;> rfl

theorem View.typed_desc (N : Names) (v : View) (x : Desc) : v.typed.desc N x = v.desc N x := by
  have : v.typed.vals.mapM Val.desc = v.vals.mapM Val.desc := by
    rw [View.typed_vals]
    generalize v.vals = vs
    induction vs with
    | nil => rfl
    | cons a vs ih => simp [List.mapM_cons, Val.desc_typed, ih]
  simp only [View.desc, this, View.typed_name, View.typed_before, View.typed_after, View.typed_params]

/-- The name depends only on the type. -/
theorem Struct.typed_desc (N : Names) (s : Struct) : s.typed.desc N = s.desc N := by
  induction s with
  | scalar z a => rfl
  | tuple t n fs ih => simp only [Struct.typed, Struct.desc, ih]
  | vector d s ih => simp only [Struct.typed, Struct.desc, ih]
  | union n ss => rfl
  | view v s ih => simp only [Struct.typed, Struct.desc, ih, View.typed_desc]

/-- Structures with the same name have the same type. -/
theorem Struct.desc_inj {N : Names} (hN : N.Ok) {s s' : Struct} {d : Desc} (h : s.desc N = some d)
    (h' : s'.desc N = some d) : s.typed = s'.typed := by
  induction s generalizing s' d with
  | scalar z a =>
    obtain ⟨ps, rfl⟩ := Struct.desc_head h
    obtain ⟨ps', hp'⟩ := Struct.desc_head h'
    rcases Struct.head_cases h h' (Desc.node.inj hp').1 with
      ⟨_, _, z', a', e1, rfl⟩ | ⟨_, _, _, _, _, _, e1, -⟩ | ⟨_, _, _, _, e1, -⟩ | ⟨_, _, _, _, e1, -⟩ <;> cases e1
    cases h
    simp only [Struct.desc, Option.some.injEq, Desc.node.injEq, Descs.ofList, Descs.cons.injEq, Desc.type.injEq,
      and_true] at h'
    obtain ⟨rfl, rfl⟩ := hN.elem _ _ _ _ h'.2
    rfl
  | tuple t n fs ih =>
    obtain ⟨ps, rfl⟩ := Struct.desc_head h
    obtain ⟨ps', hp'⟩ := Struct.desc_head h'
    rcases Struct.head_cases h h' (Desc.node.inj hp').1 with
      ⟨_, _, _, _, e1, -⟩ | ⟨_, _, _, t', n', fs', e1, rfl⟩ | ⟨_, _, _, _, e1, -⟩ | ⟨_, _, _, _, e1, -⟩ <;> cases e1
    simp only [Struct.desc, bind, Option.bind_eq_some_iff, Option.ite_none_right_eq_some, Option.some.injEq] at h h'
    obtain ⟨q, k1, c, k⟩ := h
    obtain ⟨q', k1', c', k'⟩ := h'
    have := Descs.ofList_inj (Desc.node.inj (k.trans k'.symm)).2
    simp only [List.cons.injEq, Desc.dim.injEq] at this
    obtain ⟨e1, rfl⟩ := this
    obtain ⟨hl, g⟩ := finRange_mapM k1
    obtain ⟨hl', g'⟩ := finRange_mapM k1'
    have hn : n = n' := hl.symm.trans hl'
    subst hn
    simp only [Struct.typed]
    rw [hN.dim _ _ c c' e1, funext fun i => ih i (g i) (g' i)]
  | vector d s ih =>
    obtain ⟨ps, rfl⟩ := Struct.desc_head h
    obtain ⟨ps', hp'⟩ := Struct.desc_head h'
    rcases Struct.head_cases h h' (Desc.node.inj hp').1 with
      ⟨_, _, _, _, e1, -⟩ | ⟨_, _, _, _, _, _, e1, -⟩ | ⟨_, _, t', s', e1, rfl⟩ | ⟨_, _, _, _, e1, -⟩ <;> cases e1
    simp only [Struct.desc, bind, Option.bind_eq_some_iff, Option.ite_none_right_eq_some, Option.some.injEq] at h h'
    obtain ⟨q, k1, c, k⟩ := h
    obtain ⟨q', k1', c', k'⟩ := h'
    have := Descs.ofList_inj (Desc.node.inj (k.trans k'.symm)).2
    simp only [List.cons.injEq, Desc.dim.injEq, and_true] at this
    obtain ⟨e1, rfl⟩ := this
    simp only [Struct.typed]
    rw [hN.dim _ _ c c' e1, ih k1 k1']
  | union n ss => cases h
  | view v s ih =>
    obtain ⟨ps, rfl⟩ := Struct.desc_head h
    obtain ⟨ps', hp'⟩ := Struct.desc_head h'
    rcases Struct.head_cases h h' (Desc.node.inj hp').1 with
      ⟨_, _, _, _, e1, -⟩ | ⟨_, _, _, _, _, _, e1, -⟩ | ⟨_, _, _, _, e1, -⟩ | ⟨_, _, v', s', e1, rfl, hn⟩ <;> cases e1
    simp only [Struct.desc, bind, Option.bind_eq_some_iff] at h h'
    obtain ⟨q, k1, k⟩ := h
    obtain ⟨q', k1', k'⟩ := h'
    obtain ⟨ts, a1, a2, a3, e2⟩ := View.desc_eq k
    obtain ⟨ts', a1', a2', a3', e2'⟩ := View.desc_eq k'
    have e := Descs.ofList_inj (Desc.node.inj (e2.symm.trans e2')).2
    obtain ⟨rfl, rfl⟩ := View.split hn a2 a2' e
    simp only [Struct.typed]
    rw [ih k1 k1']
    congr 1
    refine View.inj hN.dim (x := q) (x' := q) (ts := ts) (ts' := ts) (by rwa [View.typed_params])
      (by rwa [View.typed_params]) ?_ ?_ ?_ ?_ ?_
    · rw [View.typed_name, View.typed_name, hn]
    · rw [View.typed_vals, List.length_map, a2]
    · rw [View.typed_vals, List.length_map, a2']
    · simpa only [View.typed_before, View.typed_after] using e
    · rw [View.typed_vals, View.typed_vals, Val.descs_inj a1 a1']

theorem View.name_ok (v : View) : IsName v.name ∧ v.name ≠ constantName ∧ v.name ≠ "lit_t".toList ∧ v.name ≠ "lit".toList := by
  have h := List.mem_of_getElem? v.name_code
  have : ∀ n ∈ viewNames, (∀ c ∈ n, c ∉ special) ∧ n ≠ constantName ∧ n ≠ "lit_t".toList ∧ n ≠ "lit".toList := by decide
  exact this _ h

theorem sizeName_ok : IsName sizeName ∧ sizeName ≠ [] :=
  ⟨show ∀ c ∈ sizeName, c ∉ special by decide, by decide⟩

theorem Struct.desc_ok {N : Names} (hN : N.Ok) {s : Struct} {d : Desc} (h : s.desc N = some d) : d.ok := by
  induction s generalizing d with
  | scalar z a =>
    cases h
    exact ⟨show ∀ c ∈ "scalar".toList, c ∉ special by decide, by decide, by decide, hN.name z a, trivial⟩
  | tuple t n fs ih =>
    simp only [Struct.desc, bind, Option.bind_eq_some_iff, Option.ite_none_right_eq_some, Option.some.injEq] at h
    obtain ⟨q, k1, -, rfl⟩ := h
    refine ⟨show ∀ c ∈ "tuple_t".toList, c ∉ special by decide, by decide, by decide, Descs.ofList_ok fun d hd => ?_⟩
    rcases List.mem_cons.1 hd with rfl | hd
    · trivial
    · obtain ⟨hl, g⟩ := finRange_mapM k1
      obtain ⟨i, hi, rfl⟩ := List.getElem_of_mem hd
      exact ih ⟨i, by omega⟩ (g ⟨i, by omega⟩)
  | vector e s ih =>
    simp only [Struct.desc, bind, Option.bind_eq_some_iff, Option.ite_none_right_eq_some, Option.some.injEq] at h
    obtain ⟨q, k1, -, rfl⟩ := h
    exact ⟨show ∀ c ∈ "vector_t".toList, c ∉ special by decide, by decide, by decide, trivial, ih k1, trivial⟩
  | union n ss => cases h
  | view v s ih =>
    simp only [Struct.desc, bind, Option.bind_eq_some_iff] at h
    obtain ⟨q, k1, k⟩ := h
    obtain ⟨ts, a1, a2, a3, rfl⟩ := View.desc_eq k
    refine ⟨v.name_ok.1, v.name_ok.2.1, v.name_ok.2.2.1, Descs.ofList_ok fun d hd => ?_⟩
    rcases List.mem_append.1 hd with hd | hd
    · rcases List.mem_append.1 hd with hd | hd
      · cases v <;> simp only [View.before, List.mem_cons, List.not_mem_nil, or_false] at hd <;> grind [Desc.ok, sizeName_ok]
      · rcases List.mem_cons.1 hd with rfl | hd
        · exact ih k1
        · obtain ⟨e, -, rfl⟩ := List.mem_map.1 hd
          trivial
    · obtain ⟨i, hi, rfl⟩ := List.getElem_of_mem hd
      have := ((mapM_eq_some_iff _ _ _).1 a1).2 i (by omega) hi
      generalize v.vals[i] = x at this
      cases x with
      | lit n =>
        simp only [Val.desc, Option.ite_none_right_eq_some, Option.some.injEq] at this
        rw [← this.2]; exact sizeName_ok.1
      | dyn n =>
        simp only [Val.desc, Option.some.injEq] at this
        rw [← this]; exact sizeName_ok
      | bad b => cases this

theorem Exprs.ofList_ok {b : Nat} {a : List Expr} (h : ∀ d ∈ a, d.ok b) : (Exprs.ofList a).ok b := by
  induction a with
  | nil => trivial
  | cons x a ih => exact ⟨h x List.mem_cons_self, ih fun d hd => h d (List.mem_cons_of_mem _ hd)⟩

theorem Struct.expr_node_ok {N : Names} (hN : N.Ok) {s : Struct} {d : Desc} (h : s.desc N = some d) {es : Exprs}
    (he : es.ok 8) : (Expr.node d es).ok 8 := by
  refine ⟨Struct.desc_ok hN h, ?_, he⟩
  obtain ⟨ps, rfl⟩ := Struct.desc_head h
  refine ⟨_, ps, rfl, ?_⟩
  cases s with
  | scalar => exact (by decide : "scalar".toList ≠ "lit".toList)
  | tuple => exact (by decide : "tuple_t".toList ≠ "lit".toList)
  | vector => exact (by decide : "vector_t".toList ≠ "lit".toList)
  | union => cases h
  | view v => exact v.name_ok.2.2.2

theorem View.vals_fit {W : Nat} {v : View} (h : v.fits W) : ∀ x ∈ v.vals, x.fits W := by
  intro x hx
  cases v <;> simp only [View.vals, List.mem_cons, List.not_mem_nil, or_false] at hx <;> grind [View.fits]

theorem Struct.expr_ok {N : Names} (hN : N.Ok) {s : Struct} {e : Expr} (h : s.expr N = some e) (hv : s.fits (2 ^ 64)) :
    e.ok 8 := by
  induction s generalizing e with
  | scalar z a =>
    simp only [Struct.expr, bind, Option.bind_eq_some_iff, Option.some.injEq] at h
    obtain ⟨y, h1, rfl⟩ := h
    exact Struct.expr_node_ok hN h1 trivial
  | tuple t n fs ih =>
    simp only [Struct.expr, bind, Option.bind_eq_some_iff, Option.some.injEq] at h
    obtain ⟨y, h1, es, h2, rfl⟩ := h
    refine Struct.expr_node_ok hN h1 (Exprs.ofList_ok fun e he => ?_)
    obtain ⟨hl, g⟩ := finRange_mapM h2
    obtain ⟨i, hi, rfl⟩ := List.getElem_of_mem he
    exact ih ⟨i, by omega⟩ (g ⟨i, by omega⟩) (hv.2 _)
  | vector d s ih =>
    simp only [Struct.expr, bind, Option.bind_eq_some_iff, Option.some.injEq] at h
    obtain ⟨y, h1, e, h2, rfl⟩ := h
    exact Struct.expr_node_ok hN h1 ⟨ih h2 hv, trivial⟩
  | union n ss => cases h
  | view v s ih =>
    simp only [Struct.expr, bind, Option.bind_eq_some_iff, Option.some.injEq] at h
    obtain ⟨y, h1, e, h2, es, h3, rfl⟩ := h
    refine Struct.expr_node_ok hN h1 ⟨ih h2 hv.2, Exprs.ofList_ok fun x hx => ?_⟩
    obtain ⟨i, hi, rfl⟩ := List.getElem_of_mem hx
    obtain ⟨l, g⟩ := (mapM_eq_some_iff _ _ _).1 h3
    have g1 := g i (by omega) hi
    have g2 := View.vals_fit hv.1 (v.vals[i]'(by omega)) (List.getElem_mem _)
    generalize v.vals[i]'(by omega) = w at g1 g2
    cases w with
    | lit n =>
      simp only [Val.expr, Option.some.injEq] at g1
      rw [← g1]; exact g2 n rfl
    | dyn n =>
      simp only [Val.expr, Option.some.injEq] at g1
      rw [← g1]; exact ⟨sizeName_ok.1, g2 n rfl⟩
    | bad b => cases g1

end Noarr
