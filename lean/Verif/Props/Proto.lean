import Verif.Proto
import Verif.OrderLemmas

/-
C30: proto-structures compose, and so do the orders of a traverser.
-/

namespace Noarr

open Proto

theorem Proto.inst_comp (A : Arith) (n : Nat) (is : Fin n → Proto) (o : Proto) (ss : List Struct) :
    (Proto.comp n is o).inst A ss = ((List.finRange n).mapM fun i => (is i).inst A ss).bind (o.inst A) := by
  cases ss with
  | nil => rfl
  | cons s ss => cases ss <;> rfl

theorem Proto.inst_andThen (A : Arith) (p q : Proto) (ss : List Struct) :
    (p.andThen q).inst A ss = (p.inst A ss).bind fun s => q.inst A [s] := by
  rw [Proto.andThen, Proto.inst_comp]
  have : List.finRange 1 = [0] := rfl
  rw [this]
  cases h : p.inst A ss <;> simp [h]

theorem Obj.structs_ones {ss : List Struct} (h : ss ≠ []) : Obj.structs (ss.map .one) = some ss := by
  induction ss with
  | nil => exact absurd rfl h
  | cons s ss ih =>
    cases ss with
    | nil => rfl
    | cons s' ss =>
      have := ih (by simp)
      simp only [List.map_cons] at this ⊢
      simp only [Obj.structs, this, Option.map_some]

theorem Obj.structs_eq {os : List Obj} {ss : List Struct} (h : Obj.structs os = some ss) :
    ss ≠ [] ∧ os = ss.map .one := by
  induction os generalizing ss with
  | nil => cases h
  | cons o os ih =>
    cases o with
    | pack _ => cases h
    | one s =>
      cases os with
      | nil => cases h; simp
      | cons o' os =>
        simp only [Obj.structs, Option.map_eq_some_iff] at h
        obtain ⟨ss', h1, rfl⟩ := h
        rw [(ih h1).2]
        simp

theorem Obj.apply_pack (A : Arith) {p : Proto} (hp : ∀ r, p ≠ .each r) (os : List Obj) :
    (Obj.pack os).apply A (.proto p) = (Obj.structs os).bind fun ss => (p.inst A ss).map .one := by
  cases p <;> first | rfl | exact absurd rfl (hp _)

theorem mapM_map_some {α β γ : Type} (g : β → γ) (f : α → Option β) (l : List α) :
    (l.mapM fun i => (f i).map g) = (l.mapM f).map (List.map g) := by
  induction l with
  | nil => rfl
  | cons a l ih =>
    simp only [List.mapM_cons, ih, bind, pure]
    cases f a with
    | none => rfl
    | some b => cases l.mapM f <;> rfl

theorem mapM_eq_some_iff {α β : Type} (f : α → Option β) (l : List α) (r : List β) :
    l.mapM f = some r ↔ r.length = l.length ∧ ∀ i (h : i < l.length) (h' : i < r.length), f l[i] = some r[i] := by
  induction l generalizing r with
  | nil =>
    simp only [List.mapM_nil, pure, Option.some.injEq, List.length_nil]
    constructor
    · rintro rfl; simp
    · rintro ⟨h, -⟩; exact (List.length_eq_zero_iff.1 h).symm
  | cons a l ih =>
    simp only [List.mapM_cons, bind, pure, Option.bind_eq_some_iff, Option.some.injEq, List.length_cons]
    constructor
    · rintro ⟨b, hb, bs, hbs, rfl⟩
      obtain ⟨h1, h2⟩ := (ih bs).1 hbs
      refine ⟨by simp [h1], fun i h h' => ?_⟩
      cases i with
      | zero => simpa using hb
      | succ i => simpa using h2 i (by omega) (by simp at h'; omega)
    · rintro ⟨h1, h2⟩
      cases r with
      | nil => simp at h1
      | cons b bs =>
        simp only [List.length_cons] at h1
        refine ⟨b, h2 0 (by omega) (by simp), bs, (ih bs).2 ⟨by omega, fun i h h' => ?_⟩, rfl⟩
        exact h2 (i + 1) (by omega) (by simp; omega)

/-- C30: `x ^ (p ^ q)` is `(x ^ p) ^ q`, for structures and packs of structures `x`; for a pack, if `p` is not
`to_each(...)`, for which it is false (`C30_each_in_a_composition`). -/
theorem C30_composition_applies_in_turn (A : Arith) (p q : Proto) (x : Obj)
    (h : (∃ s, x = .one s) ∨ ∀ r, p ≠ .each r) :
    x.apply A (.proto (p.andThen q)) = (x.apply A (.proto p)).bind fun y => y.apply A (.proto q) := by
  have one : ∀ s : Struct, (Obj.one s).apply A (.proto q) = (q.inst A [s]).map .one := fun s => rfl
  cases x with
  | one s =>
    simp only [Obj.apply, Proto.inst_andThen]
    cases p.inst A [s] <;> rfl
  | pack os =>
    rcases h with ⟨s, h⟩ | h
    · cases h
    · rw [Obj.apply_pack A h, Obj.apply_pack A (p := p.andThen q) (fun r hr => by cases hr)]
      cases Obj.structs os with
      | none => rfl
      | some ss =>
        simp only [Option.bind_some, Proto.inst_andThen]
        cases p.inst A ss <;> rfl

/-- C30: `x ^ (pack(ps...) ^ q)` is `x ^ pack(ps...) ^ q`, for structures and packs of structures `x`. Again not for
`to_each` (in `ps` if `x` is a pack; as `q`, which would give a pack on the right and a structure on the left). -/
theorem C30_pack_composition_applies_in_turn (A : Arith) {n : Nat} (hn : n ≠ 0) (ps : Fin n → Proto) (q : Proto)
    (hq : ∀ r, q ≠ .each r) (x : Obj) (h : (∃ s, x = .one s) ∨ ∀ i r, ps i ≠ .each r) :
    x.apply A (.proto (Proto.packAndThen ps q)) =
      (x.apply A (.pack n fun i => .proto (ps i))).bind fun y => y.apply A (.proto q) := by
  have key : ∀ ss : List Struct, ss ≠ [] →
      (∀ i, x.apply A (.proto (ps i)) = ((ps i).inst A ss).map .one) →
      ((Proto.packAndThen ps q).inst A ss).map Obj.one =
        (x.apply A (.pack n fun i => .proto (ps i))).bind fun y => y.apply A (.proto q) := by
    intro ss hss hi
    rw [Proto.packAndThen, Proto.inst_comp, Obj.apply]
    simp only [hi, mapM_map_some]
    cases hm : (List.finRange n).mapM fun i => (ps i).inst A ss with
    | none => rfl
    | some rs =>
      have hrs : rs ≠ [] := by
        have := ((mapM_eq_some_iff _ _ _).1 hm).1
        rintro rfl
        simp at this
        exact hn this.symm
      simp only [Option.bind_some, Option.map_some, Obj.apply_pack A hq, Obj.structs_ones hrs]
  cases x with
  | one s => exact key [s] (by simp) (fun i => rfl)
  | pack os =>
    rcases h with ⟨s, h⟩ | h
    · cases h
    · rw [Obj.apply_pack A (fun r hr => by cases hr)]
      cases hs : Obj.structs os with
      | none =>
        have : ∀ i, (Obj.pack os).apply A (.proto (ps i)) = none := by
          intro i; rw [Obj.apply_pack A (h i), hs]; rfl
        simp only [Option.bind_none]
        rw [Obj.apply]
        simp only [this]
        cases n with
        | zero => exact absurd rfl hn
        | succ n => simp [List.finRange_succ]
      | some ss =>
        refine key ss (Obj.structs_eq hs).1 fun i => ?_
        rw [Obj.apply_pack A (h i), hs]
        rfl

/-- C30: `pack(ss...) ^ to_each(p)` is the pack of the `s ^ p`, in the order of the structures; and
`s ^ to_each(p)` is `s ^ p`. -/
theorem C30_each_applies_to_each (A : Arith) (p : Proto) (ss : List Struct) (hs : ss ≠ []) (y : Obj) (s : Struct) :
    ((Obj.pack (ss.map .one)).apply A (.proto (.each p)) = some y ↔
      ∃ rs : List Struct, y = .pack (rs.map .one) ∧ rs.length = ss.length ∧
        ∀ i (h : i < ss.length) (h' : i < rs.length), (Obj.one ss[i]).apply A (.proto p) = some (.one rs[i])) ∧
    (Obj.one s).apply A (.proto (.each p)) = (Obj.one s).apply A (.proto p) := by
  refine ⟨?_, rfl⟩
  simp only [Obj.apply, Obj.structs_ones hs, bind, Option.bind_some, Option.bind_eq_some_iff, mapM_eq_some_iff,
    Option.some.injEq]
  constructor
  · rintro ⟨rs, ⟨h1, h2⟩, rfl⟩
    exact ⟨rs, rfl, h1, fun i h h' => by rw [h2 i h h']; rfl⟩
  · rintro ⟨rs, rfl, h1, h2⟩
    refine ⟨rs, ⟨h1, fun i h h' => ?_⟩, rfl⟩
    have := h2 i h h'
    simp only [Option.map_eq_some_iff, Obj.one.injEq, exists_eq_right] at this
    exact this

/-- C30: `x ^ to_each(p) ^ to_each(q)` is `x ^ to_each(p ^ q)`, for structures and packs of structures `x`. -/
theorem C30_each_composes (A : Arith) (p q : Proto) (x : Obj) :
    (x.apply A (.proto (.each p))).bind (fun y => y.apply A (.proto (.each q))) =
      x.apply A (.proto (.each (p.andThen q))) := by
  cases x with
  | one s =>
    simp only [Obj.apply, Proto.inst, Proto.inst_andThen]
    cases p.inst A [s] <;> rfl
  | pack os =>
    simp only [Obj.apply]
    cases hs : Obj.structs os with
    | none => rfl
    | some ss =>
      obtain ⟨hne, -⟩ := Obj.structs_eq hs
      simp only [bind, Option.bind_some]
      have key : ∀ ss : List Struct, (ss.mapM fun s => (p.andThen q).inst A [s]) =
          (ss.mapM fun s => p.inst A [s]).bind fun rs => rs.mapM fun s => q.inst A [s] := by
        intro ss
        induction ss with
        | nil => rfl
        | cons s ss ih =>
          simp only [List.mapM_cons, Proto.inst_andThen, bind, pure] at ih ⊢
          rw [ih]
          cases p.inst A [s] with
          | none => rfl
          | some r =>
            cases hm : ss.mapM fun s => p.inst A [s] with
            | none => simp
            | some rs => simp [bind, pure]
      rw [key]
      cases hm : ss.mapM fun s => p.inst A [s] with
      | none => rfl
      | some rs =>
        have hrs : rs ≠ [] := by
          have := ((mapM_eq_some_iff _ _ _).1 hm).1
          rintro rfl
          simp at this
          exact hne (List.length_eq_zero_iff.1 this.symm)
        simp only [Option.bind_some, Obj.structs_ones hrs]

/-- `to_each` does not survive composition: `pack(a, b) ^ to_each(vector<0>()) ^ tuple<1>()` is a structure, but
`pack(a, b) ^ (to_each(vector<0>()) ^ tuple<1>())` does not compile. -/
theorem C30_each_in_a_composition (A : Arith) (a b : Struct) :
    let x := Obj.pack [.one a, .one b]
    let p := Proto.each (.vector 0)
    (∃ s, (x.apply A (.proto p)).bind (fun y => y.apply A (.proto (.tuple 1))) = some (.one s)) ∧
    x.apply A (.proto (p.andThen (.tuple 1))) = none := ⟨⟨_, rfl⟩, rfl⟩

/-- C30: `^` is associative on proto-structures, also when the first is a pack: both sides construct
the same structure from the same structures, or neither compiles. -/
theorem C30_composition_is_associative (A : Arith) (p q r : Proto) {n : Nat} (ps : Fin n → Proto)
    (ss : List Struct) :
    ((p.andThen q).andThen r).inst A ss = (p.andThen (q.andThen r)).inst A ss ∧
    ((Proto.packAndThen ps q).andThen r).inst A ss = (Proto.packAndThen ps (q.andThen r)).inst A ss := by
  constructor
  · simp only [Proto.inst_andThen, Option.bind_assoc]
  · rw [Proto.inst_andThen, Proto.packAndThen, Proto.packAndThen, Proto.inst_comp, Proto.inst_comp,
      Option.bind_assoc]
    congr 1
    funext rs
    rw [Proto.inst_andThen]

/-- C30: `neutral_proto` is neutral: on the right always, on the left for one structure. -/
theorem C30_neutral_proto_is_neutral (A : Arith) (p : Proto) (ss : List Struct) (s : Struct) :
    (p.andThen .neutral).inst A ss = p.inst A ss ∧ (Proto.neutral.andThen p).inst A [s] = p.inst A [s] := by
  simp only [Proto.inst_andThen]
  constructor
  · cases p.inst A ss <;> rfl
  · rfl

/-- C30: composition preserves the layout exactly if both parts do. -/
theorem C30_layout_preserved_by_parts (p q : Proto) :
    (p.andThen q).keepsLayout = (p.keepsLayout && q.keepsLayout) := by
  have : List.finRange 1 = [0] := rfl
  simp [Proto.andThen, keepsLayout, this, Bool.and_comm]

/-- The functions given to `make_proto<true>` only add views to their structure, as the `true` promises. -/
def Proto.userHonest : Proto → Prop
  | .user f keep => keep = true → ∀ s r, f s = some r → ∃ vs : List View, r = s.apply vs
  | .comp _ is o => (∀ i, (is i).userHonest) ∧ o.userHonest
  | .each p => p.userHonest
  | _ => True

/-- C30: a proto-structure that says it preserves the layout (which is what a traverser asks of its order) makes, from
any structures, one of these structures with views on top, if the functions of `make_proto<true>` in it do. -/
theorem C30_layout_preserving_adds_views (A : Arith) {p : Proto} (hk : p.keepsLayout = true) (hu : p.userHonest)
    {ss : List Struct} {r : Struct} (h : p.inst A ss = some r) : ∃ s ∈ ss, ∃ vs : List View, r = s.apply vs := by
  induction p generalizing ss r with
  | neutral =>
    match ss, h with
    | [s], h => exact ⟨s, by simp, [], (Option.some.inj h).symm⟩
  | vector d => cases hk
  | tuple d => cases hk
  | view v =>
    match ss, h with
    | [s], h => exact ⟨s, by simp, [v], (Option.some.inj h).symm⟩
  | autoStep a k =>
    match ss, h with
    | [s], h =>
      simp only [Proto.inst] at h
      split at h
      · next d _ _ _ => exact ⟨s, by simp, [.step d a k], (Option.some.inj h).symm⟩
      · cases h
  | each p ih =>
    match ss, h with
    | [s], h => exact ih hk hu h
  | user f keep =>
    match ss, h with
    | [s], h => exact ⟨s, by simp, hu hk s r h⟩
  | comp n is o ih iho =>
    simp only [keepsLayout, Bool.and_eq_true, List.all_eq_true] at hk
    rw [Proto.inst_comp] at h
    obtain ⟨rs, hrs, h⟩ := Option.bind_eq_some_iff.1 h
    obtain ⟨q, hq, ws, rfl⟩ := iho hk.1 hu.2 h
    obtain ⟨i, hi, rfl⟩ := List.getElem_of_mem hq
    obtain ⟨hl, hr⟩ := (mapM_eq_some_iff _ _ _).1 hrs
    obtain ⟨s, hs, vs, e⟩ := ih _ (hk.2 _ (List.mem_finRange _)) (hu.1 _) (hr i (by omega) hi)
    exact ⟨s, hs, vs ++ ws, by rw [e, Struct.apply_append]⟩

/-- C30: the functions given to `make_proto`, with either flag, are applied in the order in which they are written. -/
theorem C30_user_functions_in_turn (A : Arith) (f g : Struct → Option Struct) (b c : Bool) (s : Struct) :
    (Obj.one s).apply A (.proto ((Proto.user f b).andThen (.user g c))) = ((f s).bind g).map .one := by
  rw [C30_composition_applies_in_turn A _ _ _ (.inl ⟨s, rfl⟩)]
  simp only [Obj.apply, Proto.inst]
  cases f s <;> rfl

/-- The hypotheses are met: `make_proto<true>` that adds two views, inside `to_each`, inside a composition. -/
example (A : Arith) : 
    let u := Proto.user (fun s => some (s.apply [.fix 0 (.dyn 1), .shift 1 (.lit 2)])) true
    let p := (Proto.each u).andThen (.view (.hoist 2))
    p.keepsLayout = true ∧ p.userHonest ∧ ∀ s, p.inst A [s] = some (s.apply [.fix 0 (.dyn 1), .shift 1 (.lit 2), .hoist 2]) :=
  ⟨rfl, ⟨fun _ _ s r h => ⟨[.fix 0 (.dyn 1), .shift 1 (.lit 2)], (Option.some.inj h).symm⟩, trivial⟩, fun _ => rfl⟩

theorem Proto.views_andThen (A : Arith) (p q : Proto) (s : Struct) :
    (p.andThen q).views A s = (p.views A s).bind fun vs => (q.views A (s.apply vs)).map (vs ++ ·) := by
  rw [Proto.andThen, Proto.views]
  cases h : p.views A s with
  | none => rfl
  | some vs =>
    simp only [bind, Option.bind_some]
    cases q.views A (s.apply vs) <;> rfl

/-- The views of a linear proto-structure, applied one after another, give the structure it
constructs. -/
theorem Proto.inst_views (A : Arith) {p : Proto} (h : p.linear) (s : Struct) :
    p.inst A [s] = (p.views A s).map s.apply := by
  induction p generalizing s with
  | neutral => rfl
  | vector d => exact h.elim
  | tuple d => exact h.elim
  | view v => rfl
  | autoStep a k =>
    simp only [Proto.inst, Proto.views]
    cases (s.sem A).sig <;> rfl
  | each p ih => exact ih h s
  | user f keep => exact h.elim
  | comp n is o ih iho =>
    obtain ⟨hn, hi, ho⟩ := h
    subst hn
    have e : is = fun _ => is 0 := by funext i; rw [Subsingleton.elim i 0]
    have hc : (Proto.comp 1 is o) = (is 0).andThen o := by rw [Proto.andThen, ← e]
    rw [hc, Proto.inst_andThen, Proto.views_andThen, ih 0 (hi 0) s]
    cases hv : (is 0).views A s with
    | none => rfl
    | some vs =>
      simp only [Option.map_some, Option.bind_some]
      rw [iho ho, Option.map_map]
      congr 1
      funext ws
      simp [Struct.apply_append]

/-- C30: `t.order(a).order(b)` has the same top structure as `t.order(a ^ b)`, and
`t.order(neutral_proto())` the same as `t`. -/
theorem C30_orders_compose (A : Arith) (t : ProtoTraverser) (a b : Proto) :
    ((t.reorder a).reorder b).top A = (t.reorder (a.andThen b)).top A ∧
    (t.reorder .neutral).top A = t.top A :=
  ⟨(C30_composition_is_associative A t.order a b (n := 0) (fun i => i.elim0) _).1,
    (C30_neutral_proto_is_neutral A t.order _ t.base).1⟩

/-- C30: `t.order(a).order(b)` and `t.order(a ^ b)` are the same to every function of the traverser:
they go through the same states in the same order, with any choice of dimensions. The top structure
of the traverser in these functions is the one that the proto-structures construct. -/
theorem C30_orders_compose_for_each (A : Arith) (t : ProtoTraverser) (a b : Proto) (ds : List Dim) :
    ((t.reorder a).reorder b).traverser A = (t.reorder (a.andThen b)).traverser A ∧
    (((t.reorder a).reorder b).traverser A).bind (·.forEach A ds) =
      ((t.reorder (a.andThen b)).traverser A).bind (·.forEach A ds) ∧
    (t.order.linear → ∀ u, t.traverser A = some u → t.top A = some u.top ∧
      ∀ v, (t.reorder a).traverser A = some v → ∃ vs, a.views A u.top = some vs ∧ v = u.order vs) := by
  have e : ((t.reorder a).reorder b).traverser A = (t.reorder (a.andThen b)).traverser A := by
    simp only [ProtoTraverser.traverser, ProtoTraverser.reorder]
    congr 1
    simp only [Proto.views_andThen]
    cases t.order.views A t.base with
    | none => rfl
    | some vs =>
      simp only [Option.bind_some]
      cases h : a.views A (t.base.apply vs) with
      | none => rfl
      | some ws =>
        simp only [Option.map_some, Option.bind_some, Struct.apply_append, Option.map_map]
        congr 1
        funext xs
        simp
  refine ⟨e, by rw [e], ?_⟩
  intro hl u hu
  simp only [ProtoTraverser.traverser] at hu
  cases hv : t.order.views A t.base with
  | none => rw [hv] at hu; cases hu
  | some vs =>
    rw [hv] at hu
    obtain rfl := Option.some.inj hu
    refine ⟨by rw [ProtoTraverser.top, Proto.inst_views A hl, hv]; rfl, ?_⟩
    intro v h
    simp only [ProtoTraverser.traverser, ProtoTraverser.reorder, Proto.views_andThen, hv,
      Option.bind_some] at h
    cases hw : a.views A (t.base.apply vs) with
    | none => rw [hw] at h; cases h
    | some ws =>
      rw [hw] at h
      exact ⟨ws, hw, (Option.some.inj h).symm⟩

/-- C30: the proto-structure `fix(state)` adds one `fix` for each index of the state; so the traverser
that `for_each` and `for_sections` make for one iteration is `t.order(fix(state))`. -/
theorem C30_fix_state_fixes_each_index (A : Arith) (t : ProtoTraverser) (u : Traverser) (p : Path)
    (hu : t.traverser A = some u) :
    (Proto.ofPath p).linear ∧ (t.reorder (Proto.ofPath p)).traverser A = some (u.visit p) := by
  have key : ∀ (p : Path) (q : Proto), q.linear → (p.foldl (fun a di => a.andThen (.view (.fix di.1 di.2))) q).linear ∧
      ∀ s, (p.foldl (fun a di => a.andThen (.view (.fix di.1 di.2))) q).views A s =
        (q.views A s).map (· ++ p.map fun di => View.fix di.1 di.2) := by
    intro p
    induction p with
    | nil => intro q hq; exact ⟨hq, fun s => by simp⟩
    | cons di p ih =>
      intro q hq
      obtain ⟨h1, h2⟩ := ih (q.andThen (.view (.fix di.1 di.2))) ⟨rfl, fun _ => hq, trivial⟩
      refine ⟨h1, fun s => ?_⟩
      rw [List.foldl_cons, h2 s, Proto.views_andThen]
      cases q.views A s with
      | none => rfl
      | some vs => simp [Proto.views]
  obtain ⟨h1, h2⟩ := key p .neutral trivial
  refine ⟨h1, ?_⟩
  simp only [ProtoTraverser.traverser] at hu
  cases hv : t.order.views A t.base with
  | none => rw [hv] at hu; cases hu
  | some vs =>
    rw [hv] at hu
    obtain rfl := Option.some.inj hu
    simp only [ProtoTraverser.traverser, ProtoTraverser.reorder, Proto.views_andThen, hv, Option.bind_some]
    have h3 : (Proto.ofPath p).views A (t.base.apply vs) = _ := h2 _
    rw [h3]
    rfl

/-- C30: `pack(ss...) ^ tuple<d>()` has the structures as its elements, in the order of the pack: with the
index `k` fixed, it behaves as the `k`-th of them, except for its place in memory. -/
theorem C30_pack_keeps_its_order (A : Arith) (d : Dim) (ss : List Struct) (s : Struct)
    (h : (Proto.tuple d).inst A ss = some s) (k : Nat) (hk : k < ss.length) (st : State) :
    ((s.apply [.fix d (.lit k)]).sem A).elem st = (ss[k].sem A).elem (st.removeAll [.idx d, .len d]) ∧
    ∀ q, q ≠ d → ((s.apply [.fix d (.lit k)]).sem A).len q st =
      guardLen ((ss[k].sem A).hasLen q (st.removeAll [.idx d, .len d]))
        ((ss[k].sem A).len q (st.removeAll [.idx d, .len d])) := by
  have hst : (((st.remove (.len d)).set (.idx d) (.lit k)).remove (.idx d)) = st.removeAll [.idx d, .len d] := by
    state_eq
  simp only [Proto.inst, Option.some.injEq] at h
  subst h
  have hhas : ((st.remove (.len d)).set (.idx d) (.lit k)).has (.idx d) = true := by simp [State.has]
  constructor
  · simp [Struct.apply, Struct.sem, View.sem, ViewSem.toSem, fixSem, tupleSem, constIdx, hk, hst]
  · intro q hq
    simp [Struct.apply, Struct.sem, View.sem, ViewSem.toSem, fixSem, tupleSem, hhas, constIdx, hk, hst, hq]

/-- Two structures made from one by a pack, every second element of both, put into a tuple. -/
example : ∃ s, ((((Obj.one (.scalar 4 4)).apply .ideal (.pack 2 fun i => .proto (.vector i.val))).bind
      fun y => y.apply .ideal (.proto (.each (.autoStep (.dyn 0) (.dyn 2))))).bind
      fun y => y.apply .ideal (.proto (.tuple 2))) = some (.one (.tuple 2 2 s)) ∧
    s 1 = .view (.step 1 (.dyn 0) (.dyn 2)) (.vector 1 (.scalar 4 4)) := ⟨_, rfl, rfl⟩

/-- A pack of a vector and a scalar. -/
example : ∃ s, (Proto.tuple 2).inst .ideal [.vector 0 (.scalar 4 4), .scalar 8 8] = some s ∧
    ((s.apply [.fix 2 (.lit 1)]).sem .ideal).elem .empty = some 8 := ⟨_, rfl, by decide⟩

/-- A matrix of 3 x 4, traversed with the order `slice<'y'>(1, 2) ^ reverse<'x'>()` given in two ways,
and a tuple constructed from a pack of two proto-structures. -/
example :
    let m := Struct.vector 1 (.vector 0 (.scalar 4 4))
    let len := (Proto.view (.setLength 0 (.dyn 4))).andThen (.view (.setLength 1 (.dyn 3)))
    let a := Proto.view (.slice 1 (.dyn 1) (.dyn 2))
    let b := Proto.view (.reverse 0)
    let t := (ProtoTraverser.of m).reorder len
    ((((t.reorder a).reorder b).traverser .ideal).bind (·.forEach .ideal [])).map List.length = some 8 ∧
    ((((t.reorder a).reorder b).traverser .ideal).bind (·.forEach .ideal [])).map
        (List.map fun st => (st (.idx 1), st (.idx 0))) =
      some ((List.range 2).flatMap fun i => (List.range 4).map fun j =>
        (some (.dyn (1 + i)), some (.dyn (3 - j)))) ∧
    t.order.linear ∧ (t.traverser .ideal).isSome ∧
    ((Proto.packAndThen (fun i : Fin 2 => if i = 0 then .vector 0 else .vector 1) (.tuple 2)).inst .ideal
      [.scalar 4 4]).isSome := by
  refine ⟨by decide, by decide, ?_, rfl, rfl⟩
  exact ⟨rfl, fun _ => trivial, rfl, fun _ => trivial, trivial⟩

end Noarr
