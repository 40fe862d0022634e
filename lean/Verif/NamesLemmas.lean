import Verif.Names
import Verif.Lemmas

/-
The queries of a structure depend only on the indices and lengths in its own dimensions.
-/

namespace Noarr

/-- All the queries of `S` are the same in two states that agree on `P` (and on the index in the queried
dimension). -/
structure Frame (S : Sem) (P : Dim → Prop) : Prop where
  hasLen : ∀ {q st st'}, AgreeOn P st st' → st (.idx q) = st' (.idx q) → S.hasLen q st = S.hasLen q st'
  len : ∀ {q st st'}, AgreeOn P st st' → st (.idx q) = st' (.idx q) → S.len q st = S.len q st'
  size : ∀ {st st'}, AgreeOn P st st' → S.size st = S.size st'
  align : ∀ {st st'}, AgreeOn P st st' → S.align st = S.align st'
  off : ∀ {st st'} o, AgreeOn P st st' → S.off st o = S.off st' o
  elem : ∀ {st st'}, AgreeOn P st st' → S.elem st = S.elem st'

/-- Both fail, or both succeed with related states. -/
def OptRel (R : State → State → Prop) : Option State → Option State → Prop
  | none, none => True
  | some u, some u' => R u u'
  | _, _ => False

/-- What a translation of states has to keep. -/
def Keeps (P : Dim → Prop) (st st' u u' : State) : Prop :=
  AgreeOn P u u' ∧ ∀ q, st (.idx q) = st' (.idx q) → u (.idx q) = u' (.idx q)

theorem Keeps.set {P : Dim → Prop} {st st' u u' : State} (h : Keeps P st st' u u') (t : Tag) (x : Val) :
    Keeps P st st' (u.set t x) (u'.set t x) := by
  refine ⟨fun q hq => ⟨?_, ?_⟩, fun q hq => ?_⟩ <;> simp only [State.set] <;> split <;> try rfl
  · exact (h.1 q hq).1
  · exact (h.1 q hq).2
  · exact h.2 q hq

theorem Keeps.setIdxs {P : Dim → Prop} {st st' : State} (l : List (Dim × Val)) {u u' : State}
    (h : Keeps P st st' u u') : Keeps P st st' (setIdxs u l) (setIdxs u' l) := by
  induction l generalizing u u' with
  | nil => exact h
  | cons p l ih => exact ih (h.set _ _)

theorem Keeps.removeAll {P Q : Dim → Prop} {st st' : State} {ts : List Tag} (h : AgreeOn Q st st')
    (hq : ∀ q, P q → (.idx q ∈ ts ∨ Q q) ∧ (.len q ∈ ts ∨ Q q)) :
    Keeps P st st' (st.removeAll ts) (st'.removeAll ts) := by
  refine ⟨fun q hp => ⟨?_, ?_⟩, fun q hp => ?_⟩ <;> simp only [State.removeAll] <;> split <;> try rfl
  · exact (h q ((hq q hp).1.resolve_left ‹_›)).1
  · exact (h q ((hq q hp).2.resolve_left ‹_›)).2
  · exact hp

theorem Keeps.optional {P : Dim → Prop} {st st' u u' : State} (h : Keeps P st st' u u') (o : Option Val)
    (f : State → Val → State) (hf : ∀ x, Keeps P st st' (f u x) (f u' x)) :
    Keeps P st st' (match o with | some x => f u x | none => u) (match o with | some x => f u' x | none => u') := by
  cases o with
  | none => exact h
  | some x => exact hf x

/-- What the view itself needs for `Frame`. -/
def View.tidy (P : Dim → Prop) : View → Prop
  | .shift d _ => P d
  | .reverse d => P d
  | .rename ps => ∀ q ∈ ps.map Prod.fst, P q
  | _ => True

macro "keeps " k:term : tactic => `(tactic| first
  | exact $k | exact ($k).set _ _ | exact (($k).set _ _).set _ _ | exact ((($k).set _ _).set _ _).set _ _
  | exact True.intro)

theorem guardLen_congr {a a' : Option Bool} {b b' : Option Val} (h : a = a') (h' : b = b') :
    guardLen a b = guardLen a' b' := by rw [h, h']

theorem has_congr {st st' : State} {t : Tag} (h : st t = st' t) : st.has t = st'.has t := by
  simp only [State.has, h]

theorem bind_congr₂ {o o' : Option State} {f : State → Option Val} (h : o.bind f = o'.bind f)
    (g : Val → Option Val) : (o >>= fun s => f s >>= g) = (o' >>= fun s => f s >>= g) := by
  have := congrArg (fun x : Option Val => x.bind g) h
  simpa only [Option.bind_assoc, Option.bind_eq_bind] using this

section
variable {A : Arith} {S : Sem} {P : Dim → Prop} (hF : Frame S P)
include hF

theorem frame_sub {v : View} (hv : v.tidy P) (hr : ∀ ps, v ≠ .rename ps) {st st' : State}
    (h : AgreeOn (fun q => v.names P q) st st') :
    OptRel (Keeps P st st') ((v.sem A S).sub st) ((v.sem A S).sub st') := by
  have same : (∀ q, P q → v.names P q) → Keeps P st st' st st' :=
    fun hP => ⟨fun q hq => h q (hP q hq), fun q hq => hq⟩
  have map : ∀ {u u' : State} (t : Tag) (f : Val → Val), Keeps P st st' u u' →
      Keeps P st st' (u.mapAt t f) (u'.mapAt t f) := by
    intro u u' t f hk
    refine ⟨fun q hq => ⟨?_, ?_⟩, fun q hq => ?_⟩ <;> simp only [State.mapAt] <;> split
    · next e => subst e; rw [(hk.1 q hq).1]
    · exact (hk.1 q hq).1
    · next e => subst e; rw [(hk.1 q hq).2]
    · exact (hk.1 q hq).2
    · next e => subst e; rw [hk.2 q hq]
    · exact hk.2 q hq
  cases v with
  | bcast d =>
    exact Keeps.removeAll h fun q hq => ⟨.inr (.inr hq), .inr (.inr hq)⟩
  | fix d i =>
    refine ⟨fun q hq => ?_, fun q hq => ?_⟩
    · by_cases e : q = d
      · subst e; simp [State.set, State.remove]
      · have := h q ⟨e, hq⟩
        simp [State.set, State.remove, e, this]
    · simp only [State.set, State.remove, reduceCtorEq, if_false, hq]
  | setLength d l => exact (same fun q hq => hq).set _ _
  | shift d start => exact map _ _ (map _ _ (same fun q hq => hq))
  | slice d start len => exact map _ _ (same fun q hq => hq)
  | span d start stop => exact map _ _ (same fun q hq => hq)
  | step d start stride => exact map _ _ (same fun q hq => hq)
  | hoist d => exact same fun q hq => hq
  | reorder ds => exact same fun q hq => hq
  | reverse d =>
    have e := (h d hv).1
    have k : Keeps P st st' (st.remove (.idx d)) (st'.remove (.idx d)) := by
      refine ⟨fun q hq => ⟨?_, ?_⟩, fun q hq => ?_⟩ <;> simp only [State.remove] <;> split <;> try rfl
      · exact (h q hq).1
      · exact (h q hq).2
      · exact hq
    have h1 : S.hasLen d (st.remove (.idx d)) = S.hasLen d (st'.remove (.idx d)) :=
      hF.hasLen k.1 (by simp [State.remove])
    have h2 : S.len d (st.remove (.idx d)) = S.len d (st'.remove (.idx d)) := hF.len k.1 (by simp [State.remove])
    simp only [View.sem, reverseSem, ← e, ← h1, ← h2]
    cases st (.idx d) with
    | none => exact same fun q hq => hq
    | some i =>
      cases hh : S.hasLen d (st.remove (.idx d)) with
      | none => simp [OptRel]
      | some b =>
        cases b with
        | false => simpa [OptRel] using k
        | true =>
          cases S.len d (st.remove (.idx d)) with
          | none => simp [OptRel]
          | some l => exact k.set _ _
  | rename ps => exact absurd rfl (hr ps)
  | join a b d =>
    have e := h d (.inl rfl)
    have k : Keeps P st st' (st.removeAll [.idx d, .idx a, .idx b, .len d, .len a, .len b])
        (st'.removeAll [.idx d, .idx a, .idx b, .len d, .len a, .len b]) :=
      Keeps.removeAll h fun q hq => by
        by_cases h1 : q ∈ [a, b]
        · simp only [List.mem_cons, List.not_mem_nil, or_false] at h1
          constructor <;> left <;> simp [h1]
        · exact ⟨.inr (.inr ⟨h1, hq⟩), .inr (.inr ⟨h1, hq⟩)⟩
    have h1 := hF.hasLen (q := a) k.1 (by simp [State.removeAll])
    have h2 := hF.hasLen (q := b) k.1 (by simp [State.removeAll])
    simp only [View.sem, joinSem, ← h1, ← h2, ← e.1, ← e.2]
    cases S.hasLen a (st.removeAll [.idx d, .idx a, .idx b, .len d, .len a, .len b]) with
    | none => simp [OptRel]
    | some ha =>
    cases S.hasLen b (st.removeAll [.idx d, .idx a, .idx b, .len d, .len a, .len b]) with
    | none => simp [OptRel]
    | some hb =>
    have kk := k.optional (st (.idx d)) (fun s i => (s.set (.idx a) i).set (.idx b) i)
      fun x => (k.set _ _).set _ _
    cases st (.len d) <;> cases ha <;> cases hb <;> simp only [OptRel, Option.bind_eq_bind, Option.bind_some, bne,
      Bool.false_eq_true, if_false, if_true, BEq.rfl, Bool.not_true, Bool.or_false, Bool.or_true] <;>
      first | exact kk | exact (kk.set _ _).set _ _ | trivial
  | intoBlocks d maj min =>
    have eM := h maj (.inl (by simp))
    have em := h min (.inl (by simp))
    have k : Keeps P st st' (blocksClean d maj min st) (blocksClean d maj min st') :=
      Keeps.removeAll h fun q hq => by
        by_cases h1 : q = d
        · subst h1; simp
        · exact ⟨.inr (.inr ⟨h1, hq⟩), .inr (.inr ⟨h1, hq⟩)⟩
    have h1 := hF.hasLen (q := d) k.1 (by simp [State.removeAll, blocksClean])
    have h2 := hF.len (q := d) k.1 (by simp [State.removeAll, blocksClean])
    simp only [View.sem, intoBlocksSem, intoBlocksSub, ← h1, ← h2, ← eM.1, ← eM.2, ← em.1, ← em.2]
    generalize S.hasLen d (blocksClean d maj min st) = o
    generalize S.len d (blocksClean d maj min st) = o'
    rcases st (.len min) with _ | _ <;> rcases st (.len maj) with _ | _ <;> rcases st (.idx maj) with _ | _ <;>
      rcases st (.idx min) with _ | _ <;> rcases o with _ | _ | _ <;> rcases o' with _ | _ <;> keeps k
  | intoBlocksDyn d maj min pres =>
    have eM := h maj (.inl (by simp))
    have em := h min (.inl (by simp))
    have ep := h pres (.inl (by simp))
    have k : Keeps P st st' (st.removeAll [.idx d, .len d, .idx maj, .idx min, .len maj, .len min, .idx pres])
        (st'.removeAll [.idx d, .len d, .idx maj, .idx min, .len maj, .len min, .idx pres]) :=
      Keeps.removeAll h fun q hq => by
        by_cases h1 : q = d
        · subst h1; simp
        · exact ⟨.inr (.inr ⟨h1, hq⟩), .inr (.inr ⟨h1, hq⟩)⟩
    have h2 := hF.len (q := d) k.1 (by simp [State.removeAll])
    by_cases hp : (st (.len pres)).isSome = true
    · have c : blocksDynClean d maj min pres st = none := by simp [blocksDynClean, State.has, hp]
      have c' : blocksDynClean d maj min pres st' = none := by simp [blocksDynClean, State.has, ← ep.2, hp]
      simp [View.sem, intoBlocksDynSem, intoBlocksDynSub, c, c', OptRel]
    · have c : blocksDynClean d maj min pres st = some _ := if_neg (by simpa [State.has] using hp)
      have c' : blocksDynClean d maj min pres st' = some _ := if_neg (by simpa [State.has, ← ep.2] using hp)
      simp only [View.sem, intoBlocksDynSem, intoBlocksDynSub, c, c', ← eM.1, ← eM.2, ← em.1, ← em.2,
        Option.bind_eq_bind, Option.bind_some, ← h2]
      generalize S.len d _ = o'
      rcases st (.len min) with _ | _ <;> rcases st (.len maj) with _ | _ <;> rcases st (.idx maj) with _ | _ <;>
        rcases st (.idx min) with _ | _ <;> rcases o' with _ | _ <;> keeps k
  | intoBlocksStat d border maj min nl =>
    have eb := h border (.inl (by simp))
    have eM := h maj (.inl (by simp))
    have em := h min (.inl (by simp))
    have k : Keeps P st st' (st.removeAll [.idx d, .len d, .idx border, .idx maj, .idx min])
        (st'.removeAll [.idx d, .len d, .idx border, .idx maj, .idx min]) :=
      Keeps.removeAll h fun q hq => by
        by_cases h1 : q = d
        · subst h1; simp
        · exact ⟨.inr (.inr ⟨h1, hq⟩), .inr (.inr ⟨h1, hq⟩)⟩
    have h2 := hF.len (q := d) k.1 (by simp [State.removeAll])
    have hB : isBody border st' = isBody border st := by simp only [isBody, eb.1]
    by_cases hp : ((st (.len border)).isSome || (st (.len maj)).isSome || (st (.len min)).isSome) = true
    · have c : blocksStatClean d border maj min st = none := by simp [blocksStatClean, State.has, hp]
      have c' : blocksStatClean d border maj min st' = none := by
        simp [blocksStatClean, State.has, ← eb.2, ← eM.2, ← em.2, hp]
      simp [View.sem, intoBlocksStatSem, intoBlocksStatSub, c, c', OptRel]
    have c : blocksStatClean d border maj min st = some _ := if_neg (by simpa [State.has] using hp)
    have c' : blocksStatClean d border maj min st' = some _ :=
      if_neg (by simpa [State.has, ← eb.2, ← eM.2, ← em.2] using hp)
    simp only [View.sem, intoBlocksStatSem, intoBlocksStatSub, c, c', hB, State.has, ← eb.1, ← eM.1, ← em.1,
        Option.bind_eq_bind, Option.bind_some, ← h2]
    generalize S.len d _ = o'
    generalize isBody border st = ob
    rcases st (.idx border) with _ | _
    · keeps k
    · rcases st (.idx maj) with _ | _ <;> rcases st (.idx min) with _ | _ <;> rcases ob with _ | _ | _ <;>
        rcases o' with _ | _ <;> keeps k
  | mergeBlocks maj min d =>
    have e := h d (.inl rfl)
    have k : Keeps P st st' (blocksClean d maj min st) (blocksClean d maj min st') :=
      Keeps.removeAll h fun q hq => by
        by_cases h1 : q ∈ [maj, min]
        · simp only [List.mem_cons, List.not_mem_nil, or_false] at h1
          constructor <;> left <;> simp [h1]
        · exact ⟨.inr (.inr ⟨h1, hq⟩), .inr (.inr ⟨h1, hq⟩)⟩
    have h1 := hF.hasLen (q := maj) k.1 (by simp [State.removeAll, blocksClean])
    have h2 := hF.len (q := maj) k.1 (by simp [State.removeAll, blocksClean])
    have h3 := hF.hasLen (q := min) k.1 (by simp [State.removeAll, blocksClean])
    have h4 := hF.len (q := min) k.1 (by simp [State.removeAll, blocksClean])
    simp only [View.sem, mergeBlocksSem, mergeBlocksSub, ← h1, ← h2, ← h3, ← h4, ← e.1, ← e.2]
    generalize S.hasLen maj (blocksClean d maj min st) = o1
    generalize S.len maj (blocksClean d maj min st) = o2
    generalize S.hasLen min (blocksClean d maj min st) = o3
    generalize S.len min (blocksClean d maj min st) = o4
    rcases o1 with _ | _ | _ <;> rcases o3 with _ | _ | _ <;> rcases o2 with _ | _ <;> rcases o4 with _ | _ <;>
      rcases st (.idx d) with _ | _ <;> rcases st (.len d) with _ | _ <;> keeps k
  | mergeZ sl gl ds d =>
    have e := h d (.inl rfl)
    have k : Keeps P st st' (st.removeAll (.idx d :: (ds.map .idx ++ ds.map .len)))
        (st'.removeAll (.idx d :: (ds.map .idx ++ ds.map .len))) :=
      Keeps.removeAll h fun q hq => by
        by_cases h1 : q ∈ ds
        · constructor <;> left <;> simp [h1]
        · exact ⟨.inr (.inr ⟨h1, hq⟩), .inr (.inr ⟨h1, hq⟩)⟩
    have h1 : ds.map (S.len · (st.removeAll (.idx d :: (ds.map .idx ++ ds.map .len)))) =
        ds.map (S.len · (st'.removeAll (.idx d :: (ds.map .idx ++ ds.map .len)))) :=
      List.map_congr_left fun x hx => hF.len k.1 (by simp [State.removeAll, hx])
    simp only [View.sem, mergeZSem, mergeZSub, ← h1, ← e.1]
    cases st (.idx d) with
    | none => keeps k
    | some z =>
      cases allSome (ds.map (S.len · (st.removeAll (.idx d :: (ds.map .idx ++ ds.map .len))))) with
      | none => simp [OptRel]
      | some ls => exact k.setIdxs _

end

/-- The dimensions below the view that the view sets itself. -/
def View.taken : View → List Dim
  | .intoBlocks d _ _ => [d]
  | .intoBlocksDyn d _ _ _ => [d]
  | .intoBlocksStat d _ _ _ _ => [d]
  | .mergeBlocks maj min _ => [maj, min]
  | .mergeZ _ _ ds _ => ds
  | _ => []

theorem Frame.mono {S : Sem} {P Q : Dim → Prop} (hF : Frame S P) (hPQ : ∀ q, P q → Q q) : Frame S Q := by
  have h : ∀ {st st'}, AgreeOn Q st st' → AgreeOn P st st' := fun h q hq => h q (hPQ q hq)
  exact ⟨fun a => hF.hasLen (h a), fun a => hF.len (h a), fun a => hF.size (h a), fun a => hF.align (h a),
    fun o a => hF.off o (h a), fun a => hF.elem (h a)⟩

section
variable {A : Arith} {S : Sem} {P : Dim → Prop} (hF : Frame S P)
include hF

theorem frame_sub' {v : View} (hv : v.tidy P) (hr : ∀ ps, v ≠ .rename ps) {st st' : State}
    (h : AgreeOn (fun q => v.names P q) st st') :
    OptRel (Keeps (fun q => P q ∨ q ∈ v.taken) st st') ((v.sem A S).sub st) ((v.sem A S).sub st') := by
  have hF' : Frame S (fun q => P q ∨ q ∈ v.taken) := hF.mono fun q hq => .inl hq
  refine frame_sub (A := A) hF' ?_ hr ?_
  · cases v <;> first | exact .inl hv | exact fun q hq => .inl (hv q hq) | trivial
  · intro q hq
    refine h q ?_
    clear hF' hr
    cases v <;> simp_all only [View.names, View.taken, List.not_mem_nil, or_false, List.mem_cons] <;> grind

theorem frame_bind {v : View} (hv : v.tidy P) (hr : ∀ ps, v ≠ .rename ps) {st st' : State}
    (h : AgreeOn (fun q => v.names P q) st st') {q : Dim} (hq : q ∈ v.taken ∨ st (.idx q) = st' (.idx q)) :
    ((v.sem A S).sub st).bind (S.hasLen q) = ((v.sem A S).sub st').bind (S.hasLen q) ∧
    ((v.sem A S).sub st).bind (S.len q) = ((v.sem A S).sub st').bind (S.len q) := by
  have hF' : Frame S (fun q => P q ∨ q ∈ v.taken) := hF.mono fun q hq => .inl hq
  have := frame_sub' (A := A) hF hv hr h
  revert this
  cases (v.sem A S).sub st <;> cases (v.sem A S).sub st' <;> simp only [OptRel, false_imp_iff, imp_self, Option.bind_none,
    Option.bind_some, and_self]
  intro k
  have e := hq.elim (fun hq => (k.1 q (.inr hq)).1) (k.2 q)
  exact ⟨hF'.hasLen k.1 e, hF'.len k.1 e⟩

theorem frame_len {v : View} (hv : v.tidy P) (hr : ∀ ps, v ≠ .rename ps) {st st' : State}
    (h : AgreeOn (fun q => v.names P q) st st') {q : Dim} (hq : st (.idx q) = st' (.idx q)) :
    (v.sem A S).hasLen q st = (v.sem A S).hasLen q st' ∧ (v.sem A S).len q st = (v.sem A S).len q st' := by
  have b := fun {q : Dim} hq => frame_bind (A := A) hF hv hr h (q := q) hq
  have bq := b (.inr hq)
  have s := frame_sub (A := A) hF hv hr h
  cases v with
  | bcast d =>
    have e := h d (.inl rfl)
    have hh : (bcastSem d S).hasLen q st = (bcastSem d S).hasLen q st' := by
      simp only [bcastSem, ← has_congr e.1, ← has_congr e.2]
      split
      · rfl
      · exact bq.1
    refine ⟨hh, ?_⟩
    refine guardLen_congr hh ?_
    split
    · exact e.2
    · exact bq.2
  | fix d i =>
    have hh : (fixSem d i S).hasLen q st = (fixSem d i S).hasLen q st' := by
      simp only [fixSem]
      split
      · rfl
      · exact bq.1
    exact ⟨hh, guardLen_congr hh bq.2⟩
  | setLength d l => exact ⟨bq.1, guardLen_congr bq.1 bq.2⟩
  | shift d start =>
    have e := h d hv
    have bd := b (.inr e.1)
    have hh : (shiftSem A d start S).hasLen q st = (shiftSem A d start S).hasLen q st' := by
      simp only [shiftSem, ← has_congr e.2]
      split
      · split
        · rfl
        · exact bd.1
      · exact bq.1
    refine ⟨hh, guardLen_congr hh ?_⟩
    split
    · rw [← e.2]
      cases st (.len d) with
      | some l => rfl
      | none => exact congrArg (fun o : Option Val => o.bind fun l => some (l.sub A start)) bd.2
    · exact bq.2
  | slice d start len =>
    refine ⟨bq.1, guardLen_congr bq.1 ?_⟩
    split
    · rfl
    · exact bq.2
  | span d start stop =>
    refine ⟨bq.1, guardLen_congr bq.1 ?_⟩
    split
    · rfl
    · exact bq.2
  | step d start stride =>
    refine ⟨bq.1, guardLen_congr bq.1 ?_⟩
    split
    · next e =>
      subst e
      rw [hF.len h hq]
    · exact bq.2
  | reverse d => exact ⟨bq.1, guardLen_congr bq.1 (hF.len h hq)⟩
  | reorder ds =>
    have hh : (reorderSem ds S).hasLen q st = (reorderSem ds S).hasLen q st' := by
      simp only [reorderSem]
      split
      · exact bq.1
      · rfl
    exact ⟨hh, guardLen_congr hh bq.2⟩
  | hoist d => exact ⟨bq.1, guardLen_congr bq.1 bq.2⟩
  | rename ps => exact absurd rfl (hr ps)
  | join a b d => exact ⟨bq.1, guardLen_congr bq.1 bq.2⟩
  | intoBlocks d maj min =>
    have eM := h maj (.inl (by simp))
    have em := h min (.inl (by simp))
    have bd := b (q := d) (.inl (by simp [View.taken]))
    have k : AgreeOn P (blocksClean d maj min st) (blocksClean d maj min st') :=
      (Keeps.removeAll h fun q hq => by
        by_cases h1 : q = d
        · subst h1; simp
        · exact ⟨.inr (.inr ⟨h1, hq⟩), .inr (.inr ⟨h1, hq⟩)⟩ : Keeps P st st' _ _).1
    have h1 := hF.hasLen (q := d) k (by simp [State.removeAll, blocksClean])
    have h2 := hF.len (q := d) k (by simp [State.removeAll, blocksClean])
    have hh : (intoBlocksSem A d maj min S).hasLen q st = (intoBlocksSem A d maj min S).hasLen q st' := by
      simp only [View.sem, intoBlocksSem] at bd bq ⊢
      simp only [← has_congr eM.1, ← has_congr eM.2, ← has_congr em.1, ← has_congr em.2, ← bd.1, ← bq.1, ← h1]
    refine ⟨hh, guardLen_congr hh ?_⟩
    simp only [View.sem, intoBlocksSem] at bd bq ⊢
    simp only [← eM.2, ← em.2, ← bq.2, ← h2]
    split
    · rfl
    · split
      · cases st (.len maj) with
        | some l => rfl
        | none =>
          cases st (.len min) with
          | none => rfl
          | some nl => exact bind_congr₂ bd.2 _
      · rfl
  | intoBlocksDyn d maj min pres =>
    have eM := h maj (.inl (by simp))
    have em := h min (.inl (by simp))
    have ep := h pres (.inl (by simp))
    have bd := b (q := d) (.inl (by simp [View.taken]))
    have k : AgreeOn P (st.removeAll [.idx d, .len d, .idx maj, .idx min, .len maj, .len min, .idx pres])
        (st'.removeAll [.idx d, .len d, .idx maj, .idx min, .len maj, .len min, .idx pres]) :=
      (Keeps.removeAll h fun q hq => by
        by_cases h1 : q = d
        · subst h1; simp
        · exact ⟨.inr (.inr ⟨h1, hq⟩), .inr (.inr ⟨h1, hq⟩)⟩ : Keeps P st st' _ _).1
    have h1 : (blocksDynClean d maj min pres st).bind (S.hasLen d) =
        (blocksDynClean d maj min pres st').bind (S.hasLen d) := by
      simp only [blocksDynClean, ← has_congr ep.2]
      split
      · rfl
      · exact hF.hasLen (q := d) k (by simp [State.removeAll])
    have h2 : (blocksDynClean d maj min pres st).bind (S.len d) =
        (blocksDynClean d maj min pres st').bind (S.len d) := by
      simp only [blocksDynClean, ← has_congr ep.2]
      split
      · rfl
      · exact hF.len (q := d) k (by simp [State.removeAll])
    have hh : (intoBlocksDynSem A d maj min pres S).hasLen q st =
        (intoBlocksDynSem A d maj min pres S).hasLen q st' := by
      simp only [View.sem, intoBlocksDynSem] at bd bq ⊢
      simp only [← has_congr eM.1, ← has_congr eM.2, ← has_congr em.1, ← has_congr em.2, ← bd.1, ← bq.1, ← h1]
    refine ⟨hh, guardLen_congr hh ?_⟩
    simp only [View.sem, intoBlocksDynSem] at bd bq ⊢
    simp only [← eM.1, ← eM.2, ← em.1, ← em.2, ← bq.2]
    split
    · cases st (.idx maj) with
      | none => rfl
      | some i =>
      cases st (.idx min) with
      | none => rfl
      | some j =>
      cases st (.len min) <;> cases st (.len maj)
      · rfl
      · exact bind_congr₂ h2 _
      · exact bind_congr₂ h2 _
      · rfl
    · split
      · cases st (.len min) with
        | some l => rfl
        | none =>
          cases st (.len maj) with
          | none => rfl
          | some nl => exact bind_congr₂ h2 _
      · split
        · cases st (.len maj) with
          | some l => rfl
          | none =>
            cases st (.len min) with
            | none => rfl
            | some nl => exact bind_congr₂ bd.2 _
        · rfl
  | intoBlocksStat d border maj min nl =>
    have eb := h border (.inl (by simp))
    have hB : isBody border st' = isBody border st := by simp only [isBody, eb.1]
    have bd := b (q := d) (.inl (by simp [View.taken]))
    have hh : (intoBlocksStatSem A d border maj min nl S).hasLen q st =
        (intoBlocksStatSem A d border maj min nl S).hasLen q st' := by
      simp only [View.sem, intoBlocksStatSem] at bd bq ⊢
      simp only [← has_congr hq, ← has_congr eb.2, ← bd.1, ← bq.1, hB]
    refine ⟨hh, guardLen_congr hh ?_⟩
    simp only [View.sem, intoBlocksStatSem] at bd bq ⊢
    simp only [← bq.2, hB]
    split
    · rfl
    · split
      · split
        · rfl
        · rfl
        · exact bind_congr₂ bd.2 _
      · split
        · split
          · rfl
          · exact bind_congr₂ bd.2 _
          · rfl
        · rfl
  | mergeBlocks maj min d =>
    have e := h d (.inl rfl)
    have k : AgreeOn P (blocksClean d maj min st) (blocksClean d maj min st') :=
      (Keeps.removeAll h fun q hq => by
        by_cases h1 : q ∈ [maj, min]
        · simp only [List.mem_cons, List.not_mem_nil, or_false] at h1
          constructor <;> left <;> simp [h1]
        · exact ⟨.inr (.inr ⟨h1, hq⟩), .inr (.inr ⟨h1, hq⟩)⟩ : Keeps P st st' _ _).1
    have h1 := hF.hasLen (q := maj) k (by simp [State.removeAll, blocksClean])
    have h3 := hF.hasLen (q := min) k (by simp [State.removeAll, blocksClean])
    have h2 := frame_sub' (A := A) hF hv hr h
    have hF' : Frame S (fun q => P q ∨ q ∈ [maj, min]) := hF.mono fun q hq => .inl hq
    simp only [View.sem, mergeBlocksSem, View.taken] at bq h2 ⊢
    simp only [← bq.1, ← bq.2, ← has_congr hq, ← has_congr e.2, ← e.2, ← h1, ← h3]
    revert h2
    cases mergeBlocksSub A maj min d S st <;> cases mergeBlocksSub A maj min d S st' <;>
      simp only [OptRel, false_imp_iff, imp_self, and_self]
    intro k
    have g1 := hF'.hasLen k.1 (k.1 maj (.inr (by simp))).1
    have g2 := hF'.hasLen k.1 (k.1 min (.inr (by simp))).1
    have g3 := hF'.len k.1 (k.1 maj (.inr (by simp))).1
    have g4 := hF'.len k.1 (k.1 min (.inr (by simp))).1
    simp only [Option.bind_eq_bind, Option.bind_some, g1, g2, g3, g4, and_self]
  | mergeZ sl gl ds d =>
    have h2 := frame_sub' (A := A) hF hv hr h
    have hF' : Frame S (fun q => P q ∨ q ∈ ds) := hF.mono fun q hq => .inl hq
    simp only [View.sem, mergeZSem, View.taken] at bq h2 ⊢
    simp only [← bq.1, ← bq.2, ← has_congr hq]
    revert h2
    cases mergeZSub A sl gl ds d S st <;> cases mergeZSub A sl gl ds d S st' <;>
      simp only [OptRel, false_imp_iff, imp_self, and_self]
    rename_i u u'
    intro k
    have g1 : ds.map (S.hasLen · u) = ds.map (S.hasLen · u') :=
      List.map_congr_left fun x hx => hF'.hasLen k.1 (k.1 x (.inr hx)).1
    have g2 : ds.map (S.len · u) = ds.map (S.len · u') :=
      List.map_congr_left fun x hx => hF'.len k.1 (k.1 x (.inr hx)).1
    simp only [Option.bind_eq_bind, Option.bind_some, g1, g2, and_self]

theorem frame_view {v : View} (hv : v.tidy P) (hr : ∀ ps, v ≠ .rename ps) :
    Frame ((v.sem A S).toSem S) (fun q => v.names P q) := by
  have s := fun {st st' : State} h => frame_sub (A := A) hF hv hr (st := st) (st' := st') h
  have lift : ∀ {β : Type} {f : State → Option β} {st st' : State},
      AgreeOn (fun q => v.names P q) st st' → (∀ {u u'}, AgreeOn P u u' → f u = f u') →
      ((v.sem A S).sub st).bind f = ((v.sem A S).sub st').bind f := by
    intro β f st st' h hf
    have := s h
    revert this
    cases (v.sem A S).sub st <;> cases (v.sem A S).sub st' <;> simp only [OptRel, false_imp_iff, imp_self]
    intro k
    exact hf k.1
  refine ⟨fun h hq => (frame_len hF hv hr h hq).1, fun h hq => (frame_len hF hv hr h hq).2, fun h => ?_, fun h => ?_,
    fun o h => ?_, fun h => lift h hF.elem⟩
  · simp only [ViewSem.toSem, lift h hF.size]
  · simp only [ViewSem.toSem, lift h hF.align]
  · rename_i st st'
    have e : (v.sem A S).offOk st = (v.sem A S).offOk st' := by
      cases v <;> try rfl
      next d maj min pres =>
      have eM := h maj (.inl (by simp))
      have em := h min (.inl (by simp))
      have ep := h pres (.inl (by simp))
      simp only [View.sem, intoBlocksDynSem, has_congr eM.1, has_congr em.1, has_congr ep.1]
    simp only [ViewSem.toSem, lift h (hF.off o), e]

theorem frame_rename {ps : List (Dim × Dim)} (hv : ∀ q ∈ ps.map Prod.fst, P q) :
    Frame ((View.sem A (.rename ps) S).toSem S) (fun q => (View.rename ps).names P q) := by
  have k : ∀ {st st' : State}, AgreeOn (fun q => (View.rename ps).names P q) st st' →
      AgreeOn P (renameState ps st) (renameState ps st') := by
    intro st st' h q hq
    simp only [renameState]
    by_cases h1 : q ∈ ps.map Prod.fst
    · have := h (Sig.renameDim ps q) ⟨q, hq, .inl h1, rfl⟩
      simp only [if_pos h1, this, and_self]
    · by_cases h2 : q ∈ ps.map Prod.snd
      · simp only [if_neg h1, if_pos h2, and_self]
      · have := h q ⟨q, hq, .inr h2, (renameDim_of_not_mem h1).symm⟩
        simp only [if_neg h1, if_neg h2, this, and_self]
  have i : ∀ {st st' : State} {q : Dim}, AgreeOn (fun q => (View.rename ps).names P q) st st' →
      st (.idx q) = st' (.idx q) →
      renameState ps st (.idx (Sig.renameDim (ps.map Prod.swap) q)) =
        renameState ps st' (.idx (Sig.renameDim (ps.map Prod.swap) q)) := by
    intro st st' q h hq
    by_cases h1 : Sig.renameDim (ps.map Prod.swap) q ∈ ps.map Prod.fst
    · exact (k h _ (hv _ h1)).1
    · have e : Sig.renameDim (ps.map Prod.swap) q = q := by
        refine renameDim_of_not_mem fun hm => h1 ?_
        have : ∀ l : List (Dim × Dim), q ∈ l.map Prod.fst → Sig.renameDim l q ∈ l.map Prod.snd := by
          intro l
          induction l with
          | nil => simp
          | cons p l ih =>
            intro hm
            simp only [Sig.renameDim, List.map_cons, List.mem_cons] at hm ⊢
            split
            · exact .inl rfl
            · exact .inr (ih (hm.resolve_left ‹_›))
        simpa [List.map_map, Function.comp_def] using this _ hm
      rw [e] at h1 ⊢
      simp only [renameState, if_neg h1]
      split
      · rfl
      · exact hq
  have hh : ∀ {q : Dim} {st st' : State}, AgreeOn (fun q => (View.rename ps).names P q) st st' →
      st (.idx q) = st' (.idx q) → (renameSem ps S).hasLen q st = (renameSem ps S).hasLen q st' :=
    fun h hq => hF.hasLen (k h) (i h hq)
  exact ⟨hh, fun h hq => guardLen_congr (hh h hq) (hF.len (k h) (i h hq)), fun h => hF.size (k h),
    fun h => hF.align (k h), fun o h => hF.off o (k h), fun h => hF.elem (k h)⟩

end

theorem AgreeOn.remove {P : Dim → Prop} {st st' : State} (h : AgreeOn P st st') (t : Tag) :
    AgreeOn P (st.remove t) (st'.remove t) := by
  refine fun q hq => ⟨?_, ?_⟩ <;> simp only [State.remove] <;> split <;> try rfl
  · exact (h q hq).1
  · exact (h q hq).2

theorem sizeAcc_congr {A : Arith} {st st' : State} (l : List Sem)
    (h : ∀ S ∈ l, S.align st = S.align st' ∧ S.size st = S.size st') (o : Val) :
    sizeAcc A st l o = sizeAcc A st' l o := by
  induction l generalizing o with
  | nil => rfl
  | cons S l ih =>
    have := h S (by simp)
    simp only [sizeAcc, this.1, this.2, ih fun S hS => h S (by simp [hS])]

theorem alignAll_congr {st st' : State} (l : List Sem)
    (h : ∀ S ∈ l, S.align st = S.align st') : alignAll st l = alignAll st' l := by
  induction l with
  | nil => rfl
  | cons S l ih =>
    have e := h S (by simp)
    cases l with
    | nil => exact e
    | cons S' l => simp only [alignAll, e, ih fun S hS => h S (by simp [hS])]

theorem frame_tuple {A : Arith} {t : Dim} {n : Nat} {fs : Fin n → Sem} {P : Fin n → Dim → Prop}
    (hF : ∀ i, Frame (fs i) (P i)) : Frame (tupleSem A t n fs) (fun q => q = t ∨ ∃ i, P i q) := by
  have k : ∀ {st st' : State}, AgreeOn (fun q => q = t ∨ ∃ i, P i q) st st' →
      ∀ i, AgreeOn (P i) (st.remove (.idx t)) (st'.remove (.idx t)) :=
    fun h i => AgreeOn.remove (fun q hq => h q (.inr ⟨i, hq⟩)) _
  have kq : ∀ {st st' : State} {q : Dim}, st (.idx q) = st' (.idx q) →
      (st.remove (.idx t)) (.idx q) = (st'.remove (.idx t)) (.idx q) := by
    intro st st' q h
    simp only [State.remove, h]
  have hh : ∀ {q : Dim} {st st' : State}, AgreeOn (fun q => q = t ∨ ∃ i, P i q) st st' →
      st (.idx q) = st' (.idx q) → (tupleSem A t n fs).hasLen q st = (tupleSem A t n fs).hasLen q st' := by
    intro q st st' h hq
    have e := (h t (.inl rfl)).1
    simp only [tupleSem, ← has_congr e, ← e]
    split
    · rfl
    · split
      · cases constIdx (st (.idx t)) with
        | none => rfl
        | some j =>
          simp only [Option.bind_eq_bind, Option.bind_some]
          split
          · exact (hF _).hasLen (k h _) (kq hq)
          · rfl
      · rfl
  refine ⟨hh, fun {q st st'} h hq => guardLen_congr (hh h hq) ?_, fun {st st'} h => ?_, fun {st st'} h => ?_,
    fun {st st'} o h => ?_, fun {st st'} h => ?_⟩
  · have e := (h t (.inl rfl)).1
    simp only [← e]
    split
    · rfl
    · cases constIdx (st (.idx t)) with
      | none => rfl
      | some j =>
        simp only [Option.bind_eq_bind, Option.bind_some]
        split
        · exact (hF _).len (k h _) (kq hq)
        · rfl
  · refine sizeAcc_congr _ (fun S hS => ?_) _
    obtain ⟨i, rfl⟩ := List.mem_ofFn.1 hS
    exact ⟨(hF i).align (k h i), (hF i).size (k h i)⟩
  · refine alignAll_congr _ fun S hS => ?_
    obtain ⟨i, rfl⟩ := List.mem_ofFn.1 hS
    exact (hF i).align (k h i)
  · have e := (h t (.inl rfl)).1
    simp only [tupleSem, ← e]
    cases constIdx (st (.idx t)) with
    | none => rfl
    | some j =>
      simp only [Option.bind_eq_bind, Option.bind_some]
      split
      · rw [sizeAcc_congr (st' := st'.remove (.idx t))]
        · simp only [Option.bind_some]
          refine Option.bind_congr fun b _ => (hF _).off _ (k h _)
        · intro S hS
          obtain ⟨i, rfl⟩ := List.mem_ofFn.1 (List.mem_of_mem_take hS)
          exact ⟨(hF i).align (k h i), (hF i).size (k h i)⟩
      · rfl
  · have e := (h t (.inl rfl)).1
    simp only [tupleSem, ← e]
    cases constIdx (st (.idx t)) with
    | none => rfl
    | some j =>
      simp only [Option.bind_eq_bind, Option.bind_some]
      split
      · exact (hF _).elem (k h _)
      · rfl

theorem frame_vector {A : Arith} {d : Dim} {S : Sem} {P : Dim → Prop} (hF : Frame S P) :
    Frame (vectorSem A d S) (fun q => q = d ∨ P q) := by
  have k : ∀ {st st' : State}, AgreeOn (fun q => q = d ∨ P q) st st' →
      Keeps P st st' (st.removeAll [.idx d, .len d]) (st'.removeAll [.idx d, .len d]) :=
    fun h => Keeps.removeAll h fun q hq => ⟨.inr (.inr hq), .inr (.inr hq)⟩
  have hh : ∀ {q : Dim} {st st' : State}, AgreeOn (fun q => q = d ∨ P q) st st' →
      st (.idx q) = st' (.idx q) → (vectorSem A d S).hasLen q st = (vectorSem A d S).hasLen q st' := by
    intro q st st' h hq
    have e := h d (.inl rfl)
    simp only [vectorSem, ← has_congr e.1, ← has_congr e.2, hF.hasLen (k h).1 ((k h).2 q hq)]
  refine ⟨hh, fun {q st st'} h hq => guardLen_congr (hh h hq) ?_, fun {st st'} h => ?_, fun {st st'} h => hF.align (k h).1,
    fun {st st'} o h => ?_, fun {st st'} h => hF.elem (k h).1⟩
  · have e := h d (.inl rfl)
    simp only [← e.2, hF.len (k h).1 ((k h).2 q hq)]
  · have e := h d (.inl rfl)
    simp only [vectorSem, ← e.2, hF.size (k h).1]
  · have e := h d (.inl rfl)
    simp only [vectorSem, ← e.1, ← e.2, hF.size (k h).1, fun o => hF.off o (k h).1]

theorem frame_union {n : Nat} {fs : Fin n → Sem} {P : Fin n → Dim → Prop}
    (hF : ∀ i, Frame (fs i) (P i)) : Frame (unionSem n fs) (fun q => ∃ i, P i q) := by
  have k : ∀ {st st' : State}, AgreeOn (fun q => ∃ i, P i q) st st' → ∀ i, AgreeOn (P i) st st' :=
    fun h i q hq => h q ⟨i, hq⟩
  have hh : ∀ {q : Dim} {st st' : State}, AgreeOn (fun q => ∃ i, P i q) st st' →
      st (.idx q) = st' (.idx q) → (unionSem n fs).hasLen q st = (unionSem n fs).hasLen q st' := by
    intro q st st' h hq
    simp only [unionSem]
    cases firstMatch fs q with
    | none => rfl
    | some i => exact (hF i).hasLen (k h i) hq
  refine ⟨hh, fun {q st st'} h hq => guardLen_congr (hh h hq) ?_, fun h => rfl, fun h => rfl, fun o h => rfl, fun h => rfl⟩
  cases firstMatch fs q with
  | none => rfl
  | some i => exact (hF i).len (k h i) hq

/-- The queries of a structure depend only on the indices and lengths of its own dimensions. -/
theorem Struct.frame {A : Arith} : ∀ {s : Struct}, s.tidy → Frame (s.sem A) s.names
  | .scalar _ _, _ => ⟨fun _ _ => rfl, fun _ _ => rfl, fun _ => rfl, fun _ => rfl, fun _ _ => rfl, fun _ => rfl⟩
  | .tuple _ _ fs, h => frame_tuple fun i => Struct.frame (h i)
  | .vector _ _, h => frame_vector (Struct.frame h)
  | .union _ _, h => frame_union fun i => Struct.frame (h i)
  | .view v s, ⟨hs, hv⟩ => by
    have ih := Struct.frame (A := A) hs
    cases v with
    | rename ps => exact frame_rename ih hv
    | shift d x => exact frame_view ih (v := .shift d x) hv (by simp)
    | reverse d => exact frame_view ih (v := .reverse d) hv (by simp)
    | _ => exact frame_view ih trivial (by simp)

end Noarr
