import Verif.MachineBlocks

/-
`merge_zcurve` has related queries, hence all structures do. Used for C45.
-/

set_option linter.unusedVariables false

namespace Noarr

open Option (Refines)

section
variable {W : Nat} {A B : Arith}

namespace ZC
variable (h : Arith.Agrees W A B) (h1 : 1 < W)
include h h1

theorem facetFactor_rel {size res : Nat → Nat} (hs : ∀ j, size j < W) {level i j c : Nat}
    (hc : facetFactor A size res level i j = .ok c) : facetFactor B size res level i j = .ok c := by
  unfold facetFactor at hc ⊢
  split
  · next e => rw [if_pos e] at hc; exact hc
  · next e =>
    rw [if_neg e] at hc
    simp only at hc ⊢
    generalize (if j > i then 2 else 1) * 2 ^ level = tile at hc ⊢
    split
    · next e =>
      rw [if_pos e] at hc
      cases hd : A.sub (size j) 1 with
      | error => rw [hd] at hc; cases hc
      | ok s =>
        rw [hd] at hc
        obtain ⟨e1, e2⟩ := h.sub (hs j) h1 hd
        rw [e1]
        exact (h.add hc).1
    · next e => rw [if_neg e] at hc; exact hc

theorem facet_rel {size res : Nat → Nat} (hs : ∀ j, size j < W) {level i : Nat} :
    ∀ {n c : Nat}, facet A size res level i n = .ok c → facet B size res level i n = .ok c
  | 0, c, hc => hc
  | n + 1, c, hc => by
    simp only [facet] at hc ⊢
    cases hp : facet A size res level i n with
    | error => rw [hp] at hc; cases hc
    | ok p =>
      rw [hp] at hc
      rw [facet_rel hs hp]
      simp only [Except.bind, bind] at hc ⊢
      cases hf : facetFactor A size res level i n with
      | error => rw [hf] at hc; cases hc
      | ok f =>
        rw [hf] at hc
        rw [facetFactor_rel h h1 hs hf]
        exact (h.mul hc).1

theorem step_rel {n : Nat} {size : Nat → Nat} (hs : ∀ j, size j < W) {level i : Nat} {zr zr' : Nat × (Nat → Nat)}
    (hz : zr.1 < W) (hc : step A n size level i zr = .ok zr') :
    step B n size level i zr = .ok zr' ∧ zr'.1 < W := by
  simp only [step] at hc ⊢
  cases hf : facet A size zr.2 level i n with
  | error => rw [hf] at hc; cases hc
  | ok f =>
    rw [hf] at hc
    rw [facet_rel h h1 hs hf]
    simp only [Except.bind, bind] at hc ⊢
    cases hm : A.mul f (2 ^ level) with
    | error => rw [hm] at hc; cases hc
    | ok half =>
      rw [hm] at hc
      obtain ⟨e1, e2⟩ := h.mul hm
      rw [e1]
      simp only at hc ⊢
      split
      · next hle =>
        rw [if_pos hle] at hc
        cases hd : A.sub zr.1 half with
        | error => rw [hd] at hc; cases hc
        | ok z =>
          rw [hd] at hc
          obtain ⟨e3, e4⟩ := h.sub hz e2 hd
          rw [e3]
          simp only at hc ⊢
          cases ha : A.add (zr.2 i) (2 ^ level) with
          | error => rw [ha] at hc; cases hc
          | ok r =>
            rw [ha] at hc
            rw [(h.add ha).1]
            cases hc
            exact ⟨rfl, e4⟩
      · next hle =>
        rw [if_neg hle] at hc
        cases hc
        exact ⟨rfl, hz⟩

theorem level_rel {n : Nat} {size : Nat → Nat} (hs : ∀ j, size j < W) {lvl : Nat} :
    ∀ {i : Nat} {zr zr' : Nat × (Nat → Nat)}, zr.1 < W → level A n size lvl i zr = .ok zr' →
      level B n size lvl i zr = .ok zr' ∧ zr'.1 < W
  | 0, zr, zr', hz, hc => by cases hc; exact ⟨rfl, hz⟩
  | i + 1, zr, zr', hz, hc => by
    simp only [level] at hc ⊢
    cases hl : level A n size lvl i zr with
    | error => rw [hl] at hc; cases hc
    | ok p =>
      rw [hl] at hc
      obtain ⟨e1, e2⟩ := level_rel hs hz hl
      rw [e1]
      exact step_rel h h1 hs e2 hc

theorem loop_rel {n : Nat} {size : Nat → Nat} (hs : ∀ j, size j < W) :
    ∀ {lvl : Nat} {zr zr' : Nat × (Nat → Nat)}, zr.1 < W → loop A n size lvl zr = .ok zr' →
      loop B n size lvl zr = .ok zr' ∧ zr'.1 < W
  | 0, zr, zr', hz, hc => by cases hc; exact ⟨rfl, hz⟩
  | i + 1, zr, zr', hz, hc => by
    simp only [loop] at hc ⊢
    cases hl : level A n size i n zr with
    | error => rw [hl] at hc; cases hc
    | ok p =>
      rw [hl] at hc
      obtain ⟨e1, e2⟩ := level_rel h h1 hs hz hl
      rw [e1]
      exact loop_rel hs e2 hc

theorem index_rel {n sl gl : Nat} {len : Nat → Nat} (hl : ∀ j, len j < W) {z i c : Nat} (hz : z < W)
    (hc : index A n sl gl len z i = .ok c) : index B n sl gl len z i = .ok c ∧ c < W := by
  unfold index at hc ⊢
  split
  · next e => rw [if_pos e] at hc; cases hc
  · next e =>
    rw [if_neg e] at hc
    simp only [general] at hc ⊢
    cases hp : loop A n (fun j => len j / 2 ^ sl) (gl - sl) (z / 2 ^ (sl * n), fun _ => 0) with
    | error => rw [hp] at hc; cases hc
    | ok p =>
      rw [hp] at hc
      obtain ⟨e1, -⟩ := loop_rel h h1 (fun j => Nat.lt_of_le_of_lt (Nat.div_le_self _ _) (hl j))
        (Nat.lt_of_le_of_lt (Nat.div_le_self _ _) hz) hp
      rw [e1]
      simp only [Except.bind, bind] at hc ⊢
      cases hq : special n i (z % 2 ^ (sl * n)) with
      | error => rw [hq] at hc; cases hc
      | ok q =>
        rw [hq] at hc
        simp only at hc ⊢
        cases hm : A.mul (p.2 i) (2 ^ sl) with
        | error => rw [hm] at hc; cases hc
        | ok m =>
          rw [hm] at hc
          rw [(h.mul hm).1]
          exact h.add hc

end ZC

theorem forall2_bad : ∀ (l l' : List Val), l.length = l'.length →
    Forall2 (Val.Rel W) (l.map fun _ => .bad .wrap) l'
  | [], [], _ => .nil
  | a :: l, b :: l', h => .cons .bad (forall2_bad l l' (by simpa using h))
  | [], _ :: _, h => by simp at h
  | _ :: _, [], h => by simp at h

theorem Forall2.length_eq {α : Type} {p : α → α → Prop} {l l' : List α} (h : Forall2 p l l') :
    l.length = l'.length := by
  induction h with
  | nil => rfl
  | cons _ _ ih => simp [ih]

theorem allSome_nat? : ∀ {l l' : List Val} {ns : List Nat}, Forall2 (Val.Rel W) l l' →
    allSome (l.map Val.nat?) = some ns → l' = l ∧ (∀ n ∈ ns, n < W) ∧ ns.length = l.length
  | _, _, ns, .nil, hn => by cases hn; simp
  | _, _, ns, .cons (a := a) (b := b) (l := l) (l' := l') hab hl, hn => by
    simp only [List.map_cons, allSome, Option.bind_eq_bind, Option.bind_eq_some_iff] at hn
    obtain ⟨x, hx, xs, hxs, hn⟩ := hn
    cases hn
    obtain ⟨rfl, h2, h3⟩ := allSome_nat? hl hxs
    rcases hab with hab | ⟨rfl, hf⟩
    · rw [hab] at hx; cases hx
    · refine ⟨rfl, ?_, by simp [h3]⟩
      intro n hn
      rcases List.mem_cons.mp hn with rfl | hn
      · exact hf _ hx
      · exact h2 n hn

theorem zcIndices_length {A : Arith} {sl gl : Nat} {l : List Val} {z : Val} :
    (zcIndices A sl gl l z).length = l.length := by
  have key : ∀ {l : List Val} {ns : List Nat}, allSome (l.map Val.nat?) = some ns → ns.length = l.length := by
    intro l
    induction l with
    | nil => intro ns h; cases h; rfl
    | cons a l ih =>
      intro ns h
      simp only [List.map_cons, allSome, Option.bind_eq_bind, Option.bind_eq_some_iff] at h
      obtain ⟨x, hx, xs, hxs, h⟩ := h
      cases h
      simp [ih hxs]
  unfold zcIndices
  split
  · next h => simp [key h]
  · simp

theorem forall2_map {α : Type} {f g : α → Val} : ∀ (l : List α), (∀ a, (f a).Rel W (g a)) →
    Forall2 (Val.Rel W) (l.map f) (l.map g)
  | [], _ => .nil
  | a :: l, h => .cons (h a) (forall2_map l h)

theorem zcIndices_rel (h : Arith.Agrees W A B) (h1 : 1 < W) {sl gl : Nat} {l l' : List Val} {z z' : Val}
    (hl : Forall2 (Val.Rel W) l l') (hz : z.Rel W z') :
    Forall2 (Val.Rel W) (zcIndices A sl gl l z) (zcIndices B sl gl l' z') := by
  have hbad : Forall2 (Val.Rel W) (l.map fun _ => .bad .wrap) (zcIndices B sl gl l' z') :=
    forall2_bad _ _ (by rw [zcIndices_length, hl.length_eq])
  cases hz' : z.nat? with
  | none => simp only [zcIndices, hz']; exact hbad
  | some n =>
    cases hn : allSome (l.map Val.nat?) with
    | none => simp only [zcIndices, hz', hn]; exact hbad
    | some ns =>
      obtain ⟨rfl, hb, -⟩ := allSome_nat? hl hn
      rcases hz with hz | ⟨rfl, hf⟩
      · rw [hz] at hz'; cases hz'
      · simp only [zcIndices, hz', hn]
        refine forall2_map _ fun i => Val.rel_ofDyn fun c hc => ?_
        refine ZC.index_rel h h1 ?_ (hf n hz') hc
        intro j
        by_cases hj : j < ns.length
        · simp only [List.getD_eq_getElem?_getD, List.getElem?_eq_getElem hj, Option.getD_some]
          exact hb _ (List.getElem_mem hj)
        · simp only [List.getD_eq_getElem?_getD, List.getElem?_eq_none (Nat.le_of_not_lt hj), Option.getD_none]
          omega

theorem allSome_rel {α : Type} {β : Type} {p : α → α → Prop} {f g : β → Option α} :
    ∀ (l : List β), (∀ b, Option.Refines p (f b) (g b)) →
      Option.Refines (Forall2 p) (allSome (l.map f)) (allSome (l.map g))
  | [], _ => .some .nil
  | b :: l, h => .bind (h b) fun _ _ hv => .bind (allSome_rel l h) fun _ _ hl => .some (.cons hv hl)

theorem setIdxs_rel : ∀ (ds : List Dim) {l l' : List Val} {x y : State}, Forall2 (Val.Rel W) l l' → x.Rel W y →
    (setIdxs x (ds.zip l)).Rel W (setIdxs y (ds.zip l'))
  | [], _, _, _, _, _, hx => hx
  | _ :: _, _, _, _, _, .nil, hx => hx
  | d :: ds, _, _, _, _, .cons hv hl, hx => setIdxs_rel ds hl (hx.set _ hv)

theorem mulFold_rel (h : Arith.Agrees W A B) {l l' : List Val} (hl : Forall2 (Val.Rel W) l l') :
    ∀ {v w : Val}, v.Rel W w → (mulFold A v l).Rel W (mulFold B w l') := by
  induction hl with
  | nil => intro v w hv; exact hv
  | cons hab _ ih => intro v w hv; exact ih (hv.toDyn.mul h hab.toDyn)

theorem Forall2.eq {α : Type} {l l' : List α} (h : Forall2 Eq l l') : l = l' := by
  induction h with
  | nil => rfl
  | cons h _ ih => rw [h, ih]

theorem mz_rel (h : Arith.Agrees W A B) (h1 : 1 < W) {sl gl : Nat} {ds : List Dim} {d : Dim} {S T : Sem}
    (hS : SemRel W S T) : ViewRel W (mergeZSem A sl gl ds d S) (mergeZSem B sl gl ds d T) := by
  have hsub : ∀ {x y : State}, x.Rel W y → Option.Refines (State.Rel W) (mergeZSub A sl gl ds d S x)
      (mergeZSub B sl gl ds d T y) := by
    intro x y hx
    have hc := hx.removeAll (.idx d :: (ds.map .idx ++ ds.map .len))
    simp only [mergeZSub]
    rcases hx.cases (.idx d) with ⟨h1, h2⟩ | ⟨z, z', e1, e2, e3⟩
    · simp only [h1, h2]; exact .some hc
    · simp only [e1, e2]
      exact .bind (allSome_rel ds fun e => hS.len e hc) fun l l' hl =>
        .some (setIdxs_rel ds (zcIndices_rel h h1 hl e3) hc)
  have hlen : ∀ q {x y : State}, x.Rel W y →
      Option.Refines Eq ((mergeZSem A sl gl ds d S).hasLen q x) ((mergeZSem B sl gl ds d T).hasLen q y) := by
    intro q x y hx
    refine .ite (hx.has _) (.some rfl) (.dite (fun _ => ?_) fun _ => .bind (hsub hx) fun _ _ hv => hS.hasLen q hv)
    exact .bind (hsub hx) fun _ _ hv => .bind (allSome_rel ds fun e => hS.hasLen e hv) fun _ _ hl =>
      .some (by rw [hl.eq])
  refine ⟨by simp only [mergeZSem, hS.sig], hsub, hlen, ?_, rfl, fun _ => rfl⟩
  intro q x y hx
  refine guardLen_rel (hlen q hx) fun _ => .dite (fun _ => ?_) fun _ => .bind (hsub hx) fun _ _ hv => hS.len q hv
  refine .bind (hsub hx) fun _ _ hv => .bind (allSome_rel ds fun e => hS.len e hv) fun l l' hl => ?_
  cases hl with
  | nil => exact .none
  | cons hab hl => exact .some (mulFold_rel h hl hab)

end

/-- All the constants in a view are numbers below `W`. -/
def View.fits (W : Nat) : View → Prop
  | .fix _ i => i.fits W
  | .setLength _ l => l.fits W
  | .shift _ s => s.fits W
  | .slice _ s l => s.fits W ∧ l.fits W
  | .span _ s e => s.fits W ∧ e.fits W
  | .step _ s k => s.fits W ∧ k.fits W
  | .intoBlocksStat _ _ _ _ nl => nl.fits W
  | _ => True

/-- All the sizes, alignments, numbers of fields and constants in a structure are below `W`. -/
def Struct.fits (W : Nat) : Struct → Prop
  | .scalar s a => s < W ∧ a < W
  | .tuple _ n fs => n < W ∧ ∀ i, (fs i).fits W
  | .vector _ s => s.fits W
  | .union _ ss => ∀ i, (ss i).fits W
  | .view v s => v.fits W ∧ s.fits W

theorem Struct.rel {W : Nat} {A B : Arith} (h : Arith.Agrees W A B) (hW : 2 < W) :
    ∀ (s : Struct), s.fits W → SemRel W (s.sem A) (s.sem B)
  | .scalar s a, hf => scalar_rel hf.1 hf.2
  | .tuple t n fs, hf => tuple_rel h (by omega) hf.1 fun i => Struct.rel h hW (fs i) (hf.2 i)
  | .vector d s, hf => vector_rel h (by omega) (Struct.rel h hW s hf)
  | .union n ss, hf => union_rel fun i => Struct.rel h hW (ss i) (hf i)
  | .view v s, hf => by
    have ih := Struct.rel h hW s hf.2
    have hv := hf.1
    refine ViewRel.toSem ?_ ih
    have h1 : 1 < W := by omega
    cases v with
    | bcast => exact bcast_rel ih
    | fix => exact fix_rel hv ih
    | setLength => exact setLength_rel hv ih
    | shift => exact shift_rel h hv ih
    | slice => exact slice_rel h hv.1 hv.2 ih
    | span => exact span_rel h hv.1 hv.2 ih
    | step => exact step_rel h h1 hv.1 hv.2 ih
    | reverse => exact reverse_rel h h1 ih
    | reorder => exact reorder_rel ih
    | hoist => exact hoist_rel ih
    | rename => exact rename_rel ih
    | join => exact join_rel ih
    | intoBlocks => exact ib_rel h ih
    | intoBlocksDyn => exact ibd_rel h h1 ih
    | intoBlocksStat => exact ibs_rel h hW hv ih
    | mergeBlocks => exact mb_rel h ih
    | mergeZ => exact mz_rel h h1 ih

end Noarr
