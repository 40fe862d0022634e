import Verif.MachineSem

/-
Blocks have related queries. Used for C45.
-/

set_option linter.unusedVariables false

namespace Noarr

open Option (Refines)

section
variable {W : Nat} {A B : Arith}

theorem blocksClean_rel {x y : State} (hx : x.Rel W y) (d maj min : Dim) :
    (blocksClean d maj min x).Rel W (blocksClean d maj min y) := hx.removeAll _

theorem setOpt_rel {x y : State} {o o' : Option Val} (hx : x.Rel W y) (ho : orel W o o') (t : Tag) :
    State.Rel W (match o with | some v => x.set t v | none => x)
      (match o' with | some v => y.set t v | none => y) := by
  cases o <;> cases o' <;> simp only [orel] at ho
  · exact hx
  · exact hx.set _ ho

/-- the answer of `block`, if related -/
theorem blockLen_rel {S T : Sem} {x y : State} (hx : x.Rel W y) {o o' p p' : Option Bool}
    (a b : Dim) : Option.Refines Eq o o' → Option.Refines Eq p p' →
    Option.Refines Eq
      (if x.has (.idx a) then some false
       else if x.has (.len a) then
        (if x.has (.len b) then
          match o with
          | some false => some true
          | _ => none
         else some true)
       else if x.has (.len b) then p
       else some false)
      (if y.has (.idx a) then some false
       else if y.has (.len a) then
        (if y.has (.len b) then
          match o' with
          | some false => some true
          | _ => none
         else some true)
       else if y.has (.len b) then p'
       else some false) := by
  intro ho hp
  refine .ite (hx.has _) (.some rfl) (.ite (hx.has _) (.ite (hx.has _) ?_ (.some rfl))
    (.ite (hx.has _) hp (.some rfl)))
  cases o with
  | none => exact .none
  | some v =>
    obtain ⟨_, h', rfl⟩ := ho v rfl
    subst h'
    cases v
    · exact .some rfl
    · exact .none

theorem ib_rel (h : Arith.Agrees W A B) {d maj min : Dim} {S T : Sem} (hS : SemRel W S T) :
    ViewRel W (intoBlocksSem A d maj min S) (intoBlocksSem B d maj min T) := by
  have hsub : ∀ {x y : State}, x.Rel W y → Option.Refines (State.Rel W) (intoBlocksSub A d maj min S x)
      (intoBlocksSub B d maj min T y) := by
    intro x y hx
    have hc := blocksClean_rel hx d maj min
    simp only [intoBlocksSub]
    rcases hx.cases (.len min) with ⟨h1, h2⟩ | ⟨nl, nl', e1, e2, e3⟩
    · rw [h1, h2]
      simp only
      cases hb : S.hasLen d (blocksClean d maj min x) with
      | none => exact .none
      | some b =>
        obtain ⟨_, hb', rfl⟩ := hS.hasLen d hc b hb
        rw [hb']
        cases b
        · exact .some hc
        · simp only
          rcases hx.cases (.len maj) with ⟨h1, h2⟩ | ⟨ml, ml', l1, l2, l3⟩
          · (try simp only [l1, l2]); (try simp only [i1, i2]); simp only [h1, h2]; exact .some hc
          · rcases hx.cases (.idx maj) with ⟨h1, h2⟩ | ⟨i, i', i1, i2, i3⟩
            · (try simp only [l1, l2]); (try simp only [i1, i2]); simp only [h1, h2]; exact .some hc
            · rcases hx.cases (.idx min) with ⟨h1, h2⟩ | ⟨j, j', j1, j2, j3⟩
              · (try simp only [l1, l2]); (try simp only [i1, i2]); simp only [h1, h2]; exact .some hc
              · simp only [l1, l2, i1, i2, j1, j2]
                exact .bind (hS.len d hc) fun l l' hl => .some (hc.set _ ((i3.mul h (hl.div h l3)).add h j3))
    · rw [e1, e2]
      simp only
      have hc' : State.Rel W (match x (.len maj) with
          | some ml => (blocksClean d maj min x).set (.len d) (ml.mul A nl)
          | none => blocksClean d maj min x)
        (match y (.len maj) with
          | some ml => (blocksClean d maj min y).set (.len d) (ml.mul B nl')
          | none => blocksClean d maj min y) := by
        rcases hx.cases (.len maj) with ⟨h1, h2⟩ | ⟨ml, ml', l1, l2, l3⟩
        · simp only [h1, h2]; exact hc
        · simp only [l1, l2]; exact hc.set _ (l3.mul h e3)
      rcases hx.cases (.idx maj) with ⟨h1, h2⟩ | ⟨i, i', i1, i2, i3⟩
      · (try simp only [l1, l2]); (try simp only [i1, i2]); simp only [h1, h2]; exact .some hc'
      · rcases hx.cases (.idx min) with ⟨h1, h2⟩ | ⟨j, j', j1, j2, j3⟩
        · (try simp only [l1, l2]); (try simp only [i1, i2]); simp only [h1, h2]; exact .some hc'
        · simp only [i1, i2, j1, j2]
          exact .some (hc'.set _ ((i3.mul h e3).add h j3))
  have hlen : ∀ q {x y : State}, x.Rel W y →
      Option.Refines Eq ((intoBlocksSem A d maj min S).hasLen q x) ((intoBlocksSem B d maj min T).hasLen q y) := by
    intro q x y hx
    have hc := blocksClean_rel hx d maj min
    exact .dite
      (fun _ => blockLen_rel (S := S) (T := T) hx _ _ (hS.hasLen d hc) (.bind (hsub hx) fun _ _ hv => hS.hasLen d hv))
      fun _ => .dite
        (fun _ => blockLen_rel (S := S) (T := T) hx _ _ (hS.hasLen d hc)
          (.bind (hsub hx) fun _ _ hv => hS.hasLen d hv))
        fun _ => .dite (fun _ => .some rfl) fun _ => .bind (hsub hx) fun _ _ hv => hS.hasLen q hv
  refine ⟨by simp only [intoBlocksSem, hS.sig], hsub, hlen, ?_, rfl, fun _ => rfl⟩
  intro q x y hx
  have hc := blocksClean_rel hx d maj min
  refine guardLen_rel (hlen q hx) fun _ => .dite (fun _ => ?_) fun _ => .dite (fun _ => ?_) fun _ =>
    .bind (hsub hx) fun _ _ hv => hS.len q hv
  · rcases hx.cases (.len min) with ⟨h1, h2⟩ | ⟨nl, nl', e1, e2, e3⟩
    · rw [h1, h2]
      exact .bind (hx.refines _) fun _ _ hm => .bind (hS.len d hc) fun _ _ hl => .some (hl.div h hm)
    · rw [e1, e2]; exact .some e3
  · rcases hx.cases (.len maj) with ⟨h1, h2⟩ | ⟨nl, nl', e1, e2, e3⟩
    · rw [h1, h2]
      exact .bind (hx.refines _) fun _ _ hm => .bind (hsub hx) fun _ _ hs =>
        .bind (hS.len d hs) fun _ _ hl => .some (hl.div h hm)
    · rw [e1, e2]; exact .some e3

theorem ceilDiv_rel (h : Arith.Agrees W A B) (h1 : 1 < W) {l l' k k' : Val} (hl : l.Rel W l') (hk : k.Rel W k') :
    (ceilDiv A l k).Rel W (ceilDiv B l' k') := ((hl.add h hk).sub h (.lit h1)).div h hk

theorem ibd_rel (h : Arith.Agrees W A B) (hW : 1 < W) {d maj min pres : Dim} {S T : Sem} (hS : SemRel W S T) :
    ViewRel W (intoBlocksDynSem A d maj min pres S) (intoBlocksDynSem B d maj min pres T) := by
  have hclean : ∀ {x y : State}, x.Rel W y → Option.Refines (State.Rel W) (blocksDynClean d maj min pres x)
      (blocksDynClean d maj min pres y) := by
    intro x y hx
    exact .ite (hx.has _) .none (.some (hx.removeAll _))
  have hsub : ∀ {x y : State}, x.Rel W y → Option.Refines (State.Rel W) (intoBlocksDynSub A d maj min pres S x)
      (intoBlocksDynSub B d maj min pres T y) := by
    intro x y hx
    refine .bind (hclean hx) fun cs cs' hc => ?_
    rcases hx.cases (.len min) with ⟨h1, h2⟩ | ⟨nl, nl', e1, e2, e3⟩
    · rw [h1, h2]
      simp only
      rcases hx.cases (.len maj) with ⟨h1, h2⟩ | ⟨ml, ml', l1, l2, l3⟩
      · (try simp only [l1, l2]); (try simp only [i1, i2]); simp only [h1, h2]; exact .some hc
      · rcases hx.cases (.idx maj) with ⟨h1, h2⟩ | ⟨i, i', i1, i2, i3⟩
        · (try simp only [l1, l2]); (try simp only [i1, i2]); simp only [h1, h2]; exact .some hc
        · rcases hx.cases (.idx min) with ⟨h1, h2⟩ | ⟨j, j', j1, j2, j3⟩
          · (try simp only [l1, l2]); (try simp only [i1, i2]); simp only [h1, h2]; exact .some hc
          · simp only [l1, l2, i1, i2, j1, j2]
            exact .bind (hS.len d hc) fun l l' hl =>
              .some (hc.set _ ((i3.mul h (ceilDiv_rel h hW hl l3)).add h j3))
    · rw [e1, e2]
      simp only
      have hc' : State.Rel W (match x (.len maj) with
          | some ml => cs.set (.len d) (ml.mul A nl)
          | none => cs)
        (match y (.len maj) with
          | some ml => cs'.set (.len d) (ml.mul B nl')
          | none => cs') := by
        rcases hx.cases (.len maj) with ⟨h1, h2⟩ | ⟨ml, ml', l1, l2, l3⟩
        · simp only [h1, h2]; exact hc
        · simp only [l1, l2]; exact hc.set _ (l3.mul h e3)
      rcases hx.cases (.idx maj) with ⟨h1, h2⟩ | ⟨i, i', i1, i2, i3⟩
      · (try simp only [l1, l2]); (try simp only [i1, i2]); simp only [h1, h2]; exact .some hc'
      · rcases hx.cases (.idx min) with ⟨h1, h2⟩ | ⟨j, j', j1, j2, j3⟩
        · (try simp only [l1, l2]); (try simp only [i1, i2]); simp only [h1, h2]; exact .some hc'
        · simp only [i1, i2, j1, j2]
          exact .some (hc'.set _ ((i3.mul h e3).add h j3))
  have hcl : ∀ {x y : State}, x.Rel W y → Option.Refines Eq
      ((blocksDynClean d maj min pres x).bind (S.hasLen d)) ((blocksDynClean d maj min pres y).bind (T.hasLen d)) :=
    fun hx => .bind (hclean hx) fun _ _ hv => hS.hasLen d hv
  have hlen : ∀ q {x y : State}, x.Rel W y →
      Option.Refines Eq ((intoBlocksDynSem A d maj min pres S).hasLen q x)
        ((intoBlocksDynSem B d maj min pres T).hasLen q y) := by
    intro q x y hx
    refine .dite (fun _ => ?_) fun _ => .dite
      (fun _ => blockLen_rel (S := S) (T := T) hx _ _ (hcl hx) (.bind (hsub hx) fun _ _ hv => hS.hasLen d hv))
      fun _ => .dite
        (fun _ => blockLen_rel (S := S) (T := T) hx _ _ (hcl hx) (.bind (hsub hx) fun _ _ hv => hS.hasLen d hv))
        fun _ => .dite (fun _ => .some rfl) fun _ => .bind (hsub hx) fun _ _ hv => hS.hasLen q hv
    refine .ite (by rw [hx.has, hx.has]) (.ite (by rw [hx.has, hx.has]) ?_
      (.ite (by rw [hx.has, hx.has]) (hcl hx) (.some rfl))) (.some rfl)
    have := hcl hx
    cases hb : (blocksDynClean d maj min pres x).bind (S.hasLen d) with
    | none => exact .none
    | some b =>
      obtain ⟨_, hb', rfl⟩ := this b hb
      rw [hb']
      cases b
      · exact .some rfl
      · exact .none
  refine ⟨by simp only [intoBlocksDynSem, hS.sig], hsub, hlen, ?_, rfl, fun hx => by
    simp only [intoBlocksDynSem]; rw [hx.has, hx.has, hx.has]⟩
  intro q x y hx
  refine guardLen_rel (hlen q hx) fun _ => .dite (fun _ => ?_) fun _ => .dite (fun _ => ?_) fun _ =>
    .dite (fun _ => ?_) fun _ => .bind (hsub hx) fun _ _ hv => hS.len q hv
  · refine .bind (hx.refines _) fun i i' hi => .bind (hx.refines _) fun j j' hj => ?_
    rcases hx.cases (.len min) with ⟨h1, h2⟩ | ⟨nl, nl', e1, e2, e3⟩
    · rw [h1, h2]
      simp only
      exact .bind (hx.refines _) fun _ _ hm => .bind (hclean hx) fun _ _ hc => .bind (hS.len d hc) fun _ _ hl =>
        .some (((hi.mul h (ceilDiv_rel h hW hl hm)).add h hj).ltVal hW hl)
    · rw [e1, e2]
      rcases hx.cases (.len maj) with ⟨h1, h2⟩ | ⟨ml, ml', l1, l2, l3⟩
      · rw [h1, h2]
        exact .bind (hclean hx) fun _ _ hc => .bind (hS.len d hc) fun _ _ hl =>
          .some (((hi.mul h e3).add h hj).ltVal hW hl)
      · rw [l1, l2]
        exact .some (((hi.mul h e3).add h hj).ltVal hW (e3.mul h l3))
  · rcases hx.cases (.len min) with ⟨h1, h2⟩ | ⟨nl, nl', e1, e2, e3⟩
    · rw [h1, h2]
      exact .bind (hx.refines _) fun _ _ hm => .bind (hclean hx) fun _ _ hc => .bind (hS.len d hc) fun _ _ hl =>
        .some (ceilDiv_rel h hW hl hm)
    · rw [e1, e2]; exact .some e3
  · rcases hx.cases (.len maj) with ⟨h1, h2⟩ | ⟨nl, nl', e1, e2, e3⟩
    · rw [h1, h2]
      exact .bind (hx.refines _) fun _ _ hm => .bind (hsub hx) fun _ _ hs =>
        .bind (hS.len d hs) fun _ _ hl => .some (ceilDiv_rel h hW hl hm)
    · rw [e1, e2]; exact .some e3

theorem isBody_rel {x y : State} (hx : x.Rel W y) (border : Dim) :
    Option.Refines Eq (isBody border x) (isBody border y) := by
  intro b hb
  unfold isBody at hb ⊢
  rcases hx.cases (.idx border) with ⟨h1, h2⟩ | ⟨v, w, h1, h2, h3⟩
  · rw [h1] at hb; cases hb
  · rw [h1] at hb
    rw [h2]
    rcases h3 with h3 | ⟨rfl, h3⟩
    · cases v <;> simp [Val.nat?] at h3
      cases hb
    · exact ⟨b, hb, rfl⟩

theorem ibs_rel (h : Arith.Agrees W A B) (hW : 2 < W) {d border maj min : Dim} {nl : Val} (hnl : nl.fits W)
    {S T : Sem} (hS : SemRel W S T) :
    ViewRel W (intoBlocksStatSem A d border maj min nl S) (intoBlocksStatSem B d border maj min nl T) := by
  have hsub : ∀ {x y : State}, x.Rel W y → Option.Refines (State.Rel W)
      (intoBlocksStatSub A d border maj min nl S x) (intoBlocksStatSub B d border maj min nl T y) := by
    intro x y hx
    refine .bind (p := State.Rel W) (.ite (by rw [hx.has, hx.has, hx.has]) .none (.some (hx.removeAll _)))
      fun cs cs' hc => ?_
    refine .ite (hx.has _) ?_ (.some hc)
    rcases hx.cases (.idx maj) with ⟨h1, h2⟩ | ⟨i, i', i1, i2, i3⟩
    · (try simp only [l1, l2]); (try simp only [i1, i2]); simp only [h1, h2]; exact .some hc
    · rcases hx.cases (.idx min) with ⟨h1, h2⟩ | ⟨j, j', j1, j2, j3⟩
      · (try simp only [l1, l2]); (try simp only [i1, i2]); simp only [h1, h2]; exact .some hc
      · simp only [i1, i2, j1, j2]
        refine .bind (isBody_rel hx border) ?_
        rintro b _ rfl
        refine .ite rfl (.some (hc.set _ ((i3.mul h (.refl hnl)).add h j3))) ?_
        exact .bind (hS.len d hc) fun l l' hl =>
          .some (hc.set _ (((hl.div h (.refl hnl)).mul h (.refl hnl)).add h j3))
  have hsd : ∀ q {x y : State}, x.Rel W y → Option.Refines Eq
      ((intoBlocksStatSub A d border maj min nl S x).bind (S.hasLen q))
      ((intoBlocksStatSub B d border maj min nl T y).bind (T.hasLen q)) :=
    fun q _ _ hx => .bind (hsub hx) fun _ _ hv => hS.hasLen q hv
  have hlen : ∀ q {x y : State}, x.Rel W y →
      Option.Refines Eq ((intoBlocksStatSem A d border maj min nl S).hasLen q x)
        ((intoBlocksStatSem B d border maj min nl T).hasLen q y) := by
    intro q x y hx
    refine .ite (hx.has _) (.some rfl) (.dite (fun _ => ?_) fun _ => .dite (fun _ => ?_) fun _ =>
      .dite (fun _ => .ite (hx.has _) .none (.some rfl)) fun _ => .dite (fun _ => .some rfl) fun _ => hsd q hx)
    · cases hb : isBody border x with
      | none => exact .none
      | some b =>
        obtain ⟨_, hb', rfl⟩ := isBody_rel hx border b hb
        rw [hb']
        cases b
        · exact .some rfl
        · exact hsd d hx
    · cases hb : isBody border x with
      | none => exact .none
      | some b =>
        obtain ⟨_, hb', rfl⟩ := isBody_rel hx border b hb
        rw [hb']
        cases b
        · exact hsd d hx
        · exact .some rfl
  refine ⟨by simp only [intoBlocksStatSem, hS.sig], hsub, hlen, ?_, rfl, fun _ => rfl⟩
  intro q x y hx
  refine guardLen_rel (hlen q hx) fun _ => .dite (fun _ => .some (.lit hW)) fun _ => .dite (fun _ => ?_) fun _ =>
    .dite (fun _ => ?_) fun _ => .bind (hsub hx) fun _ _ hv => hS.len q hv
  · cases hb : isBody border x with
    | none => exact .none
    | some b =>
      obtain ⟨_, hb', rfl⟩ := isBody_rel hx border b hb
      rw [hb']
      cases b
      · exact .bind (hsub hx) fun _ _ hv => .bind (hS.len d hv) fun _ _ hl => .some (hl.mod h (.refl hnl))
      · exact .some (.refl hnl)
  · cases hb : isBody border x with
    | none => exact .none
    | some b =>
      obtain ⟨_, hb', rfl⟩ := isBody_rel hx border b hb
      rw [hb']
      cases b
      · exact .some (.lit (by omega))
      · exact .bind (hsub hx) fun _ _ hv => .bind (hS.len d hv) fun _ _ hl => .some (hl.div h (.refl hnl))

theorem mb_rel (h : Arith.Agrees W A B) {maj min d : Dim} {S T : Sem} (hS : SemRel W S T) :
    ViewRel W (mergeBlocksSem A maj min d S) (mergeBlocksSem B maj min d T) := by
  have hsub : ∀ {x y : State}, x.Rel W y → Option.Refines (State.Rel W) (mergeBlocksSub A maj min d S x)
      (mergeBlocksSub B maj min d T y) := by
    intro x y hx
    have hc := blocksClean_rel hx d maj min
    refine .bind (hS.hasLen min hc) ?_
    rintro hmin _ rfl
    refine .bind (hS.hasLen maj hc) ?_
    rintro hmaj _ rfl
    refine .ite rfl (.bind (hS.len min hc) fun nl nl' hnl => ?_) (.ite rfl (.bind (hS.len maj hc) fun ml ml' hml => ?_)
      (.some hc))
    · have hc' : State.Rel W (match x (.idx d) with
          | some i => ((blocksClean d maj min x).set (.idx maj) (i.div A nl)).set (.idx min) (i.mod A nl)
          | none => blocksClean d maj min x)
        (match y (.idx d) with
          | some i => ((blocksClean d maj min y).set (.idx maj) (i.div B nl')).set (.idx min) (i.mod B nl')
          | none => blocksClean d maj min y) := by
        rcases hx.cases (.idx d) with ⟨h1, h2⟩ | ⟨i, i', l1, l2, l3⟩
        · simp only [h1, h2]; exact hc
        · simp only [l1, l2]; exact (hc.set _ (l3.div h hnl)).set _ (l3.mod h hnl)
      refine .ite rfl (.some hc') ?_
      rcases hx.cases (.len d) with ⟨h1, h2⟩ | ⟨i, i', l1, l2, l3⟩
      · (try simp only [l1, l2]); (try simp only [i1, i2]); simp only [h1, h2]; exact .some hc'
      · simp only [l1, l2]; exact .some (hc'.set _ (l3.div h hnl))
    · rcases hx.cases (.len d) with ⟨h1, h2⟩ | ⟨l, l', l1, l2, l3⟩
      · (try simp only [l1, l2]); (try simp only [i1, i2]); simp only [h1, h2]; exact .some hc
      · simp only [l1, l2]
        have hn := l3.div h hml
        rcases hx.cases (.idx d) with ⟨h1, h2⟩ | ⟨i, i', i1, i2, i3⟩
        · simp only [h1, h2]; exact .some (hc.set _ hn)
        · simp only [i1, i2]
          exact .some (((hc.set _ (i3.div h hn)).set _ (i3.mod h hn)).set _ hn)
  have hlen : ∀ q {x y : State}, x.Rel W y →
      Option.Refines Eq ((mergeBlocksSem A maj min d S).hasLen q x) ((mergeBlocksSem B maj min d T).hasLen q y) := by
    intro q x y hx
    have hc := blocksClean_rel hx d maj min
    refine .ite (hx.has _) .none (.dite (fun _ => .ite (hx.has _) ?_ ?_) fun _ => .dite (fun _ => .some rfl)
      fun _ => .bind (hsub hx) fun _ _ hv => hS.hasLen q hv)
    · refine .bind (hS.hasLen maj hc) ?_
      rintro a _ rfl
      refine .bind (hS.hasLen min hc) ?_
      rintro b _ rfl
      exact .ite rfl .none (.some rfl)
    · refine .bind (hsub hx) fun s s' hs => ?_
      refine .bind (hS.hasLen maj hs) ?_
      rintro a _ rfl
      refine .bind (hS.hasLen min hs) ?_
      rintro b _ rfl
      exact .some rfl
  refine ⟨by simp only [mergeBlocksSem, hS.sig], hsub, hlen, ?_, rfl, fun _ => rfl⟩
  intro q x y hx
  refine guardLen_rel (hlen q hx) fun _ => .dite (fun _ => ?_) fun _ => .bind (hsub hx) fun _ _ hv => hS.len q hv
  rcases hx.cases (.len d) with ⟨h1, h2⟩ | ⟨l, l', l1, l2, l3⟩
  · simp only [h1, h2]
    exact .bind (hsub hx) fun _ _ hs => .bind (hS.len maj hs) fun _ _ hm => .bind (hS.len min hs) fun _ _ hn =>
      .some (hm.mul h hn)
  · simp only [l1, l2]; exact .some l3

end

end Noarr
