import Verif.Reduce
import Verif.MemVisited

/-
What memory contains in the course of a reduction. For C34.
-/

set_option linter.unusedSimpArgs false

namespace Noarr

/-- The bytes at the places `P`, of size `E`, represent the values `v`; the others are those of `m0`. -/
structure Rep {α : Type} (enc : α → List UInt8) (E : Nat) (P : List Nat) (m0 : Mem) (v : Nat → α) (m : Mem) :
    Prop where
  length : m.length = m0.length
  bound : ∀ k ∈ P, k + E ≤ m.length
  bytes : ∀ k ∈ P, bytes m k E = enc (v k)
  rest : ∀ i, (∀ k ∈ P, ¬ (k ≤ i ∧ i < k + E)) → m[i]? = m0[i]?

/-- The places do not overlap. -/
def Apart (E : Nat) (P : List Nat) : Prop := ∀ k ∈ P, ∀ k' ∈ P, k ≠ k' → k + E ≤ k' ∨ k' + E ≤ k

theorem pairwise_ne {α : Type} {Q : α → α → Prop} (hQ : ∀ a b, Q a b → Q b a) {l : List α} (h : l.Pairwise Q)
    {a b : α} (ha : a ∈ l) (hb : b ∈ l) (hne : a ≠ b) : Q a b := by
  induction h with
  | nil => cases ha
  | cons h1 _ ih =>
    rcases List.mem_cons.1 ha with ha1 | ha1
    · rcases List.mem_cons.1 hb with hb1 | hb1
      · exact absurd (ha1.trans hb1.symm) hne
      · exact ha1 ▸ h1 _ hb1
    · rcases List.mem_cons.1 hb with hb1 | hb1
      · exact hQ _ _ (hb1 ▸ h1 _ ha1)
      · exact ih ha1 hb1

section
variable {α : Type} {enc : α → List UInt8} {E : Nat} {P : List Nat} {m0 m : Mem} {v : Nat → α}

theorem Rep.congr {v' : Nat → α} (h : Rep enc E P m0 v m) (hv : ∀ k ∈ P, v k = v' k) : Rep enc E P m0 v' m :=
  ⟨h.length, h.bound, fun k hk => by rw [h.bytes k hk, hv k hk], h.rest⟩

theorem Rep.congr_places {P' : List Nat} (h : Rep enc E P m0 v m) (hP : ∀ k, k ∈ P ↔ k ∈ P') :
    Rep enc E P' m0 v m :=
  ⟨h.length, fun k hk => h.bound k ((hP k).2 hk), fun k hk => h.bytes k ((hP k).2 hk),
    fun i hi => h.rest i fun k hk => hi k ((hP k).1 hk)⟩

theorem Rep.ext {m' : Mem} (h : Rep enc E P m0 v m) (h' : Rep enc E P m0 v m') : m = m' := by
  apply List.ext_getElem?
  intro i
  by_cases hi : ∃ k ∈ P, k ≤ i ∧ i < k + E
  · obtain ⟨k, hk, h1, h2⟩ := hi
    have e := (h.bytes k hk).trans (h'.bytes k hk).symm
    have := congrArg (fun l => l[i - k]?) e
    simp only [bytes_get, if_pos (show i - k < E by omega), show k + (i - k) = i by omega] at this
    exact this
  · have hi : ∀ k ∈ P, ¬ (k ≤ i ∧ i < k + E) := fun k hk hh => hi ⟨k, hk, hh⟩
    rw [h.rest i hi, h'.rest i hi]

theorem Rep.set (hP : Apart E P) (h : Rep enc E P m0 v m) {k : Nat} (hk : k ∈ P) {x : α}
    (hx : (enc x).length = E) : Rep enc E P m0 (fun k' => if k' = k then x else v k') (patch m k E (enc x)) := by
  have hb := h.bound k hk
  refine ⟨by rw [patch_length hb hx, h.length], fun k' hk' => by rw [patch_length hb hx]; exact h.bound k' hk',
    fun k' hk' => ?_, fun i hi => ?_⟩
  · by_cases e : k' = k
    · subst e; rw [bytes_patch_same hb hx, if_pos rfl]
    · rw [if_neg e, bytes_patch_other hb hx (hP k hk k' hk' (Ne.symm e)), h.bytes k' hk']
  · rw [patch_get hb hx, if_neg (hi k hk), h.rest i hi]

theorem Rep.add (h : Rep enc E P m0 v m) {k : Nat} (hb : k + E ≤ m0.length) (hx : (enc (v k)).length = E)
    (hP : Apart E (k :: P)) : Rep enc E (k :: P) m0 v (patch m k E (enc (v k))) := by
  rw [← h.length] at hb
  refine ⟨by rw [patch_length hb hx, h.length], ?_, ?_, ?_⟩
  · intro k' hk'
    rw [patch_length hb hx]
    rcases List.mem_cons.1 hk' with rfl | hk'
    · exact hb
    · exact h.bound k' hk'
  · intro k' hk'
    by_cases e : k' = k
    · subst e; exact bytes_patch_same hb hx
    · rw [bytes_patch_other hb hx (hP k (List.mem_cons_self ..) k' hk' (Ne.symm e))]
      rcases List.mem_cons.1 hk' with rfl | hk'
      · exact absurd rfl e
      · exact h.bytes k' hk'
  · intro i hi
    rw [patch_get hb hx, if_neg (hi k (List.mem_cons_self ..)),
      h.rest i fun k' hk' => hi k' (List.mem_cons_of_mem _ hk')]

end

/-- What the functions of a reduction have to be: a commutative monoid, and an encoding in `E` bytes. -/
structure Reducer.Ok {α : Type} (R : Reducer α) (E : Nat) : Prop where
  assoc : ∀ a b c, R.op (R.op a b) c = R.op a (R.op b c)
  comm : ∀ a b, R.op a b = R.op b a
  neut : ∀ a, R.op R.neut a = a
  length : ∀ a, (R.enc a).length = E
  dec : ∀ a, R.dec (R.enc a) = a

section
variable {α : Type} {A : Arith} {R : Reducer α} {out : Struct} {E : Nat} {P : List Nat} {m0 m : Mem}
  {v : Nat → α} {key : State → Nat}

/-- the value combined with the inputs of those states that update the place `k` -/
def total (R : Reducer α) (key : State → Nat) (sts : List State) (k : Nat) (a : α) : α :=
  (sts.filter fun st => decide (key st = k)).foldl (fun a st => R.op a (R.input st)) a

theorem total_nil (k : Nat) (a : α) : total R key [] k a = a := rfl

theorem total_cons (st : State) (sts : List State) (k : Nat) (a : α) :
    total R key (st :: sts) k a = total R key sts k (if k = key st then R.op a (R.input st) else a) := by
  simp only [total, List.filter_cons, decide_eq_true_eq]
  by_cases h : key st = k
  · rw [if_pos h, if_pos h.symm]; rfl
  · rw [if_neg h, if_neg (Ne.symm h)]

theorem total_append (xs ys : List State) (k : Nat) (a : α) :
    total R key (xs ++ ys) k a = total R key ys k (total R key xs k a) := by
  simp only [total, List.filter_append, List.foldl_append]

theorem total_perm (hR : R.Ok E) {xs ys : List State} (h : xs.Perm ys) (k : Nat) (a : α) :
    total R key xs k a = total R key ys k a := by
  refine (h.filter _).foldl_eq' ?_ a
  intro x _ y _ z
  rw [hR.assoc, hR.comm (R.input x) (R.input y), ← hR.assoc]

theorem total_op (hR : R.Ok E) (xs : List State) (k : Nat) (a b : α) :
    total R key xs k (R.op a b) = R.op a (total R key xs k b) := by
  induction xs generalizing b with
  | nil => rfl
  | cons st xs ih =>
    rw [total_cons, total_cons]
    split
    · rw [hR.assoc, ih]
    · exact ih b

theorem total_neut (hR : R.Ok E) (xs : List State) (k : Nat) (a : α) :
    R.op a (total R key xs k R.neut) = total R key xs k a := by
  rw [← total_op hR, hR.comm, hR.neut]

/-- each of the states refers to one of the places -/
def KeyOk (A : Arith) (out : Struct) (E : Nat) (P : List Nat) (key : State → Nat) (sts : List State) : Prop :=
  ∀ st ∈ sts, out.place A st = .ok (key st, E) ∧ key st ∈ P

theorem get_rep (h : Rep R.enc E P m0 v m) {st : State} {k : Nat} (hp : out.place A st = .ok (k, E))
    (hk : k ∈ P) : out.getAt A m st = .ok (R.enc (v k)) := by
  rw [getAt_of_place hp (h.bound k hk), h.bytes k hk]

theorem accs_rep (hR : R.Ok E) (hP : Apart E P) (sts : List State) (hk : KeyOk A out E P key sts)
    (h : Rep R.enc E P m0 v m) :
    ∃ m', callAll (R.accAt A out) sts m = .ok m' ∧
      Rep R.enc E P m0 (fun k => total R key sts k (v k)) m' := by
  induction sts generalizing m v with
  | nil => exact ⟨m, rfl, h⟩
  | cons st sts ih =>
    obtain ⟨hp, hm⟩ := hk st (List.mem_cons_self ..)
    have hl := hR.length (R.op (v (key st)) (R.input st))
    obtain ⟨m', e, h'⟩ := ih (fun s hs => hk s (List.mem_cons_of_mem _ hs)) (h.set hP hm hl)
    refine ⟨m', ?_, h'.congr fun k _ => ?_⟩
    · simp only [callAll, Reducer.accAt, get_rep h hp hm, Except.bind_ok, Reducer.update, hR.dec,
        setAt_of_place hp (h.bound _ hm) hl, e]
    · rw [total_cons]
      split
      · next e => rw [e]
      · rfl

theorem neuts_rep (hR : R.Ok E) (L : List State) (hk : ∀ st ∈ L, out.place A st = .ok (key st, E) ∧
    key st + E ≤ m0.length) (hP : Apart E ((L.map key).reverse ++ P)) (h : Rep R.enc E P m0 (fun _ => R.neut) m) :
    ∃ m', callAll (R.neutAt A out) L m = .ok m' ∧
      Rep R.enc E ((L.map key).reverse ++ P) m0 (fun _ => R.neut) m' := by
  induction L generalizing m P with
  | nil => exact ⟨m, rfl, h⟩
  | cons st L ih =>
    obtain ⟨hp, hb⟩ := hk st (List.mem_cons_self ..)
    have e : ((st :: L).map key).reverse ++ P = (L.map key).reverse ++ (key st :: P) := by simp
    rw [e] at hP ⊢
    have h1 := h.add hb (hR.length _) fun a ha b hb => hP a (List.mem_append_right _ ha) b (List.mem_append_right _ hb)
    obtain ⟨m', e', h'⟩ := ih (fun s hs => hk s (List.mem_cons_of_mem _ hs)) hP h1
    refine ⟨m', ?_, h'⟩
    simp only [callAll, Reducer.neutAt, setAt_of_place hp (h.length ▸ hb) (hR.length _), Except.bind_ok] at e' ⊢
    exact e'

theorem joins_rep (hR : R.Ok E) (hP : Apart E P) (L : List State) (hk : KeyOk A out E P key L)
    (hn : (L.map key).Nodup) {f c : Mem} {w : Nat → α} (hc : Rep R.enc E P f w c) (h : Rep R.enc E P m0 v m) :
    ∃ m', callAll (R.joinAt A out c) L m = .ok m' ∧
      Rep R.enc E P m0 (fun k => if k ∈ L.map key then R.op (v k) (w k) else v k) m' := by
  induction L generalizing m v with
  | nil => exact ⟨m, rfl, h.congr fun k _ => by simp⟩
  | cons st L ih =>
    obtain ⟨hp, hm⟩ := hk st (List.mem_cons_self ..)
    rw [List.map_cons, List.nodup_cons] at hn
    have hl := hR.length (R.op (v (key st)) (w (key st)))
    obtain ⟨m', e, h'⟩ := ih (fun s hs => hk s (List.mem_cons_of_mem _ hs)) hn.2 (h.set hP hm hl)
    refine ⟨m', ?_, h'.congr fun k _ => ?_⟩
    · simp only [callAll, Reducer.joinAt, get_rep h hp hm, get_rep hc hp hm, Except.bind_ok, hR.dec,
        setAt_of_place hp (h.bound _ hm) hl, e]
    · simp only [List.map_cons, List.mem_cons]
      by_cases e : k = key st
      · subst e
        rw [if_neg hn.1, if_pos rfl, if_pos (.inl rfl)]
      · simp only [e, if_false, false_or]

theorem copy_rep (hR : R.Ok E) (outs : List State) (hk : KeyOk A out E (outs.map key) key outs)
    (hP : Apart E (outs.map key)) {f : Mem} (hf : ∀ k ∈ outs.map key, k + E ≤ f.length) (xs : List State)
    (hx : KeyOk A out E (outs.map key) key xs) :
    ∃ c, privateCopy A R out outs f xs = .ok c ∧
      Rep R.enc E (outs.map key) f (fun k => total R key xs k R.neut) c := by
  have h0 : Rep R.enc E [] f (fun _ => R.neut) f := ⟨rfl, by simp, by simp, fun _ _ => rfl⟩
  have hap : Apart E ((outs.map key).reverse ++ []) := by
    intro a ha b hb; exact hP a (by simpa using ha) b (by simpa using hb)
  obtain ⟨m1, e1, h1⟩ := neuts_rep hR outs (fun st hst =>
    ⟨(hk st hst).1, hf _ (List.mem_map_of_mem hst)⟩) hap h0
  have h1' := h1.congr_places (P' := outs.map key) (by simp)
  obtain ⟨m2, e2, h2⟩ := accs_rep hR hP xs hx h1'
  refine ⟨m2, ?_, h2⟩
  simp only [privateCopy, e1, Except.bind_ok, e2]

theorem combine_rep (hR : R.Ok E) (outs : List State) (hk : KeyOk A out E (outs.map key) key outs)
    (hP : Apart E (outs.map key)) (hn : (outs.map key).Nodup) (fxs : List (Mem × List State))
    (hf : ∀ fx ∈ fxs, ∀ k ∈ outs.map key, k + E ≤ fx.1.length)
    (hx : ∀ fx ∈ fxs, KeyOk A out E (outs.map key) key fx.2) (h : Rep R.enc E (outs.map key) m0 v m) :
    ∃ m' : Mem, (do
        let cs ← fxs.mapM fun fx : Mem × List State => privateCopy A R out outs fx.1 fx.2
        combineEach A R out outs cs m : Except Fail Mem) = .ok m' ∧
      Rep R.enc E (outs.map key) m0 (fun k => total R key (fxs.map Prod.snd).flatten k (v k)) m' := by
  induction fxs generalizing m v with
  | nil => exact ⟨m, rfl, h⟩
  | cons fx fxs ih =>
    obtain ⟨c, ec, hc⟩ := copy_rep hR outs hk hP (hf fx (List.mem_cons_self ..)) fx.2 (hx fx (List.mem_cons_self ..))
    obtain ⟨m1, e1, h1⟩ := joins_rep hR hP outs hk hn hc h
    obtain ⟨m', e', h'⟩ := ih (fun y hy => hf y (List.mem_cons_of_mem _ hy))
      (fun y hy => hx y (List.mem_cons_of_mem _ hy)) h1
    refine ⟨m', ?_, h'.congr fun k hk => ?_⟩
    · rw [List.mapM_cons, ec, Except.bind_ok]
      cases hcs : fxs.mapM fun fx => privateCopy A R out outs fx.1 fx.2 with
      | error x => rw [hcs] at e'; cases e'
      | ok cs =>
        rw [hcs, Except.bind_ok] at e'
        simp only [Except.bind_ok, pure, Except.pure, combineEach, e1]
        exact e'
    · simp only [if_pos hk, List.map_cons, List.flatten_cons, total_append]
      rw [total_neut hR]

/-- Threads that share the output, if no two of them refer to the same place. -/
theorem shared_rep (hR : R.Ok E) (hP : Apart E P) {ws : List Worker} {res : Except Fail Mem}
    (hrun : SharedRun A R out m ws res)
    (hk : ∀ w ∈ ws, KeyOk A out E P key (w.held.toList.map Prod.fst ++ w.todo))
    (hd : ws.Pairwise fun w w' => ∀ st ∈ w.held.toList.map Prod.fst ++ w.todo,
      ∀ st' ∈ w'.held.toList.map Prod.fst ++ w'.todo, key st ≠ key st')
    (h : Rep R.enc E P m0 v m) (hh : ∀ w ∈ ws, ∀ st b, w.held = some (st, b) → b = R.enc (v (key st))) :
    ∃ m', res = .ok m' ∧ Rep R.enc E P m0
      (fun k => total R key (ws.map fun w => w.held.toList.map Prod.fst ++ w.todo).flatten k (v k)) m' := by
  induction hrun generalizing v with
  | @done m ws hdone =>
    refine ⟨m, rfl, h.congr fun k _ => ?_⟩
    have : (ws.map fun w => w.held.toList.map Prod.fst ++ w.todo).flatten = [] := by
      rw [List.flatten_eq_nil_iff]
      intro l hl
      obtain ⟨w, hw, rfl⟩ := List.mem_map.1 hl
      rw [(hdone w hw).1, (hdone w hw).2]; rfl
    rw [this, total_nil]
  | @read m pre post st todo b res hget hrun ih =>
    have hw : (⟨none, st :: todo⟩ : Worker) ∈ pre ++ ⟨none, st :: todo⟩ :: post := by simp
    have hst := hk _ hw st (by simp)
    rw [get_rep h hst.1 hst.2] at hget
    cases hget
    have key1 := ih (v := v) ?_ ?_ h ?_
    · obtain ⟨m', e, h'⟩ := key1
      refine ⟨m', e, h'.congr fun k _ => ?_⟩
      simp
    · intro w' hw'
      rcases List.mem_append.1 hw' with hw' | hw'
      · exact hk w' (by simp [hw'])
      · rcases List.mem_cons.1 hw' with rfl | hw'
        · exact hk ⟨none, st :: todo⟩ hw
        · exact hk w' (by simp [hw'])
    · rw [List.pairwise_append, List.pairwise_cons] at hd ⊢
      refine ⟨hd.1, ⟨hd.2.1.1, hd.2.1.2⟩, fun a ha b hb => ?_⟩
      rcases List.mem_cons.1 hb with rfl | hb
      · exact hd.2.2 a ha ⟨none, st :: todo⟩ (List.mem_cons_self ..)
      · exact hd.2.2 a ha b (List.mem_cons_of_mem _ hb)
    · intro w' hw' st' b' e
      rcases List.mem_append.1 hw' with hw' | hw'
      · exact hh w' (by simp [hw']) st' b' e
      · rcases List.mem_cons.1 hw' with rfl | hw'
        · cases e; rfl
        · exact hh w' (by simp [hw']) st' b' e
  | @readFail m pre post st todo e hget =>
    have hw : (⟨none, st :: todo⟩ : Worker) ∈ pre ++ ⟨none, st :: todo⟩ :: post := by simp
    have hst := hk _ hw st (by simp)
    rw [get_rep h hst.1 hst.2] at hget
    cases hget
  | @write m m1 pre post st b todo res hset hrun ih =>
    have hw : (⟨some (st, b), todo⟩ : Worker) ∈ pre ++ ⟨some (st, b), todo⟩ :: post := by simp
    have hst := hk _ hw st (by simp)
    obtain rfl := hh _ hw st b rfl
    have hl := hR.length (R.op (v (key st)) (R.input st))
    rw [Reducer.update, hR.dec, setAt_of_place hst.1 (h.bound _ hst.2) hl] at hset
    cases hset
    have hd' := hd
    rw [List.pairwise_append, List.pairwise_cons] at hd'
    have hne : ∀ w' ∈ pre ++ post, ∀ st' ∈ w'.held.toList.map Prod.fst ++ w'.todo, key st' ≠ key st := by
      intro w' hw' st' hst'
      rcases List.mem_append.1 hw' with hw' | hw'
      · exact hd'.2.2 w' hw' _ (List.mem_cons_self ..) st' hst' st (by simp)
      · exact fun e => hd'.2.1.1 w' hw' st (by simp) st' hst' e.symm
    have key1 := ih ?_ ?_ (h.set hP hst.2 hl) ?_
    · obtain ⟨m', e, h'⟩ := key1
      refine ⟨m', e, h'.congr fun k _ => ?_⟩
      have hp : ((pre ++ ⟨some (st, R.enc (v (key st))), todo⟩ :: post).map fun w : Worker =>
            w.held.toList.map Prod.fst ++ w.todo).flatten.Perm
          (st :: ((pre ++ ⟨none, todo⟩ :: post).map fun w : Worker =>
            w.held.toList.map Prod.fst ++ w.todo).flatten) := by
        simp only [List.map_append, List.map_cons, List.flatten_append, List.flatten_cons,
          Option.toList_some, Option.toList_none, List.map_nil, List.nil_append, List.cons_append]
        exact List.perm_middle
      rw [total_perm hR hp, total_cons]
      congr 1
      split
      · next e => rw [e]
      · rfl
    · intro w' hw'
      rcases List.mem_append.1 hw' with hw' | hw'
      · exact hk w' (by simp [hw'])
      · rcases List.mem_cons.1 hw' with rfl | hw'
        · intro s hs; exact hk _ hw s (by simpa using .inr hs)
        · exact hk w' (by simp [hw'])
    · rw [List.pairwise_append, List.pairwise_cons]
      refine ⟨hd'.1, ⟨fun a ha s hs => hd'.2.1.1 a ha s (by simpa using .inr hs), hd'.2.1.2⟩, fun a ha b hb => ?_⟩
      rcases List.mem_cons.1 hb with rfl | hb
      · exact fun s hs s' hs' => hd'.2.2 a ha _ (List.mem_cons_self ..) s hs s' (by simpa using .inr hs')
      · exact hd'.2.2 a ha b (List.mem_cons_of_mem _ hb)
    · intro w' hw' st' b' e
      have key' : w' ∈ pre ++ post → b' = R.enc (if key st' = key st then R.op (v (key st)) (R.input st) else v (key st')) := by
        intro hw''
        rw [if_neg (hne w' hw'' st' (by simp [e]))]
        exact hh w' (by rcases List.mem_append.1 hw'' with h | h <;> simp [h]) st' b' e
      rcases List.mem_append.1 hw' with hw' | hw'
      · exact key' (List.mem_append_left _ hw')
      · rcases List.mem_cons.1 hw' with rfl | hw'
        · cases e
        · exact key' (List.mem_append_right _ hw')
  | @writeFail m pre post st b todo e hset =>
    have hw : (⟨some (st, b), todo⟩ : Worker) ∈ pre ++ ⟨some (st, b), todo⟩ :: post := by simp
    have hst := hk _ hw st (by simp)
    obtain rfl := hh _ hw st b rfl
    rw [Reducer.update, hR.dec, setAt_of_place hst.1 (h.bound _ hst.2) (hR.length _)] at hset
    cases hset

end

end Noarr
