import Verif.SerializeLemmas
import Verif.Props.Memory

/-
C37: deserializing what was serialized.
-/

namespace Noarr

theorem foldlM_write {A : Arith} {s : Struct} {C : State → Codec} {m : Mem} {sts : List State} {pre out : List Char}
    (h : sts.foldlM (writeElem A s C m) pre = .ok out) :
    ∃ bs : List (List UInt8), sts.map (s.getAt A m) = bs.map .ok ∧
      out = pre ++ ((sts.zip bs).map fun sb => (C sb.1).enc sb.2 ++ ['\n']).flatten := by
  induction sts generalizing pre with
  | nil => cases h; exact ⟨[], rfl, by simp⟩
  | cons st sts ih =>
    rw [List.foldlM_cons] at h
    cases hg : s.getAt A m st with
    | error e => simp only [writeElem, hg] at h; cases h
    | ok b =>
      simp only [writeElem, hg, Except.bind_ok] at h
      obtain ⟨bs, h1, h2⟩ := ih h
      refine ⟨b :: bs, by simp [hg, h1], ?_⟩
      rw [h2]; simp

/-- Reading the elements of `sts`, which are at disjoint places. -/
theorem foldlM_read {s : Struct} {C : State → Codec} {V : State → List UInt8 → Prop} {N : Nat}
    {pl : State → Nat × Nat} {sts : List State} {bs : List (List UInt8)} (hlen : sts.length = bs.length)
    (hpl : ∀ st ∈ sts, s.place .ideal st = .ok (pl st) ∧ (pl st).1 + (pl st).2 ≤ N)
    (hd : sts.Pairwise fun st st' => (pl st).1 + (pl st).2 ≤ (pl st').1 ∨ (pl st').1 + (pl st').2 ≤ (pl st).1)
    (hC : ∀ st ∈ sts, RoundTrips (C st) (V st))
    (hV : ∀ sb ∈ sts.zip bs, V sb.1 sb.2 ∧ sb.2.length = (pl sb.1).2) (m : Mem) (hm : N ≤ m.length)
    (ws rest : List Char) (hws : ∀ c ∈ ws, isSpace c = true) :
    ∃ m' ws', sts.foldlM (readElem .ideal s C)
        (⟨true, ws ++ ((sts.zip bs).map fun sb => (C sb.1).enc sb.2 ++ ['\n']).flatten ++ rest⟩, m) =
          .ok (⟨true, ws' ++ rest⟩, m') ∧
      (∀ c ∈ ws', isSpace c = true) ∧ m'.length = m.length ∧
      (∀ sb ∈ sts.zip bs, s.getAt .ideal m' sb.1 = .ok sb.2) ∧
      ∀ j, (∀ st ∈ sts, j < (pl st).1 ∨ (pl st).1 + (pl st).2 ≤ j) → m'[j]? = m[j]? := by
  induction sts generalizing bs m ws with
  | nil =>
    cases bs with
    | nil => exact ⟨m, ws, by simp; rfl, hws, rfl, by simp, by simp⟩
    | cons => simp at hlen
  | cons st sts ih =>
    cases bs with
    | nil => simp at hlen
    | cons b bs =>
      obtain ⟨hd1, hd2⟩ := List.pairwise_cons.1 hd
      obtain ⟨hp, hp'⟩ := hpl st (by simp)
      obtain ⟨hv, hbl⟩ := hV (st, b) (by simp)
      dsimp only at hv hbl
      have hk : (pl st).1 + (pl st).2 ≤ m.length := by omega
      have hlen1 : (patch m (pl st).1 (pl st).2 b).length = m.length := patch_length hk hbl
      obtain ⟨m', ws', e1, e2, e3, e4, e5⟩ := ih (bs := bs) (by simpa using hlen)
        (fun st h => hpl st (by simp [h])) hd2 (fun st h => hC st (by simp [h]))
        (fun sb h => hV sb (by simp [h])) (patch m (pl st).1 (pl st).2 b) (by omega)
        ['\n'] (by simp [isSpace])
      refine ⟨m', ws', ?_, e2, by omega, ?_, ?_⟩
      · have hdec := hC st (by simp) b hv ws
          (((sts.zip bs).map fun sb => (C sb.1).enc sb.2 ++ ['\n']).flatten ++ rest) hws
        have hstep : readElem .ideal s C (⟨true, ws ++
            (((st :: sts).zip (b :: bs)).map fun sb => (C sb.1).enc sb.2 ++ ['\n']).flatten ++ rest⟩, m) st =
            .ok (⟨true, '\n' :: (((sts.zip bs).map fun sb => (C sb.1).enc sb.2 ++ ['\n']).flatten ++ rest)⟩,
              patch m (pl st).1 (pl st).2 b) := by
          simp only [readElem, if_true]
          rw [show ws ++ (((st :: sts).zip (b :: bs)).map fun sb => (C sb.1).enc sb.2 ++ ['\n']).flatten ++ rest =
            ws ++ (C st).enc b ++ '\n' :: (((sts.zip bs).map fun sb => (C sb.1).enc sb.2 ++ ['\n']).flatten ++
              rest) by simp]
          rw [hdec]
          simp only [setAt_of_place hp hk hbl, Except.bind_ok]
        rw [List.foldlM_cons, hstep, Except.bind_ok]
        simpa using e1
      · intro sb hsb
        rcases List.mem_cons.1 (by simpa using hsb : sb ∈ (st, b) :: sts.zip bs) with rfl | hsb
        · rw [getAt_of_place hp (by rw [e3, hlen1]; exact hk)]
          congr 1
          rw [← bytes_patch_same hk hbl]
          apply List.ext_getElem?
          intro i
          rw [bytes_get, bytes_get]
          split
          · refine e5 _ fun st' hst' => ?_
            have := hd1 st' hst'
            omega
          · rfl
        · exact e4 sb hsb
      · intro j hj
        rw [e5 j fun st' hst' => hj st' (by simp [hst']), patch_get hk hbl, if_neg]
        have := hj st (by simp)
        omega

/-- C37: a sound structure whose elements can be accessed is serialized without failure. -/
theorem C37_serialize_defined (s : Struct) (hs : s.Sound) (sts : List State) (h : Traversed s sts) (size : Val)
    (N : Nat) (hsz : (s.sem .ideal).size .empty = some size) (hN : size.Num N) (m : Mem) (hm : N ≤ m.length)
    (C : State → Codec) : ∃ out, serializeData .ideal s C m = .ok out := by
  obtain ⟨pl, h1, -⟩ := h.places hs hsz hN
  simp only [serializeData, h.visits]
  have key : ∀ (l : List State), (∀ st ∈ l, st ∈ sts) → ∀ pre, ∃ out, l.foldlM (writeElem .ideal s C m) pre = .ok out := by
    intro l
    induction l with
    | nil => intro _ pre; exact ⟨pre, rfl⟩
    | cons st l ih =>
      intro hl pre
      obtain ⟨a1, a2, a3⟩ := h1 st (hl st (by simp))
      rw [List.foldlM_cons]
      simp only [writeElem, getAt_of_place a1 (show _ ≤ m.length by omega), Except.bind_ok]
      exact ih (fun st h => hl st (by simp [h])) _
  exact key sts (fun _ h => h) []

/-- C37, partial: what was serialized with one structure can be read with another one that is traversed in
the same order (in particular with the same one), in front of anything else and after any white space.
Then all the elements are the same; the rest of the stream remains (after white space), and so do the
bytes of the blob that belong to no element. Missing: this needs scalars whose stream operators give
back what was written (`RoundTrips`), such as integers (see below), and is wrong for characters. -/
theorem C37_round_trip_partial (s s' : Struct) (hs' : s'.Sound) (sts : List State)
    (h : (Traverser.mk s []).forEach .ideal [] = some sts) (h' : Traversed s' sts)
    (C : State → Codec) (V : State → List UInt8 → Prop) (hC : ∀ st ∈ sts, RoundTrips (C st) (V st))
    (m : Mem) (out : List Char) (ho : serializeData .ideal s C m = .ok out)
    (hV : ∀ st ∈ sts, ∀ b, s.getAt .ideal m st = .ok b → V st b ∧ (s'.sem .ideal).elem st = some b.length)
    (size : Val) (N : Nat) (hsz : (s'.sem .ideal).size .empty = some size) (hN : size.Num N) (m' : Mem)
    (hm : N ≤ m'.length) (ws rest : List Char) (hws : ∀ c ∈ ws, isSpace c = true) :
    ∃ m'' ws', deserializeData .ideal s' C ⟨true, ws ++ out ++ rest⟩ m' = .ok (⟨true, ws' ++ rest⟩, m'') ∧
      (∀ c ∈ ws', isSpace c = true) ∧ (∀ st ∈ sts, s'.getAt .ideal m'' st = s.getAt .ideal m st) ∧
      m''.length = m'.length ∧
      ∀ j, (∀ st ∈ sts, ∀ k e, s'.place .ideal st = .ok (k, e) → j < k ∨ k + e ≤ j) → m''[j]? = m'[j]? := by
  obtain ⟨pl, h1, h2⟩ := h'.places hs' hsz hN
  simp only [serializeData, h] at ho
  obtain ⟨bs, hbs, hout⟩ := foldlM_write ho
  have hlen : sts.length = bs.length := by simpa using congrArg List.length hbs
  have hget : ∀ sb ∈ sts.zip bs, s.getAt .ideal m sb.1 = .ok sb.2 := by
    intro sb hsb
    obtain ⟨i, hi, rfl⟩ := List.mem_iff_getElem.1 hsb
    rw [List.length_zip] at hi
    have := congrArg (fun l => l[i]?) hbs
    simp only [List.getElem?_map] at this
    rw [List.getElem?_eq_getElem (show i < sts.length by omega),
      List.getElem?_eq_getElem (show i < bs.length by omega)] at this
    simpa using this
  have hex : ∀ st ∈ sts, ∃ b, (st, b) ∈ sts.zip bs := by
    intro st hst
    obtain ⟨i, hi, rfl⟩ := List.mem_iff_getElem.1 hst
    refine ⟨bs[i], List.mem_iff_getElem.2 ⟨i, by rw [List.length_zip]; omega, by simp⟩⟩
  have hVz : ∀ sb ∈ sts.zip bs, V sb.1 sb.2 ∧ sb.2.length = (pl sb.1).2 := by
    intro sb hsb
    have hmem : sb.1 ∈ sts := (List.of_mem_zip hsb).1
    obtain ⟨v1, v2⟩ := hV _ hmem _ (hget sb hsb)
    exact ⟨v1, Option.some.inj (v2.symm.trans (h1 _ hmem).2.1)⟩
  obtain ⟨m'', ws', e1, e2, e3, e4, e5⟩ := foldlM_read hlen (fun st hst => ⟨(h1 st hst).1, (h1 st hst).2.2⟩) h2 hC
    hVz m' hm ws rest hws
  refine ⟨m'', ws', ?_, e2, ?_, e3, ?_⟩
  · simp only [deserializeData, h'.visits, hout, List.nil_append]
    exact e1
  · intro st hst
    obtain ⟨b, hb⟩ := hex st hst
    rw [e4 _ hb, hget _ hb]
  · intro j hj
    refine e5 j fun st hst => hj st hst _ _ (h1 st hst).1

theorem foldlM_failed {A : Arith} {s : Struct} {C : State → Codec} {cs : List Char} {m : Mem} (sts : List State) :
    sts.foldlM (readElem A s C) (⟨false, cs⟩, m) = .ok (⟨false, cs⟩, m) := by
  induction sts with
  | nil => rfl
  | cons st sts ih => rw [List.foldlM_cons]; exact ih

/-- C37 for input that ends too early or is malformed: the elements before the one that cannot be read are those of
the input, the stream has failed, and all the later elements keep their old values. -/
theorem C37_failed_input (s : Struct) (hs : s.Sound) (before after : List State) (st : State)
    (h : Traversed s (before ++ st :: after)) (C : State → Codec) (V : State → List UInt8 → Prop)
    (hC : ∀ x ∈ before, RoundTrips (C x) (V x)) (bs : List (List UInt8)) (hlen : before.length = bs.length)
    (hV : ∀ xb ∈ before.zip bs, V xb.1 xb.2 ∧ (s.sem .ideal).elem xb.1 = some xb.2.length) (size : Val) (N : Nat)
    (hsz : (s.sem .ideal).size .empty = some size) (hN : size.Num N) (m : Mem) (hm : N ≤ m.length) (bad : List Char)
    (hbad : ∀ ws : List Char, (∀ c ∈ ws, isSpace c = true) →
      ((C st).dec (ws ++ bad)).1 = false ∧
        ∀ b, ((C st).dec (ws ++ bad)).2.1 = some b → (s.sem .ideal).elem st = some b.length) :
    ∃ m' left, deserializeData .ideal s C
        ⟨true, ((before.zip bs).map fun xb => (C xb.1).enc xb.2 ++ ['\n']).flatten ++ bad⟩ m = .ok (⟨false, left⟩, m') ∧
      (∀ xb ∈ before.zip bs, s.getAt .ideal m' xb.1 = .ok xb.2) ∧
      ∀ x ∈ after, s.getAt .ideal m' x = s.getAt .ideal m x := by
  obtain ⟨pl, h1, h2⟩ := h.places hs hsz hN
  obtain ⟨p1, p2, p3⟩ := List.pairwise_append.1 h2
  obtain ⟨p4, p5⟩ := List.pairwise_cons.1 p2
  obtain ⟨m1, ws, e1, e2, e3, e4, e5⟩ := foldlM_read hlen
    (fun x hx => ⟨(h1 x (by simp [hx])).1, (h1 x (by simp [hx])).2.2⟩) p1 hC (fun xb hxb => ⟨(hV xb hxb).1, by
      have := (h1 xb.1 (by simp [(List.of_mem_zip hxb).1])).2.1
      exact Option.some.inj ((hV xb hxb).2.symm.trans this)⟩) m hm [] bad (by simp)
  obtain ⟨q1, q2, q3⟩ := h1 st (by simp)
  obtain ⟨b1, b2⟩ := hbad ws e2
  have hk : (pl st).1 + (pl st).2 ≤ m1.length := by omega
  have step : ∃ m2 left, readElem .ideal s C (⟨true, ws ++ bad⟩, m1) st = .ok (⟨false, left⟩, m2) ∧
      m2.length = m1.length ∧ ∀ k e, (pl st).1 + (pl st).2 ≤ k ∨ k + e ≤ (pl st).1 → bytes m2 k e = bytes m1 k e := by
    simp only [readElem, if_true, b1]
    cases hb : ((C st).dec (ws ++ bad)).2.1 with
    | none => exact ⟨_, _, rfl, rfl, fun _ _ _ => rfl⟩
    | some b =>
      have hbl : b.length = (pl st).2 := Option.some.inj ((b2 b hb).symm.trans q2)
      simp only [setAt_of_place q1 hk hbl, Except.bind_ok]
      exact ⟨_, _, rfl, patch_length hk hbl, fun _ _ h => bytes_patch_other hk hbl h⟩
  obtain ⟨m2, left, f1, f2, f3⟩ := step
  refine ⟨m2, left, ?_, ?_, ?_⟩
  · simp only [deserializeData, h.visits]
    rw [List.foldlM_append]
    rw [List.nil_append] at e1
    rw [e1, Except.bind_ok, List.foldlM_cons, f1, Except.bind_ok]
    exact foldlM_failed after
  · intro xb hxb
    have hx := (List.of_mem_zip hxb).1
    obtain ⟨r1, r2, r3⟩ := h1 xb.1 (by simp [hx])
    rw [← e4 xb hxb, getAt_of_place r1 (by omega), getAt_of_place r1 (by omega)]
    congr 1
    exact f3 _ _ (p3 xb.1 hx st (by simp)).symm
  · intro x hx
    obtain ⟨r1, r2, r3⟩ := h1 x (by simp [hx])
    rw [getAt_of_place r1 (by omega), getAt_of_place r1 (by omega)]
    congr 1
    rw [f3 _ _ (p4 x hx)]
    apply List.ext_getElem?
    intro i
    rw [bytes_get, bytes_get]
    split
    · refine e5 _ fun y hy => ?_
      have := p3 y hy x (by simp [hx])
      omega
    · rfl

theorem toBytes_length (e n : Nat) : (toBytes e n).length = e := by
  induction e generalizing n with
  | zero => rfl
  | succ e ih => simp [toBytes, ih]

/-- C37 for integers: where the input ends, or goes on (after white space) with something other than a digit or a
sign, no integer can be read. -/
theorem C37_integers_fail (e : Nat) (ws bad : List Char) (hws : ∀ c ∈ ws, isSpace c = true)
    (hbad : ∀ c, (bad.dropWhile isSpace).head? = some c → c.isDigit = false ∧ c ≠ '-' ∧ c ≠ '+') :
    (((uintCodec e).dec (ws ++ bad)).1 = false ∧ ∀ b, ((uintCodec e).dec (ws ++ bad)).2.1 = some b → b.length = e) ∧
    (((intCodec e).dec (ws ++ bad)).1 = false ∧ ∀ b, ((intCodec e).dec (ws ++ bad)).2.1 = some b → b.length = e) := by
  simp only [uintCodec, intCodec, dropWhile_all hws]
  generalize bad.dropWhile isSpace = cs at hbad
  cases cs with
  | nil => simp
  | cons c cs =>
    obtain ⟨h1, h2, h3⟩ := hbad c rfl
    have : takeSign (c :: cs) = (false, c :: cs) := by
      unfold takeSign
      split
      · rename_i h; cases h; exact absurd rfl h2
      · rename_i h; cases h; exact absurd rfl h3
      · rfl
    simp [this, h1, toBytes_length]

/-- C37 for integers: a plus sign in front of a number changes nothing, a minus sign gives the number that is zero when
the two are added (in two's complement). -/
theorem C37_integers_with_a_sign (e n : Nat) (hn : n < 256 ^ e / 2) (ws rest : List Char)
    (hws : ∀ c ∈ ws, isSpace c = true) :
    (intCodec e).dec (ws ++ digits n ++ '\n' :: rest) = (true, some (toBytes e n), '\n' :: rest) ∧
    (intCodec e).dec (ws ++ '+' :: digits n ++ '\n' :: rest) = (true, some (toBytes e n), '\n' :: rest) ∧
    ∃ m, (m + n) % 256 ^ e = 0 ∧ m < 256 ^ e ∧
      (intCodec e).dec (ws ++ '-' :: digits n ++ '\n' :: rest) = (true, some (toBytes e m), '\n' :: rest) := by
  have h0 : n < 256 ^ e := by omega
  have hp : isSpace '+' = false := by decide
  have hm : isSpace '-' = false := by decide
  refine ⟨?_, ?_, (256 ^ e - n) % 256 ^ e, ?_, Nat.mod_lt _ (by omega), ?_⟩
  · simp only [intCodec]
    rw [List.append_assoc, dropWhile_all hws]
    simp only [digits_head, takeSign_digits, digits_take, digits_drop, digits_isEmpty,
      digits_append_isEmpty, (digits_spec _).2.2]
    simp [hn]
  · simp only [intCodec]
    rw [List.append_assoc, dropWhile_all hws]
    simp only [List.cons_append, List.dropWhile_cons, hp, Bool.false_eq_true, if_false, takeSign,
      digits_take, digits_drop, digits_isEmpty, List.isEmpty_cons, (digits_spec _).2.2]
    simp [hn]
  · rw [Nat.mod_add_mod, Nat.sub_add_cancel (by omega), Nat.mod_self]
  · simp only [intCodec]
    rw [List.append_assoc, dropWhile_all hws]
    simp only [List.cons_append, List.dropWhile_cons, hm, Bool.false_eq_true, if_false, takeSign, if_true,
      digits_take, digits_drop, digits_isEmpty, List.isEmpty_cons, (digits_spec _).2.2]
    rw [if_pos (by omega)]

/-- `-5` as a 16-bit integer -/
example : (intCodec 2).dec [' ', '-', '5', '\n'] = (true, some [251, 255], ['\n']) ∧
    (intCodec 2).dec [' ', '+', '5', '\n'] = (true, some [5, 0], ['\n']) := by
  obtain ⟨-, h1, m, h2, h3, h4⟩ := C37_integers_with_a_sign 2 5 (by decide) [' '] [] (by decide)
  have : m = 65531 := by omega
  subst this
  have e : digits 5 = ['5'] := by simp [digits]
  have e1 : toBytes 2 65531 = [251, 255] := by decide
  have e2 : toBytes 2 5 = [5, 0] := by decide
  rw [e, e1] at h4
  rw [e, e2] at h1
  exact ⟨h4, h1⟩

/-- C37 for unsigned and signed integers of any size: the stream operators give back what was written. -/
theorem C37_integers_round_trip (e : Nat) (he : 0 < e) :
    RoundTrips (uintCodec e) (fun b => b.length = e) ∧ RoundTrips (intCodec e) (fun b => b.length = e) :=
  ⟨uintCodec_roundTrips e, intCodec_roundTrips e he⟩

/-- C37 for characters that are not white space. -/
theorem C37_visible_characters_round_trip_partial : RoundTrips charCodec fun b =>
    ∃ x : UInt8, b = [x] ∧ x.toNat < 128 ∧ isSpace (Char.ofNat x.toNat) = false :=
  charCodec_roundTrips

/-- C37 fails for characters: a vector of two characters, a space and an `a`. It is serialized as a
space, a newline, an `a`, a newline; reading skips the white space, gives `a` for the first element,
and fails for the second one, which is not changed. -/
theorem C37_white_space_violates :
    let s := Struct.view (.setLength 0 (.lit 2)) (.vector 0 (.scalar 1 1))
    serializeData .ideal s (fun _ => charCodec) [32, 97] = .ok [' ', '\n', 'a', '\n'] ∧
    (deserializeData .ideal s (fun _ => charCodec) ⟨true, [' ', '\n', 'a', '\n']⟩ [1, 2]).map (fun r => (r.1.good, r.2)) =
      .ok (false, [97, 2]) :=
  ⟨rfl, rfl⟩

/-! ### Example: a matrix stored by rows, read into one stored by columns -/

/-- 2 rows of 3 numbers, by rows ... -/
def c37Rows : Struct :=
  Struct.apply (.vector 0 (.vector 1 (.scalar 2 2))) [.setLength 0 (.dyn 2), .setLength 1 (.dyn 3)]

/-- ... and by columns, with the rows as the outermost dimension -/
def c37Columns : Struct :=
  Struct.apply (.vector 1 (.vector 0 (.scalar 2 2))) [.setLength 0 (.dyn 2), .setLength 1 (.lit 3), .hoist 0]

theorem c37Sound : c37Columns.Sound := by
  refine ⟨?_, ?_, ?_, ?_, ?_⟩
  · exact ⟨by decide, by decide, by decide, by decide, by decide, trivial⟩
  · simp [c37Columns, Struct.apply, Struct.noAlias]
  · simp [c37Columns, Struct.apply, Struct.tame, View.tame]
  · simp [c37Columns, Struct.apply, Struct.sane]
  · simp [c37Columns, Struct.apply, Struct.exact, View.exact]

example : ∃ sts, (Traverser.mk c37Rows []).forEach .ideal [] = some sts ∧ sts.length = 6 ∧
    Traversed c37Columns sts := by
  refine ⟨_, rfl, by decide, ?_, ?_, rfl, ?_, by decide, by decide⟩
  · simp [c37Columns, Struct.apply, Struct.firm]
  · intro q _ h
    simp [c37Columns, Struct.apply, Struct.hard, View.hard] at h
  · intro st _
    exact .below trivial (.below trivial (.below trivial trivial))

example : serializeData .ideal c37Rows (fun _ => uintCodec 2) [1, 0, 2, 0, 3, 0, 4, 0, 5, 0, 0, 1] =
    .ok "1\n2\n3\n4\n5\n256\n".toList := by
  have h : ∀ n, n < 10 → digits n = [Char.ofNat (48 + n)] := fun n hn => by rw [digits, if_pos hn]
  have h2 : digits 256 = ['2', '5', '6'] := by
    rw [digits, if_neg (by decide), digits, if_neg (by decide), h _ (by decide)]; rfl
  show Except.ok ([] ++ digits 1 ++ ['\n'] ++ digits 2 ++ ['\n'] ++ digits 3 ++ ['\n'] ++ digits 4 ++ ['\n'] ++
    digits 5 ++ ['\n'] ++ digits 256 ++ ['\n']) = _
  rw [h2, h 1 (by decide), h 2 (by decide), h 3 (by decide), h 4 (by decide), h 5 (by decide)]
  rfl

example : (deserializeData .ideal c37Columns (fun _ => uintCodec 2) ⟨true, "1\n2\n3\n4\n5\n256\n7".toList⟩
      (List.replicate 12 0)).map (fun r => (r.1.good, r.1.chars, r.2)) =
    .ok (true, ['\n', '7'], [1, 0, 4, 0, 2, 0, 5, 0, 3, 0, 0, 1]) := by rfl

/-- malformed input: the third element becomes zero and the rest is not changed -/
example : (deserializeData .ideal c37Columns (fun _ => uintCodec 2) ⟨true, "1\n2\nx\n4\n".toList⟩
      (List.replicate 12 9)).map (fun r => (r.1.good, r.1.chars, r.2)) =
    .ok (false, "x\n4\n".toList, [1, 0, 9, 9, 2, 0, 9, 9, 0, 0, 9, 9]) := by rfl

/-- input that ends too early -/
example : (deserializeData .ideal c37Columns (fun _ => uintCodec 2) ⟨true, "1\n2\n".toList⟩
      (List.replicate 12 9)).map (fun r => (r.1.good, r.1.chars, r.2)) =
    .ok (false, [], [1, 0, 9, 9, 2, 0, 9, 9, 9, 9, 9, 9]) := by rfl

end Noarr
