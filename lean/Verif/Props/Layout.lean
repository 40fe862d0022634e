import Verif.Layout
import Verif.Props.Bounds

/-
C07: nested vectors are the row-major array. C08: tuples. C09: alignment.
-/

set_option linter.unusedVariables false
set_option linter.unusedSimpArgs false
set_option linter.unnecessarySimpa false

namespace Noarr

/-! ### C07 -/

/-- `vector<d1>() ^ ... `: a vector in `d1` of vectors in `d2` of ... of `s`. -/
def nest : List Dim → Struct → Struct
  | [], s => s
  | d :: ds, s => .vector d (nest ds s)

/-- The number of elements of a box. -/
def boxSize : List Nat → Nat
  | [] => 1
  | n :: ns => n * boxSize ns

/-- The place of an element in the usual order of a multi-dimensional array, last index fastest. -/
def rowMajor : List Nat → List Nat → Nat
  | n :: ns, i :: is => i * boxSize ns + rowMajor ns is
  | _, _ => 0

/-- The indices are in the box. -/
def InBox : List Nat → List Nat → Prop
  | [], [] => True
  | n :: ns, i :: is => i < n ∧ InBox ns is
  | _, _ => False

/-- The state contains the lengths `ns` in the dimensions `ds` (constants or run-time values). -/
def GivesLens (st : State) : List Dim → List Nat → Prop
  | [], [] => True
  | d :: ds, n :: ns => (∃ v, st (.len d) = some v ∧ v.Num n) ∧ GivesLens st ds ns
  | _, _ => False

/-- The state contains the indices `is` in the dimensions `ds` (constants or run-time values). -/
def GivesIdxs (st : State) : List Dim → List Nat → Prop
  | [], [] => True
  | d :: ds, i :: is => (∃ v, st (.idx d) = some v ∧ v.Num i) ∧ GivesIdxs st ds is
  | _, _ => False

theorem GivesLens.remove {st : State} {d : Dim} {ds : List Dim} {ns : List Nat} (hd : d ∉ ds)
    (h : GivesLens st ds ns) : GivesLens (st.removeAll [.idx d, .len d]) ds ns := by
  induction ds generalizing ns with
  | nil => cases ns <;> simpa [GivesLens] using h
  | cons e ds ih =>
    simp only [List.mem_cons, not_or] at hd
    cases ns with
    | nil => exact h
    | cons n ns =>
      exact ⟨by simpa [State.removeAll, Ne.symm hd.1] using h.1, ih hd.2 h.2⟩

theorem GivesIdxs.remove {st : State} {d : Dim} {ds : List Dim} {ns : List Nat} (hd : d ∉ ds)
    (h : GivesIdxs st ds ns) : GivesIdxs (st.removeAll [.idx d, .len d]) ds ns := by
  induction ds generalizing ns with
  | nil => cases ns <;> simpa [GivesIdxs] using h
  | cons e ds ih =>
    simp only [List.mem_cons, not_or] at hd
    cases ns with
    | nil => exact h
    | cons n ns =>
      exact ⟨by simpa [State.removeAll, Ne.symm hd.1] using h.1, ih hd.2 h.2⟩

/-- C07: the size of nested vectors is the number of elements times the size of an element. -/
theorem C07_size (ds : List Dim) (hnd : ds.Nodup) (ns : List Nat) (z a : Nat) (st : State)
    (hl : GivesLens st ds ns) :
    ∃ v, ((nest ds (.scalar z a)).sem .ideal).size st = some v ∧ v.Num (boxSize ns * z) := by
  induction ds generalizing ns st with
  | nil =>
    cases ns with
    | nil => exact ⟨.lit z, rfl, by simp [boxSize, Val.Num, Val.nat?]⟩
    | cons n ns => exact absurd hl id
  | cons d ds ih =>
    cases ns with
    | nil => exact absurd hl id
    | cons n ns =>
      rw [List.nodup_cons] at hnd
      obtain ⟨⟨l, hl1, hl2⟩, hl⟩ := hl
      obtain ⟨v, hv, hvn⟩ := ih hnd.2 ns _ (hl.remove hnd.1)
      refine ⟨l.mul .ideal v, ?_, ?_⟩
      · simp only [nest, Struct.sem, vectorSem, hl1, hv, bind, Option.bind_some]
      · rw [boxSize, Nat.mul_assoc]; exact Val.num_mul hl2 hvn

theorem nest_off (ds : List Dim) (hnd : ds.Nodup) (ns is : List Nat) (z a : Nat) (st : State)
    (hl : GivesLens st ds ns) (hi : GivesIdxs st ds is) (hb : InBox ns is) (start : Val) (b : Nat)
    (hs : start.Num b) :
    ∃ v, ((nest ds (.scalar z a)).sem .ideal).off st start = some v ∧
      v.Num (b + rowMajor ns is * z) := by
  induction ds generalizing ns is st start b with
  | nil =>
    cases ns with
    | nil => exact ⟨start, rfl, by simpa [rowMajor] using hs⟩
    | cons n ns => exact absurd hl id
  | cons d ds ih =>
    cases ns with
    | nil => exact absurd hl id
    | cons n ns =>
      cases is with
      | nil => exact absurd hi id
      | cons i is =>
        rw [List.nodup_cons] at hnd
        obtain ⟨v, hv, hvn⟩ := C07_size ds hnd.2 ns z a _ (hl.2.remove hnd.1)
        obtain ⟨⟨l, hl1, hl2⟩, hl⟩ := hl
        obtain ⟨⟨x, hx1, hx2⟩, hi⟩ := hi
        simp only [nest, Struct.sem, vectorSem, hl1, hx1, bind, Option.bind_some]
        have key := fun start b hs => ih hnd.2 ns is _ (hl.remove hnd.1) (hi.remove hnd.1) hb.2 start b hs
        have e : b + rowMajor (n :: ns) (i :: is) * z = i * (boxSize ns * z) + b + rowMajor ns is * z := by
          simp only [rowMajor, Nat.add_mul, Nat.mul_assoc]; omega
        rw [e]
        have gen := key ((x.mul .ideal v).add .ideal start) _ (Val.num_add (Val.num_mul hx2 hvn) hs)
        rcases Val.Num.cases hl2 with rfl | rfl
        · by_cases h1 : n = 1
          · subst h1
            have : i = 0 := by have := hb.1; omega
            subst this
            simpa using key start b hs
          · simpa [h1, hv] using gen
        · simpa [hv] using gen

/-- C07: the offset is the row-major place of the element times the size of an element. -/
theorem C07_offset (ds : List Dim) (hnd : ds.Nodup) (ns is : List Nat) (z a : Nat) (st : State)
    (hl : GivesLens st ds ns) (hi : GivesIdxs st ds is) (hb : InBox ns is) :
    ∃ v, ((nest ds (.scalar z a)).sem .ideal).off st (.lit 0) = some v ∧
      v.Num (rowMajor ns is * z) := by
  have := nest_off ds hnd ns is z a st hl hi hb (.lit 0) 0 rfl
  simpa using this

theorem boxSize_pos {ns is : List Nat} (h : InBox ns is) : 0 < boxSize ns := by
  induction ns generalizing is with
  | nil => exact Nat.one_pos
  | cons n ns ih =>
    cases is with
    | nil => exact absurd h id
    | cons i is => exact Nat.mul_pos (by have := h.1; omega) (ih h.2)

theorem rowMajor_lt {ns is : List Nat} (h : InBox ns is) : rowMajor ns is < boxSize ns := by
  induction ns generalizing is with
  | nil => cases is <;> simp [rowMajor, boxSize]
  | cons n ns ih =>
    cases is with
    | nil => exact absurd h id
    | cons i is =>
      have := ih h.2
      have h2 := Nat.mul_le_mul_right (boxSize ns) h.1
      rw [Nat.succ_mul] at h2
      simp only [rowMajor, boxSize]; omega

theorem rowMajor_inj {ns is js : List Nat} (h : InBox ns is) (h' : InBox ns js)
    (he : rowMajor ns is = rowMajor ns js) : is = js := by
  induction ns generalizing is js with
  | nil =>
    cases is with
    | nil => cases js with
      | nil => rfl
      | cons j js => exact absurd h' id
    | cons i is => exact absurd h id
  | cons n ns ih =>
    cases is with
    | nil => exact absurd h id
    | cons i is =>
      cases js with
      | nil => exact absurd h' id
      | cons j js =>
        simp only [rowMajor] at he
        obtain ⟨rfl, h3⟩ := block_inj (rowMajor_lt h.2) (rowMajor_lt h'.2) he
        rw [ih h.2 h'.2 h3]

theorem rowMajor_surj {ns : List Nat} {m : Nat} (h : m < boxSize ns) : ∃ is, InBox ns is ∧ rowMajor ns is = m := by
  induction ns generalizing m with
  | nil => exact ⟨[], trivial, by simp [boxSize] at h; simp [rowMajor, h]⟩
  | cons n ns ih =>
    have hp : 0 < boxSize ns := by
      rcases Nat.eq_zero_or_pos (boxSize ns) with h0 | h0
      · simp [boxSize, h0] at h
      · exact h0
    obtain ⟨is, h1, h2⟩ := ih (Nat.mod_lt m hp)
    refine ⟨(m / boxSize ns) :: is, ⟨?_, h1⟩, ?_⟩
    · exact Nat.div_lt_of_lt_mul (by rw [Nat.mul_comm]; exact h)
    · rw [rowMajor, h2, Nat.mul_comm, Nat.div_add_mod]

theorem InBox.length {ns is : List Nat} (h : InBox ns is) : is.length = ns.length := by
  induction ns generalizing is with
  | nil => cases is with
    | nil => rfl
    | cons i is => exact absurd h id
  | cons n ns ih =>
    cases is with
    | nil => exact absurd h id
    | cons i is => simp [ih h.2]

/-- The state with the indices `is` in the dimensions `ds`, all at run time. -/
def State.withIdxs (st : State) : List Dim → List Nat → State
  | d :: ds, i :: is => (st.withIdxs ds is).at d i
  | _, _ => st

theorem withIdxs_len {st : State} {ds : List Dim} {is : List Nat} (d : Dim) :
    st.withIdxs ds is (.len d) = st (.len d) := by
  induction ds generalizing is with
  | nil => rfl
  | cons e ds ih =>
    cases is with
    | nil => rfl
    | cons i is => simp [State.withIdxs, State.set, ih]

theorem withIdxs_gives {st : State} {ds : List Dim} {is : List Nat} (hnd : ds.Nodup)
    (hl : is.length = ds.length) : GivesIdxs (st.withIdxs ds is) ds is := by
  induction ds generalizing is with
  | nil => cases is with
    | nil => trivial
    | cons i is => simp at hl
  | cons d ds ih =>
    cases is with
    | nil => simp at hl
    | cons i is =>
      rw [List.nodup_cons] at hnd
      refine ⟨⟨.dyn i, by simp [State.withIdxs, State.set], rfl⟩, ?_⟩
      have h := ih hnd.2 (by simpa using hl)
      have gen : ∀ (es : List Dim) (js : List Nat) (st : State), d ∉ es → GivesIdxs st es js →
          GivesIdxs (st.at d i) es js := by
        intro es
        induction es with
        | nil => intro js st _ h; cases js <;> simpa [GivesIdxs] using h
        | cons e es ih2 =>
          intro js st hd h
          simp only [List.mem_cons, not_or] at hd
          cases js with
          | nil => exact h
          | cons j js => exact ⟨by simpa [State.set, Ne.symm hd.1] using h.1, ih2 js st hd.2 h.2⟩
      exact gen ds is _ hnd.1 h

theorem givesLens_of_eq {st st' : State} (h : ∀ d, st' (.len d) = st (.len d)) {ds : List Dim}
    {ns : List Nat} (hl : GivesLens st ds ns) : GivesLens st' ds ns := by
  induction ds generalizing ns with
  | nil => cases ns with
    | nil => trivial
    | cons n ns => exact absurd hl id
  | cons d ds ih =>
    cases ns with
    | nil => exact absurd hl id
    | cons n ns => exact ⟨by rw [h]; exact hl.1, ih hl.2⟩

theorem givesLens_length {st : State} {ds : List Dim} {ns : List Nat} (hl : GivesLens st ds ns) :
    ns.length = ds.length := by
  induction ds generalizing ns with
  | nil => cases ns with
    | nil => rfl
    | cons n ns => exact absurd hl id
  | cons d ds ih =>
    cases ns with
    | nil => exact absurd hl id
    | cons n ns => simp [ih hl.2]

/-- C07: no gaps and no repetition. For every multiple of the element size below the total size there
is exactly one valid index with that offset. -/
theorem C07_each_place_once (ds : List Dim) (hnd : ds.Nodup) (ns : List Nat) (z a : Nat) (hz : 0 < z)
    (st : State) (hl : GivesLens st ds ns) (m : Nat) (hm : m < boxSize ns) :
    ∃ is, InBox ns is ∧ ∀ js, InBox ns js →
      ((∃ v, ((nest ds (.scalar z a)).sem .ideal).off (st.withIdxs ds js) (.lit 0) = some v ∧
        v.Num (m * z)) ↔ js = is) := by
  obtain ⟨is, h1, h2⟩ := rowMajor_surj hm
  refine ⟨is, h1, fun js hj => ?_⟩
  have hlen := givesLens_length hl
  obtain ⟨v, hv, hvn⟩ := C07_offset ds hnd ns js z a (st.withIdxs ds js)
    (givesLens_of_eq (fun d => withIdxs_len d) hl)
    (withIdxs_gives hnd (by rw [hj.length, hlen])) hj
  constructor
  · rintro ⟨w, hw, hwn⟩
    rw [hv] at hw
    obtain rfl := Option.some.inj hw
    have := Nat.eq_of_mul_eq_mul_right hz (Val.Num.eq hvn hwn)
    exact rowMajor_inj hj h1 (by omega)
  · rintro rfl
    exact ⟨v, hv, by rw [← h2]; exact hvn⟩

/-- A 3 by 4 by 5 array of 8-byte elements: element (2, 1, 3). -/
example : let st := ((State.empty.set (.len 0) (.dyn 3)).set (.len 1) (.lit 4)).set (.len 2) (.dyn 5)
    [0, 1, 2].Nodup ∧ GivesLens st [0, 1, 2] [3, 4, 5] ∧ InBox [3, 4, 5] [2, 1, 3] ∧
    ((nest [0, 1, 2] (.scalar 8 8)).sem .ideal).off (st.withIdxs [0, 1, 2] [2, 1, 3]) (.lit 0) =
      some (.dyn 384) := by
  refine ⟨by decide, ?_, ⟨by decide, by decide, by decide, trivial⟩, by decide⟩
  exact ⟨⟨_, rfl, rfl⟩, ⟨_, rfl, rfl⟩, ⟨_, rfl, rfl⟩, trivial⟩

/-! ### C08 -/

/-- C08: the elements of an earlier field of a tuple end before the elements of a later field begin,
whatever the other (valid) indices are. -/
theorem C08_fields_in_order (t : Dim) (n : Nat) (fs : Fin n → Struct) (ht : (Struct.tuple t n fs).tame)
    (hs : (Struct.tuple t n fs).sane .ideal) (st st' : State) (hl : SameLens st st')
    (hV : Valid .ideal (.tuple t n fs) st) (hV' : Valid .ideal (.tuple t n fs) st')
    (hp : (Struct.tuple t n fs).Pre .ideal st) (hp' : (Struct.tuple t n fs).Pre .ideal st')
    (hr : (Struct.tuple t n fs).rigid .ideal st) (j j' : Nat) (hj : st (.idx t) = some (.lit j))
    (hj' : st' (.idx t) = some (.lit j')) (hjj : j < j') (size size' o o' : Val) (N N' : Nat)
    (hsz : ((Struct.tuple t n fs).sem .ideal).size st = some size) (hN : size.Num N)
    (hsz' : ((Struct.tuple t n fs).sem .ideal).size st' = some size') (hN' : size'.Num N')
    (ho : ((Struct.tuple t n fs).sem .ideal).off st (.lit 0) = some o)
    (ho' : ((Struct.tuple t n fs).sem .ideal).off st' (.lit 0) = some o') :
    ∃ k e k' e', o.Num k ∧ ((Struct.tuple t n fs).sem .ideal).elem st = some e ∧ o'.Num k' ∧
      ((Struct.tuple t n fs).sem .ideal).elem st' = some e' ∧ k + e ≤ k' ∧ k' + e' ≤ N' := by
  have hv : ValidR .ideal (.tuple t n fs) st := fun q i n _ => hV q i n
  have hv' : ValidR .ideal (.tuple t n fs) st' := fun q i n _ => hV' q i n
  have h0 : (Val.lit 0).Num 0 := rfl
  obtain ⟨k, e, h1, h2, -, -⟩ := Struct.inside _ ht hs hv hp hsz hN h0 ho
  obtain ⟨k', e', h1', h2', h4', h5'⟩ := Struct.inside _ ht hs hv' hp' hsz' hN' h0 ho'
  refine ⟨k, e, k', e', h1, h2, h1', h2', ?_, by omega⟩
  have hE : Elem (.tuple t n fs) st 0 k e := ⟨⟨_, o, h0, ho, h1⟩, h2, _, N, hsz, hN⟩
  have hE' : Elem (.tuple t n fs) st' 0 k' e' := ⟨⟨_, o', h0, ho', h1'⟩, h2', _, N', hsz', hN'⟩
  obtain ⟨i, hi, b, B, hii, hb, hbn, hF⟩ := hE.field
  obtain ⟨i', hi', b', B', hii', hb', hbn', hF'⟩ := hE'.field
  rw [hj] at hii; rw [hj'] at hii'
  cases hii; cases hii'
  have hl2 : SameLens (st.remove (.idx t)) (st'.remove (.idx t)) := by
    intro e; simp [State.remove, hl e]
  obtain ⟨sz, Z, hz, hZ⟩ := hF.size
  obtain ⟨x, y, hx, hy, hle⟩ := field_order hl2 hi hjj hr hb hb' hbn' hz
  obtain ⟨⟨start, o1, ha, hoff, hk⟩, he1, -⟩ := hF
  obtain ⟨k1, e1, g1, g2, g3, g4⟩ := Struct.inside _ (ht _) (hs.1 _)
    (validR_field hi hs (by rw [hj]; rfl) hv) (hp _) hz hZ ha hoff
  rw [he1] at g2
  obtain rfl := Option.some.inj g2
  obtain ⟨sz', Z', hz', hZ'⟩ := hF'.size
  obtain ⟨⟨start', o1', ha', hoff', hk'⟩, he1', -⟩ := hF'
  obtain ⟨k1', e1', g1', g2', g3', g4'⟩ := Struct.inside _ (ht _) (hs.1 _)
    (validR_field hi' hs (by rw [hj']; rfl) hv') (hp' _) hz' hZ' ha' hoff'
  have := Val.Num.eq hk g1
  have := Val.Num.eq hk' g1'
  have := Val.Num.eq hx hbn
  have := Val.Num.eq hy hZ
  omega

/-- Two arrays of different lengths: the last element of the first one and the first element of the
second one. -/
example : let s := Struct.tuple 9 2 (fun i => if i = 0
      then .view (.setLength 0 (.dyn 3)) (.vector 0 (.scalar 4 4))
      else .view (.setLength 0 (.dyn 5)) (.vector 0 (.scalar 4 4)))
    let st := (State.empty.set (.idx 9) (.lit 0)).at 0 2
    let st' := (State.empty.set (.idx 9) (.lit 1)).at 0 0
    s.tame ∧ s.sane .ideal ∧ SameLens st st' ∧ Valid .ideal s st ∧ Valid .ideal s st' ∧
    s.Pre .ideal st ∧ s.Pre .ideal st' ∧ s.rigid .ideal st ∧
    (s.sem .ideal).size st = some (.dyn 32) ∧ (s.sem .ideal).size st' = some (.dyn 32) ∧
    (s.sem .ideal).off st (.lit 0) = some (.dyn 8) ∧
    (s.sem .ideal).off st' (.lit 0) = some (.dyn 12) := by
  dsimp only
  refine ⟨fun i => ?_, ⟨fun i => ?_, fun i j q hi => ?_⟩, ?_, ?_, ?_, fun i => ?_, fun i => ?_,
    fun i => ?_, by decide, by decide, by decide, by decide⟩
  · dsimp only; split <;> simp [Struct.tame, View.tame]
  · dsimp only; split <;> simp [Struct.sane]
  · dsimp only at hi; split at hi <;> simp [Struct.hard, View.hard] at hi
  · intro d; simp [State.set, State.at]
  · refine .of_list [0, 9] ?_ (by decide)
    intro q hq; simp at hq; simp [State.at, State.set, State.empty, hq]
  · refine .of_list [0, 9] ?_ (by decide)
    intro q hq; simp at hq; simp [State.at, State.set, State.empty, hq]
  · dsimp only; split <;> exact .below trivial trivial
  · dsimp only; split <;> exact .below trivial trivial
  · dsimp only; split <;> exact ⟨trivial, fun _ _ => trivial⟩

/-- The sum of the field sizes. -/
def sumSizes : List Nat → Nat
  | [] => 0
  | z :: zs => z + sumSizes zs

theorem sizeAcc_exact {st : State} {al : Nat} (hal : 0 < al) {l : List Sem} {zs : List Nat} {start : Val}
    {a : Nat} (ha : start.Num a) (hd : al ∣ a)
    (hl : ∀ S ∈ l, S.align st = some al) (hz : l.length = zs.length)
    (hzs : ∀ i (h : i < l.length), ∃ v, (l[i]).size st = some v ∧ v.Num (zs[i]'(hz ▸ h)) ∧
      al ∣ zs[i]'(hz ▸ h)) :
    ∃ v, sizeAcc .ideal st l start = some v ∧ v.Num (a + sumSizes zs) := by
  induction l generalizing zs start a with
  | nil =>
    cases zs with
    | nil => exact ⟨start, rfl, ha⟩
    | cons z zs => simp at hz
  | cons S l ih =>
    cases zs with
    | nil => simp at hz
    | cons z zs =>
      obtain ⟨v, hv, hvn, hvd⟩ := hzs 0 (by simp)
      simp only [List.getElem_cons_zero] at hv hvn hvd
      have hsafe : ((((start.add .ideal (.lit al)).sub .ideal (.lit 1)).div .ideal (.lit al)).mul .ideal
          (.lit al)).Num a := by
        obtain ⟨c, rfl⟩ := hd
        have h1 : ((start.add .ideal (.lit al)).sub .ideal (.lit 1)).Num (al * c + al - 1) :=
          Val.nat?_sub.2 ⟨_, 1, Val.num_add ha rfl, rfl, by omega, rfl⟩
        have h2 := Val.num_mul (Val.num_div h1 (show (Val.lit al).Num al from rfl) hal)
          (show (Val.lit al).Num al from rfl)
        have h3 : (al * c + al - 1) / al * al = al * c := by
          have : al * c + al - 1 = al - 1 + al * c := by omega
          rw [this, Nat.add_mul_div_left _ _ hal, Nat.div_eq_of_lt (by omega), Nat.zero_add, Nat.mul_comm]
        rwa [h3] at h2
      obtain ⟨w, hw, hwn⟩ := ih (zs := zs) (Val.num_add hsafe hvn) (Nat.dvd_add hd hvd)
        (fun S hS => hl S (by simp [hS])) (by simpa using hz) (fun i hi => by
          have := hzs (i + 1) (by simp; omega)
          simpa using this)
      refine ⟨w, ?_, by rw [sumSizes, ← Nat.add_assoc]; exact hwn⟩
      simp only [sizeAcc, hl S (by simp), hv, bind, Option.bind_some]
      exact hw

/-- C08, the documented size: if all the fields have the same alignment (the only case in which
`align()` compiles) and sizes that are multiples of it, the size of the tuple is the sum of the sizes
of the fields. Missing: it is false for fields with different alignments, see
`C08_padding_violates`. -/
theorem C08_size_is_sum_partial (t : Dim) (n : Nat) (fs : Fin n → Struct) (st : State) (al : Nat)
    (hal : ((Struct.tuple t n fs).sem .ideal).align st = some al) (hpos : 0 < al) (zs : Fin n → Nat)
    (hz : ∀ i, ∃ v, ((fs i).sem .ideal).size (st.remove (.idx t)) = some v ∧ v.Num (zs i) ∧ al ∣ zs i) :
    ∃ v, ((Struct.tuple t n fs).sem .ideal).size st = some v ∧ v.Num (sumSizes (List.ofFn zs)) := by
  simp only [Struct.sem, tupleSem] at hal ⊢
  have := sizeAcc_exact hpos (l := List.ofFn fun i => (fs i).sem .ideal) (zs := List.ofFn zs)
    (start := .lit 0) (a := 0) rfl (Nat.dvd_zero _) (alignAll_mem hal) (by simp) (by
      intro i hi
      simpa using hz ⟨i, by simpa using hi⟩)
  simpa using this

/-- A pair of two ints and an array of three ints. -/
example : let s := Struct.tuple 9 2 (fun i => if i = 0 then .scalar 8 4 else .view (.setLength 0 (.lit 3)) (.vector 0 (.scalar 4 4)))
    (s.sem .ideal).align State.empty = some 4 ∧ (s.sem .ideal).size State.empty = some (.lit 20) := by
  decide

/-- The documentation of tuples ("no padding", "size is the sum of sizes") does not hold: a tuple of a
char and an int takes eight bytes, of which the char is byte 0 and the int bytes 1 to 5. -/
theorem C08_padding_violates :
    let s := Struct.tuple 9 2 (fun i => if i = 0 then .scalar 1 1 else .scalar 4 4)
    (s.sem .ideal).size State.empty = some (.lit 8) ∧
    (s.sem .ideal).off (State.empty.set (.idx 9) (.lit 0)) (.lit 0) = some (.lit 0) ∧
    (s.sem .ideal).off (State.empty.set (.idx 9) (.lit 1)) (.lit 0) = some (.lit 1) := by decide

/-! ### C09 -/

/-- C09: if `align()` compiles, it is the alignment of every scalar in the structure. -/
theorem C09_align_is_that_of_all_scalars (A : Arith) (s : Struct) (st : State) (al : Nat)
    (h : (s.sem A).align st = some al) : s.allAligned al := Struct.align_all h

/-- C09: in a buffer aligned to `align()`, every element is aligned. (`s.natural`: the size of a
scalar type is a multiple of its alignment.) -/
theorem C09_elements_aligned (s : Struct) (hn : s.natural) (st st' : State) (al : Nat)
    (h : (s.sem .ideal).align st = some al) (base k : Nat) (hb : al ∣ base) (o : Val)
    (ho : (s.sem .ideal).off st' (.lit 0) = some o) (hk : o.Num k) : al ∣ base + k :=
  Nat.dvd_add hb (off_dvd (Struct.align_all h) hn
    (show (Val.lit 0).Num 0 from rfl) (Nat.dvd_zero _) ho hk)

/-- C09: the size is a multiple of the alignment, so structures can be placed one after another. -/
theorem C09_size_aligned (s : Struct) (hn : s.natural) (st st' : State) (al : Nat)
    (h : (s.sem .ideal).align st = some al) (size : Val) (N : Nat)
    (hs : (s.sem .ideal).size st' = some size) (hN : size.Num N) : al ∣ N :=
  size_dvd (Struct.align_all h) hn hs hN

/-- An array of five pairs of a 12-byte and a 4-byte scalar, both with alignment 4. -/
example : let s := Struct.view (.setLength 0 (.dyn 5)) (.vector 0 (.tuple 9 2 (fun i => if i = 0 then .scalar 12 4 else .scalar 4 4)))
    s.natural ∧ (s.sem .ideal).align State.empty = some 4 ∧
    (s.sem .ideal).off ((State.empty.set (.idx 9) (.lit 1)).at 0 3) (.lit 0) = some (.dyn 60) := by
  refine ⟨?_, by decide, by decide⟩
  intro i
  dsimp only
  split <;> exact ⟨by decide, by decide⟩

/-- A structure whose scalars have different alignments has no `align()`, and may have elements at
unaligned offsets: the int in a tuple of a char and an int. -/
theorem C09_mixed_tuple_has_no_align :
    let s := Struct.tuple 9 2 (fun i => if i = 0 then .scalar 1 1 else .scalar 4 4)
    (s.sem .ideal).align State.empty = none ∧
    (s.sem .ideal).off (State.empty.set (.idx 9) (.lit 1)) (.lit 0) = some (.lit 1) := by decide

end Noarr
