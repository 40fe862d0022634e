import Verif.Memory
import Verif.AliasMain
import Verif.SizeDet
import Verif.Inside

/-
Reading and writing disjoint places of a blob.
-/

namespace Noarr

theorem Except.bind_ok {ε α β : Type} (a : α) (f : α → Except ε β) : (Except.ok a >>= f) = f a := rfl

/-- the bytes of a place -/
def bytes (m : Mem) (k e : Nat) : List UInt8 := (m.drop k).take e

/-- the blob with other bytes at a place -/
def patch (m : Mem) (k e : Nat) (b : List UInt8) : Mem := m.take k ++ b ++ m.drop (k + e)

theorem bytes_length {m : Mem} {k e : Nat} (h : k + e ≤ m.length) : (bytes m k e).length = e := by
  simp [bytes]; omega

theorem patch_length {m : Mem} {k e : Nat} {b : List UInt8} (h : k + e ≤ m.length) (hb : b.length = e) :
    (patch m k e b).length = m.length := by
  simp [patch]; omega

theorem bytes_get {m : Mem} {k e i : Nat} : (bytes m k e)[i]? = if i < e then m[k + i]? else none := by
  simp only [bytes, List.getElem?_take, List.getElem?_drop]

theorem patch_get {m : Mem} {k e i : Nat} {b : List UInt8} (h : k + e ≤ m.length) (hb : b.length = e) :
    (patch m k e b)[i]? = if k ≤ i ∧ i < k + e then b[i - k]? else m[i]? := by
  simp only [patch, List.append_assoc, List.getElem?_append, List.length_take, List.getElem?_take,
    List.getElem?_drop, hb]
  rw [Nat.min_eq_left (by omega)]
  split
  · rw [if_neg (by omega)]
  · split
    · rw [if_pos (by omega)]
    · rw [if_neg (by omega)]
      congr 1; omega

theorem bytes_patch_same {m : Mem} {k e : Nat} {b : List UInt8} (h : k + e ≤ m.length) (hb : b.length = e) :
    bytes (patch m k e b) k e = b := by
  apply List.ext_getElem?
  intro i
  rw [bytes_get, patch_get h hb]
  split
  · rw [if_pos (by omega)]; congr 1; omega
  · rw [List.getElem?_eq_none (by omega)]

theorem bytes_patch_other {m : Mem} {k e k' e' : Nat} {b : List UInt8} (h : k + e ≤ m.length)
    (hb : b.length = e) (hd : k + e ≤ k' ∨ k' + e' ≤ k) :
    bytes (patch m k e b) k' e' = bytes m k' e' := by
  apply List.ext_getElem?
  intro i
  rw [bytes_get, bytes_get, patch_get h hb]
  split
  · rw [if_neg (by omega)]
  · rfl

theorem getAt_of_place {A : Arith} {s : Struct} {m : Mem} {st : State} {k e : Nat}
    (hp : s.place A st = .ok (k, e)) (h : k + e ≤ m.length) : s.getAt A m st = .ok (bytes m k e) := by
  simp only [Struct.getAt, hp, Except.bind_ok, if_pos h, bytes]

theorem setAt_of_place {A : Arith} {s : Struct} {m : Mem} {st : State} {k e : Nat} {b : List UInt8}
    (hp : s.place A st = .ok (k, e)) (h : k + e ≤ m.length) (hb : b.length = e) :
    s.setAt A m st b = .ok (patch m k e b) := by
  simp only [Struct.setAt, hp, Except.bind_ok, ne_eq, hb, not_true, if_false, if_pos h, patch]

theorem place_eq {A : Arith} {s : Struct} {st : State} {o : Val} {k e : Nat}
    (he : (s.sem A).elem st = some e) (ho : (s.sem A).off st (.lit 0) = some o) (hk : o.Num k) :
    s.place A st = .ok (k, e) := by
  have hk : o.nat? = some k := hk
  simp only [Struct.place, he, ho, hk]

/-- What the layout of a structure needs so that its elements do not share memory (`SigUniq`, `Depend`,
`BoundsSpec`, `AliasSpec`): everything compiles, there is no `bcast` and no `join`, names are used
consistently, no stride is zero. -/
structure Struct.Sound (s : Struct) : Prop where
  wf : s.wf .ideal
  noAlias : s.noAlias
  tame : s.tame
  sane : s.sane .ideal
  exact : s.exact

/-- The state selects an element: the indices are in range, those of tuples are constants, the
preconditions of the views hold, and the offset (as well as the size) can be queried. -/
structure Accessible (s : Struct) (st : State) : Prop where
  valid : ValidR .ideal s st
  pre : s.Pre .ideal st
  rigid : s.rigid .ideal st
  const : ConstIdx s st
  noLen : ∀ d, st (.len d) = none
  size : ((s.sem .ideal).size st).isSome
  off : ((s.sem .ideal).off st (.lit 0)).isSome

theorem Accessible.place {s : Struct} {st : State} (hs : s.Sound) (ha : Accessible s st) {size : Val} {N : Nat}
    (hsz : (s.sem .ideal).size .empty = some size) (hN : size.Num N) :
    ∃ k e, s.place .ideal st = .ok (k, e) ∧ (s.sem .ideal).elem st = some e ∧ k + e ≤ N := by
  obtain ⟨z, hz⟩ := Option.isSome_iff_exists.1 ha.size
  obtain ⟨o, ho⟩ := Option.isSome_iff_exists.1 ha.off
  have : z = size := s.size_det .ideal ha.rigid (fun d => by rw [ha.noLen]; rfl) hz hsz
  subst this
  obtain ⟨k, e, h1, h2, -, h4⟩ := s.inside hs.tame hs.sane ha.valid ha.pre hz hN
    (show (Val.lit 0).Num 0 from rfl) ho
  exact ⟨k, e, place_eq h2 ho h1, h2, by omega⟩

theorem Accessible.disjoint {s : Struct} {st st' : State} (hs : s.Sound) (ha : Accessible s st)
    (ha' : Accessible s st') (hag : Agree s st st') {size : Val} {N : Nat}
    (hsz : (s.sem .ideal).size .empty = some size) (hN : size.Num N) {k e k' e' : Nat}
    (hp : s.place .ideal st = .ok (k, e)) (hp' : s.place .ideal st' = .ok (k', e')) {q : Dim}
    (hq : (s.sem .ideal).sig.needs st q ∨ (s.sem .ideal).sig.needs st' q)
    (hne : ¬ SameNum (st (.idx q)) (st' (.idx q))) : k + e ≤ k' ∨ k' + e' ≤ k := by
  obtain ⟨z, hz⟩ := Option.isSome_iff_exists.1 ha.size
  obtain ⟨z', hz'⟩ := Option.isSome_iff_exists.1 ha'.size
  obtain ⟨o, ho⟩ := Option.isSome_iff_exists.1 ha.off
  obtain ⟨o', ho'⟩ := Option.isSome_iff_exists.1 ha'.off
  have e1 : z = size := s.size_det .ideal ha.rigid (fun d => by rw [ha.noLen]; rfl) hz hsz
  have e2 : z' = size := s.size_det .ideal ha'.rigid (fun d => by rw [ha'.noLen]; rfl) hz' hsz
  subst e1; subst e2
  have h0 : (Val.lit 0).Num 0 := rfl
  obtain ⟨a, c, h1, h2, -, -⟩ := s.inside hs.tame hs.sane ha.valid ha.pre hz hN h0 ho
  obtain ⟨a', c', h1', h2', -, -⟩ := s.inside hs.tame hs.sane ha'.valid ha'.pre hz' hN h0 ho'
  rw [place_eq h2 ho h1] at hp
  rw [place_eq h2' ho' h1'] at hp'
  cases hp; cases hp'
  refine Classical.byContradiction fun hno => ?_
  have := s.overlap hs.wf hs.noAlias hs.tame hs.sane hs.exact (fun d => by rw [ha.noLen, ha'.noLen])
    ⟨ha.valid, ha.pre, ha.rigid, ha.const⟩ ⟨ha'.valid, ha'.pre, ha'.rigid, ha'.const⟩ hag
    ⟨⟨_, o, h0, ho, h1⟩, h2, _, N, hz, hN⟩ ⟨⟨_, o', h0, ho', h1'⟩, h2', _, N, hz', hN⟩
    (by omega) (by omega)
  rcases hq with hq | hq
  · exact hne (this.1 q hq)
  · exact hne (this.2 q hq)

end Noarr
