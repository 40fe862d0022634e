import Verif.Sig
import Verif.ZCurve

/-
Structures: one definition per C++ class, in terms of the queries the class offers.

`none` means that the query does not compile in the given state (a violated `requires` clause or
`static_assert`); a value `Val.bad` means that it compiles but computes a useless number.

The C++ functions `has_size` / `size` are folded into one partial function `size`; likewise
`has_offset_of` / `offset_of`. `has_length` is kept, because the code branches on it.
`offset_of<Sub>` is modelled for `Sub` = the scalar at the bottom of the structure.
-/

namespace Noarr

/-- The queries of a structure. -/
structure Sem where
  /-- `Struct::signature` -/
  sig : Sig
  /-- `Struct::has_length<q, State>()` -/
  hasLen : Dim → State → Option Bool
  /-- `structure.length<q>(state)` -/
  len : Dim → State → Option Val
  /-- `structure.size(state)` -/
  size : State → Option Val
  /-- `structure.align(state)` -/
  align : State → Option Nat
  /-- `offset_of<scalar>(structure, state, start)` -/
  off : State → Val → Option Val
  /-- `sizeof` of the scalar reached in the given state -/
  elem : State → Option Nat

/-- `requires (has_length<QDim, State>())` in front of every `length`. -/
def guardLen (h : Option Bool) (v : Option Val) : Option Val :=
  match h with
  | some true => v
  | _ => none

/-- `scalar<T>` (structs/scalar.hpp:17-64). -/
def scalarSem (size align : Nat) : Sem where
  sig := .scalar size
  hasLen _ _ := some false
  len _ _ := none
  size _ := some (.lit size)
  align _ := some align
  off _ start := some start
  elem _ := some size

/-- The index of a tuple, which has to be a constant in range
(`state_get_t<State, index_in<Dim>>::value`, structs/layouts.hpp:36, 62-65). -/
def constIdx : Option Val → Option Nat
  | some (.lit k) => some k
  | _ => none

/-- `tuple_t::size_accumulator` (structs/layouts.hpp:160-174). -/
def sizeAcc (A : Arith) (st : State) : List Sem → Val → Option Val
  | [], start => some start
  | S :: Ss, start => do
    let al ← S.align st
    let sz ← S.size st
    let safe := ((start.add A (.lit al)).sub A (.lit 1)).div A (.lit al) |>.mul A (.lit al)
    sizeAcc A st Ss (safe.add A sz)

/-- `tuple_t::align_inner` (structs/layouts.hpp:182-192): `std::max` of two constants only compiles
when they have the same type, that is, when all the alignments are equal. -/
def alignAll (st : State) : List Sem → Option Nat
  | [] => none
  | [S] => S.align st
  | S :: Ss => do
    let a ← S.align st
    let b ← alignAll st Ss
    if a = b then some a else none

/-- `tuple_t<Dim, TS...>` (structs/layouts.hpp:24-193). -/
def tupleSem (A : Arith) (t : Dim) (n : Nat) (fs : Fin n → Sem) : Sem :=
  let sub (st : State) : State := st.remove (.idx t)
  let field (st : State) : Option Sem := do
    let k ← constIdx (st (.idx t))
    if h : k < n then some (fs ⟨k, h⟩) else none
  let hasLen (q : Dim) (st : State) : Option Bool :=
    if q = t then some (!st.has (.idx t))
    else if st.has (.idx t) then do
      let S ← field st
      S.hasLen q (sub st)
    else some false
  { sig := if ∃ i, (fs i).sig.anyAccept t = true then .ill
           else .dep t n (fun i => (fs i).sig)
    hasLen := hasLen
    len := fun q st => guardLen (hasLen q st)
      (if q = t then some (.lit n)
       else do
        let S ← field st
        S.len q (sub st))
    size := fun st => sizeAcc A (sub st) (List.ofFn fs) (.lit 0)
    align := fun st => alignAll (sub st) (List.ofFn fs)
    off := fun st start => do
      let k ← constIdx (st (.idx t))
      let S ← field st
      let before ← sizeAcc A (sub st) ((List.ofFn fs).take k) (.lit 0)
      S.off (sub st) (before.add A start)
    elem := fun st => do
      let S ← field st
      S.elem (sub st) }

/-- `union_t::first_match<Dim>` (extra/traverser.hpp:123-137). -/
def firstMatch {n : Nat} (fs : Fin n → Sem) (q : Dim) : Option (Fin n) :=
  (List.finRange n).find? fun i => (fs i).sig.anyAccept q

/-- `union_t<Structs...>` (extra/traverser.hpp:105-157), what a traverser of several structures goes
through. It has no size, no alignment and no elements. -/
def unionSem (n : Nat) (fs : Fin n → Sem) : Sem :=
  let hasLen (q : Dim) (st : State) : Option Bool :=
    match firstMatch fs q with
    | some i => (fs i).hasLen q st
    | none => some false
  { sig := Sig.unionAll (List.ofFn fun i => (fs i).sig)
    hasLen := hasLen
    len := fun q st => guardLen (hasLen q st)
      (match firstMatch fs q with
       | some i => (fs i).len q st
       | none => none)
    size := fun _ => none
    align := fun _ => none
    off := fun _ _ => none
    elem := fun _ => none }

/-- `vector_t<Dim, T>` (structs/layouts.hpp:217-338). When the length is the constant 1, the index
is ignored. -/
def vectorSem (A : Arith) (d : Dim) (T : Sem) : Sem :=
  let sub (st : State) : State := st.removeAll [.idx d, .len d]
  let hasLen (q : Dim) (st : State) : Option Bool :=
    if q = d then some (st.has (.len d) && !st.has (.idx d)) else T.hasLen q (sub st)
  { sig := if T.sig.anyAccept d then .ill else .fn d .dynamic T.sig
    hasLen := hasLen
    len := fun q st => guardLen (hasLen q st)
      (if q = d then st (.len d) else T.len q (sub st))
    size := fun st => do
      let l ← st (.len d)
      let s ← T.size (sub st)
      some (l.mul A s)
    align := fun st => T.align (sub st)
    off := fun st start => do
      let i ← st (.idx d)
      let l ← st (.len d)
      match l with
      | .lit 1 => T.off (sub st) start
      | .bad f => do
        let _ ← T.off (sub st) start
        some (.bad f)
      | _ => do
        let s ← T.size (sub st)
        T.off (sub st) ((i.mul A s).add A start)
    elem := fun st => T.elem (sub st) }

/-- A view: a class that contains a structure and translates states. Size, alignment and offsets
are those of the contained structure in the translated state, for all the views
(e.g. structs/setters.hpp:89-107; offsets by base/structs_common.hpp:153-169). -/
structure ViewSem where
  sig : Sig
  /-- `sub_state` -/
  sub : State → Option State
  hasLen : Dim → State → Option Bool
  len : Dim → State → Option Val
  /-- an additional condition of `has_size` -/
  sizeOk : Bool := true
  /-- an additional condition of `has_strict_offset_of` -/
  offOk : State → Bool := fun _ => true

/-- The queries of a view applied to a structure. -/
def ViewSem.toSem (V : ViewSem) (S : Sem) : Sem where
  sig := V.sig
  hasLen := V.hasLen
  len := V.len
  size st := if V.sizeOk then (V.sub st).bind S.size else none
  align st := if V.sizeOk then (V.sub st).bind S.align else none
  off st start := if V.offOk st then (V.sub st).bind (S.off · start) else none
  elem st := (V.sub st).bind S.elem

section Views
variable (A : Arith)

/-- `bcast_t<Dim, T>` (structs/bcast.hpp:12-90). -/
def bcastSem (d : Dim) (S : Sem) : ViewSem :=
  let sub (st : State) : State := st.removeAll [.idx d, .len d]
  let hasLen (q : Dim) (st : State) : Option Bool :=
    if q = d then some (st.has (.len d) && !st.has (.idx d)) else S.hasLen q (sub st)
  { sig := .fn d .dynamic S.sig
    sub := fun st => some (sub st)
    hasLen := hasLen
    len := fun q st => guardLen (hasLen q st)
      (if q = d then st (.len d) else S.len q (sub st)) }

/-- `fix_t<Dim, T, IdxT>` (structs/setters.hpp:12-126). -/
def fixSem (d : Dim) (i : Val) (S : Sem) : ViewSem :=
  let sub (st : State) : State := (st.remove (.len d)).set (.idx d) i
  let hasLen (q : Dim) (st : State) : Option Bool :=
    if q = d then some false else S.hasLen q (sub st)
  { sig := S.sig.replace (Sig.fixRepl i) [d]
    sub := fun st => some (sub st)
    hasLen := hasLen
    len := fun q st => guardLen (hasLen q st) (S.len q (sub st)) }

/-- `set_length_t<Dim, T, LenT>` (structs/setters.hpp:158-258). -/
def setLengthSem (d : Dim) (l : Val) (S : Sem) : ViewSem :=
  let sub (st : State) : State := st.set (.len d) l
  let hasLen (q : Dim) (st : State) : Option Bool := S.hasLen q (sub st)
  { sig := S.sig.replace (Sig.setLengthRepl l) [d]
    sub := fun st => some (sub st)
    hasLen := hasLen
    len := fun q st => guardLen (hasLen q st) (S.len q (sub st)) }

/-- `shift_t<Dim, T, StartT>` (structs/slice.hpp:17-171). -/
def shiftSem (d : Dim) (start : Val) (S : Sem) : ViewSem :=
  let sub (st : State) : State :=
    (st.mapAt (.idx d) (·.add A start)).mapAt (.len d) (·.add A start)
  let hasLen (q : Dim) (st : State) : Option Bool :=
    if q = d then (if st.has (.len d) then some true else S.hasLen d (sub st))
    else S.hasLen q (sub st)
  { sig := S.sig.replace (Sig.shiftRepl start) [d]
    sub := fun st => some (sub st)
    hasLen := hasLen
    len := fun q st => guardLen (hasLen q st)
      (if q = d then
        match st (.len d) with
        | some l => some l
        | none => do
          let l ← S.len d (sub st)
          some (l.sub A start)
       else S.len q (sub st)) }

/-- `slice_t<Dim, T, StartT, LenT>` (structs/slice.hpp:203-330). -/
def sliceSem (d : Dim) (start len : Val) (S : Sem) : ViewSem :=
  let sub (st : State) : State := st.mapAt (.idx d) (·.add A start)
  let hasLen (q : Dim) (st : State) : Option Bool := S.hasLen q (sub st)
  { sig := S.sig.replace (Sig.sliceRepl start len) [d]
    sub := fun st => some (sub st)
    hasLen := hasLen
    len := fun q st => guardLen (hasLen q st)
      (if q = d then some len else S.len q (sub st)) }

/-- `span_t<Dim, T, StartT, EndT>` (structs/slice.hpp:355-483). -/
def spanSem (d : Dim) (start stop : Val) (S : Sem) : ViewSem :=
  let sub (st : State) : State := st.mapAt (.idx d) (·.add A start)
  let hasLen (q : Dim) (st : State) : Option Bool := S.hasLen q (sub st)
  { sig := S.sig.replace (Sig.spanRepl start stop) [d]
    sub := fun st => some (sub st)
    hasLen := hasLen
    len := fun q st => guardLen (hasLen q st)
      (if q = d then some (stop.sub A start) else S.len q (sub st)) }

/-- `step_t<Dim, T, StartT, StrideT>` (structs/slice.hpp:508-639). The length is computed from
`sub_structure().length<Dim>(state)`, with the untranslated state (line 628). -/
def stepSem (d : Dim) (start stride : Val) (S : Sem) : ViewSem :=
  let sub (st : State) : State := st.mapAt (.idx d) (fun i => (i.mul A stride).add A start)
  let hasLen (q : Dim) (st : State) : Option Bool := S.hasLen q (sub st)
  { sig := S.sig.replace (Sig.stepRepl start stride) [d]
    sub := fun st => some (sub st)
    hasLen := hasLen
    len := fun q st => guardLen (hasLen q st)
      (if q = d then do
        let l ← S.len d st
        some ((((l.add A stride).sub A start).sub A (.lit 1)).div A stride)
       else S.len q (sub st)) }

/-- `reverse_t<Dim, T>` (structs/slice.hpp:681-796). `length` passes the untranslated state for
every dimension (line 783). -/
def reverseSem (d : Dim) (S : Sem) : ViewSem :=
  let sub (st : State) : Option State :=
    match st (.idx d) with
    | none => some st
    | some i =>
      let tmp := st.remove (.idx d)
      match S.hasLen d tmp with
      | none => none
      | some false => some tmp
      | some true => do
        let l ← S.len d tmp
        some (tmp.set (.idx d) ((l.sub A (.lit 1)).sub A i))
  let hasLen (q : Dim) (st : State) : Option Bool := (sub st).bind (S.hasLen q)
  { sig := S.sig.replace Sig.reverseRepl [d]
    sub := sub
    hasLen := hasLen
    len := fun q st => guardLen (hasLen q st) (S.len q st) }

/-- `reorder_t<T, Dims...>` (structs/views.hpp:134-211). -/
def reorderSem (ds : List Dim) (S : Sem) : ViewSem :=
  let sig := S.sig.reassemble ds State.empty
  let hasLen (q : Dim) (st : State) : Option Bool :=
    if sig.complete || sig.anyAccept q then S.hasLen q st else some false
  { sig := sig
    sub := some
    hasLen := hasLen
    len := fun q st => guardLen (hasLen q st) (S.len q st)
    sizeOk := sig.complete
    offOk := fun _ => sig.complete }

/-- `hoist_t<Dim, T>` (structs/views.hpp:229-313). -/
def hoistSem (d : Dim) (S : Sem) : ViewSem :=
  { sig := match S.sig.find d State.empty with
      | .fn _ l _ => .fn d l (S.sig.replace Sig.retRepl [d])
      | _ => .ill
    sub := some
    hasLen := S.hasLen
    len := fun q st => guardLen (S.hasLen q st) (S.len q st) }

/-- `rename_t::sub_state` (structs/views.hpp:407-418, 476-491): items of an internal name that is
not also external are dropped, the others get their internal name. `ps` lists the pairs
(internal, external). As a map: the value of a tag named `n` is taken from the tag whose name is
renamed to `n`. -/
def renameState (ps : List (Dim × Dim)) (st : State) : State :=
  let pull (mk : Dim → Tag) (n : Dim) : Option Val :=
    if n ∈ ps.map Prod.fst then st (mk (Sig.renameDim ps n))
    else if n ∈ ps.map Prod.snd then none
    else st (mk n)
  fun
  | .idx n => pull .idx n
  | .len n => pull .len n

/-- The static assertions of `rename_t` (structs/views.hpp:438-441, 465-469). -/
def renameOk (ps : List (Dim × Dim)) (sig : Sig) : Bool :=
  decide (ps.map Prod.fst).Nodup && decide (ps.map Prod.snd).Nodup &&
  (ps.map Prod.snd).all (fun e => !sig.anyAccept e || decide (e ∈ ps.map Prod.fst))

/-- `rename_t<T, DimPairs...>` (structs/views.hpp:422-539). -/
def renameSem (ps : List (Dim × Dim)) (S : Sem) : ViewSem :=
  let toInt := Sig.renameDim (ps.map Prod.swap)
  let hasLen (q : Dim) (st : State) : Option Bool := S.hasLen (toInt q) (renameState ps st)
  { sig := if renameOk ps S.sig then S.sig.mapDims (Sig.renameDim ps) else .ill
    sub := fun st => some (renameState ps st)
    hasLen := hasLen
    len := fun q st => guardLen (hasLen q st) (S.len (toInt q) (renameState ps st)) }

/-- `join_t<T, DimA, DimB, Dim>` (structs/views.hpp:559-672). -/
def joinSem (a b d : Dim) (S : Sem) : ViewSem :=
  let clean (st : State) : State :=
    st.removeAll [.idx d, .idx a, .idx b, .len d, .len a, .len b]
  let sub (st : State) : Option State := do
    let ha ← S.hasLen a (clean st)
    let hb ← S.hasLen b (clean st)
    if ha != hb then none
    else
      let withIdx (s : State) : State := match st (.idx d) with
        | some i => (s.set (.idx a) i).set (.idx b) i
        | none => s
      match st (.len d) with
      | some l => if ha || hb then none
                  else some (((withIdx (clean st)).set (.len a) l).set (.len b) l)
      | none => some (withIdx (clean st))
  let hasLen (q : Dim) (st : State) : Option Bool := (sub st).bind (S.hasLen q)
  { sig :=
      if a = b ∨ (d ≠ a ∧ d ≠ b ∧ S.sig.anyAccept d = true) then .ill
      else match S.sig.find a State.empty, S.sig.find b State.empty with
        | .fn _ la _, .fn _ lb _ =>
          if la = lb then .fn d la (S.sig.replace Sig.retRepl [a, b]) else .ill
        | _, _ => .ill
    sub := sub
    hasLen := hasLen
    len := fun q st => guardLen (hasLen q st) ((sub st).bind (S.len q)) }

/-- `into_blocks_t::clean_state` (structs/blocks.hpp:40-44), also `merge_blocks_t::clean_state`
(structs/blocks.hpp:711-716). -/
def blocksClean (d maj min : Dim) (st : State) : State :=
  st.removeAll [.idx d, .len d, .idx maj, .idx min, .len maj, .len min]

/-- `into_blocks_t::sub_state` (structs/blocks.hpp:59-102). -/
def intoBlocksSub (d maj min : Dim) (S : Sem) (st : State) : Option State :=
  let cs := blocksClean d maj min st
  match st (.len min) with
  | some nl =>
    let cs := match st (.len maj) with
      | some ml => cs.set (.len d) (ml.mul A nl)
      | none => cs
    match st (.idx maj), st (.idx min) with
    | some i, some j => some (cs.set (.idx d) ((i.mul A nl).add A j))
    | _, _ => some cs
  | none =>
    match S.hasLen d cs with
    | none => none
    | some false => some cs
    | some true =>
      match st (.len maj), st (.idx maj), st (.idx min) with
      | some ml, some i, some j => do
        let l ← S.len d cs
        some (cs.set (.idx d) ((i.mul A (l.div A ml)).add A j))
      | _, _, _ => some cs

/-- `into_blocks_t<Dim, DimMajor, DimMinor, T>` (structs/blocks.hpp:16-201). -/
def intoBlocksSem (d maj min : Dim) (S : Sem) : ViewSem :=
  let clean := blocksClean d maj min
  let sub := intoBlocksSub A d maj min S
  let hasLen (q : Dim) (st : State) : Option Bool :=
    -- lines 141-153 and 155-167, `x` the queried block dimension, `y` the other one
    let block (x y : Dim) : Option Bool :=
      if st.has (.idx x) then some false
      else if st.has (.len x) then
        (if st.has (.len y) then
          match S.hasLen d (clean st) with
          | some false => some true
          | _ => none
         else some true)
      else if st.has (.len y) then (sub st).bind (S.hasLen d)
      else some false
    if q = min then block min maj
    else if q = maj then block maj min
    else if q = d then some false
    else (sub st).bind (S.hasLen q)
  { sig := if maj = min ∨ (maj ≠ d ∧ S.sig.anyAccept maj = true) ∨
              (min ≠ d ∧ S.sig.anyAccept min = true) then .ill
           else S.sig.replace (Sig.intoBlocksRepl maj min) [d]
    sub := sub
    hasLen := hasLen
    len := fun q st => guardLen (hasLen q st)
      (if q = min then
        match st (.len min) with
        | some l => some l
        | none => do
          let ml ← st (.len maj)
          let l ← S.len d (clean st)
          some (l.div A ml)
       else if q = maj then
        match st (.len maj) with
        | some l => some l
        | none => do
          let nl ← st (.len min)
          let s ← sub st
          let l ← S.len d s
          some (l.div A nl)
       else (sub st).bind (S.len q)) }

/-- rounded-up division (structs/blocks.hpp:301, 438, 448, 456) -/
def ceilDiv (l k : Val) : Val := ((l.add A k).sub A (.lit 1)).div A k

/-- `into_blocks_dynamic_t::clean_state` (structs/blocks.hpp:246-252). -/
def blocksDynClean (d maj min pres : Dim) (st : State) : Option State :=
  if st.has (.len pres) then none
  else some (st.removeAll
    [.idx d, .len d, .idx maj, .idx min, .len maj, .len min, .idx pres])

/-- `into_blocks_dynamic_t::sub_state` (structs/blocks.hpp:270-312). -/
def intoBlocksDynSub (d maj min pres : Dim) (S : Sem) (st : State) : Option State := do
  let cs ← blocksDynClean d maj min pres st
  match st (.len min) with
  | some nl =>
    let cs := match st (.len maj) with
      | some ml => cs.set (.len d) (ml.mul A nl)
      | none => cs
    match st (.idx maj), st (.idx min) with
    | some i, some j => some (cs.set (.idx d) ((i.mul A nl).add A j))
    | _, _ => some cs
  | none =>
    match st (.len maj), st (.idx maj), st (.idx min) with
    | some ml, some i, some j => do
      let l ← S.len d cs
      some (cs.set (.idx d) ((i.mul A (ceilDiv A l ml)).add A j))
    | _, _, _ => some cs

/-- `into_blocks_dynamic_t<Dim, DimMajor, DimMinor, DimIsPresent, T>`
(structs/blocks.hpp:219-462). -/
def intoBlocksDynSem (d maj min pres : Dim) (S : Sem) : ViewSem :=
  let clean := blocksDynClean d maj min pres
  let sub := intoBlocksDynSub A d maj min pres S
  let hasLen (q : Dim) (st : State) : Option Bool :=
    let block (x y : Dim) : Option Bool :=
      if st.has (.idx x) then some false
      else if st.has (.len x) then
        (if st.has (.len y) then
          match (clean st).bind (S.hasLen d) with
          | some false => some true
          | _ => none
         else some true)
      else if st.has (.len y) then (sub st).bind (S.hasLen d)
      else some false
    if q = pres then
      (if st.has (.idx maj) && st.has (.idx min) then
        (if st.has (.len min) && st.has (.len maj) then
          match (clean st).bind (S.hasLen d) with
          | some false => some true
          | _ => none
         else if st.has (.len min) || st.has (.len maj) then (clean st).bind (S.hasLen d)
         else some false)
       else some false)
    else if q = min then block min maj
    else if q = maj then block maj min
    else if q = d then some false
    else (sub st).bind (S.hasLen q)
  { sig := if maj = min ∨ min = pres ∨ pres = maj ∨
              (maj ≠ d ∧ S.sig.anyAccept maj = true) ∨
              (min ≠ d ∧ S.sig.anyAccept min = true) ∨
              (pres ≠ d ∧ S.sig.anyAccept pres = true) then .ill
           else S.sig.replace (Sig.intoBlocksDynRepl maj min pres) [d]
    sub := sub
    hasLen := hasLen
    len := fun q st => guardLen (hasLen q st)
      (if q = pres then do
        let i ← st (.idx maj)
        let j ← st (.idx min)
        match st (.len min), st (.len maj) with
        | some nl, some ml => some (((i.mul A nl).add A j).ltVal (nl.mul A ml))
        | some nl, none => do
          let cs ← clean st
          let l ← S.len d cs
          some (((i.mul A nl).add A j).ltVal l)
        | none, ml => do
          let ml ← ml
          let cs ← clean st
          let l ← S.len d cs
          some (((i.mul A (ceilDiv A l ml)).add A j).ltVal l)
       else if q = min then
        match st (.len min) with
        | some l => some l
        | none => do
          let ml ← st (.len maj)
          let cs ← clean st
          let l ← S.len d cs
          some (ceilDiv A l ml)
       else if q = maj then
        match st (.len maj) with
        | some l => some l
        | none => do
          let nl ← st (.len min)
          let s ← sub st
          let l ← S.len d s
          some (ceilDiv A l nl)
       else (sub st).bind (S.len q))
    offOk := fun st => st.has (.idx maj) && st.has (.idx min) && st.has (.idx pres) }

/-- `into_blocks_static_t::clean_state` (structs/blocks.hpp:512-520). -/
def blocksStatClean (d border maj min : Dim) (st : State) : Option State :=
  if st.has (.len border) || st.has (.len maj) || st.has (.len min) then none
  else some (st.removeAll [.idx d, .len d, .idx border, .idx maj, .idx min])

/-- `into_blocks_static_t::is_body` (structs/blocks.hpp:659-668). -/
def isBody (border : Dim) (st : State) : Option Bool :=
  match st (.idx border) with
  | some (.lit 0) => some true
  | some (.lit 1) => some false
  | _ => none

/-- `into_blocks_static_t::sub_state` (structs/blocks.hpp:551-570). -/
def intoBlocksStatSub (d border maj min : Dim) (nl : Val) (S : Sem) (st : State) :
    Option State := do
  let cs ← blocksStatClean d border maj min st
  if st.has (.idx border) then
    match st (.idx maj), st (.idx min) with
    | some i, some j => do
      let body ← isBody border st
      if body then some (cs.set (.idx d) ((i.mul A nl).add A j))
      else do
        let l ← S.len d cs
        some (cs.set (.idx d) (((l.div A nl).mul A nl).add A j))
    | _, _ => some cs
  else some cs

/-- `into_blocks_static_t<Dim, DimIsBorder, DimMajor, DimMinor, T, MinorLenT>`
(structs/blocks.hpp:480-669). -/
def intoBlocksStatSem (d border maj min : Dim) (nl : Val) (S : Sem) : ViewSem :=
  let sub := intoBlocksStatSub A d border maj min nl S
  let hasLen (q : Dim) (st : State) : Option Bool :=
    if st.has (.idx q) then some false
    else if q = maj then
      match isBody border st with
      | none => none
      | some true => (sub st).bind (S.hasLen d)
      | some false => some true
    else if q = min then
      match isBody border st with
      | none => none
      | some true => some true
      | some false => (sub st).bind (S.hasLen d)
    else if q = border then (if st.has (.len border) then none else some true)
    else if q = d then some false
    else (sub st).bind (S.hasLen q)
  { sig := if border = maj ∨ border = min ∨ maj = min ∨
              (border ≠ d ∧ S.sig.anyAccept border = true) ∨
              (maj ≠ d ∧ S.sig.anyAccept maj = true) ∨
              (min ≠ d ∧ S.sig.anyAccept min = true) then .ill
           else S.sig.replace (Sig.intoBlocksStatRepl border maj min nl) [d]
    sub := sub
    hasLen := hasLen
    len := fun q st => guardLen (hasLen q st)
      (if q = border then some (.lit 2)
       else if q = min then
        match isBody border st with
        | none => none
        | some true => some nl
        | some false => do
          let s ← sub st
          let l ← S.len d s
          some (l.mod A nl)
       else if q = maj then
        match isBody border st with
        | none => none
        | some true => do
          let s ← sub st
          let l ← S.len d s
          some (l.div A nl)
        | some false => some (.lit 1)
       else (sub st).bind (S.len q)) }

/-- `merge_blocks_t::sub_state` (structs/blocks.hpp:752-808). -/
def mergeBlocksSub (maj min d : Dim) (S : Sem) (st : State) : Option State := do
  let cs := blocksClean d maj min st
  let hmin ← S.hasLen min cs
  let hmaj ← S.hasLen maj cs
  if hmin then do
    let nl ← S.len min cs
    -- lines 758-788: the index is split in all the cases in which it is set
    let cs1 := match st (.idx d) with
      | some i => (cs.set (.idx maj) (i.div A nl)).set (.idx min) (i.mod A nl)
      | none => cs
    if hmaj then some cs1
    else match st (.len d) with
      | some l => some (cs1.set (.len maj) (l.div A nl))
      | none => some cs1
  else if hmaj then do
    let ml ← S.len maj cs
    match st (.len d) with
    | none => some cs
    | some l =>
      let nl := l.div A ml
      match st (.idx d) with
      | some i => some (((cs.set (.idx maj) (i.div A nl)).set (.idx min) (i.mod A nl)).set
          (.len min) nl)
      | none => some (cs.set (.len min) nl)
  else some cs

/-- `merge_blocks_t<DimMajor, DimMinor, Dim, T>` (structs/blocks.hpp:689-881). -/
def mergeBlocksSem (maj min d : Dim) (S : Sem) : ViewSem :=
  let clean := blocksClean d maj min
  let sub := mergeBlocksSub A maj min d S
  let hasLen (q : Dim) (st : State) : Option Bool :=
    if st.has (.idx q) then none
    else if q = d then
      (if st.has (.len d) then do
        let hmaj ← S.hasLen maj (clean st)
        let hmin ← S.hasLen min (clean st)
        if hmaj && hmin then none else some true
       else do
        let s ← sub st
        let hmaj ← S.hasLen maj s
        let hmin ← S.hasLen min s
        some (hmaj && hmin))
    else if q = min ∨ q = maj then some false
    else (sub st).bind (S.hasLen q)
  { sig := if maj = min ∨ (d ≠ maj ∧ d ≠ min ∧ S.sig.anyAccept d = true) then .ill
           else S.sig.replace (Sig.mergeBlocksRepl maj min d) [maj, min]
    sub := sub
    hasLen := hasLen
    len := fun q st => guardLen (hasLen q st)
      (if q = d then
        match st (.len d) with
        | some l => some l
        | none => do
          let s ← sub st
          let ml ← S.len maj s
          let nl ← S.len min s
          some (ml.mul A nl)
       else (sub st).bind (S.len q)) }

/-- All the results, if all are defined. -/
def allSome {α : Type} : List (Option α) → Option (List α)
  | [] => some []
  | o :: os => do
    let a ← o
    let as ← allSome os
    some (a :: as)

/-- Set the indices of the given dimensions, left to right. -/
def setIdxs (st : State) : List (Dim × Val) → State
  | [] => st
  | (d, v) :: ps => setIdxs (st.set (.idx d) v) ps

/-- The index computation of `merge_zcurve_t::impl::sub_state` (structs/zcurve.hpp:194-206) on
values: all results are run-time values. -/
def zcIndices (sl gl : Nat) (lens : List Val) (z : Val) : List Val :=
  match z.nat?, allSome (lens.map Val.nat?) with
  | some z, some ls =>
    (List.range ls.length).map fun i =>
      Val.ofDyn (ZC.index A ls.length sl gl (fun j => ls.getD j 0) z i)
  | _, _ => lens.map fun _ => .bad .wrap

/-- `merge_zcurve_t::sub_state` (structs/zcurve.hpp:187-208, 219-223). `length_in<Dim>` is not
removed. -/
def mergeZSub (sl gl : Nat) (ds : List Dim) (d : Dim) (S : Sem) (st : State) : Option State :=
  let tmp := st.removeAll (.idx d :: (ds.map .idx ++ ds.map .len))
  match st (.idx d) with
  | none => some tmp
  | some z => do
    let lens ← allSome (ds.map (S.len · tmp))
    some (setIdxs tmp (ds.zip (zcIndices A sl gl lens z)))

/-- The product of the lengths, `(... * length<Dims>(...))` (structs/zcurve.hpp:265-274): built-in
multiplication, so that two constants give a run-time value. -/
def mulFold : Val → List Val → Val
  | acc, [] => acc
  | acc, l :: ls => mulFold ((acc.toDyn).mul A l.toDyn) ls

/-- `merge_zcurve_t<SpecialLevel, GeneralLevel, Dim, T, Dims...>` (structs/zcurve.hpp:132-275). -/
def mergeZSem (sl gl : Nat) (ds : List Dim) (d : Dim) (S : Sem) : ViewSem :=
  let sub := mergeZSub A sl gl ds d S
  let hasLen (q : Dim) (st : State) : Option Bool :=
    if st.has (.idx q) then some false
    else if q = d then do
      let s ← sub st
      let bs ← allSome (ds.map (S.hasLen · s))
      some (bs.all id)
    else (sub st).bind (S.hasLen q)
  { sig := if ¬ (sl ≤ gl ∧ gl < 64) ∨ ds = [] ∨ ds.length > 64 ∨ ¬ ds.Nodup ∨
              (d ∉ ds ∧ S.sig.anyAccept d = true) then .ill
           else S.sig.mergeZRepl ds d ds.length (.static 1)
    sub := sub
    hasLen := hasLen
    len := fun q st => guardLen (hasLen q st)
      (if q = d then do
        let s ← sub st
        let ls ← allSome (ds.map (S.len · s))
        match ls with
        | [] => none
        | l :: ls => some (mulFold A l ls)
       else (sub st).bind (S.len q)) }

end Views

end Noarr
