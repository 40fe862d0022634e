import Verif.StaticLen

/-
The lengths in a signature are those that `length` gives (C59).
-/

set_option linter.unusedVariables false
set_option linter.unusedSimpArgs false

namespace Noarr

/-- `v` is the number `n`, which fits into `size_t`. -/
def Val.Is (v : Val) (n : Nat) : Prop := v.Num n ∧ n < 2 ^ 64

/-- What a length is for a number in a signature: that number; for a tuple dimension, also a constant. -/
def Val.Says (v : Val) (t : Bool) (n : Nat) : Prop := v.Is n ∧ (t = true → v = .lit n)

theorem Val.Is.says {v : Val} {n : Nat} (h : v.Is n) : v.Says false n := ⟨h, fun h => by cases h⟩

theorem Val.says_lit {n : Nat} (t : Bool) (h : n < 2 ^ 64) : (Val.lit n).Says t n := ⟨⟨rfl, h⟩, fun _ => rfl⟩

theorem Val.fits.is {n : Nat} (h : (Val.lit n).fits (2 ^ 64)) : (Val.lit n).Is n := ⟨rfl, h n rfl⟩

theorem ofVal_static {v : Val} {n : Nat} (h : ArgLen.ofVal v = .static n) : v = .lit n := by
  cases v <;> simp [ArgLen.ofVal] at h
  subst h; rfl

theorem Val.Is.mul {a b : Val} {x y : Nat} (ha : a.Is x) (hb : b.Is y) : (a.mul M64 b).Is (x * y % 2 ^ 64) := by
  obtain ⟨ha, -⟩ := ha
  obtain ⟨hb, -⟩ := hb
  refine ⟨?_, Nat.mod_lt _ (by decide)⟩
  cases a <;> cases b <;> simp only [Val.Num, Val.nat?, Option.some.injEq, reduceCtorEq] at ha hb <;>
    subst ha <;> subst hb <;> simp only [Val.mul, M64, Arith.machine, Val.ofLit, Val.ofDyn]
  · rfl
  · split
    · next h => subst h; simp [Val.Num, Val.nat?]
    · rfl
  · split
    · next h => subst h; simp [Val.Num, Val.nat?]
    · rfl
  · rfl

theorem Val.Is.sub {a : Val} {x y : Nat} (ha : a.Is x) :
    (a.sub M64 (.lit y)).Is ((x + (2 ^ 64 - y % 2 ^ 64)) % 2 ^ 64) := by
  obtain ⟨ha, -⟩ := ha
  refine ⟨?_, Nat.mod_lt _ (by decide)⟩
  cases a <;> simp only [Val.Num, Val.nat?, Option.some.injEq, reduceCtorEq] at ha <;>
    subst ha <;> simp only [Val.sub, M64, Arith.machine, Val.ofLit, Val.ofDyn] <;> rfl

theorem Val.Is.div {a : Val} {x y : Nat} (ha : a.Is x) (hy : y ≠ 0) : (a.div M64 (.lit y)).Is (x / y) := by
  obtain ⟨ha, hx⟩ := ha
  refine ⟨?_, Nat.lt_of_le_of_lt (Nat.div_le_self _ _) hx⟩
  cases a <;> simp only [Val.Num, Val.nat?, Option.some.injEq, reduceCtorEq] at ha <;>
    subst ha <;> simp only [Val.div, M64, Arith.machine, hy, if_false, Val.ofLit, Val.ofDyn] <;> rfl

theorem Val.Is.mod {a : Val} {x y : Nat} (ha : a.Is x) (hy : y ≠ 0) : (a.mod M64 (.lit y)).Is (x % y) := by
  obtain ⟨ha, hx⟩ := ha
  refine ⟨?_, Nat.lt_of_le_of_lt (Nat.mod_le _ _) hx⟩
  cases a <;> simp only [Val.Num, Val.nat?, Option.some.injEq, reduceCtorEq] at ha <;>
    subst ha <;> simp only [Val.mod, M64, Arith.machine, hy, if_false, Val.ofLit, Val.ofDyn] <;> rfl

theorem Val.Is.toDyn {a : Val} {x : Nat} (ha : a.Is x) : a.toDyn.Is x := by
  obtain ⟨ha, hx⟩ := ha
  refine ⟨?_, hx⟩
  cases a <;> simp only [Val.Num, Val.nat?, Option.some.injEq, reduceCtorEq] at ha <;> subst ha <;> rfl

/-- The product of the numbers `f e`. -/
def prodOf (f : Dim → Nat) (l : List Dim) : Nat := l.foldr (fun e p => f e * p) 1

theorem prodOf_perm {f : Dim → Nat} {l l' : List Dim} (h : l.Perm l') : prodOf f l = prodOf f l' := by
  induction h with
  | nil => rfl
  | cons x _ ih => simp only [prodOf, List.foldr_cons] at ih ⊢; rw [ih]
  | swap x y l => simp only [prodOf, List.foldr_cons]; rw [← Nat.mul_assoc, ← Nat.mul_assoc, Nat.mul_comm (f y)]
  | trans _ _ h1 h2 => exact h1.trans h2

theorem mod_mul_mod (a b c W : Nat) : a * b % W * c % W = a * (b * c) % W := by
  rw [Nat.mod_mul_mod, Nat.mul_assoc]

theorem mulFold_is {f : Dim → Nat} {ds : List Dim} {ls : List Val} {acc : Val} {a : Nat} (ha : acc.Is a)
    {g : Dim → Option Val} (hls : allSome (ds.map g) = some ls) (hg : ∀ e ∈ ds, ∀ v, g e = some v → v.Is (f e)) :
    (mulFold M64 acc ls).Is (a * prodOf f ds % 2 ^ 64) := by
  induction ds generalizing ls acc a with
  | nil =>
    simp only [List.map_nil, allSome, Option.some.injEq] at hls
    subst hls
    simp only [mulFold, prodOf, List.foldr_nil, Nat.mul_one, Nat.mod_eq_of_lt ha.2]
    exact ha
  | cons e ds ih =>
    simp only [List.map_cons, allSome, bind, Option.bind_eq_some_iff, Option.some.injEq] at hls
    obtain ⟨l, hl, ls', hls', rfl⟩ := hls
    have := ih (ha.toDyn.mul (hg e (by simp) l hl).toDyn) hls' (fun x hx => hg x (by simp [hx]))
    simp only [mulFold, prodOf, List.foldr_cons] at this ⊢
    rwa [mod_mul_mod] at this

namespace Sig

/-- The static lengths in the signature of `merge_zcurve`. -/
theorem stat_mergeZ {ds : List Dim} {d : Dim} (hnd : ds.Nodup) {S : Sig}
    (hd : d ∈ ds ∨ S.anyAccept d = false) {rem : Nat} (hrem : 0 < rem) {acc : ArgLen}
    (seen : List Dim) (hsn : seen.Nodup) (hss : ∀ x ∈ seen, x ∈ ds)
    (hlen : seen.length + rem = ds.length) (hS : ∀ x ∈ seen, S.anyAccept x = false)
    (hu : S.uniq) {st u : State} (hag : ∀ e, e ∉ d :: ds → st (.idx e) = u (.idx e)) {q : Dim} {t : Bool} {n : Nat}
    (h : (S.mergeZRepl ds d rem acc).stat st q t n) :
    (q ∉ d :: ds ∧ S.stat u q t n) ∨
    (q = d ∧ t = false ∧ ∃ (a : Nat) (f : Dim → Nat) (l : List Dim), acc = .static a ∧ (seen ++ l).Nodup ∧ (∀ x ∈ l, x ∈ ds) ∧
      l.length = rem ∧ (∀ e ∈ l, S.stat u e false (f e)) ∧ n = a * prodOf f l % 2 ^ 64) := by
  induction S generalizing rem acc seen with
  | scalar s => exact absurd h id
  | void => exact absurd h id
  | ill => exact absurd h id
  | fn e l r ih =>
    have hd' : d ∈ ds ∨ r.anyAccept d = false := hd.imp_right fun h => by simp [anyAccept] at h; exact h.2
    have hS' : ∀ x ∈ seen, r.anyAccept x = false := by
      intro x hx
      have := hS x hx
      simp [anyAccept] at this
      exact this.2
    simp only [mergeZRepl] at h
    by_cases he : e ∈ ds
    · have hes : e ∉ seen := fun h => by have := hS e h; simp [anyAccept] at this
      have hlit : ∀ {a' : Nat}, mergeLen acc l = .static a' →
          ∃ a b, acc = .static a ∧ l = .static b ∧ a' = a * b % 2 ^ 64 := by
        intro a' h
        cases acc <;> cases l <;> simp [mergeLen] at h
        exact ⟨_, _, rfl, rfl, h.symm⟩
      rw [if_pos he] at h
      by_cases hr : rem ≤ 1
      · rw [if_pos hr] at h
        have hall := all_seen (l1 := e :: seen) (l2 := ds) (by simp [hes, hsn])
              (by simp; exact ⟨he, hss⟩) (by simp; omega)
        have hout : ∀ x, r.anyAccept x = true → x ∉ d :: ds := by
          intro x hx hmem
          have hx' : x ∈ ds := by
            rcases List.mem_cons.1 hmem with rfl | h
            · rcases hd' with h | h
              · exact h
              · rw [h] at hx; cases hx
            · exact h
          rcases List.mem_cons.1 (hall x hx') with rfl | h
          · rw [hu.1] at hx; cases hx
          · rw [hS' x h] at hx; cases hx
        rcases h with ⟨rfl, ht, h⟩ | h
        · obtain ⟨a, b, h1, h2, h3⟩ := hlit h
          refine .inr ⟨rfl, ht, a, fun _ => b, [e], h1, ?_, by simpa using he, by simp; omega, ?_, ?_⟩
          · rw [List.nodup_append]
            refine ⟨hsn, by simp, ?_⟩
            intro x hx y hy
            simp at hy; subst hy
            rintro rfl; exact hes hx
          · intro x hx
            simp at hx; subst hx
            exact .inl ⟨rfl, rfl, h2⟩
          · simp [prodOf, h3]
        · exact .inl ⟨hout q (stat_accept h), .inr (stat_congr (fun x hx => hag x (hout x (hasDep_accept hx))) h)⟩
      · rw [if_neg hr] at h
        rcases ih hd' (by omega) (e :: seen) (by simp [hes, hsn]) (by simp; exact ⟨he, hss⟩) (by simp; omega) (by
            intro x hx
            rcases List.mem_cons.1 hx with rfl | h
            · exact hu.1
            · exact hS' x h) hu.2 h with ⟨h1, h2⟩ | ⟨h1, ht, a', f, l', h2, h3, h4, h5, h6, h7⟩
        · exact .inl ⟨h1, .inr h2⟩
        · obtain ⟨a, b, h8, h9, rfl⟩ := hlit h2
          have hel : e ∉ l' := by
            simp only [List.cons_append, List.nodup_cons, List.mem_append, not_or] at h3
            exact h3.1.2
          refine .inr ⟨h1, ht, a, fun x => if x = e then b else f x, e :: l', h8, ?_, ?_, by simp; omega, ?_, ?_⟩
          · have : (seen ++ e :: l').Perm ((e :: seen) ++ l') := List.perm_middle
            exact this.nodup_iff.2 h3
          · simp; exact ⟨he, h4⟩
          · intro x hx
            rcases List.mem_cons.1 hx with rfl | hx'
            · exact .inl ⟨rfl, rfl, by simp [h9]⟩
            · have : x ≠ e := by rintro rfl; exact hel hx'
              simp only [this, if_false]
              exact .inr (h6 x hx')
          · have : prodOf (fun x => if x = e then b else f x) l' = prodOf f l' := by
              clear h3 h4 h5 h6 h7 ih h
              induction l' with
              | nil => rfl
              | cons y l' ih =>
                simp only [List.mem_cons, not_or] at hel
                simp only [prodOf, List.foldr_cons] at ih ⊢
                rw [ih hel.2, if_neg (fun h => hel.1 h.symm)]
            rw [h7, mod_mul_mod]
            simp only [prodOf, List.foldr_cons, if_true] at this ⊢
            rw [this]
    · rw [if_neg he] at h
      have hed : e ≠ d := by
        rintro rfl
        rcases hd with h | h
        · exact he h
        · simp [anyAccept] at h
      rcases h with ⟨rfl, h⟩ | h
      · exact .inl ⟨by simp [he, hed], .inl ⟨rfl, h⟩⟩
      · rcases ih hd' hrem seen hsn hss hlen hS' hu.2 h with ⟨h1, h2⟩ | ⟨h1, ht, a', f, l', h2, h3, h4, h5, h6, h7⟩
        · exact .inl ⟨h1, .inr h2⟩
        · exact .inr ⟨h1, ht, a', f, l', h2, h3, h4, h5, fun x hx => .inr (h6 x hx), h7⟩
  | dep e m rs ih =>
    simp only [mergeZRepl] at h
    by_cases he : e ∈ ds
    · rw [if_pos he] at h; exact absurd h id
    · rw [if_neg he] at h
      have hed : e ≠ d := by
        rintro rfl
        rcases hd with h | h
        · exact he h
        · simp [anyAccept] at h
      have hno : ∀ {x}, (Sig.dep e m rs).anyAccept x = false → ∀ k, (rs k).anyAccept x = false := by
        intro x hx k
        cases hc : (rs k).anyAccept x with
        | false => rfl
        | true => rw [accept_dep.2 (.inr ⟨k, hc⟩)] at hx; cases hx
      rcases h with ⟨rfl, h⟩ | ⟨k, hk, h⟩
      · exact .inl ⟨by simp [he, hed], .inl ⟨rfl, h⟩⟩
      rw [hag e (by simp [he, hed])] at hk
      rcases ih k (hd.imp_right fun h => hno h k) hrem seen hsn hss hlen (fun x hx => hno (hS x hx) k) (hu k).2 h with
        ⟨h1, h2⟩ | ⟨h1, ht, a', f, l', h2, h3, h4, h5, h6, h7⟩
      · exact .inl ⟨h1, .inr ⟨k, hk, h2⟩⟩
      · exact .inr ⟨h1, ht, a', f, l', h2, h3, h4, h5, fun x hx => .inr ⟨k, hk, h6 x hx⟩, h7⟩

end Sig

theorem ibSub_len {B : Arith} {S : Sem} {d maj min : Dim} {st u : State}
    (hu : intoBlocksSub B d maj min S st = some u) {e : Dim} (he : e ≠ d) :
    u (.len e) = blocksClean d maj min st (.len e) := by
  simp only [intoBlocksSub] at hu
  cases hnl : st (.len min) with
  | some nl =>
    simp only [hnl] at hu
    cases hml : st (.len maj) <;> cases hI : st (.idx maj) <;> cases hJ : st (.idx min) <;>
      simp only [hml, hI, hJ, Option.some.injEq] at hu <;> subst hu <;> simp [State.set, he]
  | none =>
    simp only [hnl] at hu
    cases hb : S.hasLen d (blocksClean d maj min st) with
    | none => simp [hb] at hu
    | some b =>
      cases b with
      | false => simp only [hb, Option.some.injEq] at hu; subst hu; rfl
      | true =>
        simp only [hb] at hu
        cases hml : st (.len maj) <;> cases hI : st (.idx maj) <;> cases hJ : st (.idx min) <;>
          simp only [hml, hI, hJ, Option.some.injEq, bind, Option.bind_eq_some_iff] at hu <;>
          first
          | (subst hu; simp [State.set, he]; done)
          | (obtain ⟨l, hl, rfl⟩ := hu; simp [State.set, he])

theorem ibdSub_len {B : Arith} {S : Sem} {d maj min pres : Dim} {st u : State}
    (hu : intoBlocksDynSub B d maj min pres S st = some u) {e : Dim} (he : e ≠ d) :
    u (.len e) = dynClean d maj min pres st (.len e) := by
  simp only [intoBlocksDynSub, blocksDynClean_eq] at hu
  split at hu
  · simp at hu
  simp only [bind, Option.bind_some] at hu
  cases hnl : st (.len min) <;> cases hml : st (.len maj) <;> cases hI : st (.idx maj) <;>
    cases hJ : st (.idx min) <;>
    simp only [hnl, hml, hI, hJ, Option.some.injEq, Option.bind_eq_some_iff] at hu <;>
    first
    | (subst hu; simp [State.set, he]; done)
    | (obtain ⟨l, hl, rfl⟩ := hu; simp [State.set, he])

theorem ibsSub_len {B : Arith} {S : Sem} {d border maj min : Dim} {nl : Val} {st u : State}
    (hu : intoBlocksStatSub B d border maj min nl S st = some u) (e : Dim) :
    u (.len e) = statClean d border maj min st (.len e) := by
  simp only [intoBlocksStatSub, blocksStatClean_eq] at hu
  split at hu
  · simp at hu
  simp only [bind, Option.bind_some] at hu
  split at hu
  · cases hI : st (.idx maj) <;> cases hJ : st (.idx min) <;>
      simp only [hI, hJ, Option.some.injEq, Option.bind_eq_some_iff] at hu
    · subst hu; rfl
    · subst hu; rfl
    · subst hu; rfl
    · obtain ⟨b, hb, hu⟩ := hu
      cases b <;> simp only [if_true, Bool.false_eq_true, if_false, Option.some.injEq, Option.bind_eq_some_iff] at hu
      · obtain ⟨l, hl, rfl⟩ := hu; simp [State.set]
      · subst hu; simp [State.set]
  · cases hu; rfl

theorem mbSub_len {B : Arith} {S : Sem} {d maj min : Dim} {st u : State}
    (hu : mergeBlocksSub B maj min d S st = some u) {e : Dim}
    (he : (e ≠ maj ∧ e ≠ min) ∨ st (.len d) = none) :
    u (.len e) = blocksClean d maj min st (.len e) := by
  simp only [mergeBlocksSub, bind, Option.bind_eq_some_iff] at hu
  obtain ⟨hmin, h1, hmaj, h2, hu⟩ := hu
  cases hmin <;> cases hmaj <;> cases hI : st (.idx d) <;> cases hl : st (.len d) <;>
    simp only [hI, hl, Bool.false_eq_true, ↓reduceIte, Option.some.injEq,
      Option.bind_eq_some_iff, reduceCtorEq, or_false, or_true] at hu he <;>
    first
    | (subst hu; simp [State.set, he]; done)
    | (obtain ⟨l, hl, rfl⟩ := hu; simp [State.set, he])

theorem Sig.stat_ibsRepl {border maj min e : Dim} {nl : Val} {l : ArgLen} {r : Sig} {st : State} {q : Dim} {t : Bool}
    {n : Nat} (h : (Sig.intoBlocksStatRepl border maj min nl (.fn e l r)).stat st q t n) :
    (q = border ∧ n = 2) ∨ ∃ k : Fin 2, Sig.litIdx 2 (st (.idx border)) = some k ∧ (r.stat st q t n ∨ t = false ∧ (
      (q = maj ∧ k = 0 ∧ ∃ a b, l = .static a ∧ nl = .lit b ∧ b ≠ 0 ∧ n = a / b) ∨
      (q = min ∧ k = 0 ∧ nl = .lit n) ∨
      (q = maj ∧ k = 1 ∧ n = 1) ∨
      (q = min ∧ k = 1 ∧ ∃ a b, l = .static a ∧ nl = .lit b ∧ b ≠ 0 ∧ n = a % b))) := by
  have fin2 : ∀ k : Fin 2, k ≠ 0 → k = 1 := by decide
  simp only [Sig.intoBlocksStatRepl] at h
  cases l <;> cases nl <;> simp only [ArgLen.ofVal, Bool.false_eq_true, if_false] at h
  case static.lit a b =>
    by_cases hb : (b == 0) = true
    · simp only [hb, if_true] at h; exact absurd h id
    · simp only [hb, if_false] at h
      rcases h with ⟨hq, -, h⟩ | ⟨k, hk, h⟩
      · exact .inl ⟨hq, h⟩
      refine .inr ⟨k, hk, ?_⟩
      by_cases hk0 : k = 0
      · simp only [hk0, if_true, Sig.stat, ArgLen.static.injEq] at h
        rcases h with ⟨hq, ht, h⟩ | ⟨hq, ht, h⟩ | h
        · exact .inr ⟨ht, .inl ⟨hq, hk0, a, b, rfl, rfl, by simpa using hb, h.symm⟩⟩
        · exact .inr ⟨ht, .inr (.inl ⟨hq, hk0, by rw [h]⟩)⟩
        · exact .inl h
      · simp only [hk0, if_false, Sig.stat, ArgLen.static.injEq] at h
        rcases h with ⟨hq, ht, h⟩ | ⟨hq, ht, h⟩ | h
        · exact .inr ⟨ht, .inr (.inr (.inl ⟨hq, fin2 k hk0, h.symm⟩))⟩
        · exact .inr ⟨ht, .inr (.inr (.inr ⟨hq, fin2 k hk0, a, b, rfl, rfl, by simpa using hb, h.symm⟩))⟩
        · exact .inl h
  all_goals
    rcases h with ⟨hq, -, h⟩ | ⟨k, hk, h⟩
    · exact .inl ⟨hq, h⟩
    refine .inr ⟨k, hk, ?_⟩
    by_cases hk0 : k = 0
    · simp only [hk0, if_true, Sig.stat, ArgLen.static.injEq, reduceCtorEq, and_false, false_or] at h
      first
      | exact .inl h
      | (rcases h with ⟨hq, ht, h⟩ | h
         · exact .inr ⟨ht, .inr (.inl ⟨hq, hk0, by rw [h]⟩)⟩
         · exact .inl h)
    · simp only [hk0, if_false, Sig.stat, ArgLen.static.injEq, reduceCtorEq, and_false, false_or] at h
      rcases h with ⟨hq, ht, h⟩ | h
      · exact .inr ⟨ht, .inr (.inr (.inl ⟨hq, fin2 k hk0, h.symm⟩))⟩
      · exact .inl h

/-- What C59 says about a structure, in one state. -/
def StatOk (s : Struct) (st : State) : Prop :=
  ∀ q t n v, (s.sem M64).sig.stat st q t n → st (.len q) = none → (s.sem M64).len q st = some v → v.Says t n

open Sig in
theorem stat_view {v : View} {s : Struct} {st : State} (hw : (Struct.view v s).wf M64)
    (hn : (Struct.view v s).noDup M64) (hh : v.honest s st) (hsm : (s.sem M64).sig.small)
    (ih : ∀ u, (v.sem M64 (s.sem M64)).sub st = some u → StatOk s u)
    (ihr : (∃ d, v = .reverse d) ∨ (∃ d a k, v = .step d a k) → StatOk s st) : StatOk (.view v s) st := by
  intro q t n x h hl hv
  have hun := hn.2.uniq
  have hnu := hn.uniq
  have hhard := fun q => Struct.hard_of_hasDep M64 s hw.2 hn.2 (q := q)
  have hw := hw.1
  have hsi := fun u e (he : e ∉ v.dims) (hu : (v.sem M64 (s.sem M64)).sub st = some u) =>
    (sub_idx (A := M64) (S := s.sem M64) he hu).symm
  simp only [Struct.sem, ViewSem.toSem] at h hw hv hnu
  simp only [StatOk] at ih ihr
  simp only [View.honest] at hh
  have hna : ∀ {r : Sig} {x : Dim}, r.hasDep x → ∀ {y}, r.anyAccept y = false → x ≠ y := by
    intro r x hx y hy e
    subst e
    rw [hasDep_accept hx] at hy; cases hy
  generalize hS : s.sem M64 = S at h hun hw hhard hsi ih ihr hv hnu hsm hh
  cases v with
  | bcast d =>
    simp only [View.sem, bcastSem, guardLen_eq_some] at h hnu hv
    rcases h with ⟨-, -, h⟩ | h
    · cases h
    · have hq : q ≠ d := by rintro rfl; have := stat_accept h; rw [hnu.1] at this; cases this
      simp only [hq, if_false] at hv
      exact ih _ rfl q t n x (stat_congr (fun x hx => hsi _ x (by simpa [View.dims] using hna hx hnu.1) rfl) h)
        (by simp [State.removeAll, hl]) hv.2
  | fix d i =>
    simp only [View.sem, fixSem, guardLen_eq_some] at h hw hv
    have hq : q ≠ d := by rintro rfl; simp at hv
    refine ih _ rfl q t n x ?_ (by simp [State.set, State.remove, hl]) hv.2
    have := stat_replace (P := S.sig.stat ((st.remove (.len d)).set (.idx d) i) q t n)
      (u := (st.remove (.len d)).set (.idx d) i) (fun e he _ => hsi _ e (by simpa [View.dims] using he) rfl) hun
      (fun N hN hNu hst hl => ?_) h
    · exact this.elim id (·.2)
    rcases hst with ⟨e, l, r, rfl, he⟩ | ⟨e, m, rs, rfl, he⟩
    · simp at he; subst he
      exact hN.stat (.inr (stat_congr (fun x hx => hsi _ x (by simpa [View.dims] using hna hx hNu.1) rfl) hl))
    · simp at he; subst he
      cases i <;> simp only [fixRepl, branch] at hl <;> first | exact absurd hl id | skip
      split at hl
      · next hk =>
        refine hN.stat (.inr ⟨⟨_, hk⟩, ?_,
          stat_congr (fun x hx => hsi _ x (by simpa [View.dims] using hna hx (hNu _).1) rfl) hl⟩)
        simp only [State.set, if_true]
        exact litIdx_lit hk
      · exact absurd hl id
  | setLength d l =>
    simp only [View.sem, setLengthSem, guardLen_eq_some] at h hw hv
    rcases stat_indexmap (R := setLengthRepl l) (f := fun _ => .ofVal l) (u := st.set (.len d) l)
      (fun e he => by simp [State.set]) hun (fun _ _ _ => rfl) (fun m rs _ h => absurd rfl h) h with
      ⟨rfl, ⟨rfl, -, l', hl', -⟩ | ⟨-, m, rs, g, -, hR, hg⟩⟩ | ⟨hq, h⟩
    · have := hh.2 x hv.2
      subst this
      have := ofVal_static hl'
      subst this
      exact hh.1.is.says
    · exact absurd hR.symm (select_ne_ill hg)
    · exact ih _ rfl q t n x h (by simp [State.set, hq, hl]) hv.2
  | shift d a =>
    simp only [View.sem, shiftSem, guardLen_eq_some] at h hw hv
    rcases stat_indexmap (R := shiftRepl a) (f := fun l => shiftLen l a)
      (u := (st.mapAt (.idx d) (·.add M64 a)).mapAt (.len d) (·.add M64 a))
      (fun e he => by simp [State.mapAt, he]) hun (fun _ _ _ => rfl) (fun m rs hat h => by
        have hm := (hat.small hsm).1
        cases a <;> simp only [shiftRepl] at h ⊢ <;> first | exact absurd rfl h | skip
        split
        · next h' =>
          refine ⟨_, _, rfl, fun k hk1 hk => ?_⟩
          simp [State.mapAt, hk, Val.add, Val.ofLit, M64, Arith.machine]
          omega
        · next h' => rw [if_neg h'] at h; exact absurd rfl h) h with
      ⟨rfl, ⟨rfl, -, l', hl', hst⟩ | ⟨rfl, m, rs, g, hat, hR, hg⟩⟩ | ⟨hq, h⟩
    · simp only [if_true, hl, bind, Option.bind_eq_some_iff, Option.some.injEq] at hv
      obtain ⟨-, l, hll, rfl⟩ := hv
      cases l' <;> cases a <;> simp only [shiftLen, ArgLen.static.injEq, reduceCtorEq] at hl'
      subst hl'
      exact (ih _ rfl q _ _ l (hst _ rfl) (by simp [State.mapAt, hl]) hll).1.sub.says
    · simp only [if_true, hl, bind, Option.bind_eq_some_iff, Option.some.injEq] at hv
      obtain ⟨-, l, hll, rfl⟩ := hv
      have hm := (hat.small hsm).1
      have := (ih _ rfl q true m l (hat.stat (.inl ⟨rfl, rfl, rfl⟩)) (by simp [State.mapAt, hl]) hll).2 rfl
      subst this
      cases a <;> simp only [shiftRepl] at hR <;> first | exact absurd hR.symm (select_ne_ill hg) | skip
      next a _ =>
      split at hR
      · next ha =>
        have := select_inj hR hg
        subst this
        have : (m + (2 ^ 64 - a % 2 ^ 64)) % 2 ^ 64 = m - a := by omega
        simp only [Val.sub, M64, Arith.machine, Val.ofLit, this]
        exact Val.says_lit _ (by omega)
      · exact absurd hR.symm (select_ne_ill hg)
    · simp only [hq, if_false] at hv
      exact ih _ rfl q t n x h (by simp [State.mapAt, hq, hl]) hv.2
  | slice d a m =>
    simp only [View.sem, sliceSem, guardLen_eq_some] at h hw hv
    rcases stat_indexmap (R := sliceRepl a m) (f := fun _ => .ofVal m)
      (u := st.mapAt (.idx d) (·.add M64 a))
      (fun e he => by simp [State.mapAt, he]) hun (fun _ _ _ => rfl) (fun m' rs hat h => by
        have hm := (hat.small hsm).1
        cases a <;> cases m <;> simp only [sliceRepl] at h ⊢ <;> first | exact absurd rfl h | skip
        refine ⟨_, _, rfl, fun k hk1 hk => ?_⟩
        simp [State.mapAt, hk, Val.add, Val.ofLit, M64, Arith.machine]
        omega) h with
      ⟨rfl, ⟨rfl, -, l', hl', hst⟩ | ⟨rfl, m', rs, g, hat, hR, hg⟩⟩ | ⟨hq, h⟩
    · simp only [if_true, Option.some.injEq] at hv
      rw [← hv.2]
      have := ofVal_static hl'
      subst this
      exact hh.is.says
    · simp only [if_true, Option.some.injEq] at hv
      rw [← hv.2]
      cases a <;> cases m <;> simp only [sliceRepl] at hR <;> first | exact absurd hR.symm (select_ne_ill hg) | skip
      have := select_inj hR hg
      subst this
      exact Val.says_lit _ (hh _ rfl)
    · simp only [hq, if_false] at hv
      exact ih _ rfl q t n x h (by simp [State.mapAt, hl]) hv.2
  | span d a m =>
    simp only [View.sem, spanSem, guardLen_eq_some] at h hw hv
    rcases stat_indexmap (R := spanRepl a m) (f := fun _ => .ofVal m)
      (u := st.mapAt (.idx d) (·.add M64 a))
      (fun e he => by simp [State.mapAt, he]) hun (fun _ _ _ => rfl) (fun m' rs hat h => by
        have hm := (hat.small hsm).1
        cases a <;> cases m <;> simp only [spanRepl] at h ⊢ <;> first | exact absurd rfl h | skip
        split
        · next h' =>
          refine ⟨_, _, rfl, fun k hk1 hk => ?_⟩
          simp [State.mapAt, hk, Val.add, Val.ofLit, M64, Arith.machine]
          omega
        · next h' => rw [if_neg h'] at h; exact absurd rfl h) h with
      ⟨rfl, ⟨rfl, hfn, l', hl', hst⟩ | ⟨rfl, m', rs, g, hat, hR, hg⟩⟩ | ⟨hq, h⟩
    · exact absurd hfn (hh.2 _ (ofVal_static hl'))
    · simp only [if_true, Option.some.injEq] at hv
      rw [← hv.2]
      cases a <;> cases m <;> simp only [spanRepl] at hR <;> first | exact absurd hR.symm (select_ne_ill hg) | skip
      next a e _ =>
      split at hR
      · next ha =>
        have := select_inj hR hg
        subst this
        have he := hh.1 e rfl
        have : (e + (2 ^ 64 - a % 2 ^ 64)) % 2 ^ 64 = e - a := by omega
        simp only [Val.sub, M64, Arith.machine, Val.ofLit, this]
        exact Val.says_lit _ (by omega)
      · exact absurd hR.symm (select_ne_ill hg)
    · simp only [hq, if_false] at hv
      exact ih _ rfl q t n x h (by simp [State.mapAt, hl]) hv.2
  | step d a m =>
    simp only [View.sem, stepSem, guardLen_eq_some] at h hw hv
    rcases stat_indexmap (R := stepRepl a m) (f := fun _ => .ofVal m)
      (u := st.mapAt (.idx d) (fun i => (i.mul M64 m).add M64 a))
      (fun e he => by simp [State.mapAt, he]) hun (fun _ _ _ => rfl) (fun m' rs hat h => by
        have hm := (hat.small hsm).1
        cases a <;> cases m <;> simp only [stepRepl] at h ⊢ <;> first | exact absurd rfl h | skip
        split
        · next h' =>
          refine ⟨_, _, rfl, fun k hk1 hk => ?_⟩
          simp [State.mapAt, hk, Val.add, Val.mul, Val.ofLit, M64, Arith.machine]
          omega
        · next h' => rw [if_neg h'] at h; exact absurd rfl h) h with
      ⟨rfl, ⟨rfl, hfn, l', hl', hst⟩ | ⟨rfl, m', rs, g, hat, hR, hg⟩⟩ | ⟨hq, h⟩
    · exact absurd hfn (hh.2 _ (ofVal_static hl'))
    · simp only [if_true, bind, Option.bind_eq_some_iff, Option.some.injEq] at hv
      obtain ⟨-, l, hll, rfl⟩ := hv
      have hm := (hat.small hsm).1
      have hs : S.sig.stat st q true m' := stat_congr_ne hun (fun e he => by simp [State.mapAt, he])
        (hat.stat (.inl ⟨rfl, rfl, rfl⟩))
      have := (ihr (.inr ⟨q, a, m, rfl⟩) q true m' l hs hl hll).2 rfl
      subst this
      cases a <;> cases m <;> simp only [stepRepl] at hR <;> first | exact absurd hR.symm (select_ne_ill hg) | skip
      next a k _ =>
      split at hR
      · next hk =>
        have := select_inj hR hg
        subst this
        have hk' := hh.1 k rfl
        have h1 : (m' + k) % 2 ^ 64 = m' + k := by omega
        have h2 : (m' + k + (2 ^ 64 - a % 2 ^ 64)) % 2 ^ 64 = m' + k - a := by omega
        have h3 : (m' + k - a + (2 ^ 64 - 1 % 2 ^ 64)) % 2 ^ 64 = m' + k - a - 1 := by omega
        simp only [Val.add, Val.sub, Val.div, M64, Arith.machine, Val.ofLit, hk.1, if_false, h1, h2, h3]
        exact Val.says_lit _ (Nat.lt_of_le_of_lt (Nat.div_le_self _ _) (by omega))
      · exact absurd hR.symm (select_ne_ill hg)
    · simp only [hq, if_false] at hv
      exact ih _ rfl q t n x h (by simp [State.mapAt, hl]) hv.2
  | reverse d =>
    simp only [View.sem, reverseSem, guardLen_eq_some] at h hw hv
    refine ihr (.inl ⟨d, rfl⟩) q t n x ?_ hl hv.2
    rcases stat_indexmap (R := reverseRepl) (f := id) (u := st) (fun e he => rfl) hun (fun _ _ _ => rfl)
      (fun m' rs hat h => absurd (hhard d (hat.hasDep (.inl rfl))) hh) h with
      ⟨rfl, ⟨rfl, -, l', hl', hst⟩ | ⟨rfl, m', rs, g, hat, -⟩⟩ | ⟨hq, h⟩
    · exact hst _ hl'
    · exact absurd (hhard q (hat.hasDep (.inl rfl))) hh
    · exact h
  | reorder ds =>
    simp only [View.sem, reorderSem, guardLen_eq_some] at h hw hv
    exact ih _ rfl q t n x (stat_reassemble (by intro e k h; simp [State.empty] at h) h) hl hv.2
  | hoist d =>
    simp only [View.sem, hoistSem, guardLen_eq_some] at h hw hv
    refine ih _ rfl q t n x ?_ hl hv.2
    split at h
    · next hf =>
      rcases h with ⟨rfl, rfl, rfl⟩ | h
      · exact stat_find_ag (by intro e k h; simp [State.empty] at h) hf
      · have := stat_replace (P := S.sig.stat st q t n) (u := st) (fun _ _ _ => rfl) hun (fun N hN hNu hst hl => ?_) h
        · exact this.elim id (·.2)
        rcases hst with ⟨e, l, r, rfl, he⟩ | ⟨e, m, rs, rfl, he⟩
        · exact hN.stat (.inr hl)
        · exact absurd hl id
    · exact absurd h id
  | rename ps =>
    simp only [View.sem, renameSem, guardLen_eq_some] at h hw hv
    split at h
    · next hok =>
      have hok' := hok
      simp only [renameOk, Bool.and_eq_true, decide_eq_true_eq, List.all_eq_true, Bool.or_eq_true,
        Bool.not_eq_true'] at hok'
      have hkeep : ∀ e, S.sig.anyAccept e = true → e ∈ ps.map Prod.fst ∨ e ∉ ps.map Prod.snd := by
        intro e he
        by_cases hs : e ∈ ps.map Prod.snd
        · rcases hok'.2 e hs with h | h
          · rw [he] at h; cases h
          · exact .inl h
        · exact .inr hs
      obtain ⟨e, rfl, he⟩ := stat_mapDims (u := renameState ps st) (fun e he => by
        rw [renameState_idx, if_pos (hkeep e he)]) h
      have hk := hkeep e (stat_accept he)
      rw [renameDim_swap hok'.1.1 hok'.1.2 e (by grind)] at hv
      exact ih _ rfl e t n x he (by rw [renameState_len, if_pos hk, hl]) hv.2
    · exact absurd h id
  | join a b d =>
    simp only [View.sem, joinSem, guardLen_eq_some, Option.bind_eq_some_iff] at h hw hv
    obtain ⟨-, u, hu, hv⟩ := hv
    have hu' : ((View.join a b d).sem M64 S).sub st = some u := hu
    have hlu : ∀ e, (e = a ∨ e = b ∨ st (.len e) = none) → u (.len e) = none := by
      obtain ⟨x, h1, h2, h3⟩ := join_sub_eq_some (S := S) hu
      rcases h3 with ⟨l, hl, hx, rfl⟩ | ⟨hl, rfl⟩
      · rw [hh.1] at hl; cases hl
      · intro e he
        cases st (.idx d) <;> simp [joinClean, State.removeAll, State.set] <;> grind
    split at h
    · exact absurd h id
    · next hc =>
      split at h
      · next e1 la r1 e2 lb r2 hfa hfb =>
        split at h
        · next hll =>
          have hda := find_nodep hun hfa
          have hdb := find_nodep hun hfb
          have hout : ∀ e, S.sig.hasDep e → e ∉ (View.join a b d).dims := by
            intro e he hmem
            have h1 := hasDep_accept he
            simp only [not_or, not_and, Bool.not_eq_true] at hc
            simp [View.dims] at hmem
            grind
          rcases h with ⟨rfl, rfl, rfl⟩ | h
          · rcases hh.2 u x hu' hv with rfl | rfl
            · exact ih u hu' _ _ n x (stat_find_ag (by intro e k h; simp [State.empty] at h) hfa) (hlu _ (.inl rfl)) hv
            · rw [hll] at hfa
              exact ih u hu' _ _ n x (stat_find_ag (by intro e k h; simp [State.empty] at h) (hll ▸ hfb))
                (hlu _ (.inr (.inl rfl))) hv
          · refine ih u hu' q t n x ?_ (hlu q (.inr (.inr hl))) hv
            have := stat_replace (P := S.sig.stat u q t n) (u := u) (fun e _ he => hsi u e (hout e he) hu') hun
              (fun N hN hNu hst hl => ?_) h
            · exact this.elim id (·.2)
            rcases hst with ⟨e, l, r, rfl, he⟩ | ⟨e, m, rs, rfl, he⟩
            · exact hN.stat (.inr (stat_congr (fun x hx => hsi u x (hout x (hN.hasDep hx)) hu') hl))
            · exact absurd hl id
        · exact absurd h id
      · exact absurd h id
  | intoBlocks d maj min =>
    simp only [View.sem, intoBlocksSem, guardLen_eq_some] at h hw hv
    split at h
    · exact absurd h id
    · next hc =>
      simp only [not_or, not_and, Bool.not_eq_true] at hc
      obtain ⟨hne, h1, h2⟩ := hc
      have hout : ∀ e, e ≠ d → S.sig.anyAccept e = true → e ∉ (View.intoBlocks d maj min).dims := by
        intro e he hx hmem; simp [View.dims] at hmem; grind
      have hqq : q ∉ (View.intoBlocks d maj min).dims := by
        have := stat_replace (P := q ∉ (View.intoBlocks d maj min).dims) (u := st) (fun _ _ _ => rfl) hun
          (fun N hN hNu hst hl => ?_) h
        · rcases this with h | ⟨h1, h2⟩
          · exact h
          · exact hout q (by simpa using h1) (stat_accept h2)
        rcases hst with ⟨e, l, r, rfl, he⟩ | ⟨e, m, rs, rfl, he⟩
        · simp at he; subst he
          rcases hl with ⟨-, -, hl⟩ | ⟨-, -, hl⟩ | hl
          · cases hl
          · cases hl
          · have hacc := stat_accept hl
            exact hout q (by rintro rfl; rw [hNu.1] at hacc; cases hacc) (hN.accept (accept_fn.2 (.inr hacc)))
        · exact absurd hl id
      have hqq' := hqq
      simp only [View.dims, List.mem_cons, List.not_mem_nil, or_false, not_or] at hqq
      simp only [hqq, if_false, Option.bind_eq_some_iff] at hv
      obtain ⟨-, u, hu, hv⟩ := hv
      refine ih u hu q t n x ?_ ?_ hv
      · have := stat_replace (P := S.sig.stat u q t n) (u := u)
          (fun e he hx => hsi u e (hout e (by simpa using he) (hasDep_accept hx)) hu) hun
          (fun N hN hNu hst hl => ?_) h
        · exact this.elim id (·.2)
        rcases hst with ⟨e, l, r, rfl, he⟩ | ⟨e, m, rs, rfl, he⟩
        · simp at he; subst he
          rcases hl with ⟨-, -, hl⟩ | ⟨-, -, hl⟩ | hl
          · cases hl
          · cases hl
          · exact hN.stat (.inr (stat_congr (fun x hx => hsi u x (hout x (hna hx hNu.1)
              (hN.accept (accept_fn.2 (.inr (hasDep_accept hx))))) hu) hl))
        · exact absurd hl id
      · have := ibSub_len hu hqq.1
        rw [this]; simp [blocksClean, State.removeAll, hl]
  | intoBlocksDyn d maj min pres =>
    simp only [View.sem, intoBlocksDynSem, guardLen_eq_some] at h hw hv
    split at h
    · exact absurd h id
    · next hc =>
      simp only [not_or, not_and, Bool.not_eq_true] at hc
      obtain ⟨hne, hne1, hne2, h1, h2, h3⟩ := hc
      have hout : ∀ e, e ≠ d → S.sig.anyAccept e = true → e ∉ (View.intoBlocksDyn d maj min pres).dims := by
        intro e he hx hmem; simp [View.dims] at hmem; grind
      have hqq : q ∉ (View.intoBlocksDyn d maj min pres).dims := by
        have := stat_replace (P := q ∉ (View.intoBlocksDyn d maj min pres).dims) (u := st) (fun _ _ _ => rfl) hun
          (fun N hN hNu hst hl => ?_) h
        · rcases this with h | ⟨h1, h2⟩
          · exact h
          · exact hout q (by simpa using h1) (stat_accept h2)
        rcases hst with ⟨e, l, r, rfl, he⟩ | ⟨e, m, rs, rfl, he⟩
        · simp at he; subst he
          rcases hl with ⟨-, -, hl⟩ | ⟨-, -, hl⟩ | ⟨-, -, hl⟩ | hl
          · cases hl
          · cases hl
          · cases hl
          · have hacc := stat_accept hl
            exact hout q (by rintro rfl; rw [hNu.1] at hacc; cases hacc) (hN.accept (accept_fn.2 (.inr hacc)))
        · exact absurd hl id
      have hqq' := hqq
      simp only [View.dims, List.mem_cons, List.not_mem_nil, or_false, not_or] at hqq
      simp only [hqq, if_false, Option.bind_eq_some_iff] at hv
      obtain ⟨-, u, hu, hv⟩ := hv
      refine ih u hu q t n x ?_ ?_ hv
      · have := stat_replace (P := S.sig.stat u q t n) (u := u)
          (fun e he hx => hsi u e (hout e (by simpa using he) (hasDep_accept hx)) hu) hun
          (fun N hN hNu hst hl => ?_) h
        · exact this.elim id (·.2)
        rcases hst with ⟨e, l, r, rfl, he⟩ | ⟨e, m, rs, rfl, he⟩
        · simp at he; subst he
          rcases hl with ⟨-, -, hl⟩ | ⟨-, -, hl⟩ | ⟨-, -, hl⟩ | hl
          · cases hl
          · cases hl
          · cases hl
          · exact hN.stat (.inr (stat_congr (fun x hx => hsi u x (hout x (hna hx hNu.1)
              (hN.accept (accept_fn.2 (.inr (hasDep_accept hx))))) hu) hl))
        · exact absurd hl id
      · have := ibdSub_len hu hqq.1
        rw [this]; simp [dynClean, State.removeAll, hl]
  | intoBlocksStat d border maj min nl =>
    simp only [View.sem, intoBlocksStatSem, guardLen_eq_some] at h hw hv
    split at h
    · exact absurd h id
    · next hc =>
      simp only [not_or, not_and, Bool.not_eq_true] at hc
      obtain ⟨hne, hne1, hne2, h1, h2, h3⟩ := hc
      have hout : ∀ e, e ≠ d → S.sig.anyAccept e = true → e ∉ (View.intoBlocksStat d border maj min nl).dims := by
        intro e he hx hmem; simp [View.dims] at hmem; grind
      -- the dimension is a new one, or an old one
      have key : ∀ u, (∀ e, e ∉ (View.intoBlocksStat d border maj min nl).dims → st (.idx e) = u (.idx e)) →
          (q ∉ (View.intoBlocksStat d border maj min nl).dims ∧ S.sig.stat u q t n) ∨
          (q = border ∧ n = 2) ∨
          ∃ k : Fin 2, litIdx 2 (st (.idx border)) = some k ∧ t = false ∧
            ∃ l : ArgLen, (∀ a, l = .static a → S.sig.stat u d false a) ∧
            ((q = maj ∧ k = 0 ∧ ∃ a b, l = .static a ∧ nl = .lit b ∧ b ≠ 0 ∧ n = a / b) ∨
             (q = min ∧ k = 0 ∧ nl = .lit n) ∨
             (q = maj ∧ k = 1 ∧ n = 1) ∨
             (q = min ∧ k = 1 ∧ ∃ a b, l = .static a ∧ nl = .lit b ∧ b ≠ 0 ∧ n = a % b)) := by
        intro u hu
        have := stat_replace (u := u)
          (P := (q ∉ (View.intoBlocksStat d border maj min nl).dims ∧ S.sig.stat u q t n) ∨
          (q = border ∧ n = 2) ∨
          ∃ k : Fin 2, litIdx 2 (st (.idx border)) = some k ∧ t = false ∧
            ∃ l : ArgLen, (∀ a, l = .static a → S.sig.stat u d false a) ∧
            ((q = maj ∧ k = 0 ∧ ∃ a b, l = .static a ∧ nl = .lit b ∧ b ≠ 0 ∧ n = a / b) ∨
             (q = min ∧ k = 0 ∧ nl = .lit n) ∨
             (q = maj ∧ k = 1 ∧ n = 1) ∨
             (q = min ∧ k = 1 ∧ ∃ a b, l = .static a ∧ nl = .lit b ∧ b ≠ 0 ∧ n = a % b)))
          (fun e he hx => hu e (hout e (by simpa using he) (hasDep_accept hx))) hun
          (fun N hN hNu hst hs => ?_) h
        · rcases this with h | ⟨h1, h2⟩
          · exact h
          · exact .inl ⟨hout q (by simpa using h1) (stat_accept h2), h2⟩
        rcases hst with ⟨e, l, r, rfl, he⟩ | ⟨e, m, rs, rfl, he⟩
        · simp at he; subst he
          rcases stat_ibsRepl hs with hs | ⟨k, hk, hs⟩
          · exact .inr (.inl hs)
          rcases hs with hs | ⟨ht, hs⟩
          · have hacc := stat_accept hs
            exact .inl ⟨hout q (by rintro rfl; rw [hNu.1] at hacc; cases hacc) (hN.accept (accept_fn.2 (.inr hacc))),
              hN.stat (.inr (stat_congr (fun x hx => hu x (hout x (hna hx hNu.1)
              (hN.accept (accept_fn.2 (.inr (hasDep_accept hx)))))) hs))⟩
          · exact .inr (.inr ⟨k, hk, ht, l, fun a ha => hN.stat (.inl ⟨rfl, rfl, ha⟩), hs⟩)
        · exact absurd hs id
      obtain ⟨hlen, hv⟩ := hv
      have hlu : ∀ u, intoBlocksStatSub M64 d border maj min nl S st = some u → ∀ e,
          (e = d ∨ st (.len e) = none) → u (.len e) = none := by
        intro u hu e he
        rw [ibsSub_len (S := S) hu]
        simp [statClean, State.removeAll]
        grind
      cases hu : intoBlocksStatSub M64 d border maj min nl S st with
      | none =>
        simp only [hu, bind, Option.bind_none] at hv
        rcases key st (fun _ _ => rfl) with ⟨hq, hs⟩ | ⟨rfl, rfl⟩ | ⟨k, hk, rfl, l, hd, hcase⟩
        · simp only [View.dims, List.mem_cons, List.not_mem_nil, or_false, not_or] at hq
          simp [hq] at hv
        · simp only [if_true, Option.some.injEq] at hv
          subst hv; exact Val.says_lit _ (by decide)
        · have hb := litIdx_eq_some hk
          rcases hcase with ⟨rfl, rfl, -⟩ | ⟨rfl, rfl, rfl⟩ | ⟨rfl, rfl, rfl⟩ | ⟨rfl, rfl, -⟩
          · simp [isBody, hb, hne2, Ne.symm hne] at hv
          · simp [isBody, hb, hne2, Ne.symm hne1] at hv
            subst hv; exact hh.is.says
          · simp [isBody, hb, hne2, Ne.symm hne] at hv
            subst hv; exact Val.says_lit _ (by decide)
          · simp [isBody, hb, hne2, Ne.symm hne1] at hv
      | some u =>
        simp only [hu, bind, Option.bind_some] at hv
        rcases key u (fun e he => hsi u e he hu) with ⟨hq, hs⟩ | ⟨rfl, rfl⟩ | ⟨k, hk, rfl, l, hd, hcase⟩
        · simp only [View.dims, List.mem_cons, List.not_mem_nil, or_false, not_or] at hq
          simp only [hq, if_false] at hv
          exact ih u hu q t n x hs (hlu u hu q (.inr hl)) hv
        · simp only [if_true, Option.some.injEq] at hv
          subst hv; exact Val.says_lit _ (by decide)
        · have hb := litIdx_eq_some hk
          rcases hcase with ⟨rfl, rfl, a, b, h4, rfl, h6, rfl⟩ | ⟨rfl, rfl, rfl⟩ | ⟨rfl, rfl, rfl⟩ |
            ⟨rfl, rfl, a, b, h4, rfl, h6, rfl⟩
          · simp [isBody, hb, hne2, Ne.symm hne, Option.bind_eq_some_iff] at hv
            obtain ⟨l', hl', rfl⟩ := hv
            exact ((ih u hu d _ a l' (hd a h4) (hlu u hu d (.inl rfl)) hl').1.div h6).says
          · simp [isBody, hb, hne2, Ne.symm hne1] at hv
            subst hv; exact hh.is.says
          · simp [isBody, hb, hne2, Ne.symm hne] at hv
            subst hv; exact Val.says_lit _ (by decide)
          · simp [isBody, hb, hne2, Ne.symm hne1, Option.bind_eq_some_iff] at hv
            obtain ⟨l', hl', rfl⟩ := hv
            exact ((ih u hu d _ a l' (hd a h4) (hlu u hu d (.inl rfl)) hl').1.mod h6).says
  | mergeBlocks maj min d =>
    simp only [View.sem, mergeBlocksSem, guardLen_eq_some] at h hw hv
    split at h
    · exact absurd h id
    · next hc =>
      simp only [not_or, not_and, Bool.not_eq_true] at hc
      obtain ⟨hne, h1⟩ := hc
      have hT : ∀ e, e ∉ [maj, min] → S.sig.anyAccept e = true → e ∉ (View.mergeBlocks maj min d).dims := by
        intro e h2 h3 h4
        simp [View.dims] at h2 h4
        grind
      have key : ∀ u, ((View.mergeBlocks maj min d).sem M64 S).sub st = some u →
          (q ∉ (View.mergeBlocks maj min d).dims ∧ S.sig.stat u q t n) ∨
          (q = d ∧ t = false ∧ ∃ a b, S.sig.stat u maj false a ∧ S.sig.stat u min false b ∧ n = a * b % 2 ^ 64) := by
        intro u hu
        have := stat_replace (u := u) (P := (q ∉ (View.mergeBlocks maj min d).dims ∧ S.sig.stat u q t n) ∨
          (q = d ∧ t = false ∧ ∃ a b, S.sig.stat u maj false a ∧ S.sig.stat u min false b ∧ n = a * b % 2 ^ 64))
          (fun e he hx => hsi u e (hT e he (hasDep_accept hx)) hu) hun (fun N hN hNu hst hs => ?_) h
        · rcases this with h | ⟨h1, h2⟩
          · exact h
          · exact .inl ⟨hT q h1 (stat_accept h2), h2⟩
        rcases hst with ⟨e, l, r, rfl, he⟩ | ⟨e, m, rs, rfl, he⟩
        · simp only [mergeBlocksRepl] at hs
          have hT' : ∀ x, x ∉ [min, maj] → r.anyAccept x = true → x ∉ (View.mergeBlocks maj min d).dims := by
            intro x h2 h3
            exact hT x (by simp at h2 ⊢; grind) (hN.accept (accept_fn.2 (.inr h3)))
          have := stat_replace (u := u) (P := (q ∉ (View.mergeBlocks maj min d).dims ∧ S.sig.stat u q t n) ∨
            (q = d ∧ t = false ∧ ∃ a b, S.sig.stat u maj false a ∧ S.sig.stat u min false b ∧ n = a * b % 2 ^ 64))
            (fun x hx hd => hsi u x (hT' x hx (hasDep_accept hd)) hu) hNu.2 (fun M hM hMu hst' hs' => ?_) hs
          · rcases this with h | ⟨h1, h2⟩
            · exact h
            · exact .inl ⟨hT' q h1 (stat_accept h2), hN.stat (.inr h2)⟩
          rcases hst' with ⟨e', l', r', rfl, he'⟩ | ⟨e', m', rs', rfl, he'⟩
          · simp only [mergeBlocksInner] at hs'
            split at hs'
            · next hcase =>
              rcases hs' with ⟨rfl, ht, hs'⟩ | hs'
              · refine .inr ⟨rfl, ht, ?_⟩
                cases l <;> cases l' <;> simp [mergeLen] at hs'
                next a b =>
                have ha : S.sig.stat u e false a := hN.stat (.inl ⟨rfl, rfl, rfl⟩)
                have hb : S.sig.stat u e' false b := hN.stat (.inr (hM.stat (.inl ⟨rfl, rfl, rfl⟩)))
                rcases hcase with ⟨rfl, rfl⟩ | ⟨rfl, rfl⟩
                · exact ⟨a, b, ha, hb, hs'.symm⟩
                · exact ⟨b, a, hb, ha, by rw [Nat.mul_comm]; exact hs'.symm⟩
              · left
                have hx' : ∀ x, r'.anyAccept x = true → x ∉ (View.mergeBlocks maj min d).dims := by
                  intro x hx
                  refine hT' x ?_ (hM.accept (accept_fn.2 (.inr hx)))
                  have h1 : x ≠ e' := by rintro rfl; rw [hMu.1] at hx; cases hx
                  have h2 : x ≠ e := by
                    rintro rfl
                    have := hM.accept (accept_fn.2 (.inr hx))
                    rw [hNu.1] at this; cases this
                  simp; grind
                exact ⟨hx' q (stat_accept hs'), hN.stat (.inr (hM.stat (.inr
                  (stat_congr (fun x hx => hsi u x (hx' x (hasDep_accept hx)) hu) hs'))))⟩
            · exact absurd hs' id
          · exact absurd hs' id
        · exact absurd hs id
      obtain ⟨hlen, hv⟩ := hv
      by_cases hq : q = d
      · subst hq
        simp only [if_true, hl, bind, Option.bind_eq_some_iff, Option.some.injEq] at hv
        obtain ⟨u, hu, ml, hml, nl, hnl, rfl⟩ := hv
        rcases key u hu with ⟨hq, -⟩ | ⟨-, rfl, a, b, ha, hb, rfl⟩
        · simp [View.dims] at hq
        · refine ((ih u hu maj _ a ml ha ?_ hml).1.mul (ih u hu min _ b nl hb ?_ hnl).1).says
          · rw [mbSub_len hu (.inr hl)]; simp [blocksClean, State.removeAll]
          · rw [mbSub_len hu (.inr hl)]; simp [blocksClean, State.removeAll]
      · simp only [hq, if_false, Option.bind_eq_some_iff] at hv
        obtain ⟨u, hu, hv⟩ := hv
        rcases key u hu with ⟨hq', hs⟩ | ⟨h, -⟩
        · refine ih u hu q t n x hs ?_ hv
          simp [View.dims] at hq'
          rw [mbSub_len hu (.inl ⟨hq'.1, hq'.2.1⟩)]; simp [blocksClean, State.removeAll, hl]
        · exact absurd h hq
  | mergeZ sl gl ds d =>
    simp only [View.sem, mergeZSem, guardLen_eq_some] at h hw hv
    split at h
    · exact absurd h id
    · next hc =>
      simp only [not_or, not_and, Bool.not_eq_true, Classical.not_not] at hc
      obtain ⟨-, hne, -, hnd, hd⟩ := hc
      have hpos : 0 < ds.length := List.length_pos_iff.2 hne
      have hd' : d ∈ ds ∨ S.sig.anyAccept d = false := by
        by_cases hx : d ∈ ds
        · exact .inl hx
        · exact .inr (hd hx)
      have hlu : ∀ u, mergeZSub M64 sl gl ds d S st = some u → ∀ e, (e ∈ ds ∨ st (.len e) = none) → u (.len e) = none := by
        intro u hu e he
        have h0 : st.removeAll (.idx d :: (ds.map .idx ++ ds.map .len)) (.len e) = none := by
          simp [State.removeAll]; grind
        simp only [mergeZSub] at hu
        split at hu
        · cases hu; exact h0
        · simp only [bind, Option.bind_eq_some_iff, Option.some.injEq] at hu
          obtain ⟨lens, -, rfl⟩ := hu
          rw [setIdxs_len]; exact h0
      have key : ∀ u, mergeZSub M64 sl gl ds d S st = some u → _ := fun u hu =>
        stat_mergeZ hnd hd' hpos [] (by simp) (by simp) (by simp) (by simp) hun (u := u)
          (fun e he => hsi u e he hu) h
      obtain ⟨hlen, hv⟩ := hv
      by_cases hq : q = d
      · subst hq
        simp only [if_true, bind, Option.bind_eq_some_iff] at hv
        obtain ⟨u, hu, ls, hls, hv⟩ := hv
        rcases key u hu with ⟨h1, -⟩ | ⟨-, rfl, a, f, l, h2, h3, h4, h5, h6, rfl⟩
        · simp at h1
        · cases h2
          simp only [List.nil_append] at h3
          have hperm : l.Perm ds := (List.perm_ext_iff_of_nodup h3 hnd).2 fun x =>
            ⟨h4 x, all_seen h3 h4 (by omega) x⟩
          have hst : ∀ e ∈ ds, ∀ v, S.len e u = some v → v.Is (f e) := fun e he v hv =>
            (ih u hu e _ (f e) v (h6 e (hperm.mem_iff.2 he)) (hlu u hu e (.inl he)) hv).1
          rw [prodOf_perm hperm, Nat.one_mul]
          cases ds with
          | nil => exact absurd rfl hne
          | cons e ds =>
            simp only [List.map_cons, allSome, bind, Option.bind_eq_some_iff, Option.some.injEq] at hls
            obtain ⟨l0, hl0, ls', hls', rfl⟩ := hls
            cases hv
            exact (mulFold_is (hst e (by simp) l0 hl0) hls' (fun x hx => hst x (by simp [hx]))).says
      · simp only [hq, if_false, Option.bind_eq_some_iff] at hv
        obtain ⟨u, hu, hv⟩ := hv
        rcases key u hu with ⟨-, hs⟩ | ⟨h, -⟩
        · exact ih u hu q t n x hs (hlu u hu q (.inr hl)) hv
        · exact absurd h hq

open Sig in
/-- The lengths in the signature of a structure are its lengths. -/
theorem Struct.stat_ok (s : Struct) (hw : s.wf M64) (hn : s.noDup M64) {st : State} (hh : s.Honest st) :
    StatOk s st := by
  induction s generalizing st with
  | scalar z a => intro q t n v h; exact absurd h id
  | tuple t m fs ih =>
    intro q b n v h hl hv
    have h1 := hw.1
    simp only [Struct.sem, tupleSem, guardLen_eq_some] at h hv h1
    split at h
    · next hc => rw [if_pos hc] at h1; simp [Sig.wf] at h1
    · next hc =>
      rcases h with ⟨rfl, rfl, rfl⟩ | ⟨k, hk, h⟩
      · simp only [if_true, Option.some.injEq] at hv
        rw [← hv.2]
        exact Val.says_lit _ (by have := hh.1; omega)
      have hq : q ≠ t := by rintro rfl; exact hc ⟨k, stat_accept h⟩
      simp only [hq, if_false, litIdx_constIdx hk, bind, Option.bind_some, k.2, dite_true] at hv
      refine ih k (hw.2 k) (hn.2 k) (hh.2 k) q b n v (stat_congr (fun x hx => ?_) h) (by simp [State.remove, hl]) hv.2
      have : x ≠ t := by rintro rfl; exact hc ⟨k, hasDep_accept hx⟩
      simp [State.remove, this]
  | vector d s ih =>
    intro q b n v h hl hv
    have h1 := hw.1
    simp only [Struct.sem, vectorSem, guardLen_eq_some] at h hv h1
    split at h
    · next hc => rw [if_pos hc] at h1; simp [Sig.wf] at h1
    · next hc =>
      rcases h with ⟨-, -, h⟩ | h
      · cases h
      · have hq : q ≠ d := by rintro rfl; exact hc (stat_accept h)
        simp only [hq, if_false] at hv
        refine ih hw.2 hn.2 hh q b n v (stat_congr (fun x hx => ?_) h) (by simp [State.removeAll, hl]) hv.2
        have : x ≠ d := by rintro rfl; exact hc (hasDep_accept hx)
        simp [State.removeAll, this]
  | union m ss ih =>
    intro q b n v h hl hv
    have h1 := hw.1
    simp only [Struct.sem, unionSem, guardLen_eq_some] at h hv h1
    obtain ⟨i, hi, h2, h3⟩ := stat_unionAll h1 h
    simp only [List.length_ofFn] at hi
    simp only [List.getElem_ofFn] at h2 h3
    have hf := firstMatch_eq (fs := fun i => (ss i).sem M64) (i := ⟨i, hi⟩) (q := q) (stat_accept h2)
      (fun j hj => h3 j hj)
    rw [hf] at hv
    exact ih ⟨i, hi⟩ (hw.2 _) (hn.2 _) (hh _) q b n v h2 hl hv.2
  | view v s ih =>
    exact stat_view hw hn hh.1 hh.2.1 (fun u hu => ih hw.2 hn.2 (hh.2.2.1 u hu))
      (fun hd => ih hw.2 hn.2 (hh.2.2.2 hd))

end Noarr
