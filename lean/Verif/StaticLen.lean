import Verif.ScalarLemmas
import Verif.UnionLemmas
import Verif.OrderSpec
import Verif.MachineSem

/-
Specification for C59: lengths that are part of the type of a structure.

A signature records for every dimension whether its length is known at compile time, and if so, what it is
(`function_sig<Dim, static_arg_length<N>, ...>`, base/signature.hpp:13-43, 48-79), and the number of fields for
a tuple dimension. The views compute these numbers a second time, apart from `length`.
-/

set_option linter.unusedVariables false
set_option linter.unusedSimpArgs false

namespace Noarr

/-- Arithmetic on `size_t` with 64 bits, the arithmetic in which the signatures are computed. -/
abbrev M64 : Arith := .machine (2 ^ 64)

/-- No tuple has 2⁶³ fields or more. -/
def Sig.small : Sig → Prop
  | .scalar _ => True
  | .void => True
  | .fn _ _ r => r.small
  | .dep _ n rs => n < 2 ^ 63 ∧ ∀ i, (rs i).small
  | .ill => True

/-- What a view has to meet, so that the lengths it writes into the signature are its lengths. `S` is the
structure it is applied to and `st` the state given to it.

* `set_length`: the length takes effect (it does not if the structure has a length of its own);
* `span` of an ordinary dimension: the end is not a constant (the signature has the end in place of the
  length);
* `step` of an ordinary dimension: the stride is not a constant (the signature has the stride in place of the
  length); a constant stride is less than 2⁶³;
* `reverse`: not of a tuple dimension;
* `join`: the state gives no length for the new dimension, and the structure below has no unrelated length
  under the new name;
* constants fit into `size_t`. -/
def View.honest (s : Struct) (st : State) : View → Prop
  | .setLength d l => l.fits (2 ^ 64) ∧ ∀ x, (s.sem M64).len d (st.set (.len d) l) = some x → x = l
  | .slice _ _ m => m.fits (2 ^ 64)
  | .span d _ e => e.fits (2 ^ 64) ∧ ∀ n, e = .lit n → ¬ (s.sem M64).sig.hasFn d
  | .step d _ k => k.fits (2 ^ 63) ∧ ∀ n, k = .lit n → ¬ (s.sem M64).sig.hasFn d
  | .reverse d => ¬ s.hard d
  | .join a b d => st (.len d) = none ∧
      ∀ u x, ((View.join a b d).sem M64 (s.sem M64)).sub st = some u → (s.sem M64).len d u = some x → d = a ∨ d = b
  | .intoBlocksStat _ _ _ _ nl => nl.fits (2 ^ 64)
  | _ => True

/-- The conditions of all the views that a query of a length in state `st` goes through. -/
def Struct.Honest : Struct → State → Prop
  | .scalar _ _, _ => True
  | .tuple t n fs, st => n < 2 ^ 63 ∧ ∀ i, (fs i).Honest (st.remove (.idx t))
  | .vector d s, st => s.Honest (st.removeAll [.idx d, .len d])
  | .union _ ss, st => ∀ i, (ss i).Honest st
  | .view v s, st => v.honest s st ∧ (s.sem M64).sig.small ∧
      (∀ u, (v.sem M64 (s.sem M64)).sub st = some u → s.Honest u) ∧
      -- the views that ask for the length in the untranslated state
      ((∃ d, v = .reverse d) ∨ (∃ d a k, v = .step d a k) → s.Honest st)

namespace Sig

/-- On the path selected by `st` there is the dimension `q`: an ordinary one with the static length `n`
(`t = false`), or a tuple dimension with `n` fields (`t = true`). -/
def stat (st : State) (q : Dim) (t : Bool) (n : Nat) : Sig → Prop
  | scalar _ => False
  | void => False
  | fn d l r => (q = d ∧ t = false ∧ l = .static n) ∨ r.stat st q t n
  | dep d m rs => (q = d ∧ t = true ∧ n = m) ∨ ∃ k, litIdx m (st (.idx d)) = some k ∧ (rs k).stat st q t n
  | ill => False

theorem stat_find {S : Sig} {st : State} {q e : Dim} {n : Nat} :
    (∀ r, S.find q st = .fn e (.static n) r → S.stat st q false n) ∧
    (∀ rs, S.find q st = .dep e n rs → S.stat st q true n) := by
  induction S with
  | scalar s => simp [find]
  | void => simp [find]
  | ill => simp [find]
  | fn d l r' ih =>
    simp only [find]
    split
    · next hd =>
      refine ⟨fun r h => ?_, fun rs h => (by cases h)⟩
      injection h with h1 h2 h3
      exact .inl ⟨hd.symm, rfl, h2⟩
    · exact ⟨fun r h => .inr (ih.1 r h), fun rs h => .inr (ih.2 rs h)⟩
  | dep d m rs ih =>
    simp only [find]
    split
    · next hd =>
      refine ⟨fun r h => (by cases h), fun rs h => ?_⟩
      injection h with h1 h2 h3
      exact .inl ⟨hd.symm, rfl, h2.symm⟩
    · split
      · next k hk => exact ⟨fun r h => .inr ⟨k, hk, (ih k).1 r h⟩, fun rs h => .inr ⟨k, hk, (ih k).2 rs h⟩⟩
      · exact ⟨fun r h => (by cases h), fun rs h => (by cases h)⟩

theorem stat_accept {S : Sig} {st : State} {q : Dim} {t : Bool} {n : Nat} (h : S.stat st q t n) :
    S.anyAccept q = true := by
  induction S with
  | scalar s => exact absurd h id
  | void => exact absurd h id
  | ill => exact absurd h id
  | fn d l r ih =>
    rcases h with ⟨rfl, -⟩ | h
    · exact accept_fn.2 (.inl rfl)
    · exact accept_fn.2 (.inr (ih h))
  | dep d m rs ih =>
    rcases h with ⟨rfl, -⟩ | ⟨k, -, h⟩
    · exact accept_dep.2 (.inl rfl)
    · exact accept_dep.2 (.inr ⟨k, ih k h⟩)

theorem stat_congr {S : Sig} {st st' : State} {q : Dim} {t : Bool} {n : Nat}
    (hag : ∀ e, S.hasDep e → st (.idx e) = st' (.idx e)) (h : S.stat st q t n) : S.stat st' q t n := by
  induction S with
  | scalar s => exact h
  | void => exact h
  | ill => exact h
  | fn d l r ih => exact h.imp_right (ih hag)
  | dep d m rs ih =>
    refine h.imp_right fun ⟨k, hk, h⟩ => ?_
    exact ⟨k, by rw [← hag d (.inl rfl)]; exact hk, ih k (fun e he => hag e (.inr ⟨k, he⟩)) h⟩

/-- The index of a dimension does not decide about the dimension itself. -/
theorem stat_congr_ne {S : Sig} (hu : S.uniq) {st st' : State} {q : Dim} {t : Bool} {n : Nat}
    (hag : ∀ e, e ≠ q → st (.idx e) = st' (.idx e)) (h : S.stat st q t n) : S.stat st' q t n := by
  induction S with
  | scalar s => exact h
  | void => exact h
  | ill => exact h
  | fn d l r ih => exact h.imp_right (ih hu.2)
  | dep d m rs ih =>
    refine h.imp_right fun ⟨k, hk, h⟩ => ?_
    have : d ≠ q := by rintro rfl; have := stat_accept h; rw [(hu k).1] at this; cases this
    exact ⟨k, by rw [← hag d this]; exact hk, ih k (hu k).2 h⟩

theorem At.stat {S N : Sig} {st : State} {q : Dim} {t : Bool} {n : Nat} (h : At st S N) (hn : N.stat st q t n) :
    S.stat st q t n := by
  induction h with
  | refl => exact hn
  | fn _ ih => exact .inr (ih hn)
  | dep hk _ ih => exact .inr ⟨_, hk, ih hn⟩

theorem At.hasFn {S N : Sig} {st : State} {q : Dim} (h : At st S N) (hn : N.hasFn q) : S.hasFn q := by
  induction h with
  | refl => exact hn
  | fn _ ih => exact .inr (ih hn)
  | dep hk _ ih => exact ⟨_, ih hn⟩

theorem At.small {S N : Sig} {st : State} (h : At st S N) (hs : S.small) : N.small := by
  induction h with
  | refl => exact hs
  | fn _ ih => exact ih hs
  | dep hk _ ih => exact ih (hs.2 _)

theorem stat_small {S : Sig} {st : State} {q : Dim} {n : Nat} (hs : S.small) (h : S.stat st q true n) : n < 2 ^ 63 := by
  induction S with
  | scalar s => exact absurd h id
  | void => exact absurd h id
  | ill => exact absurd h id
  | fn d l r ih =>
    rcases h with ⟨-, h, -⟩ | h
    · cases h
    · exact ih hs h
  | dep d m rs ih =>
    rcases h with ⟨-, -, rfl⟩ | ⟨k, -, h⟩
    · exact hs.1
    · exact ih k (hs.2 k) h

/-- The static lengths in a signature in which some nodes are replaced. -/
theorem stat_replace {S : Sig} {R : Sig → Sig} {ds : List Dim} {st u : State} {q : Dim} {t : Bool} {n : Nat} {P : Prop}
    (hag : ∀ e, e ∉ ds → S.hasDep e → st (.idx e) = u (.idx e)) (hu : S.uniq)
    (hR : ∀ N, At u S N → N.uniq → Starts ds N → (R N).stat st q t n → P)
    (h : (S.replace R ds).stat st q t n) : P ∨ (q ∉ ds ∧ S.stat u q t n) := by
  induction S with
  | scalar s => exact absurd h id
  | void => exact absurd h id
  | ill => exact absurd h id
  | fn d l r ih =>
    simp only [replace] at h
    by_cases hd : d ∈ ds
    · rw [if_pos hd] at h
      exact .inl (hR _ (.refl _) hu (.inl ⟨d, l, r, rfl, hd⟩) h)
    · rw [if_neg hd] at h
      rcases h with ⟨rfl, h⟩ | h
      · exact .inr ⟨hd, .inl ⟨rfl, h⟩⟩
      · rcases ih (fun e h1 h2 => hag e h1 h2) hu.2 (fun N hN => hR N (.fn hN)) h with h | ⟨h1, h2⟩
        · exact .inl h
        · exact .inr ⟨h1, .inr h2⟩
  | dep d m rs ih =>
    simp only [replace] at h
    by_cases hd : d ∈ ds
    · rw [if_pos hd] at h
      exact .inl (hR _ (.refl _) hu (.inr ⟨d, m, rs, rfl, hd⟩) h)
    · rw [if_neg hd] at h
      rcases h with ⟨rfl, h⟩ | ⟨k, hk, h⟩
      · exact .inr ⟨hd, .inl ⟨rfl, h⟩⟩
      rw [hag d hd (.inl rfl)] at hk
      rcases ih k (fun e h1 h2 => hag e h1 (.inr ⟨k, h2⟩)) (hu k).2 (fun N hN => hR N (.dep hk hN)) h with h | ⟨h1, h2⟩
      · exact .inl h
      · exact .inr ⟨h1, .inr ⟨k, hk, h2⟩⟩

/-- What a view makes of the number in the node of a dimension: an ordinary one, or one of a tuple. -/
def Changed (S : Sig) (R : Sig → Sig) (f : ArgLen → ArgLen) (d : Dim) (u : State) (t : Bool) (n : Nat) : Prop :=
  (t = false ∧ S.hasFn d ∧ ∃ l, f l = .static n ∧ ∀ k, l = .static k → S.stat u d false k) ∨
  (t = true ∧ ∃ m rs g, At u S (.dep d m rs) ∧ R (.dep d m rs) = select d rs n g ∧ ∀ i : Fin n, g i < m)

theorem select_inj {d : Dim} {m : Nat} {rs : Fin m → Sig} {n n' : Nat} {g g' : Nat → Nat}
    (h : select d rs n g = select d rs n' g') (hg : ∀ i : Fin n', g' i < m) : n = n' := by
  simp only [select] at h
  rw [dif_pos hg] at h
  split at h
  · injection h
  · cases h

theorem select_ne_ill {d : Dim} {m : Nat} {rs : Fin m → Sig} {n : Nat} {g : Nat → Nat}
    (h : ∀ i : Fin n, g i < m) : select d rs n g ≠ .ill := by
  simp only [select]
  rw [dif_pos h]
  exact fun h => by cases h

/-- The views that change the node of one dimension, and keep what follows it. -/
theorem stat_indexmap {S : Sig} {R : Sig → Sig} {f : ArgLen → ArgLen} {d : Dim} {st u : State} {q : Dim} {t : Bool} {n : Nat}
    (hag : ∀ e, e ≠ d → st (.idx e) = u (.idx e)) (hu : S.uniq)
    (hfn : ∀ e l r, R (.fn e l r) = .fn e (f l) r)
    (hdep : ∀ m rs, At u S (.dep d m rs) → R (.dep d m rs) ≠ .ill →
      ∃ m' g, R (.dep d m rs) = select d rs m' g ∧
        ∀ k, g k < m → st (.idx d) = some (.lit k) → u (.idx d) = some (.lit (g k)))
    (h : (S.replace R [d]).stat st q t n) :
    (q = d ∧ Changed S R f d u t n) ∨ (q ≠ d ∧ S.stat u q t n) := by
  have := stat_replace (P := (q = d ∧ Changed S R f d u t n) ∨ (q ≠ d ∧ S.stat u q t n))
    (fun e he _ => hag e (by simpa using he)) hu (fun N hN hNu hs hl => ?_) h
  · simpa using this
  rcases hs with ⟨e, l, r, rfl, he⟩ | ⟨e, m, rs, rfl, he⟩
  · simp at he; subst he
    rw [hfn] at hl
    rcases hl with ⟨rfl, ht, hl⟩ | hl
    · exact .inl ⟨rfl, .inl ⟨ht, hN.hasFn (.inl rfl), l, hl, fun k hk => hN.stat (.inl ⟨rfl, rfl, hk⟩)⟩⟩
    · have hne : q ≠ e := by rintro rfl; have := stat_accept hl; rw [hNu.1] at this; cases this
      refine .inr ⟨hne, hN.stat (.inr (stat_congr (fun x hx => hag x ?_) hl))⟩
      rintro rfl
      have := hasDep_accept hx
      rw [hNu.1] at this; cases this
  · simp at he; subst he
    obtain ⟨m', g, h', hk⟩ := hdep m rs hN (by intro h; rw [h] at hl; exact hl)
    rw [h'] at hl
    simp only [select] at hl
    split at hl
    · next hf =>
      rcases hl with ⟨rfl, ht, rfl⟩ | ⟨k, h1, h2⟩
      · exact .inl ⟨rfl, .inr ⟨ht, m, rs, g, hN, h', hf⟩⟩
      have hne : q ≠ e := by rintro rfl; have := stat_accept h2; rw [(hNu _).1] at this; cases this
      refine .inr ⟨hne, hN.stat (.inr ⟨⟨g k, hf k⟩, ?_, stat_congr (fun x hx => hag x ?_) h2⟩)⟩
      · rw [hk k (hf k) (litIdx_eq_some h1)]; exact litIdx_lit (hf k)
      · rintro rfl
        have := hasDep_accept hx
        rw [(hNu _).1] at this; cases this
    · exact absurd hl id

theorem stat_reassembleScalar {S : Sig} {st0 st : State} {q : Dim} {t : Bool} {n : Nat} :
    ¬ (S.reassembleScalar st0).stat st q t n := by
  intro h
  rcases leaf_reassembleScalar (S := S) (st0 := st0) with hl | hl
  · cases hl' : S.reassembleScalar st0 <;> rw [hl'] at hl h <;> first | exact h | cases hl
  · rw [hl] at h; exact h

theorem stat_grow {S : Sig} {d : Dim} {st0 st : State} {t : Bool} {n : Nat}
    (hag : ∀ e k, st0 (.idx e) = some (.lit k) → st (.idx e) = some (.lit k))
    (h : S.stat st0 d t n) : S.stat st d t n := by
  induction S with
  | scalar s => exact h
  | void => exact h
  | ill => exact h
  | fn d l r ih => exact h.imp_right ih
  | dep d m rs ih =>
    refine h.imp_right fun ⟨k, hk, h⟩ => ?_
    exact ⟨k, by rw [hag d k (litIdx_eq_some hk)]; exact litIdx_lit k.2, ih k h⟩

theorem stat_find_ag {S : Sig} {d : Dim} {st0 st : State} {e : Dim} {n : Nat} {r : Sig}
    (hag : ∀ e k, st0 (.idx e) = some (.lit k) → st (.idx e) = some (.lit k))
    (h : S.find d st0 = .fn e (.static n) r) : S.stat st d false n := stat_grow hag (stat_find.1 r h)

theorem stat_reassemble {top : Sig} {ds : List Dim} {st0 st : State} {q : Dim} {t : Bool} {n : Nat}
    (hag : ∀ e k, st0 (.idx e) = some (.lit k) → st (.idx e) = some (.lit k))
    (h : (top.reassemble ds st0).stat st q t n) : top.stat st q t n := by
  induction ds generalizing st0 with
  | nil => exact absurd h stat_reassembleScalar
  | cons d ds ih =>
    simp only [reassemble] at h
    split at h
    · exact absurd h id
    · split at h
      · next hf =>
        rcases h with ⟨rfl, rfl, rfl⟩ | h
        · exact stat_find_ag hag hf
        · refine ih ?_ h
          intro e k he
          simp only [State.set] at he
          split at he
          · simp at he
          · exact hag e k he
      · next hf =>
        rcases h with ⟨rfl, rfl, rfl⟩ | ⟨k, hk, h⟩
        · exact stat_grow hag (stat_find.2 _ hf)
        refine ih ?_ h
        intro e k' he
        simp only [State.set] at he
        split at he
        · next heq =>
          injection heq with heq
          subst heq
          simp only [Option.some.injEq, Val.lit.injEq] at he
          rw [← he]
          exact litIdx_eq_some hk
        · exact hag e k' he
      · exact absurd h id

theorem stat_mapDims {S : Sig} {f : Dim → Dim} {st u : State} {q : Dim} {t : Bool} {n : Nat}
    (hag : ∀ e, S.anyAccept e = true → u (.idx e) = st (.idx (f e))) (h : (S.mapDims f).stat st q t n) :
    ∃ e, f e = q ∧ S.stat u e t n := by
  induction S with
  | scalar s => exact absurd h id
  | void => exact absurd h id
  | ill => exact absurd h id
  | fn d l r ih =>
    rcases h with ⟨rfl, h⟩ | h
    · exact ⟨d, rfl, .inl ⟨rfl, h⟩⟩
    · obtain ⟨e, h1, h2⟩ := ih (fun e he => hag e (accept_fn.2 (.inr he))) h
      exact ⟨e, h1, .inr h2⟩
  | dep d m rs ih =>
    rcases h with ⟨rfl, h⟩ | ⟨k, hk, h⟩
    · exact ⟨d, rfl, .inl ⟨rfl, h⟩⟩
    obtain ⟨e, h1, h2⟩ := ih k (fun e he => hag e (accept_dep.2 (.inr ⟨k, he⟩))) h
    rw [← hag d (accept_dep.2 (.inl rfl))] at hk
    exact ⟨e, h1, .inr ⟨k, hk, h2⟩⟩

theorem stat_union2 {S1 S2 : Sig} {st : State} {q : Dim} {t : Bool} {n : Nat} (h : (union2 S1 S2).stat st q t n) :
    S1.stat st q t n ∨ (S1.anyAccept q = false ∧ S2.stat st q t n) := by
  induction S2 with
  | scalar s => exact .inl h
  | void => exact .inl h
  | ill => exact absurd h id
  | dep d m rs => exact absurd h id
  | fn d l r ih =>
    simp only [union2] at h
    split at h
    · exact (ih h).imp_right fun h => ⟨h.1, .inr h.2⟩
    · next hd =>
      rcases h with ⟨rfl, h⟩ | h
      · exact .inr ⟨by simpa using hd, .inl ⟨rfl, h⟩⟩
      · exact (ih h).imp_right fun h => ⟨h.1, .inr h.2⟩

theorem union2_wf {S1 S2 : Sig} (h : (union2 S1 S2).wf = true) :
    S1.wf = true ∧ ∀ q, (union2 S1 S2).anyAccept q = false → S1.anyAccept q = false ∧ S2.anyAccept q = false := by
  induction S2 with
  | scalar s => exact ⟨h, fun q hq => ⟨hq, rfl⟩⟩
  | void => exact ⟨h, fun q hq => ⟨hq, rfl⟩⟩
  | ill => simp [union2, wf] at h
  | dep d m rs => simp [union2, wf] at h
  | fn d l r ih =>
    simp only [union2] at h ⊢
    split at h
    · next hd =>
      rw [if_pos hd]
      refine ⟨(ih h).1, fun q hq => ?_⟩
      have := (ih h).2 q hq
      have hne : d ≠ q := by rintro rfl; rw [hd] at this; cases this.1
      simp [anyAccept, this, hne]
    · next hd =>
      rw [if_neg hd]
      refine ⟨(ih h).1, fun q hq => ?_⟩
      simp only [anyAccept, Bool.or_eq_false_iff] at hq ⊢
      have := (ih h).2 q hq.2
      exact ⟨this.1, hq.1, this.2⟩

theorem foldl_union2_wf {l : List Sig} {S : Sig} (h : (l.foldl union2 S).wf = true) : S.wf = true := by
  induction l generalizing S with
  | nil => exact h
  | cons T l ih => exact (union2_wf (ih h)).1

/-- A dimension of a union has the static length of the first member that has the dimension. -/
theorem stat_unionAll {l : List Sig} {st : State} {q : Dim} {t : Bool} {n : Nat} (hw : (unionAll l).wf = true)
    (h : (unionAll l).stat st q t n) :
    ∃ (i : Nat) (hi : i < l.length), l[i].stat st q t n ∧ ∀ (j : Nat) (hj : j < i), l[j].anyAccept q = false := by
  cases l with
  | nil => exact absurd h id
  | cons S l =>
    simp only [unionAll] at h hw
    have key : ∀ (l : List Sig) (S : Sig), (l.foldl union2 S).wf = true → (l.foldl union2 S).stat st q t n →
        S.stat st q t n ∨
        (S.anyAccept q = false ∧ ∃ (i : Nat) (hi : i < l.length), l[i].stat st q t n ∧
          ∀ (j : Nat) (hj : j < i), l[j].anyAccept q = false) := by
      intro l
      induction l with
      | nil => intro S _ h; exact .inl h
      | cons T l ih =>
        intro S hw h
        rcases ih _ hw h with h | ⟨h1, i, hi, h2, h3⟩
        · rcases stat_union2 h with h | ⟨h1, h2⟩
          · exact .inl h
          · exact .inr ⟨h1, 0, by simp, h2, by simp⟩
        · have hno := (union2_wf (foldl_union2_wf (l := l) hw)).2 q h1
          refine .inr ⟨hno.1, i + 1, by simpa using hi, by simpa using h2, fun j hj => ?_⟩
          cases j with
          | zero => exact hno.2
          | succ j => simpa using h3 j (by omega)
    rcases key l S hw h with h | ⟨h1, i, hi, h2, h3⟩
    · exact ⟨0, by simp, h, by simp⟩
    · refine ⟨i + 1, by simpa using hi, by simpa using h2, fun j hj => ?_⟩
      cases j with
      | zero => exact h1
      | succ j => simpa using h3 j (by omega)

end Sig

end Noarr
