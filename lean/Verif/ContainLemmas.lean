import Verif.Contain

/-
Lemmas about the storage of parameters.
-/

namespace Noarr

theorem CVal.type_unit {α : Type} (n : Nat) : (CVal.unit n : CVal α).type = .empty n := rfl

theorem CVal.type_val {α : Type} (a : α) : (CVal.val a).type = .full := rfl

theorem containEmpty_iff : ∀ ts : List CType, containEmpty ts = true ↔ ∀ t ∈ ts, t.isEmpty = true
  | [] => by simp [containEmpty]
  | [T] => by simp [containEmpty]
  | T :: T' :: TS => by
    have ih := containEmpty_iff (T' :: TS)
    unfold containEmpty
    split
    · rename_i h
      rw [ih]
      simp [h]
    · rename_i h
      simp [h]

theorem containDefault_some {α : Type} : ∀ ts : List CType, (∀ t ∈ ts, t.isEmpty = true) →
    ∃ o : CObj α, containDefault ts = some o ∧ Contain.data o = [] ∧
      ∀ vs : List (CVal α), vs.map CVal.type = ts → ∀ i, containGet ts o i = vs[i]?
  | [], _ => ⟨.nothing, rfl, rfl, by rintro vs h i; simp at h; simp [h, containGet]⟩
  | [T], h => by
    have hT := h T (by simp)
    refine ⟨.nothing, by simp [containDefault, hT], rfl, fun vs hv i => ?_⟩
    match vs, hv with
    | [v], hv =>
      simp at hv
      subst hv
      cases v with
      | val a => simp [CVal.type, CType.isEmpty] at hT
      | unit n => cases i <;> simp [containGet, containGetOne, CVal.type]
  | T :: T' :: TS, h => by
    have hT := h T (by simp)
    obtain ⟨b, hb, hd, hg⟩ := containDefault_some (α := α) (T' :: TS) (fun t ht => h t (by simp at ht ⊢; exact .inr ht))
    refine ⟨.inherit b, by simp [containDefault, hT, hb], by simpa [Contain.data] using hd, fun vs hv i => ?_⟩
    match vs, hv with
    | v :: v' :: vs, hv =>
      simp only [List.map_cons, List.cons.injEq] at hv
      obtain ⟨h1, h2, h3⟩ := hv
      subst h1
      cases v with
      | val a => simp [CVal.type, CType.isEmpty] at hT
      | unit n =>
        cases i with
        | zero => simp [containGet, containGetOne, CVal.type, CType.isEmpty]
        | succ i =>
          simp only [containGet, CVal.type, CType.isEmpty, if_true]
          rw [hg (v' :: vs) (by simp [h2, h3])]
          simp

/-- the values that are stored -/
def storedVals {α : Type} (vs : List (CVal α)) : List α :=
  vs.filterMap fun v => match v with
    | .val a => some a
    | .unit _ => none

theorem storedVals_empty {α : Type} (vs : List (CVal α)) (h : ∀ v ∈ vs, v.type.isEmpty = true) :
    storedVals vs = [] := by
  unfold storedVals
  rw [List.filterMap_eq_nil_iff]
  intro v hv
  have := h v hv
  cases v <;> simp_all [CVal.type, CType.isEmpty]

theorem containMake_some {α : Type} : ∀ vs : List (CVal α),
    ∃ o : CObj α, containMake (vs.map CVal.type) vs = some o ∧ Contain.data o = storedVals vs ∧
      ∀ i, containGet (vs.map CVal.type) o i = vs[i]?
  | [] => ⟨.nothing, rfl, rfl, by intro i; simp [containGet]⟩
  | [v] => by
    cases v with
    | val a =>
      refine ⟨.single a, rfl, rfl, fun i => ?_⟩
      cases i <;> simp [containGet, containGetOne, CVal.type]
    | unit n =>
      refine ⟨.nothing, rfl, rfl, fun i => ?_⟩
      cases i <;> simp [containGet, containGetOne, CVal.type]
  | v :: v' :: vs => by
    obtain ⟨o, ho, hd, hg⟩ := containMake_some (v' :: vs)
    simp only [List.map_cons] at ho hg
    cases v with
    | unit n =>
      refine ⟨.inherit o, ?_, ?_, fun i => ?_⟩
      · simp [containMake, CVal.type_unit, CVal.type_val, CType.isEmpty, ho]
      · simpa [Contain.data, storedVals] using hd
      · cases i with
        | zero => simp [containGet, containGetOne, CVal.type_unit, CVal.type_val, CType.isEmpty]
        | succ i =>
          simp only [List.map_cons, containGet, CVal.type_unit, CVal.type_val, CType.isEmpty, if_true]
          rw [hg]
          simp
    | val a =>
      by_cases he : containEmpty (v'.type :: vs.map CVal.type) = true
      · obtain ⟨b, hb, hbd, hbg⟩ := containDefault_some (α := α) _ ((containEmpty_iff _).1 he)
        refine ⟨.append b (.single a), ?_, ?_, fun i => ?_⟩
        · simp [containMake, CVal.type_unit, CVal.type_val, CType.isEmpty, he, hb, containOne]
        · have : storedVals (v' :: vs) = [] := by
            refine storedVals_empty _ fun w hw => ?_
            refine (containEmpty_iff _).1 he _ ?_
            rw [← List.map_cons]
            exact List.mem_map_of_mem hw
          simp only [Contain.data, hbd, List.nil_append]
          unfold storedVals at this ⊢
          simp only [List.filterMap_cons] at this ⊢
          rw [this]
        · cases i with
          | zero => simp [containGet, containGetOne, CVal.type_unit, CVal.type_val, CType.isEmpty, he]
          | succ i =>
            simp only [List.map_cons, containGet, CVal.type_unit, CVal.type_val, CType.isEmpty, he, if_true]
            simp only [Bool.false_eq_true, if_false]
            rw [hbg (v' :: vs) (by simp)]
            simp
      · refine ⟨.pair (.single a) o, ?_, ?_, fun i => ?_⟩
        · simp [containMake, CVal.type_unit, CVal.type_val, CType.isEmpty, he, ho, containOne]
        · simp only [Contain.data, hd]
          simp [storedVals]
        · cases i with
          | zero => simp [containGet, containGetOne, CVal.type_unit, CVal.type_val, CType.isEmpty, he]
          | succ i =>
            simp only [List.map_cons, containGet, CVal.type_unit, CVal.type_val, CType.isEmpty, he]
            simp only [Bool.false_eq_true, if_false]
            rw [hg]
            simp

theorem contain_fields {α : Type} {c : Contain α} {vs : List (CVal α)} (hs : c.size = vs.length)
    (hg : ∀ i, c.get i = vs[i]?) : c.fields = some vs := by
  unfold Contain.fields
  rw [hs]
  have : ∀ (pre post : List (CVal α)), pre ++ post = vs →
      (List.range' pre.length post.length).mapM c.get = some post := by
    intro pre post
    induction post generalizing pre with
    | nil => intro _; rfl
    | cons v post ih =>
      intro h
      have h1 := ih (pre ++ [v]) (by simpa using h)
      simp only [List.length_append, List.length_singleton] at h1
      have h2 : c.get pre.length = some v := by rw [hg, ← h]; simp
      simp [List.range'_succ, h1, h2]
  have h := this [] vs rfl
  simpa [List.range_eq_range'] using h

end Noarr
