import Verif.StateList

namespace Noarr.LState

theorem get_removeItem (t u : Tag) (s : LState) :
    get (removeItem t s) u = if u = t then none else get s u := by
  induction s with
  | nil => simp [removeItem, get]
  | cons p r ih =>
    obtain ⟨t', v⟩ := p
    by_cases h : t' = t
    · subst h
      simp only [removeItem, ↓reduceIte, ih, get]
      by_cases hu : u = t'
      · simp [hu]
      · simp [hu, Ne.symm hu]
    · simp only [removeItem, h, ↓reduceIte, get, ih]
      by_cases hu : t' = u
      · subst hu; simp [h]
      · simp [hu]

theorem get_removeItems (ts : List Tag) (s : LState) (u : Tag) :
    get (removeItems s ts) u = if u ∈ ts then none else get s u := by
  induction ts generalizing s with
  | nil => simp [removeItems]
  | cons t ts ih =>
    simp only [removeItems, ih, get_removeItem, List.mem_cons]
    by_cases h1 : u ∈ ts <;> by_cases h2 : u = t <;> simp [h1, h2]

theorem get_filterItems (p : Tag → Bool) (s : LState) (u : Tag) :
    get (filterItems p s) u = if p u then get s u else none := by
  induction s with
  | nil => simp [filterItems, get]
  | cons q r ih =>
    obtain ⟨t, v⟩ := q
    by_cases h : p t
    · simp only [filterItems, h, ↓reduceIte, get, ih]
      by_cases hu : t = u
      · subst hu; simp [h]
      · simp [hu]
    · by_cases hu : t = u
      · subst hu; simp [filterItems, h, ih]
      · simp [filterItems, h, get, ih, hu]

theorem get_restrict (s kept : LState) (u : Tag) :
    get (restrict s kept) u = (get kept u).map (fun v => (get s u).getD v) := by
  induction kept with
  | nil => simp [restrict, get]
  | cons q r ih =>
    obtain ⟨t, v⟩ := q
    simp only [restrict, List.map_cons, get] at ih ⊢
    by_cases hu : t = u
    · subst hu; simp
    · simp [hu, ih]

theorem get_append (a b : LState) (u : Tag) :
    get (a ++ b) u = (get a u).or (get b u) := by
  induction a with
  | nil => simp [get]
  | cons q r ih =>
    obtain ⟨t, v⟩ := q
    simp only [List.cons_append, get]
    by_cases hu : t = u
    · simp [hu]
    · simp [hu, ih]

theorem get_eq_none_iff (s : LState) (u : Tag) : get s u = none ↔ u ∉ tags s := by
  induction s with
  | nil => simp [get, tags]
  | cons q r ih =>
    obtain ⟨t, v⟩ := q
    simp only [get, tags, List.map_cons, List.mem_cons, not_or]
    by_cases hu : t = u
    · simp [hu]
    · simp [hu, ih, Ne.symm hu, tags]

theorem contains_iff (s : LState) (u : Tag) : s.contains u = true ↔ u ∈ tags s := by
  unfold contains
  rw [Option.isSome_iff_ne_none, Ne, get_eq_none_iff, Classical.not_not]

theorem get_restrict_removeItems (s : LState) (ts : List Tag) (u : Tag) :
    get (restrict s (removeItems s ts)) u = if u ∈ ts then none else get s u := by
  rw [get_restrict, get_removeItems]
  by_cases h : u ∈ ts
  · simp [h]
  · simp only [h, ↓reduceIte]
    cases get s u <;> simp

theorem get_remove (s : LState) (ts : List Tag) (u : Tag) :
    get (s.remove ts) u = if u ∈ ts then none else get s u :=
  get_restrict_removeItems s ts u

theorem get_filter (s : LState) (ts : List Tag) (u : Tag) :
    get (s.filter ts) u = if u ∈ ts then get s u else none := by
  unfold filter
  rw [get_restrict, get_filterItems]
  by_cases h : u ∈ ts
  · simp only [h, decide_true, ↓reduceIte]
    cases get s u <;> simp
  · simp [h]

theorem get_withItems (s new : LState) (u : Tag) :
    get (s.withItems new) u = if u ∈ tags new then get new u else get s u := by
  unfold withItems
  rw [get_append, get_restrict_removeItems]
  by_cases h : u ∈ tags new
  · simp [h]
  · simp only [h, ↓reduceIte]
    rw [(get_eq_none_iff new u).2 h]
    simp

theorem get_map_self (b : LState) (s : LState) (u : Tag) :
    get (s.map fun tv => (tv.1, (b.get tv.1).getD tv.2)) u
      = (get s u).map (fun v => (get b u).getD v) := get_restrict b s u

theorem tags_map_self (b s : LState) :
    tags (s.map fun tv => (tv.1, (b.get tv.1).getD tv.2)) = tags s := by
  simp [tags]

theorem get_merge (a b : LState) (u : Tag) : get (a.merge b) u = (get b u).or (get a u) := by
  unfold merge
  rw [get_withItems, tags_map_self, get_map_self]
  by_cases h : u ∈ tags b
  · simp only [h, ↓reduceIte]
    cases hb : get b u with
    | none => exact absurd h ((get_eq_none_iff b u).1 hb)
    | some v => simp
  · simp only [h, ↓reduceIte]
    rw [(get_eq_none_iff b u).2 h]; simp

theorem tags_removeItem (t : Tag) (s : LState) :
    tags (removeItem t s) = (tags s).filter (fun u => decide (u ≠ t)) := by
  induction s with
  | nil => simp [removeItem, tags]
  | cons q r ih =>
    obtain ⟨t', v⟩ := q
    simp only [tags] at ih
    by_cases h : t' = t
    · simp [removeItem, h, tags, ih]
    · simp [removeItem, h, tags, ih]

theorem tags_removeItems (ts : List Tag) (s : LState) :
    tags (removeItems s ts) = (tags s).filter (fun u => decide (u ∉ ts)) := by
  induction ts generalizing s with
  | nil => simp only [removeItems, List.not_mem_nil, not_false_eq_true, decide_true, List.filter_eq_self.2 (fun _ _ => rfl)]
  | cons t ts ih =>
    simp only [removeItems, ih, tags_removeItem, List.filter_filter]
    congr 1
    funext u
    simp [List.mem_cons, not_or]
    by_cases h1 : u = t <;> by_cases h2 : u ∈ ts <;> simp [h1, h2]

theorem tags_restrict (s kept : LState) : tags (restrict s kept) = tags kept := by
  simp [restrict, tags]

theorem tags_filterItems (p : Tag → Bool) (s : LState) :
    tags (filterItems p s) = (tags s).filter p := by
  induction s with
  | nil => simp [filterItems, tags]
  | cons q r ih =>
    obtain ⟨t', v⟩ := q
    simp only [tags] at ih
    by_cases h : p t'
    · simp [filterItems, h, tags, ih]
    · simp [filterItems, h, tags, ih]

theorem tags_withItems (s new : LState) :
    tags (s.withItems new) = (tags s).filter (fun u => decide (u ∉ tags new)) ++ tags new := by
  have h : tags (s.restrict (removeItems s (tags new)) ++ new)
      = tags (s.restrict (removeItems s (tags new))) ++ tags new := by simp [tags]
  rw [withItems, h, tags_restrict, tags_removeItems]

theorem get_neg {W : Nat} {s r : LState} (h : neg W s = some r) (u : Tag) :
    (get s u = none → get r u = none) ∧
    (∀ v, get s u = some v → ∃ v', negVal W v = some v' ∧ get r u = some v') := by
  induction s generalizing r with
  | nil =>
    simp only [neg, Option.some.injEq] at h
    subst h; simp [get]
  | cons q s ih =>
    obtain ⟨t, v⟩ := q
    simp only [neg, Option.bind_eq_bind, Option.bind_eq_some_iff] at h
    obtain ⟨v', hv', r', hr', h⟩ := h
    simp only [Option.some.injEq] at h
    subst h
    by_cases hu : t = u
    · subst hu
      simp only [get, ↓reduceIte]
      exact ⟨by simp, fun w hw => ⟨v', by rw [← Option.some.inj hw]; exact hv', rfl⟩⟩
    · simp only [get, hu, ↓reduceIte]
      exact ih hr'

theorem get_combine {op : IVal → IVal → Option IVal} {a b kept r : LState}
    (h : combine op a b kept = some r) (u : Tag) :
    (get kept u = none → get r u = none) ∧
    (∀ v, get kept u = some v →
      ∃ y x, get b u = some y ∧ op ((get a u).getD v) y = some x ∧ get r u = some x) := by
  induction kept generalizing r with
  | nil =>
    simp only [combine, Option.some.injEq] at h
    subst h; simp [get]
  | cons q s ih =>
    obtain ⟨t, v⟩ := q
    simp only [combine, Option.bind_eq_bind, Option.bind_eq_some_iff] at h
    obtain ⟨y, hy, x, hx, r', hr', h⟩ := h
    simp only [Option.some.injEq] at h
    subst h
    by_cases hu : t = u
    · subst hu
      simp only [get, ↓reduceIte]
      refine ⟨by simp, fun w hw => ⟨y, x, hy, ?_, rfl⟩⟩
      simp only [Option.some.injEq] at hw
      exact hw ▸ hx
    · simp only [get, hu, ↓reduceIte]
      exact ih hr'

end Noarr.LState
