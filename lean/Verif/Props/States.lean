import Verif.StateListLemmas

/-
C01 - C04: states behave as finite maps, merge right-biased, can be added and subtracted exactly,
and are partially ordered.
-/

namespace Noarr.LState

private theorem not_iff_not_iff {p q : Prop} : (¬ p ↔ ¬ q) ↔ (p ↔ q) := by
  by_cases hp : p <;> by_cases hq : q <;> simp [hp, hq]

/-! ### C01 -/

/-- C01: a written tag reads back the written value, any other tag is unchanged. -/
theorem C01_with_get (s new : LState) (hnew : (tags new).Nodup) :
    (∀ t v, (t, v) ∈ new → (s.withItems new).get t = some v) ∧
    (∀ t, t ∉ tags new → (s.withItems new).get t = s.get t) := by
  have key : ∀ (l : LState), (tags l).Nodup → ∀ t v, (t, v) ∈ l → l.get t = some v := by
    intro l
    induction l with
    | nil => simp
    | cons q r ih =>
      obtain ⟨t', v'⟩ := q
      intro hn t v hm
      simp only [tags, List.map_cons, List.nodup_cons] at hn
      simp only [List.mem_cons, Prod.mk.injEq] at hm
      simp only [get]
      rcases hm with ⟨rfl, rfl⟩ | hm
      · simp
      · have : t' ≠ t := by
          rintro rfl
          exact hn.1 (List.mem_map.2 ⟨_, hm, rfl⟩)
        simp only [this, ↓reduceIte]
        exact ih hn.2 t v hm
  refine ⟨fun t v h => ?_, fun t h => ?_⟩
  · rw [get_withItems, if_pos (show t ∈ tags new from List.mem_map.2 ⟨(t, v), h, rfl⟩)]
    exact key new hnew t v h
  · rw [get_withItems, if_neg h]

example : (withItems [(.idx 0, .dyn 3), (.len 0, .dyn 9)] [(.idx 0, .lit 7)]).get (.idx 0)
    = some (.lit 7) := by decide

/-- C01: removed tags are absent, any other tag is unchanged. -/
theorem C01_remove_get (s : LState) (ts : List Tag) :
    (∀ t, t ∈ ts → (s.remove ts).contains t = false) ∧
    (∀ t, t ∉ ts → (s.remove ts).get t = s.get t) := by
  refine ⟨fun t h => ?_, fun t h => ?_⟩
  · simp [contains, get_remove, h]
  · simp [get_remove, h]

example : (remove [(.idx 0, .dyn 3), (.len 0, .dyn 9)] [.idx 0]).get (.len 0)
    = some (.dyn 9) := by decide

/-- C01: `filter` keeps exactly the listed tags. -/
theorem C01_filter_get (s : LState) (ts : List Tag) (t : Tag) :
    (s.filter ts).get t = if t ∈ ts then s.get t else none := get_filter s ts t

/-- C01: the operations never store a tag twice. -/
theorem C01_nodup (s new : LState) (ts : List Tag) (hs : (tags s).Nodup)
    (hnew : (tags new).Nodup) :
    (tags (s.withItems new)).Nodup ∧ (tags (s.remove ts)).Nodup ∧ (tags (s.filter ts)).Nodup ∧
    (tags (s.merge new)).Nodup := by
  have hw : ∀ n : LState, (tags n).Nodup → (tags (s.withItems n)).Nodup := by
    intro n hn
    rw [tags_withItems, List.nodup_append]
    refine ⟨hs.filter _, hn, ?_⟩
    intro a ha b hb hab
    simp only [List.mem_filter, decide_eq_true_eq] at ha
    exact ha.2 (hab ▸ hb)
  refine ⟨hw new hnew, ?_, ?_, ?_⟩
  · rw [remove, tags_restrict, tags_removeItems]
    exact hs.filter _
  · rw [filter, tags_restrict, tags_filterItems]
    exact hs.filter _
  · exact hw _ (by rw [tags_map_self]; exact hnew)

/-- C01: the item list implements the map used by the model of the structures: looking up,
writing, removing and testing for presence agree. -/
theorem C01_implements_map (s : LState) (t : Tag) (v : IVal) (ts : List Tag) :
    (s.withItems [(t, v)]).toState = s.toState.set t v.toVal ∧
    (s.remove ts).toState = s.toState.removeAll ts ∧
    s.toState.has t = s.contains t ∧
    toState [] = State.empty := by
  refine ⟨?_, ?_, ?_, ?_⟩
  · funext u
    simp only [toState, get_withItems, tags, List.map_cons, List.map_nil, List.mem_singleton, get,
      State.set]
    by_cases h : u = t
    · simp [h]
    · simp [h]
  · funext u
    simp only [toState, get_remove, State.removeAll]
    by_cases h : u ∈ ts <;> simp [h]
  · simp [toState, State.has, contains]
  · rfl

/-! ### C02 -/

/-- C02: the right operand of `&` wins. -/
theorem C02_merge_get (a b : LState) (t : Tag) :
    (b.contains t = true → (a.merge b).get t = b.get t) ∧
    (b.contains t = false → (a.merge b).get t = a.get t) := by
  rw [get_merge]
  unfold contains
  cases b.get t <;> simp

/-- C02: `&` is associative and the empty state is neutral, for every lookup. -/
theorem C02_merge_monoid (a b c : LState) (t : Tag) :
    ((a.merge b).merge c).get t = (a.merge (b.merge c)).get t ∧
    (a.merge []).get t = a.get t ∧ (merge [] a).get t = a.get t := by
  simp only [get_merge, get]
  cases c.get t <;> cases b.get t <;> simp

example : (merge [(.idx 0, .dyn 3), (.idx 1, .dyn 4)] [(.idx 1, .dyn 5)]).get (.idx 1)
    = some (.dyn 5) := by decide

/-! ### C03 -/

/-- All the values are run-time values of a `W`-bounded type (`size_t`). -/
def IsDyn (W : Nat) (s : LState) : Prop := ∀ t v, s.get t = some v → ∃ n, v = .dyn n ∧ n < W

/-- What addition should give for one tag. -/
def addSpec (W : Nat) : Option IVal → Option IVal → Option IVal
  | some x, some y => some (.dyn ((x.num + y.num) % W))
  | some x, none => some x
  | none, y => y

/-- What subtraction should give for one tag. -/
def subSpec (W : Nat) : Option IVal → Option IVal → Option IVal
  | some x, some y => some (.dyn ((x.num + W - y.num) % W))
  | some x, none => some x
  | none, some y => some (.dyn ((W - y.num) % W))
  | none, none => none

private theorem combine_exists {op : IVal → IVal → Option IVal} {a b : LState} :
    ∀ kept : LState, (∀ t ∈ tags kept, ∃ x y z, a.get t = some x ∧ b.get t = some y ∧
      op x y = some z) → ∃ r, combine op a b kept = some r
  | [], _ => ⟨[], rfl⟩
  | (t, v) :: r, h => by
    obtain ⟨x, y, z, hx, hy, hz⟩ := h t (by simp [tags])
    obtain ⟨r', hr'⟩ := combine_exists r (fun u hu => h u (by
      simp only [tags, List.map_cons, List.mem_cons] at hu ⊢; exact Or.inr hu))
    refine ⟨(t, z) :: r', ?_⟩
    simp [combine, hx, hy, hz, hr']

private theorem neg_exists {W : Nat} : ∀ s : LState, (∀ t v, (t, v) ∈ s → ∃ n, v = .dyn n) →
    ∃ r, neg W s = some r
  | [], _ => ⟨[], rfl⟩
  | (t, v) :: r, h => by
    obtain ⟨n, rfl⟩ := h t v (by simp)
    obtain ⟨r', hr'⟩ := neg_exists (W := W) r (fun u w hu => h u w (by simp [hu]))
    exact ⟨(t, .dyn ((W - n % W) % W)) :: r', by simp [neg, negVal, hr']⟩

private theorem mem_restrict_get {s kept : LState} {t : Tag} {v : IVal}
    (hk : ∀ u ∈ tags kept, u ∈ tags s) (h : (t, v) ∈ restrict s kept) : s.get t = some v := by
  simp only [restrict, List.mem_map] at h
  obtain ⟨p, hp, hpe⟩ := h
  obtain ⟨t', v'⟩ := p
  simp only [Prod.mk.injEq] at hpe
  obtain ⟨rfl, rfl⟩ := hpe
  cases hg : s.get t' with
  | none => exact absurd (hk t' (List.mem_map.2 ⟨_, hp, rfl⟩)) ((get_eq_none_iff s t').1 hg)
  | some w => simp

private theorem mem_tags_base_add {a b : LState} (u : Tag) :
    u ∈ tags ((a.restrict (removeItems a (tags b))).merge (b.restrict (removeItems b (tags a)))) ↔
      (u ∈ tags a ∧ u ∉ tags b) ∨ (u ∈ tags b ∧ u ∉ tags a) := by
  rw [← not_iff_not_iff, ← get_eq_none_iff, get_merge, get_restrict_removeItems,
    get_restrict_removeItems]
  by_cases ha : u ∈ tags a <;> by_cases hb : u ∈ tags b
  · simp [ha, hb]
  · have := mt (get_eq_none_iff a u).1 (by simpa using ha)
    simp [ha, hb, this]
  · have := mt (get_eq_none_iff b u).1 (by simpa using hb)
    simp [ha, hb, this]
  · simp [ha, hb, (get_eq_none_iff a u).2 ha, (get_eq_none_iff b u).2 hb]

/-- C03: adding two states compiles if the items that are in both are run-time values in the left one. It gives,
per tag, the sum modulo `2^64` if both have the tag and the only value otherwise. -/
theorem C03_add (W : Nat) (a b : LState)
    (ha : ∀ t x y, a.get t = some x → b.get t = some y → ∃ n, x = .dyn n ∧ n < W) :
    ∃ r, add W a b = some r ∧ ∀ t, r.get t = addSpec W (a.get t) (b.get t) := by
  obtain ⟨added, hadd⟩ := combine_exists (op := addVal W) (a := a) (b := b)
    (removeItems a (tags ((a.restrict (removeItems a (tags b))).merge
      (b.restrict (removeItems b (tags a)))))) (by
    intro t ht
    rw [tags_removeItems, List.mem_filter, decide_eq_true_eq, mem_tags_base_add] at ht
    have hta : t ∈ tags a := ht.1
    have htb : t ∈ tags b := by
      refine Classical.byContradiction fun h => ht.2 (Or.inl ⟨hta, h⟩)
    obtain ⟨x, hx⟩ := Option.ne_none_iff_exists'.1 (mt (get_eq_none_iff a t).1 (by simpa using hta))
    obtain ⟨y, hy⟩ := Option.ne_none_iff_exists'.1 (mt (get_eq_none_iff b t).1 (by simpa using htb))
    obtain ⟨n, rfl, -⟩ := ha t x y hx hy
    exact ⟨_, y, _, hx, hy, rfl⟩)
  refine ⟨_, by simp only [add, hadd]; rfl, fun t => ?_⟩
  rw [get_merge, get_merge, get_restrict_removeItems, get_restrict_removeItems]
  have hc := get_combine hadd t
  rw [get_removeItems] at hc
  cases hga : a.get t with
  | none =>
    have hna : t ∉ tags a := (get_eq_none_iff a t).1 hga
    cases hgb : b.get t with
    | none => simp [hga, hna, addSpec] at hc ⊢; exact hc
    | some y => simp [hna, addSpec]
  | some x =>
    have hta : t ∈ tags a := by
      refine Classical.byContradiction fun h => ?_
      rw [(get_eq_none_iff a t).2 h] at hga; cases hga
    cases hgb : b.get t with
    | none =>
      have hnb : t ∉ tags b := (get_eq_none_iff b t).1 hgb
      simp [hnb, addSpec, hta]
    | some y =>
      have htb : t ∈ tags b := by
        refine Classical.byContradiction fun h => ?_
        rw [(get_eq_none_iff b t).2 h] at hgb; cases hgb
      have hnot : ¬ t ∈ tags ((a.restrict (removeItems a (tags b))).merge
          (b.restrict (removeItems b (tags a)))) := by
        rw [mem_tags_base_add]; simp [hta, htb]
      rw [if_neg hnot] at hc
      obtain ⟨y', z, hy', hz, hr⟩ := hc.2 x hga
      rw [hgb] at hy'
      cases hy'
      rw [hga] at hz
      obtain ⟨n, rfl, -⟩ := ha t x _ hga hgb
      simp only [Option.getD_some, addVal, Option.some.injEq] at hz
      simp [hta, htb, hr, addSpec, ← hz, IVal.num]

example : add (2 ^ 64) [(.idx 0, .dyn 3), (.idx 1, .dyn (2 ^ 64 - 1))]
    [(.idx 1, .dyn 2), (.idx 2, .dyn 5)]
    = some [(.idx 1, .dyn 1), (.idx 0, .dyn 3), (.idx 2, .dyn 5)] := by decide

private theorem neg_num {W n : Nat} (h : n < W) : (W - n % W) % W = (W - n) % W := by
  rw [Nat.mod_eq_of_lt h]

/-- C03: subtracting a state of run-time values, per tag, modulo `2^64`; the items that are in both are run-time
values in the left one. -/
theorem C03_sub (W : Nat) (a b : LState)
    (ha : ∀ t x y, a.get t = some x → b.get t = some y → ∃ n, x = .dyn n ∧ n < W) (hb : IsDyn W b) :
    ∃ r, sub W a b = some r ∧ ∀ t, r.get t = subSpec W (a.get t) (b.get t) := by
  obtain ⟨nb, hnb⟩ := neg_exists (W := W) (b.restrict (removeItems b (tags a))) (by
    intro t v h
    have := mem_restrict_get (by
      intro u hu
      rw [tags_removeItems, List.mem_filter] at hu
      exact hu.1) h
    obtain ⟨n, rfl, -⟩ := hb t v this
    exact ⟨n, rfl⟩)
  have hgnb : ∀ t, nb.get t = if t ∈ tags a then none else
      (b.get t).map (fun v => .dyn ((W - v.num) % W)) := by
    intro t
    have h := get_neg hnb t
    rw [get_restrict_removeItems] at h
    by_cases hta : t ∈ tags a
    · simp only [hta, ↓reduceIte] at h ⊢
      simpa using h.1
    · simp only [hta, ↓reduceIte] at h ⊢
      cases hgb : b.get t with
      | none => simpa using h.1 hgb
      | some v =>
        obtain ⟨v', hv', hr⟩ := h.2 v hgb
        obtain ⟨n, rfl, hn⟩ := hb t v hgb
        simp only [negVal, Option.some.injEq] at hv'
        rw [hr, ← hv', neg_num hn]; rfl
  have hbase : ∀ u, u ∈ tags ((a.restrict (removeItems a (tags b))).merge nb) ↔
      (u ∈ tags a ∧ u ∉ tags b) ∨ (u ∈ tags b ∧ u ∉ tags a) := by
    intro u
    rw [← not_iff_not_iff, ← get_eq_none_iff, get_merge, get_restrict_removeItems, hgnb]
    by_cases hua : u ∈ tags a <;> by_cases hub : u ∈ tags b
    · simp [hua, hub]
    · have := mt (get_eq_none_iff a u).1 (by simpa using hua)
      simp [hua, hub, this]
    · have := mt (get_eq_none_iff b u).1 (by simpa using hub)
      simp [hua, hub, this]
    · simp [hua, hub, (get_eq_none_iff a u).2 hua, (get_eq_none_iff b u).2 hub]
  obtain ⟨added, hadd⟩ := combine_exists (op := subVal W) (a := a) (b := b)
    (removeItems a (tags ((a.restrict (removeItems a (tags b))).merge nb))) (by
    intro t ht
    rw [tags_removeItems, List.mem_filter, decide_eq_true_eq, hbase] at ht
    have hta : t ∈ tags a := ht.1
    have htb : t ∈ tags b := by
      refine Classical.byContradiction fun h => ht.2 (Or.inl ⟨hta, h⟩)
    obtain ⟨x, hx⟩ := Option.ne_none_iff_exists'.1 (mt (get_eq_none_iff a t).1 (by simpa using hta))
    obtain ⟨y, hy⟩ := Option.ne_none_iff_exists'.1 (mt (get_eq_none_iff b t).1 (by simpa using htb))
    obtain ⟨n, rfl, -⟩ := ha t x y hx hy
    exact ⟨_, y, _, hx, hy, rfl⟩)
  refine ⟨_, by simp only [sub, hnb, Option.bind_eq_bind, Option.bind_some, hadd]; rfl, fun t => ?_⟩
  have hc := get_combine hadd t
  rw [get_removeItems] at hc
  rw [get_merge, get_merge, get_restrict_removeItems, hgnb]
  cases hga : a.get t with
  | none =>
    have hna : t ∉ tags a := (get_eq_none_iff a t).1 hga
    cases hgb : b.get t with
    | none => simp [hga, hna, subSpec] at hc ⊢; exact hc
    | some y => simp [hna, subSpec]
  | some x =>
    have hta : t ∈ tags a := by
      refine Classical.byContradiction fun h => ?_
      rw [(get_eq_none_iff a t).2 h] at hga; cases hga
    cases hgb : b.get t with
    | none =>
      have hnb : t ∉ tags b := (get_eq_none_iff b t).1 hgb
      simp [hnb, subSpec, hta]
    | some y =>
      have htb : t ∈ tags b := by
        refine Classical.byContradiction fun h => ?_
        rw [(get_eq_none_iff b t).2 h] at hgb; cases hgb
      have hnot : ¬ t ∈ tags ((a.restrict (removeItems a (tags b))).merge nb) := by
        rw [hbase]; simp [hta, htb]
      rw [if_neg hnot] at hc
      obtain ⟨y', z, hy', hz, hr⟩ := hc.2 x hga
      rw [hgb] at hy'
      cases hy'
      rw [hga] at hz
      obtain ⟨n, rfl, hn⟩ := ha t x _ hga hgb
      obtain ⟨m, rfl, hm⟩ := hb t _ hgb
      simp only [Option.getD_some, subVal, Option.some.injEq, IVal.num] at hz
      simp only [hta, htb, ↓reduceIte, Option.or_none, Option.none_or, hr, subSpec, ← hz, IVal.num,
        Nat.mod_eq_of_lt hm]
      congr 3; omega

/-- C03: `(a + b) - b` restores `a` on its tags, even if the addition wrapped around; the tags that
only `b` has become zero. The items of `a` that `b` does not have may be constants. -/
theorem C03_add_sub (W : Nat) (a b : LState)
    (ha : ∀ t x y, a.get t = some x → b.get t = some y → ∃ n, x = .dyn n ∧ n < W) (hb : IsDyn W b) :
    ∃ s r, add W a b = some s ∧ sub W s b = some r ∧
      ∀ t, r.get t = match a.get t, b.get t with
        | some x, _ => some x
        | none, some _ => some (.dyn 0)
        | none, none => none := by
  obtain ⟨s, hs, hsg⟩ := C03_add W a b ha
  have hsd : ∀ t x y, s.get t = some x → b.get t = some y → ∃ n, x = .dyn n ∧ n < W := by
    intro t v y h hgb
    rw [hsg] at h
    cases hga : a.get t with
    | none =>
      rw [hga, hgb] at h
      simp only [addSpec, Option.some.injEq] at h
      subst h; exact hb t _ hgb
    | some x =>
      obtain ⟨n, rfl, hn⟩ := ha t x y hga hgb
      rw [hga, hgb] at h
      simp only [addSpec, Option.some.injEq] at h
      subst h; exact ⟨_, rfl, Nat.mod_lt _ (by omega)⟩
  obtain ⟨r, hr, hrg⟩ := C03_sub W s b hsd hb
  refine ⟨s, r, hs, hr, fun t => ?_⟩
  rw [hrg, hsg]
  cases hga : a.get t with
  | none =>
    cases hgb : b.get t with
    | none => simp [addSpec, subSpec]
    | some y =>
      obtain ⟨m, rfl, hm⟩ := hb t y hgb
      simp only [addSpec, subSpec, IVal.num, Option.some.injEq, IVal.dyn.injEq]
      rw [show m + W - m = W by omega]; simp
  | some x =>
    cases hgb : b.get t with
    | none => simp [addSpec, subSpec]
    | some y =>
      obtain ⟨n, rfl, hn⟩ := ha t x y hga hgb
      obtain ⟨m, rfl, hm⟩ := hb t y hgb
      simp only [addSpec, subSpec, IVal.num, Option.some.injEq, IVal.dyn.injEq]
      by_cases hlt : n + m < W
      · rw [Nat.mod_eq_of_lt hlt, show n + m + W - m = n + W by omega, Nat.add_mod_right,
          Nat.mod_eq_of_lt hn]
      · rw [show (n + m) % W = n + m - W by
          rw [Nat.mod_eq_sub_mod (by omega), Nat.mod_eq_of_lt (by omega)],
          show n + m - W + W - m = n by omega, Nat.mod_eq_of_lt hn]

example : (do
    let s ← add (2 ^ 64) [(.idx 0, .dyn (2 ^ 64 - 1))] [(.idx 0, .dyn 2), (.idx 1, .dyn 5)]
    sub (2 ^ 64) s [(.idx 0, .dyn 2), (.idx 1, .dyn 5)])
    = some [(.idx 0, .dyn (2 ^ 64 - 1)), (.idx 1, .dyn 0)] := by decide

/-- C03: unary minus is the additive inverse. -/
theorem C03_neg (W : Nat) (a : LState) (ha : ∀ t v, (t, v) ∈ a → ∃ n, v = .dyn n ∧ n < W) :
    ∃ r, neg W a = some r ∧ ∀ t v, a.get t = some v →
      ∃ w, r.get t = some w ∧ (v.num + w.num) % W = 0 := by
  obtain ⟨r, hr⟩ := neg_exists (W := W) a (fun t v h => (ha t v h).imp fun _ h => h.1)
  refine ⟨r, hr, fun t v hv => ?_⟩
  have hm : ∀ s : LState, s.get t = some v → (t, v) ∈ s := by
    intro s
    induction s with
    | nil => simp [get]
    | cons q s ih =>
      obtain ⟨t', v'⟩ := q
      simp only [get, List.mem_cons, Prod.mk.injEq]
      by_cases h : t' = t
      · simp only [h, ↓reduceIte, Option.some.injEq]
        exact fun e => Or.inl ⟨trivial, e.symm⟩
      · simp only [h, ↓reduceIte]
        exact fun e => Or.inr (ih e)
  obtain ⟨n, rfl, hn⟩ := ha t v (hm a hv)
  obtain ⟨w, hw, hg⟩ := (get_neg hr t).2 _ hv
  simp only [negVal, Option.some.injEq] at hw
  refine ⟨w, hg, ?_⟩
  subst hw
  simp only [IVal.num]
  rw [Nat.mod_eq_of_lt hn]
  by_cases h0 : n = 0
  · subst h0; simp
  · rw [Nat.mod_eq_of_lt (show W - n < W by omega), show n + (W - n) = W by omega, Nat.mod_self]

private theorem addVal_exists (W : Nat) (x y : IVal) : ∃ z, addVal W x y = some z := by
  cases x <;> exact ⟨_, rfl⟩

private theorem subVal_exists (W : Nat) (x y : IVal) : ∃ z, subVal W x y = some z := by
  cases x <;> exact ⟨_, rfl⟩

private theorem neg_always {W : Nat} : ∀ s : LState, ∃ r, neg W s = some r
  | [] => ⟨[], rfl⟩
  | (t, v) :: r => by
    obtain ⟨r', hr'⟩ := neg_always (W := W) r
    cases v
    · exact ⟨_, by simp only [neg, negVal, hr']; rfl⟩
    · exact ⟨_, by simp only [neg, negVal, hr']; rfl⟩

private theorem mem_tags_of_get {s : LState} {t : Tag} {v : IVal} (h : s.get t = some v) : t ∈ tags s := by
  refine Classical.byContradiction fun hn => ?_
  rw [(get_eq_none_iff s t).2 hn] at h; cases h

/-- C03: all states can be added, subtracted and negated, also those with constants. Such a constant is not
changed by the operation: the constant of the left operand is the result, whatever the other operand is. -/
theorem C03_constants_are_kept (W : Nat) (a b : LState) :
    (∃ r, add W a b = some r ∧
      ∀ t x y, a.get t = some (.lit x) → b.get t = some y → r.get t = some (.lit x)) ∧
    (∃ r, sub W a b = some r ∧
      (∀ t x y, a.get t = some (.lit x) → b.get t = some y → r.get t = some (.lit x)) ∧
      (∀ t y, a.get t = none → b.get t = some (.lit y) → r.get t = some (.lit y))) ∧
    (∃ r, neg W a = some r ∧ ∀ t x, a.get t = some (.lit x) → r.get t = some (.lit x)) := by
  obtain ⟨nb, hnb⟩ := neg_always (W := W) (b.restrict (removeItems b (tags a)))
  have hnbn : ∀ t, t ∈ tags a → nb.get t = none := by
    intro t ht
    have h := get_neg hnb t
    rw [get_restrict_removeItems, if_pos ht] at h
    exact h.1 rfl
  have hnbt : ∀ t, t ∈ tags nb ↔ t ∈ tags b ∧ t ∉ tags a := by
    intro t
    rw [← not_iff_not_iff, ← get_eq_none_iff]
    have h := get_neg hnb t
    rw [get_restrict_removeItems] at h
    by_cases hta : t ∈ tags a
    · simp only [hta, not_true_eq_false, and_false, not_false_eq_true, iff_true]
      exact hnbn t hta
    · simp only [hta, ↓reduceIte, not_false_eq_true, and_true] at h ⊢
      cases hgb : b.get t with
      | none => simpa [(get_eq_none_iff b t).1 hgb] using h.1 hgb
      | some v =>
        obtain ⟨v', -, hr⟩ := h.2 v hgb
        simp [hr, mem_tags_of_get hgb]
  have hbase : ∀ u, u ∈ tags ((a.restrict (removeItems a (tags b))).merge nb) ↔
      (u ∈ tags a ∧ u ∉ tags b) ∨ (u ∈ tags b ∧ u ∉ tags a) := by
    intro u
    rw [← not_iff_not_iff, ← get_eq_none_iff, get_merge, get_restrict_removeItems]
    have hn := hnbt u
    rw [← not_iff_not_iff, ← get_eq_none_iff] at hn
    by_cases hua : u ∈ tags a <;> by_cases hub : u ∈ tags b
    · simp [hua, hub, hn]
    · have := mt (get_eq_none_iff a u).1 (by simpa using hua)
      simp [hua, hub, this]
    · simp only [hua, hub, not_false_eq_true, and_true, and_false, not_true_eq_false, or_true, iff_false,
        Option.or_eq_none_iff] at hn ⊢
      exact fun h => hn h.1
    · simp [hua, hub, hn, (get_eq_none_iff a u).2 hua]
  have both : ∀ {op : IVal → IVal → Option IVal} {base : LState}, (∀ x y, ∃ z, op x y = some z) →
      (∀ u, u ∈ tags base ↔ (u ∈ tags a ∧ u ∉ tags b) ∨ (u ∈ tags b ∧ u ∉ tags a)) →
      ∃ r, combine op a b (removeItems a (tags base)) = some r := by
    intro op base hop hb
    refine combine_exists _ fun t ht => ?_
    rw [tags_removeItems, List.mem_filter, decide_eq_true_eq, hb] at ht
    have htb : t ∈ tags b := Classical.byContradiction fun h => ht.2 (Or.inl ⟨ht.1, h⟩)
    obtain ⟨x, hx⟩ := Option.ne_none_iff_exists'.1 (mt (get_eq_none_iff a t).1 (by simpa using ht.1))
    obtain ⟨y, hy⟩ := Option.ne_none_iff_exists'.1 (mt (get_eq_none_iff b t).1 (by simpa using htb))
    obtain ⟨z, hz⟩ := hop x y
    exact ⟨x, y, z, hx, hy, hz⟩
  have kept : ∀ {op : IVal → IVal → Option IVal} {base r : LState}, (∀ n y, op (.lit n) y = some (.lit n)) →
      (∀ u, u ∈ tags base ↔ (u ∈ tags a ∧ u ∉ tags b) ∨ (u ∈ tags b ∧ u ∉ tags a)) →
      combine op a b (removeItems a (tags base)) = some r →
      ∀ t x y, a.get t = some (.lit x) → b.get t = some y → (r.merge base).get t = some (.lit x) := by
    intro op base r hop hb hr t x y hx hy
    have hnot : t ∉ tags base := by rw [hb]; simp [mem_tags_of_get hx, mem_tags_of_get hy]
    have hc := get_combine hr t
    rw [get_removeItems, if_neg hnot] at hc
    obtain ⟨y', z, -, hz, hg⟩ := hc.2 _ hx
    rw [hx] at hz
    simp only [Option.getD_some, hop, Option.some.injEq] at hz
    rw [get_merge, (get_eq_none_iff base t).2 hnot, hg, ← hz]; rfl
  refine ⟨?_, ?_, ?_⟩
  · obtain ⟨added, hadd⟩ := both (addVal_exists W) mem_tags_base_add
    exact ⟨_, by simp only [add, hadd]; rfl, kept (fun _ _ => rfl) mem_tags_base_add hadd⟩
  · obtain ⟨added, hadd⟩ := both (subVal_exists W) hbase
    refine ⟨_, by simp only [sub, hnb, Option.bind_eq_bind, Option.bind_some, hadd],
      kept (fun _ _ => rfl) hbase hadd, fun t y hx hy => ?_⟩
    have hna : t ∉ tags a := (get_eq_none_iff a t).1 hx
    have h := get_neg hnb t
    rw [get_restrict_removeItems, if_neg hna] at h
    obtain ⟨v', hv', hg⟩ := h.2 _ hy
    simp only [negVal, Option.some.injEq] at hv'
    rw [get_merge, get_merge, hg, ← hv']; rfl
  · obtain ⟨r, hr⟩ := neg_always (W := W) a
    refine ⟨r, hr, fun t x hx => ?_⟩
    obtain ⟨v', hv', hg⟩ := (get_neg hr t).2 _ hx
    simp only [negVal, Option.some.injEq] at hv'
    rw [hg, ← hv']

/-- C03 is violated by constants: `idx<'x'>(lit<1>) + idx<'x'>(lit<2>)` is `lit<1>`,
`idx<'x'>(lit<1>) - idx<'x'>(lit<1>)` is `lit<1>`, and `-idx<'x'>(lit<1>)` is `lit<1>`. -/
theorem C03_constants_are_not_added :
    add (2 ^ 64) [(.idx 0, .lit 1)] [(.idx 0, .lit 2)] = some [(.idx 0, .lit 1)] ∧
    sub (2 ^ 64) [(.idx 0, .lit 1)] [(.idx 0, .lit 1)] = some [(.idx 0, .lit 1)] ∧
    neg (2 ^ 64) [(.idx 0, .lit 1)] = some [(.idx 0, .lit 1)] := by decide

/-! ### C04 -/

/-- `a == b` says that both states have the same tags with the same numbers. -/
theorem C04_eq_iff (a b : LState) :
    eq a b = true ↔ ∀ t, (a.get t).map IVal.num = (b.get t).map IVal.num := by
  simp only [eq, Bool.and_eq_true, List.all_eq_true, contains_iff, beq_iff_eq]
  constructor
  · rintro ⟨⟨h1, h2⟩, h3⟩ t
    by_cases ht : t ∈ tags a
    · exact h3 t ht
    · have hb : t ∉ tags b := fun h => ht (h2 t h)
      rw [(get_eq_none_iff a t).2 ht, (get_eq_none_iff b t).2 hb]
  · intro h
    have key : ∀ t, t ∈ tags a ↔ t ∈ tags b := by
      intro t
      rw [← not_iff_not_iff, ← get_eq_none_iff, ← get_eq_none_iff]
      have := h t
      cases h1 : a.get t <;> cases h2 : b.get t <;> simp_all
    exact ⟨⟨fun t ht => (key t).1 ht, fun t ht => (key t).2 ht⟩, fun t _ => h t⟩

/-- `a <= b` says that `b` has all the tags of `a`, with numbers at least as large. -/
theorem C04_le_iff (a b : LState) :
    le a b = true ↔ ∀ t x, a.get t = some x → ∃ y, b.get t = some y ∧ x.num ≤ y.num := by
  simp only [le, Bool.and_eq_true, List.all_eq_true, contains_iff]
  constructor
  · rintro ⟨h1, h2⟩ t x hx
    have hta : t ∈ tags a := by
      refine Classical.byContradiction fun h => ?_
      rw [(get_eq_none_iff a t).2 h] at hx; cases hx
    have h2' := h2 t hta
    rw [hx] at h2'
    cases hb : b.get t with
    | none => rw [hb] at h2'; simp at h2'
    | some y => rw [hb] at h2'; exact ⟨y, rfl, by simpa using h2'⟩
  · intro h
    have hex : ∀ t ∈ tags a, ∃ x, a.get t = some x := fun t ht =>
      Option.ne_none_iff_exists'.1 (mt (get_eq_none_iff a t).1 (by simpa using ht))
    refine ⟨fun t ht => ?_, fun t ht => ?_⟩
    · obtain ⟨x, hx⟩ := hex t ht
      obtain ⟨y, hy, -⟩ := h t x hx
      refine Classical.byContradiction fun hn => ?_
      rw [(get_eq_none_iff b t).2 hn] at hy; cases hy
    · obtain ⟨x, hx⟩ := hex t ht
      obtain ⟨y, hy, hxy⟩ := h t x hx
      simp [hx, hy, hxy]

/-- C04: `==` is an equivalence that does not depend on the order of the items. -/
theorem C04_eq_equivalence (a b c : LState) :
    eq a a = true ∧ (eq a b = true → eq b a = true) ∧
    (eq a b = true → eq b c = true → eq a c = true) ∧
    (∀ a' : LState, (tags a).Nodup → a.Perm a' → eq a a' = true) := by
  simp only [C04_eq_iff]
  refine ⟨fun _ => trivial, fun h t => (h t).symm, fun h1 h2 t => (h1 t).trans (h2 t), ?_⟩
  intro a' hn hp t
  have : ∀ {l l' : LState}, l.Perm l' → (tags l).Nodup → l.get t = l'.get t := by
    intro l l' h
    induction h with
    | nil => simp
    | cons x h ih =>
      intro hn
      obtain ⟨t', v⟩ := x
      simp only [tags, List.map_cons, List.nodup_cons] at hn
      simp only [get]
      rw [ih hn.2]
    | swap x y l =>
      intro hn
      obtain ⟨t1, v1⟩ := x
      obtain ⟨t2, v2⟩ := y
      simp only [tags, List.map_cons, List.nodup_cons, List.mem_cons, not_or] at hn
      simp only [get]
      by_cases h1 : t1 = t <;> by_cases h2 : t2 = t <;> simp_all
    | trans h1 h2 ih1 ih2 =>
      intro hn
      rw [ih1 hn]
      exact ih2 ((h1.map Prod.fst).nodup_iff.1 hn)
  rw [this hp hn]

example : eq [(.idx 0, .dyn 1), (.idx 1, .lit 2)] [(.idx 1, .dyn 2), (.idx 0, .dyn 1)] = true := by
  decide

/-- C04: `<=` is a partial order up to `==`; `<`, `>=`, `>` are derived from it. -/
theorem C04_le_order (a b c : LState) :
    le a a = true ∧ (le a b = true → le b c = true → le a c = true) ∧
    (le a b = true ∧ le b a = true ↔ eq a b = true) ∧
    (lt a b = true ↔ le a b = true ∧ le b a = false) ∧
    (ge a b = le b a) ∧ (gt a b = lt b a) := by
  have anti : le a b = true ∧ le b a = true ↔ eq a b = true := by
    rw [C04_le_iff, C04_le_iff, C04_eq_iff]
    constructor
    · rintro ⟨h1, h2⟩ t
      cases ha : a.get t with
      | none =>
        cases hb : b.get t with
        | none => rfl
        | some y => obtain ⟨x, hx, -⟩ := h2 t y hb; rw [ha] at hx; cases hx
      | some x =>
        obtain ⟨y, hy, hxy⟩ := h1 t x ha
        obtain ⟨x', hx', hyx⟩ := h2 t y hy
        rw [ha] at hx'
        cases hx'
        simp [hy]; omega
    · intro h
      refine ⟨fun t x hx => ?_, fun t y hy => ?_⟩
      · have := h t
        rw [hx] at this
        cases hb : b.get t with
        | none => rw [hb] at this; simp at this
        | some y => rw [hb] at this; simp at this; exact ⟨y, rfl, by omega⟩
      · have := h t
        rw [hy] at this
        cases ha : a.get t with
        | none => rw [ha] at this; simp at this
        | some x => rw [ha] at this; simp at this; exact ⟨x, rfl, by omega⟩
  refine ⟨?_, ?_, anti, ?_, rfl, rfl⟩
  · rw [C04_le_iff]; exact fun t x hx => ⟨x, hx, Nat.le_refl _⟩
  · simp only [C04_le_iff]
    intro h1 h2 t x hx
    obtain ⟨y, hy, hxy⟩ := h1 t x hx
    obtain ⟨z, hz, hyz⟩ := h2 t y hy
    exact ⟨z, hz, Nat.le_trans hxy hyz⟩
  · simp only [lt, Bool.and_eq_true, Bool.not_eq_true']
    constructor
    · rintro ⟨h1, h2⟩
      refine ⟨h1, ?_⟩
      cases h : le b a with
      | false => rfl
      | true => rw [anti.1 ⟨h1, h⟩] at h2; cases h2
    · rintro ⟨h1, h2⟩
      refine ⟨h1, ?_⟩
      cases h : eq a b with
      | false => rfl
      | true => rw [(anti.2 h).2] at h2; cases h2

example : lt [(.idx 0, .dyn 1)] [(.idx 0, .dyn 1), (.idx 1, .dyn 5)] = true := by decide

end Noarr.LState
