import Verif.Mangle

/-
Lemmas on textual names, for C43.
-/

set_option linter.unusedSimpArgs false

namespace Noarr

/-- the number that a digit stands for -/
def digitValue (c : Char) : Nat := c.toNat - '0'.toNat

/-- The text is the decimal representation of the number: digits only, at least one, no leading zero, and
the sum of the digits with their weights is the number. -/
structure Decimal (cs : List Char) (n : Nat) : Prop where
  nonempty : cs ≠ []
  digits : ∀ c ∈ cs, c.isDigit
  leading : ∀ rest, cs = '0' :: rest → rest = []
  value : cs.foldl (fun a c => 10 * a + digitValue c) 0 = n

theorem Decimal.inj {cs : List Char} {n m : Nat} (h : Decimal cs n) (h' : Decimal cs m) : n = m :=
  h.value.symm.trans h'.value

theorem digitChar_cases (n : Nat) : (digitChar n).isDigit ∧ digitValue (digitChar n) = n % 10 ∧
    (digitChar n = '0' → n % 10 = 0) := by
  have h : n % 10 < 10 := Nat.mod_lt _ (by omega)
  simp only [digitChar, digitValue]
  generalize n % 10 = k at h
  have : k = 0 ∨ k = 1 ∨ k = 2 ∨ k = 3 ∨ k = 4 ∨ k = 5 ∨ k = 6 ∨ k = 7 ∨ k = 8 ∨ k = 9 := by omega
  rcases this with rfl | rfl | rfl | rfl | rfl | rfl | rfl | rfl | rfl | rfl <;> decide

/-- the digits of a number -/
def decDigits (v : Nat) : List Char :=
  if h : v < 10 then [digitChar v] else decDigits (v / 10) ++ [digitChar v]
termination_by v
decreasing_by omega

theorem mangleNat_eq (v : Nat) (acc : List Char) : mangleNat v acc = decDigits v ++ acc := by
  induction v using Nat.strongRecOn generalizing acc with
  | ind v ih =>
    rw [mangleNat, decDigits]
    by_cases h : v < 10
    · rw [dif_neg (by omega), dif_pos h]; rfl
    · rw [dif_pos (by omega), dif_neg h, ih _ (by omega)]
      simp

theorem decDigits_decimal (v : Nat) : Decimal (decDigits v) v ∧ (1 ≤ v → ∀ rest, decDigits v ≠ '0' :: rest) := by
  induction v using Nat.strongRecOn with
  | ind v ih =>
    obtain ⟨h1, h2, h3⟩ := digitChar_cases v
    rw [decDigits]
    by_cases h : v < 10
    · rw [dif_pos h]
      refine ⟨⟨by simp, by simpa using h1, ?_, ?_⟩, ?_⟩
      · intro rest e; exact (List.cons.inj e).2.symm
      · simp [h2, Nat.mod_eq_of_lt h]
      · intro hv rest e
        have := h3 (List.cons.inj e).1
        omega
    · rw [dif_neg h]
      obtain ⟨⟨g1, g2, g3, g4⟩, g5⟩ := ih (v / 10) (by omega)
      have key : ∀ rest, decDigits (v / 10) ++ [digitChar v] ≠ '0' :: rest := by
        intro rest e
        cases hd : decDigits (v / 10) with
        | nil => exact g1 hd
        | cons c cs =>
          rw [hd] at e
          cases e
          exact g5 (by omega) _ hd
      refine ⟨⟨by simp, ?_, fun rest e => absurd e (key rest), ?_⟩, fun _ => key⟩
      · intro c hc
        rcases List.mem_append.1 hc with hc | hc
        · exact g2 c hc
        · rw [List.mem_singleton.1 hc]; exact h1
      · rw [List.foldl_append, g4]
        simp only [List.foldl_cons, List.foldl_nil, h2]
        omega

theorem decDigits_inj {n m : Nat} (h : decDigits n = decDigits m) : n = m :=
  (decDigits_decimal n).1.inj (h ▸ (decDigits_decimal m).1)

theorem digit_cases {c : Char} (h : c.isDigit) : digitValue c < 10 ∧ digitChar (digitValue c) = c := by
  have h' : 48 ≤ c.toNat ∧ c.toNat ≤ 57 := by
    simp only [Char.isDigit, Bool.and_eq_true, decide_eq_true_eq] at h
    exact ⟨h.1, h.2⟩
  have e : '0'.toNat = 48 := rfl
  refine ⟨by rw [digitValue, e]; omega, ?_⟩
  rw [digitChar, digitValue, e, Nat.mod_eq_of_lt (by omega), Nat.sub_add_cancel h'.1, Char.ofNat_toNat]

theorem value_ge (cs : List Char) (a : Nat) : a ≤ cs.foldl (fun a c => 10 * a + digitValue c) a := by
  induction cs generalizing a with
  | nil => exact Nat.le_refl _
  | cons c cs ih => exact Nat.le_trans (m := 10 * a + digitValue c) (by omega) (ih _)

/-- A number has one decimal representation only. -/
theorem Decimal.eq_digits {cs : List Char} {n : Nat} (h : Decimal cs n) : cs = decDigits n := by
  induction n using Nat.strongRecOn generalizing cs with
  | ind n ih =>
    have hne := h.nonempty
    obtain ⟨pre, c, rfl⟩ : ∃ pre c, cs = pre ++ [c] := ⟨_, _, (List.dropLast_concat_getLast hne).symm⟩
    have hv := h.value
    rw [List.foldl_append] at hv
    simp only [List.foldl_cons, List.foldl_nil] at hv
    obtain ⟨h1, h2⟩ := digit_cases (h.digits c (by simp))
    have hc : digitChar n = c := by
      rw [← h2, digitChar, digitChar]
      congr 2
      omega
    rw [decDigits]
    cases pre with
    | nil =>
      simp only [List.foldl_nil] at hv
      rw [dif_pos (by omega), hc]; rfl
    | cons a pre =>
      have ha : a ≠ '0' := by
        rintro rfl
        have := h.leading (pre ++ [c]) rfl
        simp at this
      obtain ⟨a1, a2⟩ := digit_cases (h.digits a (by simp))
      have hpos : 1 ≤ digitValue a := by
        rcases Nat.eq_zero_or_pos (digitValue a) with h0 | h0
        · rw [h0] at a2; exact absurd a2.symm ha
        · exact h0
      have hge : 1 ≤ (a :: pre).foldl (fun a c => 10 * a + digitValue c) 0 := by
        refine Nat.le_trans hpos (Nat.le_trans (Nat.le_of_eq ?_) (value_ge pre _))
        simp
      have hdiv : (a :: pre).foldl (fun a c => 10 * a + digitValue c) 0 = n / 10 := by omega
      rw [dif_neg (by omega), hc]
      congr 1
      refine ih (n / 10) (by omega) ⟨by simp, fun x hx => h.digits x (List.mem_append_left _ hx), ?_, hdiv⟩
      intro rest e
      exact absurd (List.cons.inj e).1 ha

theorem decDigits_length {v n : Nat} (h : v < 10 ^ n) (hn : 0 < n) : (decDigits v).length ≤ n := by
  induction v using Nat.strongRecOn generalizing n with
  | ind v ih =>
    rw [decDigits]
    by_cases hv : v < 10
    · rw [dif_pos hv]; exact hn
    · rw [dif_neg hv]
      match n, hn, h with
      | 1, _, h => omega
      | n + 2, _, h =>
        have := ih (v / 10) (by omega) (n := n + 1) (by rw [Nat.pow_succ] at h ⊢; omega) (by omega)
        simpa using this

theorem appendLoop_eq (u room : Nat) (done : List Char) (h : (decDigits u).length ≤ room) :
    appendLoop u room done = .ok (room - (decDigits u).length, decDigits u ++ done) := by
  induction room generalizing u done with
  | zero =>
    have := (decDigits_decimal u).1.nonempty
    cases hd : decDigits u with
    | nil => exact absurd hd this
    | cons c cs => rw [hd] at h; simp at h
  | succ room ih =>
    rw [appendLoop]
    rw [decDigits] at h ⊢
    by_cases hu : u < 10
    · rw [dif_pos hu, if_pos (by omega)]; simp
    · rw [dif_neg hu] at h ⊢
      rw [if_neg (by omega), ih _ _ (by simp at h; omega)]
      simp only [List.append_assoc, List.length_append, List.length_cons, List.length_nil]
      congr 2
      simp at h
      omega

theorem decDigits_bytes {bytes u : Nat} (hb : 0 < bytes) (h : u < 256 ^ bytes) : (decDigits u).length ≤ bytes * 3 := by
  apply decDigits_length _ (by omega)
  refine Nat.lt_of_lt_of_le h ?_
  rw [Nat.mul_comm, Nat.pow_mul]
  exact Nat.pow_le_pow_left (by decide) _

theorem appendInt_pos {bytes u : Nat} (hb : 0 < bytes) (h : u < 256 ^ bytes) :
    appendInt bytes false u = .ok (decDigits u) := by
  have := decDigits_bytes hb h
  rw [appendInt, appendLoop_eq _ _ _ (by omega)]
  show Except.ok _ = _
  simp

theorem appendInt_neg {bytes u : Nat} (hb : 0 < bytes) (h : u < 256 ^ bytes) :
    appendInt bytes true u = .ok ('-' :: (decDigits u).dropLast) := by
  have hl := decDigits_bytes hb h
  rw [appendInt, appendLoop_eq _ _ _ (by omega)]
  show (match bytes * 3 + 1 - (decDigits u).length with
    | 0 => _
    | _ + 1 => _) = _
  rw [show bytes * 3 + 1 - (decDigits u).length = (bytes * 3 - (decDigits u).length) + 1 by omega]
  have := (decDigits_decimal u).1.nonempty
  simp only [List.append_nil]
  rw [List.dropLast_eq_take]
  obtain ⟨n, hn⟩ : ∃ n, (decDigits u).length = n + 1 := by
    cases hd : decDigits u with
    | nil => exact absurd hd this
    | cons c cs => exact ⟨_, rfl⟩
  rw [hn]
  rfl

/-! ### Texts determine what they are the texts of -/

/-- the characters that have a meaning in mangled names -/
def special : List Char := ['<', '>', ',', '(', ')', '{', '}', '\'']

/-- a name: no special characters -/
def IsName (cs : List Char) : Prop := ∀ c ∈ cs, c ∉ special

/-- what follows a name: nothing, or a special character -/
def Ends (cs : List Char) : Prop := ∀ c r, cs = c :: r → c ∈ special

theorem name_split {a b r r' : List Char} (ha : IsName a) (hb : IsName b) (hr : Ends r) (hr' : Ends r')
    (h : a ++ r = b ++ r') : a = b ∧ r = r' := by
  induction a generalizing b with
  | nil =>
    cases b with
    | nil => exact ⟨rfl, h⟩
    | cons c b => exact absurd (hr c _ h) (hb c (List.mem_cons_self ..))
  | cons c a ih =>
    cases b with
    | nil => exact absurd (hr' c _ h.symm) (ha c (List.mem_cons_self ..))
    | cons c' b =>
      have hc := List.cons.inj h
      obtain ⟨h1, h2⟩ := ih (fun x hx => ha x (List.mem_cons_of_mem _ hx))
        (fun x hx => hb x (List.mem_cons_of_mem _ hx)) hc.2
      exact ⟨by rw [hc.1, h1], h2⟩

theorem decDigits_name (n : Nat) : IsName (decDigits n) := by
  intro c hc h
  have := (decDigits_decimal n).1.digits c hc
  have h : c = '<' ∨ c = '>' ∨ c = ',' ∨ c = '(' ∨ c = ')' ∨ c = '{' ∨ c = '}' ∨ c = '\'' := by
    simpa only [special, List.mem_cons, List.not_mem_nil, or_false] using h
  rcases h with rfl | rfl | rfl | rfl | rfl | rfl | rfl | rfl <;> exact absurd this (by decide)

theorem ends_cons {c : Char} {r : List Char} (h : c ∈ special) : Ends (c :: r) := by
  intro c' r' e; cases e; exact h

mutual
/-- The names are names, types have one, and structures are not called `std::integral_constant` or
`lit_t`. -/
def Desc.ok : Desc → Prop
  | .node name ps => IsName name ∧ name ≠ constantName ∧ name ≠ "lit_t".toList ∧ ps.ok
  | .type name => IsName name ∧ name ≠ []
  | .constant st _ => IsName st
  | .lit _ => True
  | .value t _ => IsName t
  | .dim _ => True
def Descs.ok : Descs → Prop
  | .nil => True
  | .cons p ps => p.ok ∧ ps.ok
end

/-- what follows a description: nothing, or one of these characters -/
def Stops (cs : List Char) : Prop := ∀ c r, cs = c :: r → c ∈ [',', '>', '{', '}']

theorem Stops.ends {cs : List Char} (h : Stops cs) : Ends cs := by
  intro c r e
  have := h c r e
  have h : c = ',' ∨ c = '>' ∨ c = '{' ∨ c = '}' := by
    simpa only [List.mem_cons, List.not_mem_nil, or_false] using this
  rcases h with rfl | rfl | rfl | rfl <;> decide

theorem stops_cons {c : Char} {r : List Char} (h : c ∈ [',', '>', '{', '}']) : Stops (c :: r) := by
  intro c' r' e; cases e; exact h

/-- The text of a description, up to the first special character: a name, and the rest. -/
def Desc.front : Desc → List Char → List Char × List Char
  | .node name ps, r => (name, '<' :: (ps.text ++ '>' :: r))
  | .type name, r => (name, r)
  | .constant st n, r => (constantName, '<' :: (st ++ ',' :: (decDigits n ++ '>' :: r)))
  | .lit n, r => ("lit_t".toList, '<' :: (decDigits n ++ '>' :: r))
  | .value t n, r => ([], '(' :: (t ++ ')' :: (decDigits n ++ r)))
  | .dim c, r => ([], '\'' :: c :: '\'' :: r)

theorem Desc.front_eq (d : Desc) (r : List Char) : d.text ++ r = (d.front r).1 ++ (d.front r).2 := by
  cases d <;> simp [Desc.text, Desc.front, mangleNat_eq]

theorem Desc.front_name {d : Desc} (h : d.ok) (r : List Char) : IsName (d.front r).1 := by
  cases d with
  | node name ps => exact h.1
  | type name => exact h.1
  | constant st n => exact (show ∀ c ∈ constantName, c ∉ special by decide)
  | lit n => exact (show ∀ c ∈ "lit_t".toList, c ∉ special by decide)
  | value t n => intro c hc; cases hc
  | dim c => intro c hc; cases hc

theorem Desc.front_ends (d : Desc) {r : List Char} (hr : Stops r) : Ends (d.front r).2 := by
  cases d with
  | type name => exact hr.ends
  | _ => exact ends_cons (by decide)

theorem Desc.text_ne {d : Desc} (h : d.ok) {r r' : List Char} (hr : Stops r) : d.text ++ r ≠ '>' :: r' := by
  rw [Desc.front_eq]
  intro e
  have hn := Desc.front_name h r
  cases d with
  | node name ps =>
    obtain ⟨-, e⟩ := name_split (b := []) hn (fun c hc => by cases hc) (ends_cons (by decide))
      (ends_cons (r := r') (by decide)) e
    exact absurd (List.cons.inj e).1 (by decide)
  | type name =>
    obtain ⟨e, -⟩ := name_split (b := []) hn (fun c hc => by cases hc) hr.ends (ends_cons (r := r') (by decide)) e
    exact h.2 e
  | constant st n =>
    obtain ⟨e, -⟩ := name_split (b := []) hn (fun c hc => by cases hc) (ends_cons (by decide))
      (ends_cons (r := r') (by decide)) e
    exact absurd (show constantName = [] from e) (by decide)
  | lit n =>
    obtain ⟨e, -⟩ := name_split (b := []) hn (fun c hc => by cases hc) (ends_cons (by decide))
      (ends_cons (r := r') (by decide)) e
    exact absurd (show "lit_t".toList = [] from e) (by decide)
  | value t n => exact absurd (List.cons.inj e).1 (by decide)
  | dim c => exact absurd (List.cons.inj e).1 (by decide)

theorem Stops.not_lt {r t : List Char} (h : Stops r) : r ≠ '<' :: t := fun e => absurd (h _ _ e) (by decide)
theorem Stops.not_paren {r t : List Char} (h : Stops r) : r ≠ '(' :: t := fun e => absurd (h _ _ e) (by decide)
theorem Stops.not_quote {r t : List Char} (h : Stops r) : r ≠ '\'' :: t := fun e => absurd (h _ _ e) (by decide)

theorem Descs.text_cons (p : Desc) (ps : Descs) (r : List Char) :
    (Descs.cons p ps).text ++ '>' :: r =
      p.text ++ (match ps with | .nil => '>' :: r | .cons .. => ',' :: (ps.text ++ '>' :: r)) := by
  cases ps <;> simp [Descs.text]

mutual
theorem Desc.split (d d' : Desc) (h : d.ok) (h' : d'.ok) {r r' : List Char} (hr : Stops r) (hr' : Stops r')
    (e : d.text ++ r = d'.text ++ r') : d = d' ∧ r = r' := by
  rw [Desc.front_eq, Desc.front_eq] at e
  obtain ⟨e1, e2⟩ := name_split (d.front_name h r) (d'.front_name h' r') (d.front_ends hr) (d'.front_ends hr') e
  match d, d', h, h', e1, e2 with
  | .node n ps, .node n' ps', h, h', e1, e2 =>
    obtain ⟨rfl, rfl⟩ := Descs.split ps ps' h.2.2.2 h'.2.2.2 (List.cons.inj e2).2
    simp only [Desc.front] at e1
    exact ⟨by rw [e1], rfl⟩
  | .node n ps, .type n', h, h', e1, e2 => exact absurd e2.symm hr'.not_lt
  | .node n ps, .constant .., h, h', e1, e2 => exact absurd e1 h.2.1
  | .node n ps, .lit _, h, h', e1, e2 => exact absurd e1 h.2.2.1
  | .node n ps, .value .., h, h', e1, e2 => exact absurd (List.cons.inj e2).1 (by decide)
  | .node n ps, .dim _, h, h', e1, e2 => exact absurd (List.cons.inj e2).1 (by decide)
  | .type n, .node .., h, h', e1, e2 => exact absurd e2 hr.not_lt
  | .type n, .type n', h, h', e1, e2 => exact ⟨by rw [show n = n' from e1], e2⟩
  | .type n, .constant .., h, h', e1, e2 => exact absurd e2 hr.not_lt
  | .type n, .lit .., h, h', e1, e2 => exact absurd e2 hr.not_lt
  | .type n, .value .., h, h', e1, e2 => exact absurd e2 hr.not_paren
  | .type n, .dim .., h, h', e1, e2 => exact absurd e2 hr.not_quote
  | .constant .., .node .., h, h', e1, e2 => exact absurd e1.symm h'.2.1
  | .constant .., .type .., h, h', e1, e2 => exact absurd e2.symm hr'.not_lt
  | .constant st n, .constant st' n', h, h', e1, e2 =>
    obtain ⟨rfl, e3⟩ := name_split h h' (ends_cons (by decide)) (ends_cons (by decide)) (List.cons.inj e2).2
    obtain ⟨e4, e5⟩ := name_split (decDigits_name n) (decDigits_name n') (ends_cons (by decide)) (ends_cons (by decide))
      (List.cons.inj e3).2
    rw [decDigits_inj e4]
    exact ⟨rfl, (List.cons.inj e5).2⟩
  | .constant .., .lit .., h, h', e1, e2 => exact absurd (show constantName = "lit_t".toList from e1) (by decide)
  | .constant .., .value .., h, h', e1, e2 => exact absurd (List.cons.inj e2).1 (by decide)
  | .constant .., .dim .., h, h', e1, e2 => exact absurd (List.cons.inj e2).1 (by decide)
  | .lit .., .node .., h, h', e1, e2 => exact absurd e1.symm h'.2.2.1
  | .lit .., .type .., h, h', e1, e2 => exact absurd e2.symm hr'.not_lt
  | .lit .., .constant .., h, h', e1, e2 => exact absurd (show "lit_t".toList = constantName from e1) (by decide)
  | .lit n, .lit n', h, h', e1, e2 =>
    obtain ⟨e4, e5⟩ := name_split (decDigits_name n) (decDigits_name n') (ends_cons (by decide)) (ends_cons (by decide))
      (List.cons.inj e2).2
    rw [decDigits_inj e4]
    exact ⟨rfl, (List.cons.inj e5).2⟩
  | .lit .., .value .., h, h', e1, e2 => exact absurd (List.cons.inj e2).1 (by decide)
  | .lit .., .dim .., h, h', e1, e2 => exact absurd (List.cons.inj e2).1 (by decide)
  | .value .., .node .., h, h', e1, e2 => exact absurd (List.cons.inj e2).1 (by decide)
  | .value .., .type .., h, h', e1, e2 => exact absurd e2.symm hr'.not_paren
  | .value .., .constant .., h, h', e1, e2 => exact absurd (List.cons.inj e2).1 (by decide)
  | .value .., .lit .., h, h', e1, e2 => exact absurd (List.cons.inj e2).1 (by decide)
  | .value t n, .value t' n', h, h', e1, e2 =>
    obtain ⟨rfl, e3⟩ := name_split h h' (ends_cons (by decide)) (ends_cons (by decide)) (List.cons.inj e2).2
    obtain ⟨e4, e5⟩ := name_split (decDigits_name n) (decDigits_name n') hr.ends hr'.ends (List.cons.inj e3).2
    rw [decDigits_inj e4]
    exact ⟨rfl, e5⟩
  | .value .., .dim .., h, h', e1, e2 => exact absurd (List.cons.inj e2).1 (by decide)
  | .dim .., .node .., h, h', e1, e2 => exact absurd (List.cons.inj e2).1 (by decide)
  | .dim .., .type .., h, h', e1, e2 => exact absurd e2.symm hr'.not_quote
  | .dim .., .constant .., h, h', e1, e2 => exact absurd (List.cons.inj e2).1 (by decide)
  | .dim .., .lit .., h, h', e1, e2 => exact absurd (List.cons.inj e2).1 (by decide)
  | .dim .., .value .., h, h', e1, e2 => exact absurd (List.cons.inj e2).1 (by decide)
  | .dim c, .dim c', h, h', e1, e2 =>
    simp only [Desc.front, List.cons.injEq, true_and] at e2
    exact ⟨by rw [e2.1], e2.2⟩
theorem Descs.split (ps ps' : Descs) (h : ps.ok) (h' : ps'.ok) {r r' : List Char}
    (e : ps.text ++ '>' :: r = ps'.text ++ '>' :: r') : ps = ps' ∧ r = r' := by
  have st : ∀ (ps : Descs) (r : List Char),
      Stops (match ps with | .nil => '>' :: r | .cons .. => ',' :: (ps.text ++ '>' :: r)) := by
    intro ps r
    cases ps <;> exact stops_cons (by decide)
  match ps, ps', h, h', e with
  | .nil, .nil, _, _, e => exact ⟨rfl, (List.cons.inj e).2⟩
  | .nil, .cons q qs, _, h', e =>
    rw [Descs.text_cons] at e
    exact absurd e.symm (Desc.text_ne h'.1 (st qs r'))
  | .cons p ps, .nil, h, _, e =>
    rw [Descs.text_cons] at e
    exact absurd e (Desc.text_ne h.1 (st ps r))
  | .cons p ps, .cons q qs, h, h', e =>
    rw [Descs.text_cons, Descs.text_cons] at e
    obtain ⟨rfl, e2⟩ := Desc.split p q h.1 h'.1 (st ps r) (st qs r') e
    match ps, qs, h, h', e2 with
    | .nil, .nil, _, _, e => exact ⟨rfl, (List.cons.inj e).2⟩
    | .nil, .cons .., _, _, e => exact absurd (List.cons.inj e).1 (by decide)
    | .cons .., .nil, _, _, e => exact absurd (List.cons.inj e).1 (by decide)
    | .cons p2 ps, .cons q2 qs, h, h', e =>
      obtain ⟨e1, e2⟩ := Descs.split (.cons p2 ps) (.cons q2 qs) h.2 h'.2 (List.cons.inj e).2
      exact ⟨by rw [e1], e2⟩
end

/-! ### Expressions -/

mutual
def Expr.ok (bytes : Nat) : Expr → Prop
  | .node d es => d.ok ∧ (∃ name ps, d = .node name ps ∧ name ≠ "lit".toList) ∧ es.ok bytes
  | .num t n => IsName t ∧ n < 256 ^ bytes
  | .lit n => n < 256 ^ bytes
def Exprs.ok (bytes : Nat) : Exprs → Prop
  | .nil => True
  | .cons e es => e.ok bytes ∧ es.ok bytes
end

mutual
def Expr.str : Expr → List Char
  | .node d es => d.text ++ '{' :: (es.str ++ ['}'])
  | .num t n => t ++ '{' :: (decDigits n ++ ['}'])
  | .lit n => "lit".toList ++ '<' :: (decDigits n ++ ['>'])
def Exprs.str : Exprs → List Char
  | .nil => []
  | .cons e es => e.str ++ ',' :: es.str
end

mutual
theorem Expr.text_eq {bytes : Nat} (hb : 0 < bytes) (e : Expr) (h : e.ok bytes) : e.text bytes = .ok e.str := by
  match e, h with
  | .node d es, h => simp only [Expr.text, Expr.str, Exprs.text_eq hb es h.2.2, bind, Except.bind]
  | .num t n, h => simp only [Expr.text, Expr.str, appendInt_pos hb h.2, bind, Except.bind]
  | .lit n, h => simp only [Expr.text, Expr.str, appendInt_pos hb h, bind, Except.bind]; rfl
theorem Exprs.text_eq {bytes : Nat} (hb : 0 < bytes) (es : Exprs) (h : es.ok bytes) :
    es.text bytes = .ok es.str := by
  match es, h with
  | .nil, h => rfl
  | .cons e es, h =>
    simp only [Exprs.text, Exprs.str, Expr.text_eq hb e h.1, Exprs.text_eq hb es h.2, bind, Except.bind]
end

theorem Expr.str_ne {bytes : Nat} {e : Expr} (h : e.ok bytes) {r r' : List Char} (hr : e.str ++ r = '}' :: r') :
    False := by
  cases e with
  | node d es =>
    obtain ⟨h1, ⟨name, ps, rfl, -⟩, -⟩ := h
    simp only [Expr.str, Desc.text, List.append_assoc, List.cons_append] at hr
    obtain ⟨-, e⟩ := name_split (b := []) h1.1 (fun c hc => by cases hc) (ends_cons (by decide))
      (ends_cons (r := r') (by decide)) hr
    exact absurd (List.cons.inj e).1 (by decide)
  | num t n =>
    simp only [Expr.str, List.append_assoc, List.cons_append] at hr
    obtain ⟨-, e⟩ := name_split (b := []) h.1 (fun c hc => by cases hc) (ends_cons (by decide))
      (ends_cons (r := r') (by decide)) hr
    exact absurd (List.cons.inj e).1 (by decide)
  | lit n =>
    exact absurd (List.cons.inj hr).1 (by decide)

mutual
theorem Expr.split {bytes : Nat} (e e' : Expr) (h : e.ok bytes) (h' : e'.ok bytes) {r r' : List Char}
    (q : e.str ++ r = e'.str ++ r') : e = e' ∧ r = r' := by
  have litName : IsName "lit".toList := by intro c hc; revert c; decide
  match e, e', h, h', q with
  | .node d es, .node d' es', h, h', q =>
    simp only [Expr.str, List.append_assoc, List.cons_append] at q
    obtain ⟨rfl, q2⟩ := Desc.split d d' h.1 h'.1 (stops_cons (by decide)) (stops_cons (by decide)) q
    obtain ⟨rfl, q3⟩ := Exprs.split es es' h.2.2 h'.2.2 (List.cons.inj q2).2
    exact ⟨rfl, q3⟩
  | .node d es, .num t n, ⟨h1, ⟨name, ps, hd, hl⟩, _⟩, h', q =>
    subst hd
    simp only [Expr.str, Desc.text, List.append_assoc, List.cons_append] at q
    obtain ⟨-, q⟩ := name_split h1.1 h'.1 (ends_cons (by decide)) (ends_cons (by decide)) q
    exact absurd (List.cons.inj q).1 (by decide)
  | .node d es, .lit n, ⟨h1, ⟨name, ps, hd, hl⟩, _⟩, h', q =>
    subst hd
    simp only [Expr.str, Desc.text, List.append_assoc, List.cons_append] at q
    obtain ⟨q, -⟩ := name_split h1.1 litName (ends_cons (by decide)) (ends_cons (by decide)) q
    exact absurd q hl
  | .num t n, .node d es, h, ⟨h1, ⟨name, ps, hd, hl⟩, _⟩, q =>
    subst hd
    simp only [Expr.str, Desc.text, List.append_assoc, List.cons_append] at q
    obtain ⟨-, q⟩ := name_split h.1 h1.1 (ends_cons (by decide)) (ends_cons (by decide)) q
    exact absurd (List.cons.inj q).1 (by decide)
  | .num t n, .num t' n', h, h', q =>
    simp only [Expr.str, List.append_assoc, List.cons_append] at q
    obtain ⟨rfl, q2⟩ := name_split h.1 h'.1 (ends_cons (by decide)) (ends_cons (by decide)) q
    obtain ⟨e4, e5⟩ := name_split (decDigits_name n) (decDigits_name n') (ends_cons (by decide)) (ends_cons (by decide))
      (List.cons.inj q2).2
    rw [decDigits_inj e4]
    exact ⟨rfl, (List.cons.inj e5).2⟩
  | .num t n, .lit n', h, h', q =>
    simp only [Expr.str, List.append_assoc, List.cons_append] at q
    obtain ⟨-, q⟩ := name_split h.1 litName (ends_cons (by decide)) (ends_cons (by decide)) q
    exact absurd (List.cons.inj q).1 (by decide)
  | .lit n, .node d es, h, ⟨h1, ⟨name, ps, hd, hl⟩, _⟩, q =>
    subst hd
    simp only [Expr.str, Desc.text, List.append_assoc, List.cons_append] at q
    obtain ⟨q, -⟩ := name_split litName h1.1 (ends_cons (by decide)) (ends_cons (by decide)) q
    exact absurd q.symm hl
  | .lit n, .num t n', h, h', q =>
    simp only [Expr.str, List.append_assoc, List.cons_append] at q
    obtain ⟨-, q⟩ := name_split litName h'.1 (ends_cons (by decide)) (ends_cons (by decide)) q
    exact absurd (List.cons.inj q).1 (by decide)
  | .lit n, .lit n', h, h', q =>
    simp only [Expr.str, List.append_assoc, List.cons_append] at q
    obtain ⟨-, q⟩ := name_split litName litName (ends_cons (by decide)) (ends_cons (by decide)) q
    obtain ⟨e4, e5⟩ := name_split (decDigits_name n) (decDigits_name n') (ends_cons (by decide)) (ends_cons (by decide))
      (List.cons.inj q).2
    rw [decDigits_inj e4]
    exact ⟨rfl, (List.cons.inj e5).2⟩
theorem Exprs.split {bytes : Nat} (es es' : Exprs) (h : es.ok bytes) (h' : es'.ok bytes) {r r' : List Char}
    (q : es.str ++ '}' :: r = es'.str ++ '}' :: r') : es = es' ∧ r = r' := by
  match es, es', h, h', q with
  | .nil, .nil, _, _, q => exact ⟨rfl, (List.cons.inj q).2⟩
  | .nil, .cons e es, _, h', q =>
    simp only [Exprs.str, List.append_assoc] at q
    exact absurd q.symm (Expr.str_ne h'.1)
  | .cons e es, .nil, h, _, q =>
    simp only [Exprs.str, List.append_assoc] at q
    exact absurd q (Expr.str_ne h.1)
  | .cons e es, .cons e' es', h, h', q =>
    simp only [Exprs.str, List.append_assoc, List.cons_append] at q
    obtain ⟨rfl, q2⟩ := Expr.split e e' h.1 h'.1 q
    obtain ⟨rfl, q3⟩ := Exprs.split es es' h.2 h'.2 (List.cons.inj q2).2
    exact ⟨rfl, q3⟩
end

end Noarr
