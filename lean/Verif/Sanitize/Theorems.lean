import Verif.Sanitize.Spec

/-!
C95: names of attributes become identifiers.
-/

namespace Verif.Sanitize

theorem digit_iff (c : Nat) : isDigit c = true ↔ Digit c := by
  unfold isDigit Digit
  simp

theorem wordChar_iff (c : Nat) : isValidChar c = true ↔ WordChar c := by
  unfold isValidChar isAlnum WordChar Letter
  rw [← digit_iff]
  simp only [Bool.or_eq_true, Bool.and_eq_true, decide_eq_true_eq]
  constructor
  · rintro (h | (h | h) | h)
    · exact .inr (.inr h)
    · exact .inr (.inl h)
    · exact .inl (.inl h)
    · exact .inl (.inr h)
  · rintro ((h | h) | h | h)
    · exact .inr (.inl (.inr h))
    · exact .inr (.inr h)
    · exact .inr (.inl (.inl h))
    · exact .inl h

theorem valid_iff (n : Name) : isValid n = true ↔ Identifier n := by
  cases n with
  | nil =>
    constructor
    · intro h; cases h
    · rintro ⟨c, rest, h, _⟩; cases h
  | cons c rest =>
    unfold isValid
    simp only [Bool.and_eq_true, Bool.not_eq_true', List.all_cons, List.all_eq_true, wordChar_iff]
    have hd := digit_iff c
    constructor
    · rintro ⟨h1, h2, h3⟩
      refine ⟨c, rest, rfl, ?_, h3⟩
      rcases h2 with h2 | h2 | h2
      · exact .inl h2
      · rw [hd.2 h2] at h1; cases h1
      · exact .inr h2
    · rintro ⟨c', rest', he, h1, h2⟩
      cases he
      refine ⟨?_, ?_, h2⟩
      · cases hb : isDigit c with
        | false => rfl
        | true =>
          have := hd.1 hb
          unfold Digit at this
          unfold Letter at h1
          omega
      · rcases h1 with h1 | h1
        · exact .inl h1
        · exact .inr (.inr h1)

theorem clean_chars (n : Name) : ∀ c ∈ cleanChars n, WordChar c := by
  unfold cleanChars
  intro c hc
  obtain ⟨d, _, rfl⟩ := List.mem_map.1 hc
  by_cases h : isValidChar d = true
  · rw [if_pos h]; exact (wordChar_iff d).1 h
  · rw [if_neg h]; exact .inr (.inr rfl)

theorem sanitizeName_eq {n : Name} (h : isValid n = false) :
    sanitizeName n = prefix' ++ cleanChars n := by
  cases n with
  | nil => rfl
  | cons c rest =>
    unfold sanitizeName
    simp only
    rw [if_pos]
    unfold isValid at h
    simp only at h
    cases hd : isDigit c with
    | true => rfl
    | false =>
      rw [hd] at h
      simp only [Bool.not_false, Bool.true_and] at h
      rw [Bool.false_or, List.any_eq_not_all_not]
      simp only [Bool.not_not]
      rw [h]
      rfl

theorem base_sanitize {n : Name} (h : isValid n = false) : Base n (sanitizeName n) := by
  rw [sanitizeName_eq h]
  refine ⟨cleanChars n, rfl, ?_, ?_⟩
  · unfold cleanChars; rw [List.length_map]
  · intro i c hc
    unfold cleanChars
    rw [List.getElem?_map, hc]
    constructor
    · intro hw
      simp only [Option.map_some, (wordChar_iff c).2 hw, if_true]
    · intro hw
      simp only [Option.map_some]
      rw [if_neg fun hb => hw ((wordChar_iff c).1 hb)]

theorem digits_decimal (k : Nat) : Decimal (digits k) k := by
  induction k using Nat.strongRecOn with
  | _ k ih =>
    unfold digits
    by_cases h : k < 10
    · rw [if_pos h]; exact .digit h
    · rw [if_neg h]
      have := Decimal.more (d := k % 10) (by omega) (by omega) (ih (k / 10) (by omega))
      rwa [show 10 * (k / 10) + k % 10 = k by omega] at this

theorem decimal_digits {ds : Name} {k : Nat} (h : Decimal ds k) : ds = digits k := by
  induction h with
  | @digit d hd => unfold digits; rw [if_pos hd]
  | @more ds k d hk hd _ ih =>
    conv => rhs; unfold digits
    rw [if_neg (by omega), ih, show (10 * k + d) / 10 = k by omega,
      show (10 * k + d) % 10 = d by omega]

theorem decimal_value {ds : Name} {k : Nat} (h : Decimal ds k) :
    ds.foldl (fun a c => 10 * a + (c - 48)) 0 = k ∧ ∀ c ∈ ds, Digit c := by
  induction h with
  | @digit d hd =>
    refine ⟨by simp, ?_⟩
    intro c hc
    rw [List.mem_singleton] at hc
    unfold Digit
    omega
  | @more ds k d hk hd _ ih =>
    refine ⟨?_, ?_⟩
    · rw [List.foldl_append, ih.1]
      simp
    · intro c hc
      rcases List.mem_append.1 hc with hc | hc
      · exact ih.2 c hc
      · rw [List.mem_singleton] at hc
        unfold Digit
        omega

theorem digits_inj {j k : Nat} (h : digits j = digits k) : j = k := by
  have h1 := (decimal_value (digits_decimal j)).1
  have h2 := (decimal_value (digits_decimal k)).1
  rw [h, h2] at h1
  exact h1.symm

/-- The choices in the model. -/
def candAt (b : Name) : Nat → Name
  | 0 => b
  | k + 1 => numbered b k

theorem candAt_inj (b : Name) {i j : Nat} (h : candAt b i = candAt b j) : i = j := by
  have hlen : ∀ k, b ≠ numbered b k := by
    intro k hk
    have := congrArg List.length hk
    unfold numbered at this
    rw [List.length_append, List.length_cons] at this
    omega
  cases i with
  | zero =>
    cases j with
    | zero => rfl
    | succ j => exact (hlen j h).elim
  | succ i =>
    cases j with
    | zero => exact (hlen i h.symm).elim
    | succ j =>
      simp only [candAt, numbered] at h
      have := List.append_cancel_left h
      rw [List.cons.injEq] at this
      rw [digits_inj this.2]

theorem base_unique {n b b' : Name} (h : Base n b) (h' : Base n b') : b = b' := by
  obtain ⟨t, rfl, hl, ht⟩ := h
  obtain ⟨t', rfl, hl', ht'⟩ := h'
  congr 1
  refine List.ext_getElem? fun i => ?_
  cases hc : n[i]? with
  | none =>
    have := List.getElem?_eq_none_iff.1 hc
    rw [List.getElem?_eq_none (by omega), List.getElem?_eq_none (by omega)]
  | some c =>
    have h1 := ht i c hc
    have h2 := ht' i c hc
    by_cases hw : WordChar c
    · rw [h1.1 hw, h2.1 hw]
    · rw [h1.2 hw, h2.2 hw]

theorem choice_iff {n : Name} (hn : isValid n = false) (i : Nat) (m : Name) :
    Choice n i m ↔ m = candAt (sanitizeName n) i := by
  constructor
  · rintro ⟨b, hb, h⟩
    have := base_unique hb (base_sanitize hn)
    subst this
    rcases h with ⟨rfl, rfl⟩ | ⟨k, ds, rfl, hd, rfl⟩
    · rfl
    · rw [decimal_digits hd]; rfl
  · rintro rfl
    refine ⟨_, base_sanitize hn, ?_⟩
    cases i with
    | zero => exact .inl ⟨rfl, rfl⟩
    | succ k => exact .inr ⟨k, digits k, rfl, digits_decimal k, rfl⟩

theorem candAt_valid {n : Name} (hn : isValid n = false) (i : Nat) :
    isValid (candAt (sanitizeName n) i) = true := by
  rw [valid_iff, sanitizeName_eq hn]
  have hs : ∀ t : Name, (∀ c ∈ t, WordChar c) → Identifier (prefix' ++ t) := by
    intro t ht
    refine ⟨115, [97, 110, 95] ++ t, rfl, .inl (.inr (by omega)), ?_⟩
    intro d hd
    rcases List.mem_append.1 hd with hd | hd
    · refine (wordChar_iff d).1 ?_
      simp only [List.mem_cons, List.not_mem_nil, or_false] at hd
      rcases hd with rfl | rfl | rfl <;> decide
    · exact ht d hd
  cases i with
  | zero => exact hs _ (clean_chars n)
  | succ k =>
    simp only [candAt, numbered]
    rw [List.append_assoc]
    refine hs _ ?_
    intro c hc
    rcases List.mem_append.1 hc with hc | hc
    · exact clean_chars n c hc
    · rcases List.mem_cons.1 hc with rfl | hc
      · exact .inr (.inr rfl)
      · exact .inr (.inl ((decimal_value (digits_decimal k)).2 c hc))

theorem length_le {l : List Name} : ∀ {m : List Name}, l.Nodup → (∀ x ∈ l, x ∈ m) →
    l.length ≤ m.length := by
  induction l with
  | nil => intro m _ _; exact Nat.zero_le _
  | cons a l ih =>
    intro m hn h
    rw [List.nodup_cons] at hn
    have ha := h a List.mem_cons_self
    have := ih (m := m.erase a) hn.2 (fun x hx =>
      (List.mem_erase_of_ne (fun hxa => hn.1 (by rw [← hxa]; exact hx))).2
        (h x (List.mem_cons_of_mem _ hx)))
    rw [List.length_erase_of_mem ha] at this
    have := List.length_pos_of_mem ha
    rw [List.length_cons]
    omega

theorem findFree_some {used : List Name} {b : Name} : ∀ (fuel c : Nat) (m : Name),
    findFree used b fuel c (candAt b c) = some m →
    ∃ k, c ≤ k ∧ m = candAt b k ∧ m ∉ used ∧ ∀ j, c ≤ j → j < k → candAt b j ∈ used := by
  intro fuel
  induction fuel with
  | zero => intro c m h; rw [findFree] at h; cases h
  | succ fuel ih =>
    intro c m h
    rw [findFree] at h
    by_cases hu : candAt b c ∈ used
    · rw [if_pos hu] at h
      obtain ⟨k, h1, h2, h3, h4⟩ := ih (c + 1) m h
      refine ⟨k, by omega, h2, h3, fun j hj hjk => ?_⟩
      by_cases hjc : j = c
      · rw [hjc]; exact hu
      · exact h4 j (by omega) hjk
    · rw [if_neg hu] at h
      cases h
      exact ⟨c, Nat.le_refl _, rfl, hu, fun j h1 h2 => by omega⟩

theorem findFree_none {used : List Name} {b : Name} : ∀ (fuel c : Nat),
    findFree used b fuel c (candAt b c) = none →
    ∀ j, c ≤ j → j < c + fuel → candAt b j ∈ used := by
  intro fuel
  induction fuel with
  | zero => intro c _ j h1 h2; omega
  | succ fuel ih =>
    intro c h j h1 h2
    rw [findFree] at h
    by_cases hu : candAt b c ∈ used
    · rw [if_pos hu] at h
      by_cases hjc : j = c
      · rw [hjc]; exact hu
      · exact ih (c + 1) h j (by omega) (by omega)
    · rw [if_neg hu] at h; cases h

theorem findFree_ends (used : List Name) (b : Name) :
    ∃ m, findFree used b (used.length + 1) 0 b = some m := by
  cases h : findFree used b (used.length + 1) 0 b with
  | some m => exact ⟨m, rfl⟩
  | none =>
    have hall := findFree_none (used := used) (b := b) (used.length + 1) 0 h
    have hn : ((List.range (used.length + 1)).map (candAt b)).Nodup := by
      unfold List.Nodup
      rw [List.pairwise_map]
      exact List.nodup_range.imp fun hij h => hij (candAt_inj b h)
    have := length_le hn (fun x hx => by
      obtain ⟨j, hj, rfl⟩ := List.mem_map.1 hx
      rw [List.mem_range] at hj
      exact hall j (Nat.zero_le _) (by omega))
    rw [List.length_map, List.length_range] at this
    omega

theorem lookup_assign (name n v : Name) (l : List (Name × Name)) :
    (assign n v l).lookup name = if name = n then some v else l.lookup name := by
  induction l with
  | nil =>
    rw [assign, List.lookup_cons]
    by_cases h : name = n
    · rw [if_pos h, h, beq_self_eq_true]
    · rw [if_neg h, show (name == n) = false from by simpa using h]
  | cons p l ih =>
    obtain ⟨m, x⟩ := p
    rw [assign]
    by_cases hm : m = n
    · rw [if_pos hm, List.lookup_cons, List.lookup_cons, hm]
      by_cases h : name = n
      · rw [if_pos h, h, beq_self_eq_true]
      · rw [if_neg h, show (name == n) = false from by simpa using h]
    · rw [if_neg hm, List.lookup_cons, List.lookup_cons, ih]
      by_cases h : name = m
      · rw [h]
        simp only [beq_self_eq_true, hm, if_false]
      · rw [show (name == m) = false from by simpa using h]

/-- What holds of a schema between visits. -/
structure Full (N : Name → Prop) (st : Names) : Prop where
  dom : ∀ n m, st.mapped.lookup n = some m → N n
  valid : ∀ n m, st.mapped.lookup n = some m → isValid m = true
  same : ∀ n, N n → isValid n = true → st.mapped.lookup n = some n
  inj : ∀ n n' m, st.mapped.lookup n = some m → st.mapped.lookup n' = some m → n = n'
  cand : ∀ n m, st.mapped.lookup n = some m → isValid n = false →
    ∃ k, m = candAt (sanitizeName n) k ∧ ∀ j, j < k → candAt (sanitizeName n) j ∈ st.used
  used : ∀ u, u ∈ st.used ↔ ∃ n, st.mapped.lookup n = some u

theorem setValid_fold (names : List Name) : ∀ (st : Names),
    (∀ n, (names.foldl setValid st).mapped.lookup n =
      if isValid n = true ∧ n ∈ names then some n else st.mapped.lookup n) ∧
    ∀ u, u ∈ (names.foldl setValid st).used ↔ u ∈ st.used ∨ (isValid u = true ∧ u ∈ names) := by
  induction names with
  | nil => intro st; simp
  | cons a names ih =>
    intro st
    rw [List.foldl_cons]
    obtain ⟨h1, h2⟩ := ih (setValid st a)
    have s1 : ∀ n, (setValid st a).mapped.lookup n =
        if isValid n = true ∧ n = a then some n else st.mapped.lookup n := by
      intro n
      unfold setValid
      by_cases ha : isValid a = true
      · rw [if_pos ha]
        simp only [lookup_assign]
        by_cases hna : n = a
        · subst hna; rw [if_pos rfl, if_pos ⟨ha, rfl⟩]
        · rw [if_neg hna, if_neg fun x => hna x.2]
      · rw [if_neg ha, if_neg]
        rintro ⟨hv, rfl⟩
        exact ha hv
    have s2 : ∀ u, u ∈ (setValid st a).used ↔ u ∈ st.used ∨ (isValid u = true ∧ u = a) := by
      intro u
      unfold setValid
      by_cases ha : isValid a = true
      · rw [if_pos ha]
        simp only
        by_cases hm : a ∈ st.used
        · rw [if_pos hm]
          constructor
          · exact .inl
          · rintro (h | ⟨_, rfl⟩)
            · exact h
            · exact hm
        · rw [if_neg hm, List.mem_cons]
          constructor
          · rintro (rfl | h)
            · exact .inr ⟨ha, rfl⟩
            · exact .inl h
          · rintro (h | ⟨_, rfl⟩)
            · exact .inr h
            · exact .inl rfl
      · rw [if_neg ha]
        constructor
        · exact .inl
        · rintro (h | ⟨hv, rfl⟩)
          · exact h
          · exact (ha hv).elim
    refine ⟨?_, ?_⟩
    · intro n
      rw [h1, s1]
      by_cases hv : isValid n = true
      · by_cases hm : n ∈ names
        · rw [if_pos ⟨hv, hm⟩, if_pos ⟨hv, List.mem_cons_of_mem _ hm⟩]
        · rw [if_neg fun x => hm x.2]
          by_cases hna : n = a
          · rw [if_pos ⟨hv, hna⟩, if_pos ⟨hv, by rw [hna]; exact List.mem_cons_self⟩]
          · rw [if_neg fun x => hna x.2, if_neg]
            rintro ⟨_, hx⟩
            rcases List.mem_cons.1 hx with hx | hx
            · exact hna hx
            · exact hm hx
      · rw [if_neg fun x => hv x.1, if_neg fun x => hv x.1, if_neg fun x => hv x.1]
    · intro u
      rw [h2, s2, List.mem_cons]
      constructor
      · rintro ((h | ⟨h, h'⟩) | ⟨h, h'⟩)
        · exact .inl h
        · exact .inr ⟨h, .inl h'⟩
        · exact .inr ⟨h, .inr h'⟩
      · rintro (h | ⟨h, h' | h'⟩)
        · exact .inl (.inl h)
        · exact .inl (.inr ⟨h, h'⟩)
        · exact .inr ⟨h, h'⟩

theorem full_start {N : Name → Prop} {names : List Name} (hN : ∀ n, n ∈ names ↔ N n) {st : Names}
    (h : st = {} ∨ Full N st) : Full N (names.foldl setValid st) ∧
    ∀ n m, st.mapped.lookup n = some m → (names.foldl setValid st).mapped.lookup n = some m := by
  obtain ⟨h1, h2⟩ := setValid_fold names st
  rcases h with rfl | h
  · have hl : ∀ n m, (names.foldl setValid {}).mapped.lookup n = some m →
        isValid n = true ∧ n ∈ names ∧ m = n := by
      intro n m hm
      rw [h1] at hm
      by_cases hc : isValid n = true ∧ n ∈ names
      · rw [if_pos hc] at hm
        cases hm
        exact ⟨hc.1, hc.2, rfl⟩
      · rw [if_neg hc] at hm
        cases hm
    refine ⟨⟨?_, ?_, ?_, ?_, ?_, ?_⟩, ?_⟩
    · intro n m hm; exact (hN n).1 (hl n m hm).2.1
    · intro n m hm; obtain ⟨a, _, rfl⟩ := hl n m hm; exact a
    · intro n hn hv; rw [h1, if_pos ⟨hv, (hN n).2 hn⟩]
    · intro n n' m hm hm'
      rw [← (hl n m hm).2.2, ← (hl n' m hm').2.2]
    · intro n m hm hv
      rw [(hl n m hm).1] at hv
      cases hv
    · intro u
      rw [h2]
      constructor
      · rintro (h | h)
        · cases h
        · exact ⟨u, by rw [h1, if_pos h]⟩
      · rintro ⟨n, hn⟩
        obtain ⟨a, b, rfl⟩ := hl n u hn
        exact .inr ⟨a, b⟩
    · intro n m hm; cases hm
  · have he : ∀ n, (names.foldl setValid st).mapped.lookup n = st.mapped.lookup n := by
      intro n
      rw [h1]
      by_cases hc : isValid n = true ∧ n ∈ names
      · rw [if_pos hc, h.same n ((hN n).1 hc.2) hc.1]
      · rw [if_neg hc]
    have hu : ∀ u, u ∈ (names.foldl setValid st).used ↔ u ∈ st.used := by
      intro u
      rw [h2]
      constructor
      · rintro (h' | ⟨hv, hm⟩)
        · exact h'
        · exact (h.used u).2 ⟨u, h.same u ((hN u).1 hm) hv⟩
      · exact .inl
    refine ⟨⟨?_, ?_, ?_, ?_, ?_, ?_⟩, ?_⟩
    · simp only [he]; exact h.dom
    · simp only [he]; exact h.valid
    · simp only [he]; exact h.same
    · simp only [he]; exact h.inj
    · simp only [he, hu]; exact h.cand
    · simp only [he, hu]; exact h.used
    · intro n m hm; rw [he]; exact hm

theorem sanitize_full {N : Name → Prop} {st : Names} (h : Full N st) {n : Name} (hn : N n) :
    ∃ m st', sanitize st n = some (m, st') ∧ Full N st' ∧ st'.mapped.lookup n = some m ∧
      ∀ x y, st.mapped.lookup x = some y → st'.mapped.lookup x = some y := by
  unfold sanitize
  cases hl : st.mapped.lookup n with
  | some m => exact ⟨m, st, rfl, h, hl, fun _ _ h => h⟩
  | none =>
    have hv : isValid n = false := by
      cases hb : isValid n with
      | false => rfl
      | true => rw [h.same n hn hb] at hl; cases hl
    obtain ⟨m, hm⟩ := findFree_ends st.used (sanitizeName n)
    simp only [hm]
    obtain ⟨k, _, hk, hnu, hj⟩ := findFree_some (b := sanitizeName n) _ 0 m hm
    have hlk : ∀ x, (assign n m st.mapped).lookup x =
        if x = n then some m else st.mapped.lookup x := fun x => lookup_assign x n m _
    have hkeep : ∀ x y, st.mapped.lookup x = some y →
        (assign n m st.mapped).lookup x = some y := by
      intro x y hxy
      rw [hlk, if_neg]
      · exact hxy
      · rintro rfl
        rw [hl] at hxy
        cases hxy
    have hsplit : ∀ x y, (assign n m st.mapped).lookup x = some y →
        (x = n ∧ y = m) ∨ st.mapped.lookup x = some y := by
      intro x y hxy
      rw [hlk] at hxy
      by_cases hx : x = n
      · rw [if_pos hx] at hxy
        cases hxy
        exact .inl ⟨hx, rfl⟩
      · rw [if_neg hx] at hxy
        exact .inr hxy
    refine ⟨m, _, rfl, ⟨?_, ?_, ?_, ?_, ?_, ?_⟩, ?_, hkeep⟩
    · intro x y hxy
      rcases hsplit x y hxy with ⟨rfl, _⟩ | h'
      · exact hn
      · exact h.dom x y h'
    · intro x y hxy
      rcases hsplit x y hxy with ⟨_, rfl⟩ | h'
      · rw [hk]; exact candAt_valid hv k
      · exact h.valid x y h'
    · intro x hx hxv
      exact hkeep x x (h.same x hx hxv)
    · intro x x' y hxy hxy'
      rcases hsplit x y hxy with ⟨rfl, rfl⟩ | h1
      · rcases hsplit x' y hxy' with ⟨rfl, _⟩ | h2
        · rfl
        · exact (hnu ((h.used y).2 ⟨x', h2⟩)).elim
      · rcases hsplit x' y hxy' with ⟨rfl, rfl⟩ | h2
        · exact (hnu ((h.used y).2 ⟨x, h1⟩)).elim
        · exact h.inj x x' y h1 h2
    · intro x y hxy hxv
      rcases hsplit x y hxy with ⟨rfl, rfl⟩ | h1
      · exact ⟨k, hk, fun j hjk => List.mem_cons_of_mem _ (hj j (Nat.zero_le _) hjk)⟩
      · obtain ⟨k', hk', hj'⟩ := h.cand x y h1 hxv
        exact ⟨k', hk', fun j hjk => List.mem_cons_of_mem _ (hj' j hjk)⟩
    · intro u
      rw [List.mem_cons, h.used]
      constructor
      · rintro (rfl | ⟨x, hx⟩)
        · exact ⟨n, by rw [hlk, if_pos rfl]⟩
        · exact ⟨x, hkeep x u hx⟩
      · rintro ⟨x, hx⟩
        rcases hsplit x u hx with ⟨_, rfl⟩ | h'
        · exact .inl rfl
        · exact .inr ⟨x, h'⟩
    · rw [hlk, if_pos rfl]

theorem nameAll_full {N : Name → Prop} (attrs : List (Name × Bool)) : ∀ (st : Names), Full N st →
    (∀ a ∈ attrs, N a.1) → ∃ out st', nameAll attrs st = some (out, st') ∧ Full N st' ∧
      out.map Prod.fst = (attrs.filter (·.2)).map Prod.fst ∧
      (∀ n m, (n, m) ∈ out → st'.mapped.lookup n = some m) ∧
      ∀ x y, st.mapped.lookup x = some y → st'.mapped.lookup x = some y := by
  induction attrs with
  | nil => intro st h _; exact ⟨[], st, rfl, h, rfl, fun _ _ h => (by cases h), fun _ _ h => h⟩
  | cons a attrs ih =>
    obtain ⟨n, present⟩ := a
    intro st h hN
    rw [nameAll]
    cases present with
    | false =>
      simp only [Bool.false_eq_true, if_false]
      obtain ⟨out, st', h1, h2, h3, h4, h5⟩ := ih st h fun a ha => hN a (List.mem_cons_of_mem _ ha)
      exact ⟨out, st', h1, h2, by rw [List.filter_cons_of_neg (by simp)]; exact h3, h4, h5⟩
    | true =>
      simp only [if_true]
      obtain ⟨m, st1, hs1, hs2, hs3, hs4⟩ := sanitize_full h (hN _ List.mem_cons_self)
      obtain ⟨out, st', h1, h2, h3, h4, h5⟩ :=
        ih st1 hs2 fun a ha => hN a (List.mem_cons_of_mem _ ha)
      simp only [hs1, h1]
      refine ⟨(n, m) :: out, st', rfl, h2, ?_, ?_, fun x y hxy => h5 x y (hs4 x y hxy)⟩
      · rw [List.filter_cons_of_pos (by rfl), List.map_cons, List.map_cons, h3]
      · intro x y hxy
        rcases List.mem_cons.1 hxy with hxy | hxy
        · cases hxy
          exact h5 _ _ hs3
        · exact h4 x y hxy

theorem insert_perm (x : Name × Bool) (l : List (Name × Bool)) :
    (insertSorted x l).Perm (x :: l) := by
  induction l with
  | nil => exact .refl _
  | cons y l ih =>
    rw [insertSorted]
    by_cases h : leName x.1 y.1 = true
    · rw [if_pos h]
    · rw [if_neg h]
      exact (ih.cons y).trans (.swap x y l)

theorem sort_perm (l : List (Name × Bool)) : (sortNames l).Perm l := by
  unfold sortNames
  induction l with
  | nil => exact .refl _
  | cons x l ih => exact (insert_perm x _).trans (ih.cons x)

theorem le_iff (a : Name) : ∀ b, leName a b = true ↔ Before a b := by
  induction a with
  | nil => intro b; exact ⟨fun _ => .nil b, fun _ => by rw [leName]⟩
  | cons x a ih =>
    intro b
    cases b with
    | nil =>
      constructor
      · intro h; cases h
      · intro h; cases h
    | cons y b =>
      rw [leName]
      by_cases hxy : x = y
      · rw [if_pos hxy, ih]
        subst hxy
        constructor
        · exact .equal
        · intro h
          cases h with
          | less h => omega
          | equal h => exact h
      · rw [if_neg hxy, decide_eq_true_eq]
        constructor
        · exact .less
        · intro h
          cases h with
          | less h => exact h
          | equal h => exact (hxy rfl).elim

theorem before_total (a : Name) : ∀ b, Before a b ∨ Before b a := by
  induction a with
  | nil => intro b; exact .inl (.nil b)
  | cons x a ih =>
    intro b
    cases b with
    | nil => exact .inr (.nil _)
    | cons y b =>
      rcases Nat.lt_trichotomy x y with h | h | h
      · exact .inl (.less h)
      · subst h
        exact (ih b).imp .equal .equal
      · exact .inr (.less h)

theorem before_trans {a b : Name} (h : Before a b) : ∀ {c}, Before b c → Before a c := by
  induction h with
  | nil m => intro c _; exact .nil c
  | less h =>
    intro c hc
    cases hc with
    | less h' => exact .less (by omega)
    | equal _ => exact .less h
  | equal h ih =>
    intro c hc
    cases hc with
    | less h' => exact .less h'
    | equal h' => exact .equal (ih h')

theorem insert_sorted (x : Name × Bool) (l : List (Name × Bool))
    (h : l.Pairwise fun a b => Before a.1 b.1) :
    (insertSorted x l).Pairwise fun a b => Before a.1 b.1 := by
  induction l with
  | nil => exact List.pairwise_singleton _ _
  | cons y l ih =>
    rw [List.pairwise_cons] at h
    rw [insertSorted]
    by_cases hle : leName x.1 y.1 = true
    · rw [if_pos hle]
      have hb := (le_iff _ _).1 hle
      refine List.pairwise_cons.2 ⟨?_, List.pairwise_cons.2 h⟩
      intro z hz
      rcases List.mem_cons.1 hz with rfl | hz
      · exact hb
      · exact before_trans hb (h.1 z hz)
    · rw [if_neg hle]
      refine List.pairwise_cons.2 ⟨?_, ih h.2⟩
      intro z hz
      rcases List.mem_cons.1 ((insert_perm x l).mem_iff.1 hz) with rfl | hz
      · rcases before_total y.1 z.1 with h' | h'
        · exact h'
        · exact (hle ((le_iff _ _).2 h')).elim
      · exact h.1 z hz

theorem sort_sorted (l : List (Name × Bool)) :
    (sortNames l).Pairwise fun a b => Before a.1 b.1 := by
  unfold sortNames
  induction l with
  | nil => exact .nil
  | cons x l ih => exact insert_sorted x _ ih

theorem full_renaming {N : Name → Prop} {st : Names} (h : Full N st) :
    Renaming N fun n => st.mapped.lookup n := by
  refine ⟨h.dom, fun n m hm => (valid_iff m).1 (h.valid n m hm),
    fun n hn hi => h.same n hn ((valid_iff n).2 hi), h.inj, ?_⟩
  intro n m hm hi
  have hv : isValid n = false := by
    cases hb : isValid n with
    | false => rfl
    | true => exact (hi ((valid_iff n).1 hb)).elim
  obtain ⟨k, hk, hj⟩ := h.cand n m hm hv
  refine ⟨k, (choice_iff hv k m).2 hk, fun j hjk => ?_⟩
  obtain ⟨n', hn'⟩ := (h.used _).1 (hj j hjk)
  refine ⟨n', _, ?_, (choice_iff hv j _).2 rfl, hn'⟩
  rintro rfl
  rw [hm, hk] at hn'
  have := candAt_inj _ (Option.some.inj hn')
  omega

theorem visit_full {N : Name → Prop} {attrs : List (Name × Bool)}
    (hN : ∀ n, n ∈ attrs.map Prod.fst ↔ N n) {st : Names} (h : st = {} ∨ Full N st) :
    ∃ out st', visit st attrs = some (out, st') ∧ Full N st' ∧
      Given (fun n => st'.mapped.lookup n) attrs out ∧
      ∀ x y, st.mapped.lookup x = some y → st'.mapped.lookup x = some y := by
  obtain ⟨hf, hk⟩ := full_start hN h
  obtain ⟨out, st', h1, h2, h3, h4, h5⟩ := nameAll_full (sortNames attrs) _ hf (fun a ha =>
    (hN a.1).1 (List.mem_map_of_mem ((sort_perm attrs).mem_iff.1 ha)))
  refine ⟨out, st', h1, h2, ⟨?_, ?_, h4⟩, fun x y hxy => h5 x y (hk x y hxy)⟩
  · rw [h3]
    exact ((sort_perm attrs).filter _).map _
  · rw [h3, List.pairwise_map]
    exact (sort_sorted attrs).sublist List.filter_sublist

theorem full_of_mono {N : Name → Prop} {st fin : Names} (h : Full N st) (hf : fin = {})
    (hm : ∀ x y, st.mapped.lookup x = some y → fin.mapped.lookup x = some y) : Full N fin := by
  subst hf
  have hno : ∀ x y, st.mapped.lookup x = some y → False := fun x y hxy => by cases hm x y hxy
  refine ⟨fun _ _ h => (by cases h), fun _ _ h => (by cases h),
    fun n hn hv => (hno n n (h.same n hn hv)).elim, fun _ _ _ h => (by cases h),
    fun _ _ h => (by cases h), fun u => ⟨fun h => (by cases h), ?_⟩⟩
  rintro ⟨n, hn⟩
  cases hn

theorem visitAll_full {S : Type} [DecidableEq S] (N : S → Name → Prop) :
    ∀ (visits : List (S × List (Name × Bool))) (ctx : S → Names),
    (∀ v ∈ visits, ∀ n, n ∈ v.2.map Prod.fst ↔ N v.1 n) →
    (∀ s, ctx s = {} ∨ Full (N s) (ctx s)) →
    ∃ (outs : List (List (Name × Name))) (fin : S → Names), visitAll visits ctx = some outs ∧
      outs.length = visits.length ∧
      (∀ s, (fin s = {} ∧ ∀ v ∈ visits, v.1 ≠ s) ∨ Full (N s) (fin s)) ∧
      (∀ s x y, (ctx s).mapped.lookup x = some y → (fin s).mapped.lookup x = some y) ∧
      ∀ (i : Nat) (v : S × List (Name × Bool)) (out : List (Name × Name)),
        visits[i]? = some v → outs[i]? = some out →
        Given (fun n => (fin v.1).mapped.lookup n) v.2 out := by
  intro visits
  induction visits with
  | nil =>
    intro ctx _ hc
    refine ⟨[], ctx, rfl, rfl, ?_, fun _ _ _ h => h, ?_⟩
    · intro s
      rcases hc s with h | h
      · exact .inl ⟨h, fun v hv => (by cases hv)⟩
      · exact .inr h
    · intro i v out hv
      rw [List.getElem?_nil] at hv
      cases hv
  | cons v visits ih =>
    obtain ⟨s, attrs⟩ := v
    intro ctx hN hc
    obtain ⟨out, st, h1, h2, h3, h4⟩ := visit_full (hN _ List.mem_cons_self) (hc s)
    obtain ⟨outs, fin, r1, r2, r3, r4, r5⟩ := ih (fun x => if x = s then st else ctx x)
      (fun v hv => hN v (List.mem_cons_of_mem _ hv)) (by
        intro x
        by_cases hx : x = s
        · subst hx; rw [if_pos rfl]; exact .inr h2
        · rw [if_neg hx]; exact hc x)
    have hmono : ∀ x y, st.mapped.lookup x = some y → (fin s).mapped.lookup x = some y := by
      intro x y hxy
      refine r4 s x y ?_
      rw [if_pos rfl]
      exact hxy
    refine ⟨out :: outs, fin, ?_, ?_, ?_, ?_, ?_⟩
    · rw [visitAll, h1]
      simp only [r1]
    · rw [List.length_cons, List.length_cons, r2]
    · intro x
      rcases r3 x with ⟨ha, hb⟩ | h
      · by_cases hx : x = s
        · subst hx
          exact .inr (full_of_mono h2 ha hmono)
        · refine .inl ⟨ha, ?_⟩
          intro v hv
          rcases List.mem_cons.1 hv with rfl | hv
          · exact fun h => hx h.symm
          · exact hb v hv
      · exact .inr h
    · intro x n m hnm
      by_cases hx : x = s
      · subst hx
        exact hmono n m (h4 n m hnm)
      · refine r4 x n m ?_
        rw [if_neg hx]
        exact hnm
    · intro i v o hv ho
      cases i with
      | zero =>
        rw [List.getElem?_cons_zero] at hv ho
        cases hv
        cases ho
        exact ⟨h3.1, h3.2.1, fun n m hnm => hmono n m (h3.2.2 n m hnm)⟩
      | succ i =>
        rw [List.getElem?_cons_succ] at hv ho
        exact r5 i v o hv ho

/-- C95: new names. Visits with the same schema have the same names of attributes. Then the search for
free names ends, and there is one renaming for each schema: identifiers keep their names, other names
become the first of "san_x", "san_x_0", "san_x_1", ... that is not the new name of another attribute
of the schema, and no two attributes get the same name. Every visit gives exactly the attributes that
are there, in the order of their old names, with their names in the renaming of the schema. -/
theorem C95_renames {S : Type} [DecidableEq S] (visits : List (S × List (Name × Bool)))
    (hsame : ∀ v ∈ visits, ∀ w ∈ visits, v.1 = w.1 →
      ∀ n, n ∈ v.2.map Prod.fst ↔ n ∈ w.2.map Prod.fst) :
    ∃ (outs : List (List (Name × Name))) (f : S → Name → Option Name),
      visitAll visits (fun _ => {}) = some outs ∧ outs.length = visits.length ∧
      (∀ s, Renaming (fun n => ∃ v ∈ visits, v.1 = s ∧ n ∈ v.2.map Prod.fst) (f s)) ∧
      ∀ (i : Nat) (v : S × List (Name × Bool)) (out : List (Name × Name)),
        visits[i]? = some v → outs[i]? = some out → Given (f v.1) v.2 out := by
  obtain ⟨outs, fin, h1, h2, h3, _, h5⟩ := visitAll_full
    (fun s n => ∃ v ∈ visits, v.1 = s ∧ n ∈ v.2.map Prod.fst) visits (fun _ => {})
    (fun v hv n => ⟨fun hn => ⟨v, hv, rfl, hn⟩, fun ⟨w, hw, he, hn⟩ =>
      (hsame w hw v hv he n).1 hn⟩)
    (fun _ => .inl rfl)
  refine ⟨outs, fun s n => (fin s).mapped.lookup n, h1, h2, ?_, h5⟩
  intro s
  rcases h3 s with ⟨ha, hb⟩ | h
  · simp only [ha]
    refine ⟨fun _ _ h => (by cases h), fun _ _ h => (by cases h), ?_, fun _ _ _ h => (by cases h),
      fun _ _ h => (by cases h)⟩
    rintro n ⟨v, hv, he, _⟩ _
    exact (hb v hv he).elim
  · exact full_renaming h

/-- C95: the new name before suffixes, for every name. -/
theorem C95_sanitize_name (n : Name) :
    (Identifier n → sanitizeName n = n) ∧ (¬ Identifier n → Base n (sanitizeName n)) := by
  constructor
  · intro h
    have hv := (valid_iff n).2 h
    obtain ⟨c, rest, rfl, _, _⟩ := h
    unfold isValid at hv
    simp only [Bool.and_eq_true, Bool.not_eq_true', List.all_eq_true] at hv
    unfold sanitizeName
    simp only
    rw [if_neg]
    · unfold cleanChars
      refine (List.map_congr_left (g := id) fun d hd => ?_).trans (List.map_id _)
      rw [if_pos (hv.2 d hd)]
      rfl
    · rw [hv.1, Bool.false_or, List.any_eq_true]
      rintro ⟨d, hd, hb⟩
      rw [hv.2 d hd] at hb
      cases hb
  · intro h
    refine base_sanitize ?_
    cases hb : isValid n with
    | false => rfl
    | true => exact (h ((valid_iff n).1 hb)).elim

/-- C95: two visits of one schema agree, and never mix attributes up. -/
theorem C95_agree {S : Type} [DecidableEq S] {visits : List (S × List (Name × Bool))}
    {outs : List (List (Name × Name))}
    (hsame : ∀ v ∈ visits, ∀ w ∈ visits, v.1 = w.1 →
      ∀ n, n ∈ v.2.map Prod.fst ↔ n ∈ w.2.map Prod.fst)
    (h : visitAll visits (fun _ => {}) = some outs)
    {i j : Nat} {v w : S × List (Name × Bool)} {o o' : List (Name × Name)}
    (hv : visits[i]? = some v) (hw : visits[j]? = some w) (hvw : v.1 = w.1)
    (ho : outs[i]? = some o) (ho' : outs[j]? = some o') {n n' m m' : Name}
    (hn : (n, m) ∈ o) (hn' : (n', m') ∈ o') : n = n' ↔ m = m' := by
  obtain ⟨outs', f, h1, _, h3, h4⟩ := C95_renames visits hsame
  rw [h] at h1
  cases h1
  have a := (h4 i v o hv ho).2.2 n m hn
  have b := (h4 j w o' hw ho').2.2 n' m' hn'
  rw [← hvw] at b
  constructor
  · rintro rfl
    rw [a] at b
    exact Option.some.inj b
  · rintro rfl
    exact (h3 v.1).different n n' m a b

/-- C95: two attributes, "a b" and "a-b". The suffixes depend on which of them the first visited item
of the schema has: alone "a-b" becomes "san_a_b", and after an item with both it is "san_a_b_0". -/
theorem C95_order : ∃ (both one : List (Name × Bool)) (n : Name),
    (both.map Prod.fst = one.map Prod.fst) ∧
    (visitAll [((), both), ((), one)] (fun _ => {})).map (fun outs => outs.map (·.lookup n)) =
      some [some [115, 97, 110, 95, 97, 95, 98, 95, 48], some [115, 97, 110, 95, 97, 95, 98, 95, 48]] ∧
    (visitAll [((), one), ((), both)] (fun _ => {})).map (fun outs => outs.map (·.lookup n)) =
      some [some [115, 97, 110, 95, 97, 95, 98], some [115, 97, 110, 95, 97, 95, 98]] :=
  ⟨[([97, 32, 98], true), ([97, 45, 98], true)], [([97, 32, 98], false), ([97, 45, 98], true)],
    [97, 45, 98], rfl, by decide +kernel, by decide +kernel⟩

/-- C95: the names of the schema must be the same in all visits: a name that comes later can be the
new name of an earlier one. -/
theorem C95_late : ∃ (first second : List (Name × Bool)) (n n' m : Name), n ≠ n' ∧
    (visitAll [((), first), ((), second)] (fun _ => {})).map (fun outs =>
      (outs.map (·.lookup n), outs.map (·.lookup n'))) =
      some ([some m, none], [none, some m]) :=
  ⟨[([97, 32, 98], true)], [([115, 97, 110, 95, 97, 95, 98], true)], [97, 32, 98],
    [115, 97, 110, 95, 97, 95, 98], [115, 97, 110, 95, 97, 95, 98], by decide, by decide +kernel⟩

/-! Names "a", "1", "a b", "a-b", "san_a_b" of one schema, in two visits, and another schema. -/

def exVisits : List (Nat × List (Name × Bool)) :=
  [(0, [([97, 45, 98], true), ([97, 32, 98], true), ([97], true), ([49], true),
    ([115, 97, 110, 95, 97, 95, 98], false)]),
   (1, [([97, 45, 98], true)]),
   (0, [([97, 45, 98], true), ([97, 32, 98], false), ([97], false), ([49], true),
    ([115, 97, 110, 95, 97, 95, 98], true)])]

example : ∀ v ∈ exVisits, ∀ w ∈ exVisits, v.1 = w.1 →
    ∀ n, n ∈ v.2.map Prod.fst ↔ n ∈ w.2.map Prod.fst := by
  intro v hv w hw he n
  simp only [exVisits, List.mem_cons, List.not_mem_nil, or_false] at hv hw
  rcases hv with rfl | rfl | rfl <;> rcases hw with rfl | rfl | rfl <;>
    first | rfl | cases he

example : visitAll exVisits (fun _ => {}) = some
    [[([49], [115, 97, 110, 95, 49]), ([97], [97]),
      ([97, 32, 98], [115, 97, 110, 95, 97, 95, 98, 95, 48]),
      ([97, 45, 98], [115, 97, 110, 95, 97, 95, 98, 95, 49])],
     [([97, 45, 98], [115, 97, 110, 95, 97, 95, 98])],
     [([49], [115, 97, 110, 95, 49]), ([97, 45, 98], [115, 97, 110, 95, 97, 95, 98, 95, 49]),
      ([115, 97, 110, 95, 97, 95, 98], [115, 97, 110, 95, 97, 95, 98])]] := by decide +kernel

example : Decimal [49, 48, 55] 107 :=
  .more (ds := [49, 48]) (k := 10) (d := 7) (by decide) (by decide)
    (.more (ds := [49]) (k := 1) (d := 0) (by decide) (by decide) (.digit (d := 1) (by decide)))

end Verif.Sanitize
