import Verif.S11n.Encode

/-! What the decoder accepts stands for the items it returns. -/

namespace Verif.S11n

variable {P Q : Type}

theorem valuesSize_inv {k : Kind} {p : Part P} {n : Nat} (h : valuesSize k p = .ok n) :
    Sized k p ∧ n = (p.stored k).length := by
  have hs : Sized k p := by
    rintro rfl
    unfold valuesSize at h
    simp only at h
    by_cases hne : p.hi.length ≠ p.lo.length
    · rw [if_pos hne] at h
      cases h
    · simpa using hne
  rw [valuesSize_eq hs] at h
  exact ⟨hs, by simpa using h.symm⟩

/-- What is left to read. -/
def Cursor.rem (k : Kind) (c : Cursor P) : List (Raw P) :=
  (c.part.stored k).drop (c.lastId - c.offset) ++ c.rest.flatMap (Part.stored k)

/-- The cursor is within its part. -/
structure Within (k : Kind) (c : Cursor P) : Prop where
  size : c.size = (c.part.stored k).length
  ge : c.offset ≤ c.lastId
  le : c.lastId ≤ c.offset + c.size

theorem nextPart_inv {k : Kind} {c c' : Cursor P} (h : nextPart k c = .ok c') :
    ∃ p, c.rest = p :: c'.rest ∧ Sized k p ∧ c'.part = p ∧ c'.size = (p.stored k).length ∧
      c'.offset = c.offset + c.size ∧ c'.lastId = c.lastId := by
  unfold nextPart at h
  cases hr : c.rest with
  | nil => rw [hr] at h; cases h
  | cons p rest =>
    rw [hr] at h
    simp only at h
    cases hv : valuesSize k p with
    | error e => rw [hv] at h; cases h
    | ok n =>
      rw [hv] at h
      simp only [Except.ok.injEq] at h
      subst h
      obtain ⟨h1, h2⟩ := valuesSize_inv hv
      exact ⟨p, rfl, h1, rfl, h2, rfl, rfl⟩

theorem findPart_inv {k : Kind} (n : Nat) {c c' : Cursor P} (hw : Within k c) (h : findPart k n c = .ok c') :
    Within k { c' with lastId := c'.lastId + 1 } ∧
    (∃ r, (c'.part.stored k)[c'.lastId - c'.offset]? = some r ∧
      c.rem k = r :: Cursor.rem k { c' with lastId := c'.lastId + 1 }) ∧
    ∀ p ∈ c.rest, p ∈ c'.rest ∨ Sized k p := by
  induction n generalizing c with
  | zero => cases h
  | succ n ih =>
    unfold findPart at h
    by_cases hend : c.lastId ≥ c.offset + c.size
    · rw [if_pos hend] at h
      cases hn : nextPart k c with
      | error e => rw [hn] at h; cases h
      | ok c1 =>
        rw [hn] at h
        simp only at h
        obtain ⟨p, q1, q2, q3, q4, q5, q6⟩ := nextPart_inv hn
        have hle := hw.le
        have hw1 : Within k c1 := ⟨by rw [q4, q3], by omega, by omega⟩
        obtain ⟨r1, ⟨r, r2, r3⟩, r4⟩ := ih hw1 h
        refine ⟨r1, ⟨r, r2, ?_⟩, ?_⟩
        · rw [← r3]
          unfold Cursor.rem
          rw [List.drop_eq_nil_of_le (by have := hw.size; omega), q1, q3]
          have : c1.lastId - c1.offset = 0 := by omega
          rw [this]
          simp
        · intro x hx
          rw [q1] at hx
          rcases List.mem_cons.1 hx with rfl | hx
          · exact .inr q2
          · exact r4 x hx
    · rw [if_neg hend] at h
      simp only [Except.ok.injEq] at h
      subst h
      have hge := hw.ge
      have hsz := hw.size
      have hlt : c.lastId - c.offset < (c.part.stored k).length := by omega
      refine ⟨⟨hw.size, by simp only; omega, by simp only; omega⟩,
        ⟨(c.part.stored k)[c.lastId - c.offset], List.getElem?_eq_getElem hlt, ?_⟩, fun x hx => .inl hx⟩
      unfold Cursor.rem
      rw [List.drop_eq_getElem_cons hlt]
      have : c.lastId + 1 - c.offset = c.lastId - c.offset + 1 := by omega
      simp only [this, List.cons_append]

theorem skipParts_inv {k : Kind} (n : Nat) {c c' : Cursor P} (hn : c.rest.length = n)
    (hle : c.lastId ≤ c.offset + c.size) (h : skipParts k n c = .ok c')
    (hend : c'.lastId = c'.offset + c'.size) :
    c.lastId = c.offset + c.size ∧ ∀ p ∈ c.rest, Sized k p ∧ p.stored k = [] := by
  induction n generalizing c with
  | zero =>
    simp only [skipParts, Except.ok.injEq] at h
    subst h
    refine ⟨hend, ?_⟩
    rw [List.length_eq_zero_iff.1 hn]
    simp
  | succ n ih =>
    unfold skipParts at h
    cases hx : nextPart k c with
    | error e => rw [hx] at h; cases h
    | ok c1 =>
      rw [hx] at h
      simp only at h
      obtain ⟨p, q1, q2, q3, q4, q5, q6⟩ := nextPart_inv hx
      rw [q1] at hn
      obtain ⟨r1, r2⟩ := ih (by simpa using hn) (by omega) h
      have hz : (p.stored k).length = 0 := by omega
      refine ⟨by omega, ?_⟩
      intro x hxm
      rw [q1] at hxm
      rcases List.mem_cons.1 hxm with rfl | hxm
      · exact ⟨q2, List.length_eq_zero_iff.1 hz⟩
      · exact r2 x hxm

theorem readValue_inv {K : Kit P} {k : Kind} {i : Nat} {c c' : Cursor P} {d d' : Dec P Q} (hw : Within k c)
    (h : readValue K k i c d = .ok (c', d')) :
    ∃ x : Cell P Q, x.kind = some k ∧ d'.cells = insertIfNotSet d.cells i x ∧ Within k c' ∧
      c.rem k = rawOf k d.lastHi d.lastLo x ++ c'.rem k ∧
      d'.lastHi = x.idHi d.lastHi ∧ d'.lastLo = x.idLo d.lastLo ∧
      d.inputs = (exprsOf [x]).map .exprQuote ++ d'.inputs ∧
      (∀ v, x = .plain .dtype v → K.isDType v = true) ∧
      ∀ p ∈ c.rest, p ∈ c'.rest ∨ Sized k p := by
  cases k with
  | unit =>
    simp only [readValue, Except.ok.injEq, Prod.mk.injEq] at h
    obtain ⟨rfl, rfl⟩ := h
    exact ⟨.unit, rfl, rfl, hw, by simp [rawOf], rfl, rfl, by simp [exprsOf], by simp, fun p hp => .inl hp⟩
  | exprQuote =>
    unfold readValue at h
    simp only at h
    cases hi : d.inputs with
    | nil => rw [hi] at h; cases h
    | cons a l =>
      rw [hi] at h
      cases a with
      | bytes p => cases h
      | exprQuote q =>
        simp only [Except.ok.injEq, Prod.mk.injEq] at h
        obtain ⟨rfl, rfl⟩ := h
        exact ⟨.exprQuote q, rfl, rfl, hw, by simp [rawOf], rfl, rfl, by simp [exprsOf], by simp,
          fun p hp => .inl hp⟩
  | objectId =>
    unfold readValue at h
    simp only at h
    cases hf : findPart .objectId (c.rest.length + 1) c with
    | error e => rw [hf] at h; cases h
    | ok c1 =>
      rw [hf] at h
      simp only at h
      obtain ⟨f1, ⟨r, f2, f3⟩, f4⟩ := findPart_inv _ hw hf
      unfold Part.stored at f2
      simp only [List.getElem?_zipWith] at f2
      generalize hh : c1.part.hi[c1.lastId - c1.offset]? = ohi at f2 h
      generalize hl : c1.part.lo[c1.lastId - c1.offset]? = olo at f2 h
      cases ohi with
      | none => simp at f2
      | some a =>
        cases olo with
        | none => simp at f2
        | some b =>
          simp only [Option.some.injEq] at f2
          subst f2
          simp only [Except.ok.injEq, Prod.mk.injEq] at h
          obtain ⟨rfl, rfl⟩ := h
          refine ⟨.objectId (a + d.lastHi) (b + d.lastLo), rfl, rfl, f1, ?_, rfl, rfl, by simp [exprsOf],
            by simp, f4⟩
          rw [f3]
          simp [rawOf, BitVec.add_sub_cancel]
  | plain t =>
    unfold readValue at h
    simp only at h
    cases hf : findPart (.plain t) (c.rest.length + 1) c with
    | error e => rw [hf] at h; cases h
    | ok c1 =>
      rw [hf] at h
      simp only at h
      obtain ⟨f1, ⟨r, f2, f3⟩, f4⟩ := findPart_inv _ hw hf
      unfold Part.stored at f2
      simp only [List.getElem?_map, Option.map_eq_some_iff] at f2
      obtain ⟨v, f2, rfl⟩ := f2
      rw [f2] at h
      simp only at h
      by_cases hd : t = .dtype ∧ K.isDType v = false
      · rw [if_pos hd] at h
        cases h
      · rw [if_neg hd] at h
        simp only [Except.ok.injEq, Prod.mk.injEq] at h
        obtain ⟨rfl, rfl⟩ := h
        refine ⟨.plain t v, rfl, rfl, f1, ?_, rfl, rfl, by simp [exprsOf], ?_, f4⟩
        · rw [f3]
          simp [rawOf]
        · intro w hw'
          cases hw'
          simpa using hd

theorem typeByte_kindOf {b : Nat} {x : Cell P Q} {k : Kind} (hb : kindOf b = some k)
    (hx : x.kind = some k) : typeByte x = b := by
  have hid : ∀ {b : Nat} {k : Kind}, kindOf b = some k → k.id = b := by
    intro b k h
    unfold kindOf at h
    split at h <;> first | (cases h; rfl) | cases h
  rw [typeByte_of_kind hx]
  exact hid hb

/-- How an item that was read goes with the byte of its type. -/
def Goes (k : Kind) (b : Nat) (x : Cell P Q) : Prop :=
  (x = .unset ∧ (b = kUnset ∨ ∃ k', k' ≠ k ∧ kindOf b = some k')) ∨ (x = .removed ∧ b = kRemoved) ∨
    (x.kind = some k ∧ kindOf b = some k)

theorem processLoop_inv {K : Kit P} {k : Kind} (bs : List Nat) (i next : Nat) {c : Cursor P} {d : Dec P Q}
    {next' : Nat} {c' : Cursor P} {d' : Dec P Q} (hw : Within k c)
    (h : processLoop K k bs i next c d = .ok (next', c', d')) :
    ∃ xs : List (Cell P Q), xs.length = bs.length ∧
      (∀ (j : Nat) b x, bs[j]? = some b → xs[j]? = some x → Goes k b x) ∧
      d'.cells = paint k i xs d.cells ∧ Within k c' ∧
      c.rem k = toStore k d.lastHi d.lastLo xs ++ c'.rem k ∧
      d.inputs = (exprsOf xs).map .exprQuote ++ d'.inputs ∧
      (k ≠ .objectId → d'.lastHi = d.lastHi ∧ d'.lastLo = d.lastLo) ∧
      (∀ v, .plain .dtype v ∈ xs → K.isDType v = true) ∧
      (∀ p ∈ c.rest, p ∈ c'.rest ∨ Sized k p) ∧
      next' ≤ next ∧
      (∀ (j : Nat) b, bs[j]? = some b → i + j < next' → b = kUnset ∨ b = kRemoved ∨ kindOf b = some k) ∧
      ∀ l, l ≤ next → (∀ (j : Nat) b, bs[j]? = some b → i + j < l → kindOf b = some k) → l ≤ next' := by
  induction bs generalizing i next c d with
  | nil =>
    simp only [processLoop, Except.ok.injEq, Prod.mk.injEq] at h
    obtain ⟨rfl, rfl, rfl⟩ := h
    exact ⟨[], rfl, by simp, rfl, hw, by simp [toStore], by simp [exprsOf], fun _ => ⟨rfl, rfl⟩, by simp,
      fun p hp => .inl hp, Nat.le_refl _, by simp, fun l hl _ => hl⟩
  | cons b bs ih =>
    -- a step over an item
    have step : ∀ (x : Cell P Q) (c1 : Cursor P) (d1 : Dec P Q) (next1 : Nat), Within k c1 →
        processLoop K k bs (i + 1) next1 c1 d1 = .ok (next', c', d') →
        Goes k b x → (∀ xs, paint k (i + 1) xs d1.cells = paint k i (x :: xs) d.cells) →
        c.rem k = rawOf k d.lastHi d.lastLo x ++ c1.rem k →
        d1.lastHi = x.idHi d.lastHi → d1.lastLo = x.idLo d.lastLo →
        d.inputs = (exprsOf [x]).map .exprQuote ++ d1.inputs →
        (∀ v, x = .plain .dtype v → K.isDType v = true) →
        (∀ p ∈ c.rest, p ∈ c1.rest ∨ Sized k p) →
        next1 ≤ next → (b = kUnset ∨ b = kRemoved ∨ kindOf b = some k ∨ next1 ≤ i) →
        (next1 = next ∨ (next1 = min next i ∧ kindOf b ≠ some k)) →
        ∃ xs : List (Cell P Q), xs.length = (b :: bs).length ∧
          (∀ (j : Nat) b' x, (b :: bs)[j]? = some b' → xs[j]? = some x → Goes k b' x) ∧
          d'.cells = paint k i xs d.cells ∧ Within k c' ∧
          c.rem k = toStore k d.lastHi d.lastLo xs ++ c'.rem k ∧
          d.inputs = (exprsOf xs).map .exprQuote ++ d'.inputs ∧
          (k ≠ .objectId → d'.lastHi = d.lastHi ∧ d'.lastLo = d.lastLo) ∧
          (∀ v, .plain .dtype v ∈ xs → K.isDType v = true) ∧
          (∀ p ∈ c.rest, p ∈ c'.rest ∨ Sized k p) ∧
          next' ≤ next ∧
          (∀ (j : Nat) b', (b :: bs)[j]? = some b' → i + j < next' →
            b' = kUnset ∨ b' = kRemoved ∨ kindOf b' = some k) ∧
          ∀ l, l ≤ next → (∀ (j : Nat) b', (b :: bs)[j]? = some b' → i + j < l → kindOf b' = some k) →
            l ≤ next' := by
      intro x c1 d1 next1 hw1 h1 hg hp hrem hhi hlo hin hdt hsz hnext hb hn1
      obtain ⟨xs, e1, e2, e3, e4, e5, e6, e7, e8, e9, e10, e11, e12⟩ := ih (i + 1) next1 hw1 h1
      refine ⟨x :: xs, by simp [e1], ?_, by rw [e3, hp], e4, ?_, ?_, ?_, ?_, ?_, by omega, ?_, ?_⟩
      · intro j b' y hb' hy
        cases j with
        | zero =>
          simp only [List.getElem?_cons_zero, Option.some.injEq] at hb' hy
          subst hb'
          subst hy
          exact hg
        | succ j => exact e2 j b' y (by simpa using hb') (by simpa using hy)
      · rw [hrem, e5, ← List.append_assoc, hhi, hlo]
        congr 1
        rcases toStore_cons k d.lastHi d.lastLo x xs with hs | hs
        · rw [hs]
        · rw [toStore_skip hs]
          have hx : x.kind = none := by
            rcases hg with ⟨rfl, _⟩ | ⟨rfl, _⟩ | ⟨hg, _⟩
            · rfl
            · rfl
            · exact absurd hg hs
          cases x with
          | unset => rfl
          | removed => rfl
          | objectId => cases hx
          | unit => cases hx
          | exprQuote => cases hx
          | plain => cases hx
      · rw [hin, e6, ← List.append_assoc, ← List.map_append, ← exprsOf_cons]
      · intro hk
        obtain ⟨g1, g2⟩ := e7 hk
        rw [g1, g2, hhi, hlo]
        cases x with
        | objectId a b =>
          rcases hg with ⟨hg, _⟩ | ⟨hg, _⟩ | ⟨hg, _⟩
          · cases hg
          · cases hg
          · cases hg
            exact absurd rfl hk
        | _ => exact ⟨rfl, rfl⟩
      · intro v hv
        rcases List.mem_cons.1 hv with hv | hv
        · exact hdt v hv.symm
        · exact e8 v hv
      · intro p hp'
        rcases hsz p hp' with hq | hq
        · exact e9 p hq
        · exact .inr hq
      · intro j b' hb' hlt
        cases j with
        | zero =>
          simp only [List.getElem?_cons_zero, Option.some.injEq] at hb'
          subst hb'
          rcases hb with hb | hb | hb | hb
          · exact .inl hb
          · exact .inr (.inl hb)
          · exact .inr (.inr hb)
          · omega
        | succ j => exact e11 j b' (by simpa using hb') (by omega)
      · intro l hl hall
        refine e12 l ?_ fun j b' hb' hlt => hall (j + 1) b' (by simpa using hb') (by omega)
        rcases hn1 with rfl | ⟨rfl, hne⟩
        · exact hl
        · by_cases hil : i < l
          · exact absurd (hall 0 b rfl (by omega)) hne
          · omega
    unfold processLoop at h
    by_cases hu : b = kUnset
    · rw [if_pos hu] at h
      exact step .unset c d next hw h (.inl ⟨rfl, .inl hu⟩)
        (fun xs => by rw [paint_cons_neg (by simp [Sets, Cell.kind])]) (by simp [rawOf]) rfl rfl
        (by simp [exprsOf]) (by simp) (fun p hp => .inl hp) (Nat.le_refl _) (.inl hu) (.inl rfl)
    · rw [if_neg hu] at h
      by_cases hr : b = kRemoved
      · rw [if_pos hr] at h
        exact step .removed c _ next hw h (.inr (.inl ⟨rfl, hr⟩))
          (fun xs => by rw [paint_cons_pos (.inl rfl)]) (by simp [rawOf]) rfl rfl
          (by simp [exprsOf]) (by simp) (fun p hp => .inl hp) (Nat.le_refl _) (.inr (.inl hr)) (.inl rfl)
      · rw [if_neg hr] at h
        cases hkb : kindOf b with
        | none => rw [hkb] at h; cases h
        | some k' =>
          rw [hkb] at h
          simp only at h
          by_cases hkk : k' = k
          · subst hkk
            rw [if_neg (by simp)] at h
            cases hv : readValue K k' i c d with
            | error e => rw [hv] at h; cases h
            | ok r =>
              obtain ⟨c1, d1⟩ := r
              rw [hv] at h
              simp only at h
              obtain ⟨x, x1, x2, x3, x4, x5, x6, x7, x8, x9⟩ := readValue_inv hw hv
              exact step x c1 d1 next x3 h (.inr (.inr ⟨x1, hkb⟩))
                (fun xs => by rw [paint_cons_pos (.inr x1), x2]) x4 x5 x6 x7 x8 x9 (Nat.le_refl _)
                (.inr (.inr (.inl hkb))) (.inl rfl)
          · rw [if_pos hkk] at h
            exact step .unset c d (min next i) hw h (.inl ⟨rfl, .inr ⟨k', hkk, hkb⟩⟩)
              (fun xs => by rw [paint_cons_neg (by simp [Sets, Cell.kind])]) (by simp [rawOf]) rfl rfl
              (by simp [exprsOf]) (by simp) (fun p hp => .inl hp) (by omega) (.inr (.inr (.inr (by omega))))
              (.inr ⟨rfl, by rw [hkb]; simpa using hkk⟩)

end Verif.S11n
