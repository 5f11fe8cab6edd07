import Verif.S11n.Spec

/-! The decoder accepts what stands for items. -/

namespace Verif.S11n

variable {P Q : Type}

/-- The sizes of a part can be read. -/
def Sized (k : Kind) (p : Part P) : Prop := k = .objectId → p.hi.length = p.lo.length

theorem valuesSize_eq {k : Kind} {p : Part P} (h : Sized k p) :
    valuesSize k p = .ok (p.stored k).length := by
  unfold valuesSize Part.stored
  cases k with
  | objectId =>
    have := h rfl
    simp [this]
  | unit => rfl
  | exprQuote => rfl
  | plain t => simp

/-- What is left to read. -/
structure CursorOk (k : Kind) (c : Cursor P) (rem : List (Raw P)) : Prop where
  size : c.size = (c.part.stored k).length
  ge : c.offset ≤ c.lastId
  le : c.lastId ≤ c.offset + c.size
  sized : Sized k c.part
  rest : ∀ p ∈ c.rest, Sized k p
  rem : (c.part.stored k).drop (c.lastId - c.offset) ++ c.rest.flatMap (Part.stored k) = rem

theorem nextPart_ok {k : Kind} {c : Cursor P} {rem : List (Raw P)} (h : CursorOk k c rem)
    (hend : c.lastId = c.offset + c.size) (p : Part P) (rest : List (Part P)) (hr : c.rest = p :: rest) :
    ∃ c', nextPart k c = .ok c' ∧ c'.rest = rest ∧ c'.lastId = c.lastId ∧ CursorOk k c' rem := by
  have hp : Sized k p := h.rest p (by simp [hr])
  refine ⟨⟨p, (p.stored k).length, c.offset + c.size, c.lastId, rest⟩, ?_, rfl, rfl, ?_⟩
  · unfold nextPart
    rw [hr]
    simp only
    rw [valuesSize_eq hp]
  · refine ⟨rfl, by simp [hend], by simp only; omega, hp, fun q hq => h.rest q (by simp [hr, hq]), ?_⟩
    have h6 := h.rem
    rw [hr, List.drop_eq_nil_of_le (by have := h.size; omega)] at h6
    simp only [hend, Nat.sub_self, List.drop_zero]
    simpa using h6

theorem findPart_ok {k : Kind} (n : Nat) {c : Cursor P} {r : Raw P} {rem : List (Raw P)}
    (hn : c.rest.length < n) (h : CursorOk k c (r :: rem)) :
    ∃ c', findPart k n c = .ok c' ∧ (c'.part.stored k)[c'.lastId - c'.offset]? = some r ∧
      Sized k c'.part ∧ CursorOk k { c' with lastId := c'.lastId + 1 } rem := by
  induction n generalizing c with
  | zero => omega
  | succ n ih =>
    unfold findPart
    by_cases hend : c.lastId ≥ c.offset + c.size
    · rw [if_pos hend]
      have hend : c.lastId = c.offset + c.size := by have := h.le; omega
      cases hr : c.rest with
      | nil =>
        have h6 := h.rem
        rw [hr, List.drop_eq_nil_of_le (by have := h.size; omega)] at h6
        simp at h6
      | cons p rest =>
        obtain ⟨c', e1, e2, _, e4⟩ := nextPart_ok h hend p rest hr
        rw [e1]
        exact ih (by rw [e2]; rw [hr] at hn; simp at hn; omega) e4
    · rw [if_neg hend]
      have hlt : c.lastId - c.offset < (c.part.stored k).length := by
        have := h.size; have := h.ge; omega
      have h6 := h.rem
      rw [List.drop_eq_getElem_cons hlt] at h6
      simp only [List.cons_append, List.cons.injEq] at h6
      refine ⟨c, rfl, ?_, h.sized, ⟨h.size, ?_, ?_, h.sized, h.rest, ?_⟩⟩
      · rw [List.getElem?_eq_getElem hlt, h6.1]
      · have := h.ge
        simp only
        omega
      · simp only
        omega
      · have : c.lastId + 1 - c.offset = c.lastId - c.offset + 1 := by have := h.ge; omega
        simp only [this]
        exact h6.2

theorem skipParts_ok {k : Kind} (n : Nat) {c : Cursor P} (hn : c.rest.length = n)
    (h : CursorOk k c []) :
    ∃ c', skipParts k n c = .ok c' ∧ c'.lastId = c'.offset + c'.size := by
  have hend : c.lastId = c.offset + c.size := by
    have h6 := (List.append_eq_nil_iff.1 h.rem).1
    rw [List.drop_eq_nil_iff] at h6
    have := h.size; have := h.ge; have := h.le
    omega
  induction n generalizing c with
  | zero => exact ⟨c, rfl, hend⟩
  | succ n ih =>
    unfold skipParts
    cases hr : c.rest with
    | nil => simp [hr] at hn
    | cons p rest =>
      obtain ⟨c', e1, e2, _, e4⟩ := nextPart_ok h hend p rest hr
      rw [e1]
      have hend' : c'.lastId = c'.offset + c'.size := by
        have h6 := (List.append_eq_nil_iff.1 e4.rem).1
        rw [List.drop_eq_nil_iff] at h6
        have := e4.size; have := e4.ge; have := e4.le
        omega
      exact ih (by rw [e2]; rw [hr] at hn; simpa using hn) e4 hend'

/-- The decoder is ready to read the items of a type. -/
structure Ready (k : Kind) (c : Cursor P) (d : Dec P Q) (tail : List (Cell P Q)) : Prop where
  cursor : CursorOk k c (toStore k d.lastHi d.lastLo tail)
  exprs : k = .exprQuote → d.inputs = (exprsOf tail).map .exprQuote

theorem readValue_ok {K : Kit P} {k : Kind} {c : Cursor P} {d : Dec P Q} {x : Cell P Q}
    {tail : List (Cell P Q)} (hx : x.kind = some k)
    (hd : ∀ v, x = .plain .dtype v → K.isDType v = true) (h : Ready k c d (x :: tail)) (i : Nat) :
    ∃ c' d', readValue K k i c d = .ok (c', d') ∧ Ready k c' d' tail ∧
      d'.cells = insertIfNotSet d.cells i x ∧ (k ≠ .exprQuote → d'.inputs = d.inputs) ∧
      (k ≠ .objectId → d'.lastHi = d.lastHi ∧ d'.lastLo = d.lastLo) := by
  cases x with
  | unset => cases hx
  | removed => cases hx
  | unit =>
    cases hx
    refine ⟨c, _, rfl, ⟨?_, by simp⟩, rfl, fun _ => rfl, fun _ => ⟨rfl, rfl⟩⟩
    have := h.cursor
    simpa only [toStore] using this
  | exprQuote q =>
    cases hx
    have he := h.exprs rfl
    simp only [exprsOf, List.map_cons] at he
    unfold readValue
    simp only
    rw [he]
    refine ⟨c, _, rfl, ⟨?_, fun _ => rfl⟩, rfl, fun h => absurd rfl h, fun _ => ⟨rfl, rfl⟩⟩
    have := h.cursor
    simpa only [toStore] using this
  | objectId hi lo =>
    cases hx
    have hc := h.cursor
    simp only [toStore, if_true] at hc
    obtain ⟨c', e1, e2, e3, e4⟩ := findPart_ok (c.rest.length + 1) (by omega) hc
    unfold readValue
    simp only
    rw [e1]
    simp only
    unfold Part.stored at e2
    simp only [List.getElem?_zipWith] at e2
    generalize hh : c'.part.hi[c'.lastId - c'.offset]? = ohi at e2 ⊢
    generalize hl : c'.part.lo[c'.lastId - c'.offset]? = olo at e2 ⊢
    cases ohi with
    | none => simp at e2
    | some a =>
      cases olo with
      | none => simp at e2
      | some b =>
        simp only [Option.some.injEq, Raw.id.injEq] at e2
        obtain ⟨rfl, rfl⟩ := e2
        refine ⟨_, _, rfl, ⟨?_, by simp⟩, ?_, fun _ => rfl, fun h => absurd rfl h⟩
        · simpa only [BitVec.sub_add_cancel] using e4
        · simp only [BitVec.sub_add_cancel]
  | plain t v =>
    cases hx
    have hc := h.cursor
    simp only [toStore, if_true] at hc
    obtain ⟨c', e1, e2, e3, e4⟩ := findPart_ok (c.rest.length + 1) (by omega) hc
    unfold readValue
    simp only
    rw [e1]
    simp only
    unfold Part.stored at e2
    simp only [List.getElem?_map, Option.map_eq_some_iff] at e2
    obtain ⟨v', e2, e5⟩ := e2
    cases e5
    rw [e2]
    simp only
    rw [if_neg (by
      rintro ⟨rfl, hf⟩
      rw [hd v rfl] at hf
      cases hf)]
    exact ⟨_, _, rfl, ⟨e4, by simp⟩, rfl, fun _ => rfl, fun _ => ⟨rfl, rfl⟩⟩

theorem toStore_skip {k : Kind} {x : Cell P Q} (hx : x.kind ≠ some k) (hi lo : BitVec 64)
    (tail : List (Cell P Q)) : toStore k hi lo (x :: tail) = toStore k hi lo tail := by
  cases x with
  | objectId a b =>
    conv => lhs; unfold toStore
    exact if_neg (by rintro rfl; exact hx rfl)
  | plain t v =>
    conv => lhs; unfold toStore
    exact if_neg (by rintro rfl; exact hx rfl)
  | _ => simp only [toStore]

theorem exprsOf_skip {x : Cell P Q} (hx : x.kind ≠ some .exprQuote) (tail : List (Cell P Q)) :
    exprsOf (x :: tail) = exprsOf tail := by
  cases x with
  | exprQuote q => exact absurd rfl hx
  | _ => simp only [exprsOf]

theorem Ready.skip {k : Kind} {c : Cursor P} {d : Dec P Q} {x : Cell P Q} {tail : List (Cell P Q)}
    (h : Ready k c d (x :: tail)) (hx : x.kind ≠ some k) : Ready k c d tail := by
  refine ⟨?_, ?_⟩
  · have := h.cursor
    rwa [toStore_skip hx] at this
  · rintro rfl
    have := h.exprs rfl
    rwa [exprsOf_skip hx] at this

theorem kindOf_typeByte {x : Cell P Q} {k : Kind} (h : x.kind = some k) :
    kindOf (typeByte x) = some k ∧ typeByte x ≠ kUnset ∧ typeByte x ≠ kRemoved := by
  cases x with
  | plain t v => cases h; cases t <;> (refine ⟨rfl, ?_, ?_⟩ <;> (intro h; cases h))
  | unset => cases h
  | removed => cases h
  | _ => cases h; refine ⟨rfl, ?_, ?_⟩ <;> (intro h; cases h)

/-- What `process_type` does to the items. -/
def paint (k : Kind) : Nat → List (Cell P Q) → List (Cell P Q) → List (Cell P Q)
  | _, [], cells => cells
  | i, .removed :: tail, cells => paint k (i + 1) tail (insertIfNotSet cells i .removed)
  | i, x :: tail, cells =>
    if x.kind = some k then paint k (i + 1) tail (insertIfNotSet cells i x)
    else paint k (i + 1) tail cells

theorem processLoop_ok {K : Kit P} {k : Kind} (tail : List (Cell P Q)) (i next : Nat)
    (c : Cursor P) (d : Dec P Q) (hd : ∀ v, .plain .dtype v ∈ tail → K.isDType v = true)
    (h : Ready k c d tail) :
    ∃ next' c' d', processLoop K k (tail.map typeByte) i next c d = .ok (next', c', d') ∧
      Ready k c' d' [] ∧ d'.cells = paint k i tail d.cells ∧
      (k ≠ .exprQuote → d'.inputs = d.inputs) ∧
      (k ≠ .objectId → d'.lastHi = d.lastHi ∧ d'.lastLo = d.lastLo) ∧
      next' ≤ next ∧
      (∀ (j : Nat) x, tail[j]? = some x → i + j < next' → x.kind = none ∨ x.kind = some k) ∧
      ∀ l, l ≤ next →
        (∀ (j : Nat) x, tail[j]? = some x → i + j < l → x.kind = none ∨ x.kind = some k) → l ≤ next' := by
  induction tail generalizing i next c d with
  | nil =>
    exact ⟨next, c, d, rfl, h, rfl, fun _ => rfl, fun _ => ⟨rfl, rfl⟩, Nat.le_refl _, by simp,
      fun l hl _ => hl⟩
  | cons x tail ih =>
    have hd' : ∀ v, .plain .dtype v ∈ tail → K.isDType v = true := fun v hv => hd v (by simp [hv])
    -- the step to the rest, when the item does not change `next`
    have step : ∀ (c1 : Cursor P) (d1 : Dec P Q), Ready k c1 d1 tail →
        (x.kind = none ∨ x.kind = some k) →
        paint k (i + 1) tail d1.cells = paint k i (x :: tail) d.cells →
        (k ≠ .exprQuote → d1.inputs = d.inputs) →
        (k ≠ .objectId → d1.lastHi = d.lastHi ∧ d1.lastLo = d.lastLo) →
        ∃ next' c' d', processLoop K k (tail.map typeByte) (i + 1) next c1 d1 = .ok (next', c', d') ∧
          Ready k c' d' [] ∧ d'.cells = paint k i (x :: tail) d.cells ∧
          (k ≠ .exprQuote → d'.inputs = d.inputs) ∧
          (k ≠ .objectId → d'.lastHi = d.lastHi ∧ d'.lastLo = d.lastLo) ∧
          next' ≤ next ∧
          (∀ (j : Nat) y, (x :: tail)[j]? = some y → i + j < next' → y.kind = none ∨ y.kind = some k) ∧
          ∀ l, l ≤ next →
            (∀ (j : Nat) y, (x :: tail)[j]? = some y → i + j < l → y.kind = none ∨ y.kind = some k) →
            l ≤ next' := by
      intro c1 d1 hr hx hp hi hl
      obtain ⟨next', c', d', e1, e2, e3, e4, e5, e6, e7, e8⟩ := ih (i + 1) next c1 d1 hd' hr
      refine ⟨next', c', d', e1, e2, e3.trans hp, fun hk => (e4 hk).trans (hi hk),
        fun hk => ⟨(e5 hk).1.trans (hl hk).1, (e5 hk).2.trans (hl hk).2⟩, e6, ?_, ?_⟩
      · intro j y hj hlt
        cases j with
        | zero =>
          simp only [List.getElem?_cons_zero, Option.some.injEq] at hj
          subst hj
          exact hx
        | succ j => exact e7 j y (by simpa using hj) (by omega)
      · intro l hl hall
        exact e8 l hl fun j y hj hlt => hall (j + 1) y (by simpa using hj) (by omega)
    rw [List.map_cons]
    unfold processLoop
    cases hk : x.kind with
    | none =>
      have hne : x.kind ≠ some k := by rw [hk]; simp
      cases x with
      | unset =>
        rw [if_pos (show typeByte (.unset : Cell P Q) = kUnset from rfl)]
        exact step c d (h.skip hne) (.inl rfl) (by simp [paint, Cell.kind]) (fun _ => rfl)
          fun _ => ⟨rfl, rfl⟩
      | removed =>
        rw [if_neg (show typeByte (.removed : Cell P Q) ≠ kUnset by intro h; cases h),
          if_pos (show typeByte (.removed : Cell P Q) = kRemoved from rfl)]
        refine step c _ ?_ (.inl rfl) rfl (fun _ => rfl) fun _ => ⟨rfl, rfl⟩
        have := h.skip hne
        exact ⟨this.cursor, this.exprs⟩
      | objectId => cases hk
      | unit => cases hk
      | exprQuote => cases hk
      | plain => cases hk
    | some k' =>
      obtain ⟨b1, b2, b3⟩ := kindOf_typeByte hk
      rw [if_neg b2, if_neg b3, b1]
      simp only
      have hpaint : ∀ cells : List (Cell P Q), paint k i (x :: tail) cells =
          if x.kind = some k then paint k (i + 1) tail (insertIfNotSet cells i x)
          else paint k (i + 1) tail cells := by
        intro cells
        cases x with
        | removed => cases hk
        | _ => rfl
      by_cases hkk : k' = k
      · subst hkk
        rw [if_neg (by simp)]
        obtain ⟨c', d', e1, e2, e3, e4, e5⟩ := readValue_ok hk
          (fun v hv => hd v (by simp [hv])) h i
        rw [e1]
        simp only
        exact step c' d' e2 (.inr hk) (by rw [hpaint, if_pos hk, e3]) e4 e5
      · rw [if_pos hkk]
        have hne : x.kind ≠ some k := by rw [hk]; simpa using hkk
        obtain ⟨next', c', d', e1, e2, e3, e4, e5, e6, e7, e8⟩ := ih (i + 1) (min next i) c d hd' (h.skip hne)
        refine ⟨next', c', d', e1, e2, ?_, e4, e5, by omega, ?_, ?_⟩
        · rw [e3, hpaint, if_neg hne]
        · intro j y hj hlt
          cases j with
          | zero => omega
          | succ j => exact e7 j y (by simpa using hj) (by omega)
        · intro l hl hall
          refine e8 l ?_ fun j y hj hlt => hall (j + 1) y (by simpa using hj) (by omega)
          by_cases hil : i < l
          · have := hall 0 x rfl (by omega)
            rw [hk] at this
            simp [hkk] at this
          · omega

theorem insertIfNotSet_length (cells : List (Cell P Q)) (i : Nat) (x : Cell P Q) :
    (insertIfNotSet cells i x).length = cells.length := by
  unfold insertIfNotSet
  split <;> simp

open Classical in
theorem insertIfNotSet_get {cells : List (Cell P Q)} {i j : Nat} {x y : Cell P Q}
    (h : cells[j]? = some y) :
    (insertIfNotSet cells i x)[j]? = some (if i = j ∧ y = .unset then x else y) := by
  unfold insertIfNotSet
  by_cases hij : i = j
  · subst hij
    rw [h]
    cases y with
    | unset =>
      have := (List.getElem?_eq_some_iff.1 h).1
      simp [this]
    | _ => simpa using h
  · split
    · simp [List.getElem?_set, hij, h]
    · simp [hij, h]

theorem paint_length (k : Kind) (i : Nat) (tail cells : List (Cell P Q)) :
    (paint k i tail cells).length = cells.length := by
  induction tail generalizing i cells with
  | nil => rfl
  | cons x tail ih =>
    have : paint k i (x :: tail) cells = paint k (i + 1) tail (insertIfNotSet cells i x) ∨
        paint k i (x :: tail) cells = paint k (i + 1) tail cells := by
      cases x with
      | removed => exact .inl rfl
      | _ =>
        simp only [paint]
        split <;> simp
    rcases this with h | h <;> rw [h, ih] <;> simp [insertIfNotSet_length]

/-- An item that `process_type` sets. -/
def Sets (k : Kind) (x : Cell P Q) : Prop := x = .removed ∨ x.kind = some k

theorem paint_cons_pos {k : Kind} {x : Cell P Q} (h : Sets k x) (i : Nat) (tail cells : List (Cell P Q)) :
    paint k i (x :: tail) cells = paint k (i + 1) tail (insertIfNotSet cells i x) := by
  cases x with
  | removed => rfl
  | _ =>
    rcases h with h | h
    · cases h
    · simp only [paint]
      rw [if_pos h]

theorem paint_cons_neg {k : Kind} {x : Cell P Q} (h : ¬ Sets k x) (i : Nat) (tail cells : List (Cell P Q)) :
    paint k i (x :: tail) cells = paint k (i + 1) tail cells := by
  cases x with
  | removed => exact absurd (.inl rfl) h
  | _ =>
    simp only [paint]
    rw [if_neg (fun hk => h (.inr hk))]

theorem paint_lt (k : Kind) (i : Nat) (tail cells : List (Cell P Q)) (j : Nat) (y : Cell P Q)
    (h : cells[j]? = some y) (hj : j < i) : (paint k i tail cells)[j]? = some y := by
  induction tail generalizing i cells with
  | nil => exact h
  | cons x tail ih =>
    by_cases hs : Sets k x
    · rw [paint_cons_pos hs]
      refine ih (i + 1) _ ?_ (by omega)
      rw [insertIfNotSet_get h, if_neg (by omega)]
    · rw [paint_cons_neg hs]
      exact ih (i + 1) _ h (by omega)

open Classical in
theorem paint_set {k : Kind} (tail : List (Cell P Q)) (i : Nat) (cells : List (Cell P Q)) (j : Nat)
    (x y : Cell P Q) (h : cells[i + j]? = some y) (hx : tail[j]? = some x) :
    (paint k i tail cells)[i + j]? =
      some (if Sets k x ∧ y = .unset then x else y) := by
  induction tail generalizing i j cells with
  | nil => simp at hx
  | cons z tail ih =>
    cases j with
    | zero =>
      simp only [List.getElem?_cons_zero, Option.some.injEq] at hx
      subst hx
      rw [Nat.add_zero] at h ⊢
      by_cases hs : Sets k z
      · rw [paint_cons_pos hs]
        rw [paint_lt k (i + 1) tail _ i _ (insertIfNotSet_get h) (by omega)]
        by_cases hy : y = .unset
        · rw [if_pos ⟨rfl, hy⟩, if_pos ⟨hs, hy⟩]
        · rw [if_neg (fun h => hy h.2), if_neg (fun h => hy h.2)]
      · rw [paint_cons_neg hs, paint_lt k (i + 1) tail _ i _ h (by omega), if_neg (fun h => hs h.1)]
    | succ j =>
      have he : i + (j + 1) = i + 1 + j := by omega
      rw [he] at h ⊢
      by_cases hs : Sets k z
      · rw [paint_cons_pos hs]
        refine ih (i + 1) _ j ?_ (by simpa using hx)
        rw [insertIfNotSet_get h, if_neg (by omega)]
      · rw [paint_cons_neg hs]
        exact ih (i + 1) _ j h (by simpa using hx)

theorem toStore_append {k : Kind} (a b : List (Cell P Q)) (h : ∀ x ∈ a, x.kind ≠ some k)
    (hi lo : BitVec 64) : toStore k hi lo (a ++ b) = toStore k hi lo b := by
  induction a with
  | nil => rfl
  | cons x a ih =>
    rw [List.cons_append, toStore_skip (h x (by simp)), ih fun y hy => h y (by simp [hy])]

theorem toStore_last {k : Kind} (hk : k ≠ .objectId) (l : List (Cell P Q)) (a b a' b' : BitVec 64) :
    toStore k a b l = toStore k a' b' l := by
  induction l generalizing a b a' b' with
  | nil => rfl
  | cons y l ih =>
    cases y with
    | objectId u v => simp only [toStore, if_neg hk]; exact ih _ _ _ _
    | plain t v => simp only [toStore]; rw [ih a b a' b']
    | _ => simp only [toStore]; exact ih _ _ _ _

theorem exprsOf_append (a b : List (Cell P Q)) (h : ∀ x ∈ a, x.kind ≠ some .exprQuote) :
    exprsOf (a ++ b) = exprsOf b := by
  induction a with
  | nil => rfl
  | cons x a ih =>
    rw [List.cons_append, exprsOf_skip (h x (by simp)), ih fun y hy => h y (by simp [hy])]

/-- The state of the loop over the types. -/
structure Inv (T : List (Cell P Q)) (i : Nat) (ks : List Kind) (d : Dec P Q) : Prop where
  len : d.cells.length = T.length
  cell : ∀ (j : Nat) x, T[j]? = some x → ∃ y, d.cells[j]? = some y ∧ (y = x ∨ y = .unset) ∧
    (∀ k, x.kind = some k → k ∈ ks → y = x) ∧ (x = .removed → j < i → y = x)
  seen : ∀ (j : Nat) x k, T[j]? = some x → j < i → x.kind = some k → k ∈ ks
  occurs : ∀ k ∈ ks, ∃ x ∈ T, x.kind = some k
  last : .objectId ∉ ks → d.lastHi = 0 ∧ d.lastLo = 0
  exprs : .exprQuote ∉ ks → d.inputs = (exprsOf T).map .exprQuote
  done : .exprQuote ∈ ks → d.inputs = []

/-- The parts hold the values of the types that occur. -/
def Holds (main : Part P) (extras : List (Part P)) (T : List (Cell P Q)) : Prop :=
  ∀ k : Kind, (∃ c ∈ T, c.kind = some k) →
    (k = .objectId → ∀ p ∈ main :: extras, p.hi.length = p.lo.length) ∧
    (main :: extras).flatMap (Part.stored k) = toStore k 0 0 T

theorem processType_ok {K : Kit P} {main : Part P} {extras : List (Part P)} {T : List (Cell P Q)}
    (hd : ∀ v, .plain .dtype v ∈ T → K.isDType v = true) (hold : Holds main extras T) {i : Nat}
    {ks : List Kind} {d : Dec P Q} (h : Inv T i ks d) {x : Cell P Q} {k : Kind} (hx : T[i]? = some x)
    (hk : x.kind = some k) (hks : k ∉ ks) :
    ∃ next d', processType K (T.map typeByte) main extras k i d = .ok (next, d') ∧
      Inv T next (k :: ks) d' ∧ i < next := by
  obtain ⟨h1, h2⟩ := hold k ⟨x, List.mem_of_getElem? hx, hk⟩
  have hsz : ∀ p ∈ main :: extras, Sized k p := fun p hp hko => h1 hko p hp
  have hi : i < T.length := (List.getElem?_eq_some_iff.1 hx).1
  have hbefore : ∀ y ∈ T.take i, y.kind ≠ some k := by
    intro y hy hky
    obtain ⟨j, hj⟩ := List.getElem?_of_mem hy
    rw [List.getElem?_take] at hj
    by_cases hji : j < i
    · rw [if_pos hji] at hj
      exact hks (h.seen j y k hj hji hky)
    · rw [if_neg hji] at hj
      cases hj
  have hlast : toStore k d.lastHi d.lastLo (T.drop i) = toStore k 0 0 T := by
    conv => rhs; rw [← List.take_append_drop i T]
    rw [toStore_append _ _ hbefore]
    by_cases hko : k = .objectId
    · subst hko
      obtain ⟨e1, e2⟩ := h.last hks
      rw [e1, e2]
    · exact toStore_last hko _ _ _ _ _
  have hready : Ready k ⟨main, (main.stored k).length, 0, 0, extras⟩ d (T.drop i) := by
    refine ⟨⟨rfl, Nat.le_refl _, Nat.zero_le _, hsz main (by simp), fun p hp => hsz p (by simp [hp]), ?_⟩, ?_⟩
    · rw [hlast, ← h2]
      simp
    · rintro rfl
      rw [h.exprs hks]
      conv => lhs; rw [← List.take_append_drop i T]
      rw [exprsOf_append _ _ hbefore]
  obtain ⟨next, c', d', e1, e2, e3, e4, e5, e6, e7, e8⟩ := processLoop_ok (K := K) (T.drop i) i T.length
    _ d (fun v hv => hd v (List.mem_of_mem_drop hv)) hready
  unfold processType
  rw [valuesSize_eq (hsz main (by simp))]
  simp only
  rw [← List.map_drop, List.length_map, e1]
  simp only
  have hc := e2.cursor
  obtain ⟨c'', s1, s2⟩ := skipParts_ok c'.rest.length rfl hc
  rw [s1]
  simp only
  have hexp : k = .exprQuote → d'.inputs = [] := fun hke => by simpa [exprsOf] using e2.exprs hke
  rw [if_neg (by
    rintro (hc | ⟨hk1, hk2⟩)
    · exact hc s2
    · rw [hexp hk1] at hk2
      simp at hk2)]
  have hnext : i < next := by
    refine e8 (i + 1) hi fun j y hj hlt => ?_
    have : j = 0 := by omega
    subst this
    rw [List.getElem?_drop] at hj
    have : i + 0 = i := rfl
    rw [this, hx] at hj
    simp only [Option.some.injEq] at hj
    subst hj
    exact .inr hk
  refine ⟨next, d', rfl, ⟨?_, ?_, ?_, ?_, ?_, ?_, ?_⟩, hnext⟩
  · rw [e3, paint_length, h.len]
  · intro j z hz
    obtain ⟨y, y1, y2, y3, y4⟩ := h.cell j z hz
    by_cases hji : j < i
    · refine ⟨y, by rw [e3]; exact paint_lt _ _ _ _ _ _ y1 hji, y2, ?_, fun hr _ => y4 hr hji⟩
      intro k' hk' hm
      exact y3 k' hk' (h.seen j z k' hz hji hk')
    · obtain ⟨j', rfl⟩ : ∃ j', j = i + j' := ⟨j - i, by omega⟩
      have hp := paint_set (k := k) (T.drop i) i d.cells j' z y y1 (by rw [List.getElem?_drop]; exact hz)
      rw [← e3] at hp
      by_cases hs : Sets k z ∧ y = .unset
      · rw [if_pos hs] at hp
        exact ⟨z, hp, .inl rfl, fun _ _ _ => rfl, fun _ _ => rfl⟩
      · rw [if_neg hs] at hp
        refine ⟨y, hp, y2, ?_, ?_⟩
        · intro k' hk' hm
          rcases List.mem_cons.1 hm with rfl | hm
          · rcases y2 with y2 | y2
            · exact y2
            · exact absurd ⟨.inr hk', y2⟩ hs
          · exact y3 k' hk' hm
        · intro hr _
          rcases y2 with y2 | y2
          · exact y2
          · exact absurd ⟨.inl hr, y2⟩ hs
  · intro j z k' hz hlt hk'
    by_cases hji : j < i
    · exact List.mem_cons_of_mem _ (h.seen j z k' hz hji hk')
    · have := e7 (j - i) z (by rw [List.getElem?_drop, Nat.add_sub_cancel' (by omega)]; exact hz) (by omega)
      rw [hk'] at this
      simp only [reduceCtorEq, Option.some.injEq, false_or] at this
      simp [this]
  · intro k' hk'
    rcases List.mem_cons.1 hk' with rfl | hk'
    · exact ⟨x, List.mem_of_getElem? hx, hk⟩
    · exact h.occurs k' hk'
  · intro hn
    simp only [List.mem_cons, not_or] at hn
    obtain ⟨f1, f2⟩ := e5 (fun hh => hn.1 hh.symm)
    rw [f1, f2]
    exact h.last hn.2
  · intro hn
    simp only [List.mem_cons, not_or] at hn
    rw [e4 (fun hh => hn.1 hh.symm)]
    exact h.exprs hn.2
  · intro hm
    by_cases hke : k = .exprQuote
    · exact hexp hke
    · rw [e4 hke]
      exact h.done ((List.mem_cons.1 hm).resolve_left fun hh => hke hh.symm)

theorem decodeLoop_ok {K : Kit P} {main : Part P} {extras : List (Part P)} {T : List (Cell P Q)}
    (hd : ∀ v, .plain .dtype v ∈ T → K.isDType v = true) (hold : Holds main extras T) (n : Nat) {i : Nat}
    {ks : List Kind} {d : Dec P Q} (hn : T.length ≤ i + n) (h : Inv T i ks d) :
    ∃ ks' d', decodeLoop K (T.map typeByte) main extras n i ks d = .ok (ks', d') ∧
      Inv T T.length ks' d' := by
  have mono : ∀ {i ks} {d : Dec P Q}, T.length ≤ i → Inv T i ks d → Inv T T.length ks d := by
    intro i ks d hle h
    refine ⟨h.len, ?_, ?_, h.occurs, h.last, h.exprs, h.done⟩
    · intro j x hx
      obtain ⟨y, y1, y2, y3, y4⟩ := h.cell j x hx
      have := (List.getElem?_eq_some_iff.1 hx).1
      exact ⟨y, y1, y2, y3, fun hr _ => y4 hr (by omega)⟩
    · intro j x k hx _ hk
      have := (List.getElem?_eq_some_iff.1 hx).1
      exact h.seen j x k hx (by omega) hk
  induction n generalizing i ks d with
  | zero => exact ⟨ks, d, rfl, mono (by omega) h⟩
  | succ n ih =>
    unfold decodeLoop
    rw [List.getElem?_map]
    cases hx : T[i]? with
    | none => exact ⟨ks, d, rfl, mono (by simpa using hx) h⟩
    | some x =>
      simp only [Option.map_some]
      have hget : ∀ (j : Nat) y, T[j]? = some y → j < i + 1 → j < i ∨ y = x := by
        intro j y hy hlt
        by_cases hji : j = i
        · subst hji
          rw [hx] at hy
          exact .inr (by simpa using hy.symm)
        · exact .inl (by omega)
      cases hk : x.kind with
      | none =>
        cases x with
        | unset =>
          rw [if_pos (show typeByte (.unset : Cell P Q) = kUnset from rfl)]
          refine ih (by omega) ⟨h.len, ?_, ?_, h.occurs, h.last, h.exprs, h.done⟩
          · intro j z hz
            obtain ⟨y, y1, y2, y3, y4⟩ := h.cell j z hz
            refine ⟨y, y1, y2, y3, fun hr hlt => ?_⟩
            rcases hget j z hz hlt with hj | rfl
            · exact y4 hr hj
            · cases hr
          · intro j z k hz hlt hkz
            rcases hget j z hz hlt with hj | rfl
            · exact h.seen j z k hz hj hkz
            · cases hkz
        | removed =>
          rw [if_neg (show typeByte (.removed : Cell P Q) ≠ kUnset by intro h; cases h),
            if_pos (show typeByte (.removed : Cell P Q) = kRemoved from rfl)]
          refine ih (by omega) ⟨?_, ?_, ?_, h.occurs, h.last, h.exprs, h.done⟩
          · simp only
            rw [insertIfNotSet_length, h.len]
          · intro j z hz
            obtain ⟨y, y1, y2, y3, y4⟩ := h.cell j z hz
            have hp := insertIfNotSet_get (i := i) (x := .removed) y1
            by_cases hij : i = j ∧ y = .unset
            · rw [if_pos hij] at hp
              obtain ⟨rfl, _⟩ := hij
              rw [hx] at hz
              cases hz
              exact ⟨_, hp, .inl rfl, fun _ _ _ => rfl, fun _ _ => rfl⟩
            · rw [if_neg hij] at hp
              refine ⟨y, hp, y2, y3, fun hr hlt => ?_⟩
              by_cases hji : j < i
              · exact y4 hr hji
              · rcases y2 with y2 | y2
                · exact y2
                · exact absurd ⟨by omega, y2⟩ hij
          · intro j z k hz hlt hkz
            rcases hget j z hz hlt with hj | rfl
            · exact h.seen j z k hz hj hkz
            · cases hkz
        | objectId => cases hk
        | unit => cases hk
        | exprQuote => cases hk
        | plain => cases hk
      | some k =>
        obtain ⟨b1, b2, b3⟩ := kindOf_typeByte hk
        rw [if_neg b2, if_neg b3, b1]
        simp only
        by_cases hks : k ∈ ks
        · rw [if_pos (by simpa using hks)]
          refine ih (by omega) ⟨h.len, ?_, ?_, h.occurs, h.last, h.exprs, h.done⟩
          · intro j z hz
            obtain ⟨y, y1, y2, y3, y4⟩ := h.cell j z hz
            refine ⟨y, y1, y2, y3, fun hr hlt => ?_⟩
            rcases hget j z hz hlt with hj | rfl
            · exact y4 hr hj
            · subst hr
              cases hk
          · intro j z k' hz hlt hkz
            rcases hget j z hz hlt with hj | rfl
            · exact h.seen j z k' hz hj hkz
            · rw [hk] at hkz
              cases hkz
              exact hks
        · rw [if_neg (by simpa using hks)]
          obtain ⟨next, d', e1, e2, e3⟩ := processType_ok hd hold h hx hk hks
          rw [e1]
          exact ih (by omega) e2

theorem checkUnused_ok {main : Part P} {inputs : List (Input P Q)} {ks : List Kind} (l : List Kind)
    (h : ∀ k, k ∉ ks → valuesSize k main = .ok 0 ∧ (k = .exprQuote → inputs = [])) :
    checkUnused main inputs ks l none = none := by
  induction l with
  | nil => rfl
  | cons k l ih =>
    unfold checkUnused
    by_cases hk : k ∈ ks
    · rw [if_pos (by simpa using hk), ih]
    · rw [if_neg (by simpa using hk), (h k hk).1]
      simp only
      rw [if_neg (by
        rintro (⟨h1, h2⟩ | h1)
        · rw [(h k hk).2 h1] at h2
          simp at h2
        · exact h1 rfl), ih]

theorem extraParts_map (l : List (Part P)) :
    extraParts (l.map (Input.bytes (Q := Q))) = .ok l := by
  induction l with
  | nil => rfl
  | cons p l ih => simp [extraParts, ih]

theorem decode_ok {K : Kit P} {m : Compact P} {inputs : List (Input P Q)} {T : List (Cell P Q)}
    (h : Encodes K m inputs T) : decode K m inputs = .ok T := by
  obtain ⟨htypes, hd, extras, hcount, hinputs, hk⟩ := h
  have hold : Holds m.part extras T := fun k hc => (hk k).1 hc
  have hlen : inputs.length = (exprsOf T).length + m.extraPartCount := by
    rw [hinputs, ← hcount]
    simp
  have hsub : inputs.length - m.extraPartCount = ((exprsOf T).map (Input.exprQuote (P := P))).length := by
    rw [hlen]
    simp
  unfold decode
  rw [if_neg (by omega), hsub]
  have hdrop : inputs.drop ((exprsOf T).map (Input.exprQuote (P := P))).length = extras.map .bytes := by
    rw [hinputs, List.drop_left]
  have htake : inputs.take ((exprsOf T).map (Input.exprQuote (P := P))).length =
      (exprsOf T).map .exprQuote := by
    rw [hinputs, List.take_left]
  rw [hdrop, htake, extraParts_map]
  simp only
  have h0 : Inv T 0 [] ⟨List.replicate m.types.length .unset, (exprsOf T).map .exprQuote, 0, 0⟩ := by
    refine ⟨by simp [htypes], ?_, ?_, ?_, fun _ => ⟨rfl, rfl⟩, fun _ => rfl, fun h => by cases h⟩
    · intro j x hx
      have := (List.getElem?_eq_some_iff.1 hx).1
      exact ⟨.unset, by simp [htypes, this], .inr rfl, by simp, by simp⟩
    · intro j x k _ hj
      omega
    · intro k hk
      cases hk
  obtain ⟨ks, d', e1, e2⟩ := decodeLoop_ok hd hold m.types.length (by simp [htypes]) h0
  rw [← htypes] at e1
  rw [e1]
  simp only
  have hocc : ∀ k, k ∉ ks → ¬ ∃ c ∈ T, c.kind = some k := by
    rintro k hks ⟨c, hc, hck⟩
    obtain ⟨j, hj⟩ := List.getElem?_of_mem hc
    exact hks (e2.seen j c k hj (List.getElem?_eq_some_iff.1 hj).1 hck)
  have hnoexpr : .exprQuote ∉ ks → exprsOf T = [] := by
    intro hks
    have := exprsOf_append T [] fun x hx hxk => hocc _ hks ⟨x, hx, hxk⟩
    simpa [exprsOf] using this
  have hin : d'.inputs = [] := by
    by_cases hks : .exprQuote ∈ ks
    · exact e2.done hks
    · rw [e2.exprs hks, hnoexpr hks]
      rfl
  rw [checkUnused_ok allKinds fun k hks => ⟨by
    obtain ⟨g1, g2⟩ := (hk k).2 (hocc k hks)
    rw [valuesSize_eq g1, g2]
    rfl, fun _ => hin⟩]
  simp only
  rw [hin]
  simp only [List.isEmpty_nil, if_true, Except.ok.injEq]
  refine List.ext_getElem? fun j => ?_
  cases hx : T[j]? with
  | none =>
    rw [List.getElem?_eq_none_iff] at hx ⊢
    rw [e2.len]
    exact hx
  | some x =>
    obtain ⟨y, y1, y2, y3, y4⟩ := e2.cell j x hx
    rw [y1]
    have hj := (List.getElem?_eq_some_iff.1 hx).1
    congr 1
    cases hkx : x.kind with
    | some k => exact y3 k hkx (e2.seen j x k hx hj hkx)
    | none =>
      cases x with
      | unset => rcases y2 with y2 | y2 <;> exact y2
      | removed => exact y4 rfl hj
      | objectId => cases hkx
      | unit => cases hkx
      | exprQuote => cases hkx
      | plain => cases hkx

end Verif.S11n
