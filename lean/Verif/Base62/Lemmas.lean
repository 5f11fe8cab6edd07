import Verif.Base62.Model
import Verif.Base62.Spec
import Verif.Uuid.Lemmas

namespace Verif.Base62

open Verif.ObjectId Verif.Uuid

theorem chars_eq : ∀ d, d < 62 → kBase62Chars.getD d 0 = digitChar d := by decide +kernel

theorem charIndex_digit : ∀ d, d < 62 → charIndex (digitChar d) = d := by decide +kernel

theorem charIndex_other_nat : ∀ n, n < 256 → (∀ d, d < 62 → UInt8.ofNat n ≠ digitChar d) →
    charIndex (UInt8.ofNat n) = 0 := by decide +kernel

theorem charIndex_other (c : UInt8) (h : ¬ IsDigit c) : charIndex c = 0 := by
  have e : c = UInt8.ofNat c.toNat := by simp
  rw [e]
  apply charIndex_other_nat _ c.toNat_lt
  intro d hd he
  exact h ⟨d, hd, e.trans he⟩

theorem digitChar_lt : ∀ d, d < 62 → ∀ e, e < 62 → (digitChar d < digitChar e ↔ d < e) := by
  decide +kernel

/-- The last `n` digits of `v`. -/
def digits : Nat → Nat → List Nat
  | 0, _ => []
  | n + 1, v => digits n (v / 62) ++ [v % 62]

theorem digits_length (n v : Nat) : (digits n v).length = n := by
  induction n generalizing v with
  | zero => rfl
  | succ n ih => simp [digits, ih]

theorem digits_lt (n v : Nat) : ∀ d ∈ digits n v, d < 62 := by
  induction n generalizing v with
  | zero => simp [digits]
  | succ n ih =>
    intro d hd
    rw [digits, List.mem_append, List.mem_singleton] at hd
    rcases hd with hd | rfl
    · exact ih _ d hd
    · omega

theorem digits_get (n v i : Nat) (hi : i < n) :
    (digits n v)[i]? = some (v / 62 ^ (n - 1 - i) % 62) := by
  induction n generalizing v with
  | zero => omega
  | succ n ih =>
    rw [digits]
    by_cases h : i < n
    · rw [List.getElem?_append_left (by rw [digits_length]; exact h), ih _ h, Nat.div_div_eq_div_mul,
        ← Nat.pow_succ']
      have : n + 1 - 1 - i = (n - 1 - i).succ := by omega
      rw [this]
    · have : i = n := by omega
      subst this
      rw [List.getElem?_append_right (by rw [digits_length]; omega), digits_length]
      simp

theorem digits_add (m n v : Nat) : digits (m + n) v = digits m (v / 62 ^ n) ++ digits n v := by
  induction n generalizing v with
  | zero => simp [digits]
  | succ n ih =>
    rw [← Nat.add_assoc, digits, digits, ih, Nat.div_div_eq_div_mul, ← Nat.pow_succ',
      List.append_assoc]

theorem digits_mod (n v : Nat) : digits n (v % 62 ^ n) = digits n v := by
  induction n generalizing v with
  | zero => rfl
  | succ n ih =>
    rw [digits, digits]
    congr 1
    · rw [← ih (v / 62), ← ih (v % 62 ^ (n + 1) / 62)]
      congr 1
      rw [Nat.pow_succ', Nat.mod_mul_right_div_self, Nat.mod_mod]
    · rw [Nat.pow_succ', Nat.mod_mul_right_mod]

theorem numeral_append (l : List Nat) (d : Nat) : numeral (l ++ [d]) = numeral l * 62 + d := by
  unfold numeral
  rw [List.foldl_append]
  rfl

theorem numeral_digits (n v : Nat) : numeral (digits n v) = v % 62 ^ n := by
  induction n generalizing v with
  | zero => simp [digits, numeral, Nat.mod_one]
  | succ n ih =>
    rw [digits, numeral_append, ih, Nat.pow_succ', Nat.mod_mul]
    omega

theorem digits_numeral (l : List Nat) (h : ∀ d ∈ l, d < 62) : digits l.length (numeral l) = l := by
  suffices ∀ r : List Nat, (∀ d ∈ r, d < 62) → digits r.length (numeral r.reverse) = r.reverse by
    have := this l.reverse (fun d hd => h d (List.mem_reverse.1 hd))
    rwa [List.length_reverse, List.reverse_reverse] at this
  intro r
  induction r with
  | nil => intro _; rfl
  | cons d r ih =>
    intro hr
    rw [List.reverse_cons, numeral_append, List.length_cons, digits]
    have hd := hr d List.mem_cons_self
    rw [show (numeral r.reverse * 62 + d) / 62 = numeral r.reverse by omega,
      show (numeral r.reverse * 62 + d) % 62 = d by omega, ih (fun x hx => hr x (List.mem_cons_of_mem _ hx))]

theorem numeral_lt (l : List Nat) (h : ∀ d ∈ l, d < 62) : numeral l < 62 ^ l.length := by
  have h1 := numeral_digits l.length (numeral l)
  rw [digits_numeral l h] at h1
  have := Nat.mod_lt (numeral l) (Nat.pow_pos (n := l.length) (show 0 < 62 by omega))
  omega

theorem set_before (res : Bytes) (k : Nat) (c : UInt8) (hk : k < res.length) :
    res.set k c = res.take k ++ c :: res.drop (k + 1) := by
  rw [List.set_eq_take_append_cons_drop, if_pos hk]

theorem appendChar_spec (n : Nat) (val : BitVec 64) (res : Bytes) (idx : Nat)
    (h1 : n ≤ idx) (h2 : idx ≤ res.length) :
    appendChar val n (res, idx) =
      (res.take (idx - n) ++ (digits n val.toNat).map digitChar ++ res.drop idx, idx - n) := by
  induction n generalizing val res idx with
  | zero => simp [appendChar, digits]
  | succ n ih =>
    unfold appendChar
    simp only
    have hc : kBase62Chars.getD (val % 62).toNat 0 = digitChar (val.toNat % 62) := by
      rw [BitVec.toNat_umod]
      exact chars_eq _ (Nat.mod_lt _ (by decide))
    rw [ih _ _ _ (by omega) (by rw [List.length_set]; omega), hc]
    have hdiv : (val / 62).toNat = val.toNat / 62 := by rw [BitVec.toNat_udiv]; rfl
    rw [hdiv, digits, set_before res (idx - 1) _ (by omega)]
    have e1 : idx - 1 - n = idx - (n + 1) := by omega
    rw [e1]
    refine Prod.ext ?_ rfl
    simp only
    rw [List.take_append_of_le_length (by rw [List.length_take]; omega),
      List.take_take, Nat.min_eq_left (by omega), List.drop_append_of_le_length
        (by rw [List.length_take]; omega)]
    have e2 : (res.take (idx - 1)).drop (idx - 1) = [] := by
      rw [List.drop_eq_nil_iff, List.length_take]
      omega
    rw [e2, show idx - 1 + 1 = idx by omega]
    simp

/-- Writing from the right end to the left end of a buffer of `n` characters. -/
theorem appendChar_left (n k : Nat) (val : BitVec 64) (z : UInt8) (tail : Bytes) :
    appendChar val n (List.replicate (k + n) z ++ tail, k + n) =
      (List.replicate k z ++ ((digits n val.toNat).map digitChar ++ tail), k) := by
  rw [appendChar_spec n val _ _ (by omega) (by simp), Nat.add_sub_cancel]
  refine Prod.ext ?_ rfl
  simp only
  rw [List.take_append_of_le_length (by simp), List.take_replicate,
    Nat.min_eq_left (Nat.le_add_right k n), List.append_assoc]
  congr 2
  rw [List.drop_append_of_le_length (by simp), List.drop_eq_nil_of_le (by simp), List.nil_append]

theorem three_steps (r0 r1 r2 : BitVec 64) (z : UInt8) :
    (appendChar r2 2 (appendChar r1 10 (appendChar r0 10 (List.replicate 22 z, 22)))).1 =
      (digits 2 r2.toNat).map digitChar ++ (digits 10 r1.toNat).map digitChar ++
        (digits 10 r0.toNat).map digitChar := by
  have e0 := appendChar_left 10 12 r0 z []
  rw [List.append_nil, List.append_nil] at e0
  rw [e0]
  have e1 := appendChar_left 10 2 r1 z ((digits 10 r0.toNat).map digitChar)
  rw [e1]
  have e2 := appendChar_left 2 0 r2 z ((digits 10 r1.toNat).map digitChar ++
    (digits 10 r0.toNat).map digitChar)
  rw [e2]
  simp

theorem reminderOf_toNat (v : BitVec 128) : (reminderOf v).toNat = v.toNat % 62 ^ 10 := by
  unfold reminderOf
  rw [BitVec.toNat_setWidth, BitVec.toNat_umod]
  have e : (k62Power10.setWidth 128).toNat = 62 ^ 10 := by decide
  rw [e]
  have := Nat.mod_lt v.toNat (show 0 < 62 ^ 10 by decide)
  exact Nat.mod_eq_of_lt (by omega)

theorem inverse : 31 ^ 10 * kInverse.toNat % 2 ^ 128 = 1 := by decide +kernel

/-- Division by the modular inverse is division. -/
theorem divide_toNat (v : BitVec 128) (r : BitVec 64) (hr : r.toNat = v.toNat % 62 ^ 10) :
    (divideBy62Power10 v r).toNat = v.toNat / 62 ^ 10 := by
  unfold divideBy62Power10
  rw [BitVec.toNat_mul, BitVec.toNat_ushiftRight, BitVec.toNat_sub, BitVec.toNat_setWidth]
  have hv := v.isLt
  have hr' := r.isLt
  have hle : v.toNat % 62 ^ 10 ≤ v.toNat := Nat.mod_le _ _
  have e1 : r.toNat % 2 ^ 128 = v.toNat % 62 ^ 10 := by
    rw [Nat.mod_eq_of_lt (by omega), hr]
  rw [e1]
  have e2 : (2 ^ 128 - v.toNat % 62 ^ 10 + v.toNat) % 2 ^ 128 = 62 ^ 10 * (v.toNat / 62 ^ 10) := by
    have h1 := Nat.div_add_mod v.toNat (62 ^ 10)
    have h2 : 2 ^ 128 - v.toNat % 62 ^ 10 + v.toNat =
        2 ^ 128 + 62 ^ 10 * (v.toNat / 62 ^ 10) := by omega
    rw [h2, Nat.add_mod_left, Nat.mod_eq_of_lt]
    omega
  rw [e2, Nat.shiftRight_eq_div_pow]
  have e3 : 62 ^ 10 * (v.toNat / 62 ^ 10) / 2 ^ 10 = 31 ^ 10 * (v.toNat / 62 ^ 10) := by
    rw [show (62 : Nat) ^ 10 = 2 ^ 10 * 31 ^ 10 by decide, Nat.mul_assoc,
      Nat.mul_div_cancel_left _ (by decide)]
  rw [e3]
  have hq : v.toNat / 62 ^ 10 < 2 ^ 128 := Nat.lt_of_le_of_lt (Nat.div_le_self _ _) hv
  generalize v.toNat / 62 ^ 10 = q at hq
  rw [Nat.mul_right_comm, Nat.mul_mod, inverse, Nat.one_mul, Nat.mod_mod, Nat.mod_eq_of_lt hq]

theorem base62Repr_eq (v : BitVec 128) : base62Repr v = (digits 22 v.toNat).map digitChar := by
  unfold base62Repr kBase62Length
  simp only
  have h0 := reminderOf_toNat v
  generalize reminderOf v = r0 at h0
  have h1 := divide_toNat v r0 h0
  generalize divideBy62Power10 v r0 = v1 at h1
  have h2 := reminderOf_toNat v1
  generalize reminderOf v1 = r1 at h2
  have h3 := divide_toNat v1 r1 h2
  generalize divideBy62Power10 v1 r1 = v2 at h3
  have ev2 : (v2.setWidth 64).toNat = v.toNat / 62 ^ 10 / 62 ^ 10 := by
    rw [BitVec.toNat_setWidth, h3, h1]
    have := v.isLt
    exact Nat.mod_eq_of_lt (by omega)
  have f0 : (digits 10 r0.toNat).map digitChar = (digits 10 v.toNat).map digitChar := by
    rw [h0, digits_mod]
  have f1 : (digits 10 r1.toNat).map digitChar =
      (digits 10 (v.toNat / 62 ^ 10)).map digitChar := by
    rw [h2, digits_mod, h1]
  rw [show (22 : Nat) = 2 + 10 + 10 from rfl, digits_add, digits_add, List.map_append,
    List.map_append, ← f0, ← f1, ← ev2]
  exact three_steps r0 r1 (v2.setWidth 64) _

theorem decode_numeral (ds : List Nat) (h : ∀ d ∈ ds, d < 62) :
    decodeBase62 (ds.map digitChar) = BitVec.ofNat 128 (numeral ds) := by
  unfold decodeBase62 numeral
  suffices ∀ (n : Nat), (ds.map digitChar).foldl
      (fun res c => res * kBase + BitVec.ofNat 128 (charIndex c)) (BitVec.ofNat 128 n) =
      BitVec.ofNat 128 (ds.foldl (fun n d => n * 62 + d) n) from this 0
  induction ds with
  | nil => intro n; rfl
  | cons d ds ih =>
    intro n
    rw [List.map_cons, List.foldl_cons, List.foldl_cons, charIndex_digit d (h d List.mem_cons_self)]
    rw [← ih (fun x hx => h x (List.mem_cons_of_mem _ hx))]
    congr 1
    rw [show kBase = BitVec.ofNat 128 62 by decide, ← BitVec.ofNat_mul, ← BitVec.ofNat_add]

theorem bytesLt_map (l r : List Nat) (hl : ∀ d ∈ l, d < 62) (hr : ∀ d ∈ r, d < 62)
    (hlen : l.length = r.length) :
    bytesLt (l.map digitChar) (r.map digitChar) = true ↔ numeral l < numeral r := by
  have key : ∀ (l r : List Nat), (∀ d ∈ l, d < 62) → (∀ d ∈ r, d < 62) → l.length = r.length →
      ∀ m n : Nat,
      (m < n → l.foldl (fun n d => n * 62 + d) m < r.foldl (fun n d => n * 62 + d) n) ∧
      (m = n → (bytesLt (l.map digitChar) (r.map digitChar) = true ↔
        l.foldl (fun n d => n * 62 + d) m < r.foldl (fun n d => n * 62 + d) n)) := by
    intro l
    induction l with
    | nil =>
      intro r _ _ hlen m n
      cases r with
      | cons _ _ => cases hlen
      | nil =>
        refine ⟨fun h => h, fun h => ?_⟩
        subst h
        simp [bytesLt]
    | cons a l ih =>
      intro r hl hr hlen m n
      cases r with
      | nil => cases hlen
      | cons b r =>
        have ha := hl a List.mem_cons_self
        have hb := hr b List.mem_cons_self
        have ih := ih r (fun d hd => hl d (List.mem_cons_of_mem _ hd))
          (fun d hd => hr d (List.mem_cons_of_mem _ hd)) (by simpa using hlen)
        rw [List.foldl_cons, List.foldl_cons]
        refine ⟨fun h => (ih _ _).1 (by omega), ?_⟩
        rintro rfl
        rw [List.map_cons, List.map_cons]
        unfold bytesLt
        by_cases h1 : a < b
        · rw [if_pos ((digitChar_lt a ha b hb).2 h1)]
          simp only [true_iff]
          exact (ih _ _).1 (by omega)
        · rw [if_neg (fun h => h1 ((digitChar_lt a ha b hb).1 h))]
          by_cases h2 : b < a
          · rw [if_pos ((digitChar_lt b hb a ha).2 h2)]
            simp only [Bool.false_eq_true, false_iff]
            intro h3
            have hgt : ∀ (r l : List Nat), r.length = l.length → (∀ d ∈ r, d < 62) → ∀ n m : Nat,
                n < m → r.foldl (fun n d => n * 62 + d) n < l.foldl (fun n d => n * 62 + d) m := by
              intro r
              induction r with
              | nil =>
                intro l hlen _ n m h
                cases l with
                | nil => exact h
                | cons _ _ => cases hlen
              | cons x r ih2 =>
                intro l hlen hr n m h
                cases l with
                | nil => cases hlen
                | cons y l =>
                  rw [List.foldl_cons, List.foldl_cons]
                  have hx := hr x List.mem_cons_self
                  exact ih2 l (by simpa using hlen)
                    (fun d hd => hr d (List.mem_cons_of_mem _ hd)) _ _ (by omega)
            have := hgt r l (by simpa using hlen.symm)
              (fun d hd => hr d (List.mem_cons_of_mem _ hd)) (m * 62 + b) (m * 62 + a) (by omega)
            omega
          · rw [if_neg (fun h => h2 ((digitChar_lt b hb a ha).1 h))]
            have : a = b := by omega
            subst this
            exact (ih _ _).2 rfl
  exact (key l r hl hr hlen 0 0).2 rfl

theorem encodeItemIds_ok (xs : List Item) (h : ∀ x ∈ xs, x = .missing ∨ ∃ o, x = .object o) :
    encodeItemIds xs = .ok (xs.map encodePresent) := by
  unfold encodeItemIds
  split
  · rename_i h1
    congr 1
    rw [isEmptyAndUnknown, List.all_eq_true] at h1
    symm
    rw [List.eq_replicate_iff]
    refine ⟨by simp, ?_⟩
    intro y hy
    obtain ⟨x, hx, rfl⟩ := List.mem_map.1 hy
    rw [eq_of_beq (h1 x hx)]
    rfl
  · have : hasDtype isObject xs = true := by
      rw [hasDtype, List.all_eq_true]
      intro x hx
      rcases h x hx with rfl | ⟨o, rfl⟩ <;> simp [isObject]
    rw [this]
    rfl

theorem encodeItemIds_error (xs : List Item) (x : Item) (hx : x ∈ xs) (h1 : x ≠ .missing)
    (h2 : ∀ o, x ≠ .object o) : encodeItemIds xs = .error () := by
  unfold encodeItemIds
  rw [if_neg, if_pos]
  · have : hasDtype isObject xs = false := by
      rw [hasDtype, List.all_eq_false]
      refine ⟨x, hx, ?_⟩
      cases x <;> simp_all [isObject]
    rw [this]
    rfl
  · rw [isEmptyAndUnknown, List.all_eq_true]
    intro h
    exact h1 (eq_of_beq (h x hx))

theorem decodeItemIds_ok (xs : List Item) (h : ∀ x ∈ xs, x = .missing ∨ ∃ o, x = .text o) :
    decodeItemIds xs = .ok (xs.map decodePresent) := by
  unfold decodeItemIds
  split
  · rename_i h1
    congr 1
    rw [isEmptyAndUnknown, List.all_eq_true] at h1
    symm
    rw [List.eq_replicate_iff]
    refine ⟨by simp, ?_⟩
    intro y hy
    obtain ⟨x, hx, rfl⟩ := List.mem_map.1 hy
    rw [eq_of_beq (h1 x hx)]
    rfl
  · have : hasDtype isText xs = true := by
      rw [hasDtype, List.all_eq_true]
      intro x hx
      rcases h x hx with rfl | ⟨o, rfl⟩ <;> simp [isText]
    rw [this]
    rfl

theorem decodeItemIds_error (xs : List Item) (x : Item) (hx : x ∈ xs) (h1 : x ≠ .missing)
    (h2 : ∀ o, x ≠ .text o) : decodeItemIds xs = .error () := by
  unfold decodeItemIds
  rw [if_neg, if_pos]
  · have : hasDtype isText xs = false := by
      rw [hasDtype, List.all_eq_false]
      refine ⟨x, hx, ?_⟩
      cases x <;> simp_all [isText]
    rw [this]
    rfl
  · rw [isEmptyAndUnknown, List.all_eq_true]
    intro h
    exact h1 (eq_of_beq (h x hx))

theorem getLsbD_words (a b : BitVec 64) (i : Nat) :
    BitVec.getLsbD (w := 128) (a ++ b) i = if i < 64 then b.getLsbD i else a.getLsbD (i - 64) := by
  have := BitVec.getLsbD_append (x := a) (y := b) (i := i)
  cases h : decide (i < 64) <;> simp at h <;> simp [h] at this ⊢ <;> exact this

theorem words_of_raw (a b : BitVec 64) (v : BitVec 128) (h : v = a ++ b) :
    v.extractLsb' 64 64 = a ∧ v.extractLsb' 0 64 = b := by
  subst h
  constructor
  · apply BitVec.eq_of_getLsbD_eq
    intro i hi
    rw [BitVec.getLsbD_extractLsb', getLsbD_words]
    simp [hi]
  · apply BitVec.eq_of_getLsbD_eq
    intro i hi
    rw [BitVec.getLsbD_extractLsb', getLsbD_words]
    simp [hi]

theorem raw_of_words (v : BitVec 128) :
    (v.extractLsb' 64 64 ++ v.extractLsb' 0 64 : BitVec 128) = v := by
  apply BitVec.eq_of_getLsbD_eq
  intro i hi
  rw [getLsbD_words]
  by_cases h : i < 64
  · simp [h]
  · rw [if_neg h, BitVec.getLsbD_extractLsb', show 64 + (i - 64) = i by omega]
    simp
    intro _
    omega

end Verif.Base62
