import Verif.BagManager.Model

/-!
The file names of the bag manager as strings. The rest of the model uses structured
names; here we show that nothing is lost: the names of different files are different,
the glob pattern of `_read_latest_metadata` matches exactly the committed metadata
files, and python's `max` over the matching strings selects the largest update number.
Strings are lists of code points; python compares them lexicographically.
-/
namespace Verif.BagManager.FileNames

/-- `str(n)` for a natural number: the decimal digits as code points. -/
def dec (n : Nat) : List Nat :=
  if n < 10 then [48 + n] else dec (n / 10) ++ [48 + n % 10]

/-- `s.zfill(w)` for a string of digits. -/
def zfill (w : Nat) (s : List Nat) : List Nat := List.replicate (w - s.length) 48 ++ s

def ofString (s : String) : List Nat := s.toList.map Char.toNat

/-- `_UPDATE_NUMBER_NUM_DIGITS` (data_bag_manager.py:775). -/
def numDigits : Nat := 12

/-- `metadata-{n}.pb` (lines 797-800). -/
def metaName (n : Nat) : List Nat :=
  ofString "metadata-" ++ zfill numDigits (dec n) ++ ofString ".pb"

/-- `metadata-{n}-{uuid}.pb` (lines 812-815). -/
def tempName (uuidStr : Nat → List Nat) (n u : Nat) : List Nat :=
  ofString "metadata-" ++ zfill numDigits (dec n) ++ ofString "-" ++ uuidStr u ++ ofString ".pb"

/-- `bag-{uuid}-{i:012d}.kd` (line 743). -/
def bagName (uuidStr : Nat → List Nat) (u i : Nat) : List Nat :=
  ofString "bag-" ++ uuidStr u ++ ofString "-" ++ zfill 12 (dec i) ++ ofString ".kd"

/-- The string of a structured name. -/
def render (uuidStr : Nat → List Nat) : Name → List Nat
  | .metaFile n => metaName n
  | .metaTemp n u => tempName uuidStr n u
  | .bagFile u i => bagName uuidStr u i

def isDigit (c : Nat) : Bool := 48 ≤ c && c ≤ 57

/-- `fnmatch` of the pattern `metadata-[0-9]...[0-9].pb` (lines 826-829). -/
def globMatches (s : List Nat) : Bool :=
  s.length == 24 && s.take 9 == ofString "metadata-" && ((s.drop 9).take 12).all isDigit &&
    s.drop 21 == ofString ".pb"

/-! ### Lemmas -/

/-- Exactly `w` digits. -/
def fixed : Nat → Nat → List Nat
  | 0, _ => []
  | w + 1, n => fixed w (n / 10) ++ [48 + n % 10]

theorem length_fixed (w n : Nat) : (fixed w n).length = w := by
  induction w generalizing n with
  | zero => rfl
  | succ w ih => simp [fixed, ih]

theorem fixed_zero (w : Nat) : fixed w 0 = List.replicate w 48 := by
  induction w with
  | zero => rfl
  | succ w ih => simp [fixed, ih, List.replicate_succ']

theorem zfill_dec (w n : Nat) (hw : 0 < w) (h : n < 10 ^ w) : zfill w (dec n) = fixed w n := by
  induction w generalizing n with
  | zero => omega
  | succ w ih =>
    rw [dec]
    by_cases h10 : n < 10
    · simp only [h10, if_true]
      have e1 : n / 10 = 0 := by omega
      have e2 : n % 10 = n := by omega
      simp [zfill, fixed, e1, e2, fixed_zero]
    · simp only [h10, if_false]
      have hw' : 0 < w := by
        cases w with
        | zero => simp at h; omega
        | succ w => omega
      have hlt : n / 10 < 10 ^ w := by
        rw [Nat.pow_succ] at h; omega
      have := ih (n / 10) hw' hlt
      unfold zfill at this ⊢
      have e : w + 1 - (dec (n / 10) ++ [48 + n % 10]).length = w - (dec (n / 10)).length := by
        simp only [List.length_append, List.length_singleton]; omega
      rw [fixed, ← this, e, List.append_assoc]

theorem length_zfill_ge (w : Nat) (s : List Nat) : w ≤ (zfill w s).length := by
  simp [zfill]; omega

theorem pow_le_of_dec (k n : Nat) (h : 10 ^ k ≤ n) : k < (dec n).length := by
  induction k generalizing n with
  | zero => rw [dec]; split <;> simp
  | succ k ih =>
    rw [dec]
    have h10 : ¬ n < 10 := by
      have : 10 ≤ 10 ^ (k + 1) := by
        rw [Nat.pow_succ]; have : 0 < 10 ^ k := Nat.pow_pos (by omega); omega
      omega
    rw [Nat.pow_succ] at h
    simp only [h10, if_false, List.length_append, List.length_singleton]
    have := ih (n / 10) (by omega)
    omega

theorem dec_length_le (w n : Nat) (hw : 0 < w) (h : n < 10 ^ w) : (dec n).length ≤ w := by
  have h1 := congrArg List.length (zfill_dec w n hw h)
  rw [length_fixed] at h1
  simp [zfill] at h1
  omega

theorem snoc_lt_iff (l l' : List Nat) (x y : Nat) (h : l.length = l'.length) :
    l ++ [x] < l' ++ [y] ↔ l < l' ∨ (l = l' ∧ x < y) := by
  induction l generalizing l' with
  | nil =>
    cases l' with
    | nil => simp [List.cons_lt_cons_iff]
    | cons a as => simp at h
  | cons a as ih =>
    cases l' with
    | nil => simp at h
    | cons b bs =>
      simp only [List.length_cons, Nat.add_right_cancel_iff] at h
      simp only [List.cons_append, List.cons_lt_cons_iff, ih bs h, List.cons.injEq]
      constructor
      · rintro (h | ⟨rfl, h | ⟨rfl, h2⟩⟩)
        · exact Or.inl (Or.inl h)
        · exact Or.inl (Or.inr ⟨rfl, h⟩)
        · exact Or.inr ⟨⟨rfl, rfl⟩, h2⟩
      · rintro ((h | ⟨rfl, h⟩) | ⟨⟨rfl, rfl⟩, h2⟩)
        · exact Or.inl h
        · exact Or.inr ⟨rfl, Or.inl h⟩
        · exact Or.inr ⟨rfl, Or.inr ⟨rfl, h2⟩⟩

theorem fixed_inj (w a b : Nat) (ha : a < 10 ^ w) (hb : b < 10 ^ w) (h : fixed w a = fixed w b) :
    a = b := by
  induction w generalizing a b with
  | zero => simp at ha hb; omega
  | succ w ih =>
    rw [Nat.pow_succ] at ha hb
    simp only [fixed] at h
    have h1 := List.append_inj h (by simp [length_fixed])
    have := ih (a / 10) (b / 10) (by omega) (by omega) h1.1
    simp at h1
    omega

theorem fixed_lt_iff (w a b : Nat) (ha : a < 10 ^ w) (hb : b < 10 ^ w) :
    fixed w a < fixed w b ↔ a < b := by
  induction w generalizing a b with
  | zero => simp at ha hb; subst ha; subst hb; simp [fixed]
  | succ w ih =>
    have ha' := ha
    have hb' := hb
    rw [Nat.pow_succ] at ha hb
    rw [fixed, fixed, snoc_lt_iff _ _ _ _ (by simp [length_fixed]),
      ih (a / 10) (b / 10) (by omega) (by omega)]
    constructor
    · rintro (h | ⟨h, h'⟩)
      · omega
      · have := fixed_inj w (a / 10) (b / 10) (by omega) (by omega) h
        omega
    · intro h
      by_cases e : a / 10 = b / 10
      · right; rw [e]; exact ⟨rfl, by omega⟩
      · left; omega

theorem append_lt_iff (p l l' : List Nat) : p ++ l < p ++ l' ↔ l < l' := by
  induction p with
  | nil => simp
  | cons a as ih => simp [ih]

theorem append_lt_of_lt (l l' s : List Nat) (h : l.length = l'.length) :
    l ++ s < l' ++ s ↔ l < l' := by
  induction l generalizing l' with
  | nil => cases l' with
    | nil => simp
    | cons a as => simp at h
  | cons a as ih => cases l' with
    | nil => simp at h
    | cons b bs =>
      simp only [List.length_cons, Nat.add_right_cancel_iff] at h
      simp [List.cons_lt_cons_iff, ih bs h]

theorem digits_fixed (w n : Nat) : (fixed w n).all isDigit = true := by
  induction w generalizing n with
  | zero => rfl
  | succ w ih =>
    simp only [fixed, List.all_append, ih, List.all_cons, List.all_nil, Bool.and_true, Bool.true_and,
      isDigit, Bool.and_eq_true, decide_eq_true_eq]
    omega

/-! ### Theorems -/

/-- Python's string order of two committed metadata files is the order of their update
numbers, so the `max` of the paths is the latest version (used by C08, C09). -/
theorem C08_string_order_is_numeric_order (a b : Nat) (ha : a < 10 ^ 12) (hb : b < 10 ^ 12) :
    metaName a < metaName b ↔ a < b := by
  unfold metaName numDigits
  rw [zfill_dec 12 a (by omega) ha, zfill_dec 12 b (by omega) hb,
    append_lt_of_lt _ _ _ (by simp [length_fixed]), append_lt_iff, fixed_lt_iff 12 a b ha hb]

/-- The glob pattern matches exactly the committed metadata files (of the first 10^12
updates); it never matches a bag file or a temporary metadata file. Uuids are strings
of 36 characters. -/
theorem C08_glob_matches_committed_files_only (uuidStr : Nat → List Nat)
    (hu : ∀ u, (uuidStr u).length = 36) (nm : Name) :
    globMatches (render uuidStr nm) = true ↔ ∃ n, n < 10 ^ 12 ∧ nm = .metaFile n := by
  have l1 : (ofString "metadata-").length = 9 := by decide
  have l2 : (ofString ".pb").length = 3 := by decide
  have l3 : (ofString "-").length = 1 := by decide
  have l4 : (ofString "bag-").length = 4 := by decide
  have l5 : (ofString ".kd").length = 3 := by decide
  cases nm with
  | bagFile u i =>
    have := length_zfill_ge 12 (dec i)
    simp only [render, reduceCtorEq, and_false, exists_false, iff_false]
    intro h
    simp only [globMatches, Bool.and_eq_true, beq_iff_eq] at h
    have h1 := h.1.1.1
    simp only [bagName, List.length_append, l3, l4, l5, hu] at h1
    omega
  | metaTemp n u =>
    have := length_zfill_ge 12 (dec n)
    simp only [render, reduceCtorEq, and_false, exists_false, iff_false]
    intro h
    simp only [globMatches, Bool.and_eq_true, beq_iff_eq] at h
    have h1 := h.1.1.1
    simp only [tempName, numDigits, List.length_append, l1, l2, l3, hu] at h1
    omega
  | metaFile n =>
    simp only [render, Name.metaFile.injEq]
    constructor
    · intro h
      refine ⟨n, ?_, rfl⟩
      simp only [globMatches, Bool.and_eq_true, beq_iff_eq] at h
      have h1 := h.1.1.1
      simp only [metaName, numDigits, List.length_append, l1, l2] at h1
      refine Nat.lt_of_not_le fun hle => ?_
      have := pow_le_of_dec 12 n hle
      simp only [zfill, List.length_append, List.length_replicate] at h1
      omega
    · rintro ⟨k, hk, rfl⟩
      have e : metaName n = ofString "metadata-" ++ (fixed 12 n ++ ofString ".pb") := by
        rw [metaName, numDigits, zfill_dec 12 n (by omega) hk, List.append_assoc]
      have t1 : (ofString "metadata-" ++ (fixed 12 n ++ ofString ".pb")).take 9 =
          ofString "metadata-" := by
        rw [← l1, List.take_left]
      have t2 : (ofString "metadata-" ++ (fixed 12 n ++ ofString ".pb")).drop 9 =
          fixed 12 n ++ ofString ".pb" := by
        rw [← l1, List.drop_left]
      have t3 : (fixed 12 n ++ ofString ".pb").take 12 = fixed 12 n := by
        have := @List.take_left _ (fixed 12 n) (ofString ".pb")
        rwa [length_fixed] at this
      have t4 : (ofString "metadata-" ++ (fixed 12 n ++ ofString ".pb")).drop 21 =
          ofString ".pb" := by
        rw [show (21 : Nat) = 9 + 12 from rfl, ← List.drop_drop, t2]
        have := @List.drop_left _ (fixed 12 n) (ofString ".pb")
        rwa [length_fixed] at this
      unfold globMatches
      rw [e, t1, t2, t3, t4]
      simp [l1, l2, length_fixed, digits_fixed]

/-- The number in a file name. -/
def number : Name → Nat
  | .bagFile _ i => i
  | .metaFile n => n
  | .metaTemp n _ => n

/-- Two different files (with update numbers and indices below 10^12) have different
names. -/
theorem C08_file_names_injective (uuidStr : Nat → List Nat) (hu : ∀ u, (uuidStr u).length = 36)
    (hinj : ∀ u v, uuidStr u = uuidStr v → u = v) (a b : Name)
    (ha : number a < 10 ^ 12) (hb : number b < 10 ^ 12)
    (h : render uuidStr a = render uuidStr b) : a = b := by
  have l1 : (ofString "metadata-").length = 9 := by decide
  have l2 : (ofString ".pb").length = 3 := by decide
  have l3 : (ofString "-").length = 1 := by decide
  have hz : ∀ n, n < 10 ^ 12 → zfill 12 (dec n) = fixed 12 n := fun n hn =>
    zfill_dec 12 n (by omega) hn
  have hbm : ∀ u i n s, bagName uuidStr u i ≠ ofString "metadata-" ++ (zfill numDigits (dec n) ++ s) := by
    intro u i n s he
    have := congrArg (fun l => l.head?) he
    have e1 : ofString "bag-" = 98 :: [97, 103, 45] := by decide
    have e2 : ofString "metadata-" = 109 :: [101, 116, 97, 100, 97, 116, 97, 45] := by decide
    simp [bagName, e1, e2] at this
  cases a with
  | bagFile u i =>
    cases b with
    | bagFile v j =>
      simp only [number] at ha hb
      simp only [render, bagName, hz i ha, hz j hb, List.append_assoc, List.append_cancel_left_eq] at h
      have h1 := List.append_inj h (by rw [hu, hu])
      have h2 := List.append_inj (List.append_cancel_left h1.2) (by simp [length_fixed])
      rw [hinj u v h1.1, fixed_inj 12 i j ha hb h2.1]
    | metaFile n =>
      simp only [render, metaName, List.append_assoc] at h
      exact absurd h (hbm _ _ _ _)
    | metaTemp n v =>
      simp only [render, tempName, List.append_assoc] at h
      exact absurd h (hbm _ _ _ _)
  | metaFile n =>
    cases b with
    | bagFile v j =>
      simp only [render, metaName, List.append_assoc] at h
      exact absurd h.symm (hbm _ _ _ _)
    | metaFile k =>
      simp only [number] at ha hb
      simp only [render, metaName, numDigits, hz n ha, hz k hb, List.append_assoc,
        List.append_cancel_left_eq] at h
      rw [fixed_inj 12 n k ha hb (List.append_inj h (by simp [length_fixed])).1]
    | metaTemp k v =>
      simp only [number] at ha hb
      have := congrArg List.length h
      simp only [render, metaName, tempName, numDigits, hz n ha, hz k hb, List.length_append,
        length_fixed, l1, l2, l3, hu] at this
      omega
  | metaTemp n u =>
    cases b with
    | bagFile v j =>
      simp only [render, tempName, List.append_assoc] at h
      exact absurd h.symm (hbm _ _ _ _)
    | metaFile k =>
      simp only [number] at ha hb
      have := congrArg List.length h
      simp only [render, metaName, tempName, numDigits, hz n ha, hz k hb, List.length_append,
        length_fixed, l1, l2, l3, hu] at this
      omega
    | metaTemp k v =>
      simp only [number] at ha hb
      simp only [render, tempName, numDigits, hz n ha, hz k hb, List.append_assoc,
        List.append_cancel_left_eq] at h
      have h1 := List.append_inj h (by simp [length_fixed])
      have h2 := List.append_inj (List.append_cancel_left h1.2) (by rw [hu, hu])
      rw [fixed_inj 12 n k ha hb h1.1, hinj u v h2.1]

/-- `metadata-000000000007.pb` matches and is the name of update 7. -/
example : metaName 7 = ofString "metadata-000000000007.pb" ∧
    globMatches (ofString "metadata-000000000007.pb") = true ∧
    globMatches (ofString "metadata-000000000007-1b4e28ba-2fa1-11d2-883f-0016d3cca427.pb") = false ∧
    metaName 99 < metaName 100 := by
  refine ⟨by simp [metaName, dec, zfill, numDigits, List.replicate]; decide, by decide, by decide, ?_⟩
  rw [C08_string_order_is_numeric_order] <;> omega

end Verif.BagManager.FileNames
