/-
The processor that extracts values, on lines of compact texts.
-/
import Verif.JsonStream.Extract

namespace Verif.JsonStream

variable {o : ExtractOptions}

/-! ### Items -/

def partJson : Part → Json
  | .index i => .num (decimalInt i)
  | .key k => .str (k.flatMap quoteByte)

def itemJson (o : ExtractOptions) (m : List Part × Json) : Json :=
  if o.withPath then .arr [.arr (m.1.map partJson), m.2] else m.2

theorem quoteAll_eq (k : Bytes) : quoteAll k = quoted (k.flatMap quoteByte) := by
  simp [quoteAll, quoteProcessor, quoted, single]

theorem partText_eq (x : Part) : partText x = compact (partJson x) := by
  cases x with
  | index i => simp [partText, partJson, compact]
  | key k => simp [partText, partJson, compact, quoteAll_eq]

theorem compactElems_flatMap (v : Json) (l : List Json) :
    compactElems (v :: l) = compact v ++ l.flatMap fun w => ch ',' :: compact w := by
  induction l generalizing v with
  | nil => simp [compactElems]
  | cons w l ih => rw [compactElems_cons v (by simp), ih]; simp

theorem intercalate_flatMap (x : Bytes) (l : List Bytes) :
    List.intercalate [ch ','] (x :: l) = x ++ l.flatMap fun w => ch ',' :: w := by
  induction l generalizing x with
  | nil => simp [List.intercalate]
  | cons y l ih =>
    have := ih y
    simp only [List.intercalate, List.intersperse_cons₂, List.flatten_cons] at this ⊢
    rw [this]
    simp

theorem pathArray_eq (p : List Part) :
    pathArray p = ch '[' :: (compact (.arr (p.map partJson)) ++ [ch ',']) := by
  cases p with
  | nil => simp [pathArray, compact, compactElems, List.intercalate]
  | cons x p =>
    simp only [pathArray, List.map_cons, intercalate_flatMap, compact, compactElems_flatMap, partText_eq,
      List.flatMap_map]
    simp

theorem itemText_eq (m : List Part × Json) : itemText o m = compact (itemJson o m) := by
  cases h : o.withPath
  · simp [itemText, itemJson, h, pairEnd]
  · simp [itemText, itemJson, h, pairEnd, pathArray_eq, compact, compactElems]

theorem matchesText_true (l : List (List Part × Json)) :
    matchesText o true l = (l.map (itemJson o)).flatMap fun w => ch ',' :: compact w := by
  induction l with
  | nil => rfl
  | cons m l ih => simp [matchesText, ih, itemText_eq]

/-- A line of output. -/
theorem matchesText_line (l : List (List Part × Json)) :
    matchesText o false l ++ (if anyOf false l then [ch ']', nl] else [ch '[', ch ']', nl]) =
      compact (.arr (l.map (itemJson o))) ++ [nl] := by
  cases l with
  | nil => simp [matchesText, anyOf, compact, compactElems]
  | cons m l =>
    simp [matchesText, anyOf, compact, compactElems_flatMap, matchesText_true, itemText_eq]

/-! ### Lines -/

def extracted (o : ExtractOptions) (v : Json) : Json := .arr ((found o.match_ dec [] v).map (itemJson o))

theorem line_end (b any : Bool) :
    extractStep o (xst [] b any) nl =
      (xst [] b false, if any then [ch ']', nl] else [ch '[', ch ']', nl]) := by
  have h : (xst [] b any).before o nl = (xst [] b any, []) := by
    simp [Extract.before, xst]
  rw [step_of_before h]
  cases any <;> simp [Extract.char, xst, nl]

theorem match_end (b : Bool) :
    extractStep o (mst [] b 0) nl = (xst [] b false, pairEnd o ++ [ch ']', nl]) := by
  rw [step_match rfl]
  simp [Extract.char, xst, mst, nl]

theorem top_first {c : Nat} (hc : c ≠ nl) (b : Bool) (hm : o.match_ [] = true) :
    extractStep o (xst [] b false) c =
      ((extractStep o (mst [] b 0) c).1,
        (ch '[' :: if o.withPath then pathArray [] else []) ++ (extractStep o (mst [] b 0) c).2) := by
  have h1 : (xst [] b false).before o c =
      (mst [] b 0, ch '[' :: if o.withPath then pathArray [] else []) := by
    simp [Extract.before, xst, mst, hc, Extract.tryMatch, hm]
  rw [step_match (s := mst [] b 0) rfl]
  simp only [extractStep, h1]

theorem extract_line {e : Bool} {v : Json} (h : Valid v) (hf : Fine e v) (b : Bool)
    (hb : e = false → b = false) (hv : b = true → isString v = false) :
    ∃ b', (e = false → b' = false) ∧
      feed (extractStep o) (xst [] b false) (compact v ++ [nl]) =
        (xst [] b' false, compact (extracted o v) ++ [nl]) := by
  by_cases hm : o.match_ [] = true
  · refine ⟨b, hb, ?_⟩
    obtain ⟨c, t', ht, hc, _⟩ := text_head h
    have hn : c ≠ nl := by
      unfold nl
      omega
    have h1 := feed_head (t := t') (top_first hn b hm)
    rw [← ht, match_node h [] b 0 (by simp)] at h1
    have := feed_seq h1 (feed_one (match_end b))
    rw [this]
    have hl := matchesText_line (o := o) [([], v)]
    simp only [anyOf, matchesText] at hl
    simp only [extracted, found, hm, if_true]
    rw [← hl]
    simp [itemText]
  · obtain ⟨b', h1, h2⟩ := extract_node (o := o) h hf [] b false (by
      simp only [List.reverse_nil, Settled]
      simpa using hm) hb hv
    refine ⟨b', h1, ?_⟩
    have := feed_seq h2 (feed_one (line_end b' _))
    rw [matchesText_line] at this
    have hx : extracted o v = .arr ((below o.match_ dec [] v).map (itemJson o)) := by
      simp [extracted, found, hm]
    rw [hx]
    exact this

theorem extract_lines {e : Bool} (l : List Json) (h : ∀ v ∈ l, Valid v) (hf : FineNode e (.elems l)) :
    ∀ b, (e = false → b = false) →
      (feed (extractStep o) (xst [] b false) (lines l)).2 = lines (l.map (extracted o)) := by
  induction l with
  | nil => exact fun _ _ => rfl
  | cons v l ih =>
    intro b hb
    obtain ⟨f1, f2, f3⟩ := fine_elem hf
    have hv : b = true → isString v = false := fun hb' => f3 (by
      cases e
      · rw [hb rfl] at hb'
        exact absurd hb' (by simp)
      · rfl)
    obtain ⟨b', h1, h2⟩ := extract_line (o := o) (h v List.mem_cons_self) f1 b hb hv
    have h3 := ih (fun w hw => h w (List.mem_cons_of_mem _ hw)) f2 b' h1
    have e1 : lines (v :: l) = (compact v ++ [nl]) ++ lines l := by simp [lines]
    rw [e1, feed_append, h2]
    simp only [h3]
    simp [lines]

theorem extract_follows :
    Follows (extractProcessor o) (fun (s : Extract) x => (feed (extractStep o) s x).2) := by
  have := loop_follows (σ := Extract) (xst [] false false) (extractStep o) (fun _ => [])
  simp only [List.append_nil] at this
  exact this

/-! ### Values of a key -/

theorem keyMatch_two {key : Bytes} {p : List Part} (hp : p ≠ []) (x : Part) : keyMatch key (p ++ [x]) = false := by
  cases p with
  | nil => exact absurd rfl hp
  | cons y p =>
    simp [keyMatch]

mutual

theorem below_nil (key : Bytes) {p : List Part} (hp : p ≠ []) : ∀ v, below (keyMatch key) dec p v = []
  | .null => by simp [below]
  | .bool _ => by simp [below]
  | .num _ => by simp [below]
  | .str _ => by simp [below]
  | .arr l => by rw [below, belowElems_nil key hp]
  | .obj l => by rw [below, belowMembers_nil key hp]

theorem belowElems_nil (key : Bytes) {p : List Part} (hp : p ≠ []) :
    ∀ l i, belowElems (keyMatch key) dec p i l = []
  | [], _ => by simp [belowElems]
  | v :: l, i => by
    rw [belowElems, belowElems_nil key hp l, keyMatch_two hp, below_nil key (by simp) v]
    simp

theorem belowMembers_nil (key : Bytes) {p : List Part} (hp : p ≠ []) :
    ∀ l, belowMembers (keyMatch key) dec p l = []
  | [] => by simp [belowMembers]
  | (k, v) :: l => by
    rw [belowMembers, belowMembers_nil key hp l, keyMatch_two hp, below_nil key (by simp) v]
    simp

end

theorem belowElems_top (key : Bytes) (l : List Json) : ∀ i, belowElems (keyMatch key) dec [] i l = [] := by
  induction l with
  | nil => simp [belowElems]
  | cons v l ih =>
    intro i
    rw [belowElems, ih, below_nil key (by simp)]
    simp [keyMatch]

theorem belowMembers_top {key : Bytes} {l : List (Bytes × Json)} {vs : List Json} (h : KeyValues key l vs) :
    (belowMembers (keyMatch key) dec [] l).map (·.2) = vs := by
  induction h with
  | nil => simp [belowMembers]
  | hit hk _ ih =>
    have e : dec _ = key := unquoteAll_quoted hk
    simp [belowMembers, e, keyMatch, ih]
  | miss hk hn _ ih =>
    have e : dec _ = _ := unquoteAll_quoted hk
    simp [belowMembers, e, keyMatch, hn, ih]
    rw [← below_nil key (p := [.key _]) (by simp)]

theorem extracted_key {key : Bytes} {v : Json} {vs : List Json} (h : KeyValues key (objectMembers v) vs) :
    extracted { match_ := keyMatch key, withPath := false } v = .arr vs := by
  have hm : keyMatch key [] = false := by simp [keyMatch]
  have hi : itemJson { match_ := keyMatch key, withPath := false } = (·.2) := by
    funext m
    simp [itemJson]
  simp only [extracted, found, hm, hi]
  have : (below (keyMatch key) dec [] v).map (·.2) = vs := by
    cases v with
    | obj l => exact belowMembers_top h
    | arr l =>
      cases h
      simp [below, belowElems_top]
    | _ =>
      cases h
      simp [below]
  simp [this]

theorem keyValues_lines {key : Bytes} {l : List Json} {r : List (List Json)} (h : AllKeyValues key l r) :
    l.map (extracted { match_ := keyMatch key, withPath := false }) = r.map .arr := by
  induction h with
  | nil => rfl
  | cons h _ ih => simp [extracted_key h, ih]

end Verif.JsonStream
