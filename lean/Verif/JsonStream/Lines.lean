/-
The processors of compact JSON, one value per line.
-/
import Verif.JsonStream.Compactify

namespace Verif.JsonStream

theorem lines_cons (v : Json) (l : List Json) : lines (v :: l) = compact v ++ nl :: lines l := by
  simp [lines]

/-! ### Head -/

theorem headLoop_line_text (n line : Int) (x y : Bytes) (hx : nl ∉ x) :
    headLoop n line (x ++ y) = ((headLoop n line y).1, x ++ (headLoop n line y).2.1, (headLoop n line y).2.2) := by
  induction x with
  | nil => rfl
  | cons c x ih =>
    have hc : ¬ c = nl := fun e => hx (e ▸ List.mem_cons_self)
    simp only [List.cons_append, headLoop, hc, if_false]
    rw [ih fun m => hx (List.mem_cons_of_mem _ m)]

theorem head_lines (n line : Int) (l : List Json) (hv : ∀ v ∈ l, Valid v) :
    headRest n line (lines l) = lines (l.take (n - line).toNat) := by
  induction l generalizing line with
  | nil =>
    unfold headRest
    simp [lines, headLoop]
  | cons v l ih =>
    unfold headRest
    by_cases h : line ≥ n
    · have : (n - line).toNat = 0 := by omega
      simp [h, this, lines]
    · obtain ⟨k, hk⟩ : ∃ k, (n - line).toNat = k + 1 := ⟨(n - line).toNat - 1, by omega⟩
      have hk' : (n - (line + 1)).toNat = k := by omega
      have ih := ih (line + 1) fun x hx => hv x (List.mem_cons_of_mem _ hx)
      rw [hk'] at ih
      rw [if_neg h, hk, List.take_succ_cons, lines_cons, lines_cons,
        headLoop_line_text _ _ _ _ (hv v List.mem_cons_self).nl, ← ih]
      have e : headLoop n line (nl :: lines l) =
          if line + 1 ≥ n then (line + 1, [nl], true) else
            ((headLoop n (line + 1) (lines l)).1, nl :: (headLoop n (line + 1) (lines l)).2.1,
              (headLoop n (line + 1) (lines l)).2.2) := by
        simp [headLoop]
      rw [e]
      unfold headRest
      by_cases h' : line + 1 ≥ n
      · rw [if_pos h', if_pos h']
      · rw [if_neg h', if_neg h']

/-! ### Selections -/

theorem select_drop (o c : Nat) (x : Bytes) (hx : nl ∉ x) :
    feed (selectStep o c) .dropLine (x ++ [nl]) = (.start, []) := by
  induction x with
  | nil => rfl
  | cons a x ih =>
    have ha : ¬ a = nl := fun e => hx (e ▸ List.mem_cons_self)
    have hs : selectStep o c .dropLine a = (.dropLine, []) := by simp [selectStep, ha]
    exact feed_cons hs (ih fun m => hx (List.mem_cons_of_mem _ m))

theorem select_keep (o c : Nat) (x : Bytes) (hx : nl ∉ x) :
    feed (selectStep o c) .keepLine (x ++ [nl]) = (.start, x ++ [nl]) := by
  induction x with
  | nil => rfl
  | cons a x ih =>
    have ha : ¬ a = nl := fun e => hx (e ▸ List.mem_cons_self)
    have hs : selectStep o c .keepLine a = (.keepLine, [a]) := by simp [selectStep, ha]
    have := feed_cons hs (ih fun m => hx (List.mem_cons_of_mem _ m))
    exact this

theorem select_other (o c a : Nat) (x : Bytes) (ha : a ≠ o) (hx : nl ∉ x) :
    feed (selectStep o c) .start (a :: (x ++ [nl])) = (.start, []) := by
  have hs : selectStep o c .start a = (.dropLine, []) := by simp [selectStep, ha]
  exact feed_cons hs (select_drop o c x hx)

theorem select_empty (o c : Nat) :
    feed (selectStep o c) .start [o, c, nl] = (.start, []) := by
  simp [feed, selectStep]

theorem select_nonempty (o c a : Nat) (x : Bytes) (ha : a ≠ c) (hx : nl ∉ x) :
    feed (selectStep o c) .start (o :: a :: (x ++ [nl])) = (.start, o :: a :: (x ++ [nl])) := by
  have h1 : selectStep o c .start o = (.openBracket, []) := by simp [selectStep]
  have h2 : selectStep o c .openBracket a = (.keepLine, [o, a]) := by simp [selectStep, ha]
  exact feed_cons h1 (feed_cons h2 (select_keep o c x hx))

/-- The first characters of a compact text. -/
theorem compact_shape {v : Json} (h : Valid v) :
    (v = .null ∧ compact v = nullText) ∨
    (v = .arr [] ∧ compact v = [ch '[', ch ']']) ∨
    (v = .obj [] ∧ compact v = [ch '{', ch '}']) ∨
    (∃ e l a x, v = .arr (e :: l) ∧ compact v = ch '[' :: a :: x ∧ a ≠ ch ']') ∨
    (∃ m l a x, v = .obj (m :: l) ∧ compact v = ch '{' :: a :: x ∧ a ≠ ch '}') ∨
    (∃ a x, isContainer v = false ∧ isNull v = false ∧ compact v = a :: x ∧ a ≠ ch '[' ∧ a ≠ ch '{' ∧ a ≠ ch 'n') := by
  unfold Valid at h
  generalize ht : compact v = t at h
  cases h with
  | null => exact .inl ⟨rfl, ht ▸ rfl⟩
  | bool b => exact .inr (.inr (.inr (.inr (.inr (by cases b <;>
      exact ⟨_, _, rfl, rfl, rfl, by decide, by decide, by decide⟩)))))
  | num h =>
    refine .inr (.inr (.inr (.inr (.inr ?_))))
    obtain ⟨sign, int, frac, exp, he, hs, hi, _, _⟩ := h
    have hint : ∃ a x, int = a :: x ∧ 48 ≤ a ∧ a ≤ 57 := by
      rcases hi with rfl | ⟨⟨h1, h2⟩, _⟩
      · exact ⟨_, _, rfl, by decide, by decide⟩
      · cases int with
        | nil => exact absurd rfl h1
        | cons a x => exact ⟨a, x, rfl, h2 a List.mem_cons_self⟩
    obtain ⟨a, x, rfl, h1, h2⟩ := hint
    rcases hs with rfl | rfl
    · refine ⟨a, x ++ frac ++ exp, rfl, rfl, by rw [he]; simp, ?_, ?_, ?_⟩ <;> omega
    · refine ⟨ch '-', a :: x ++ frac ++ exp, rfl, rfl, by rw [he]; simp, ?_, ?_, ?_⟩ <;> decide
  | str h =>
    exact .inr (.inr (.inr (.inr (.inr ⟨_, _, rfl, rfl, rfl, by decide, by decide, by decide⟩))))
  | arrNil hw => cases hw; exact .inr (.inl ⟨rfl, rfl⟩)
  | objNil hw => cases hw; exact .inr (.inr (.inl ⟨rfl, rfl⟩))
  | arr h =>
    refine .inr (.inr (.inr (.inl ?_)))
    cases h with
    | elem hw hv hw' =>
      cases hw; cases hw'
      obtain ⟨c, t', rfl, _, h1, _⟩ := text_head hv
      exact ⟨_, _, c, t' ++ [ch ']'], rfl, by simp, h1⟩
    | elems hw hv hw' hr =>
      cases hw; cases hw'
      obtain ⟨c, t', rfl, _, h1, _⟩ := text_head hv
      exact ⟨_, _, c, _, rfl, by simp only [List.nil_append, List.cons_append]; rfl, h1⟩
  | obj h =>
    refine .inr (.inr (.inr (.inr (.inl ?_))))
    cases h with
    | member hw hk hw1 hw2 hv hw' =>
      cases hw
      exact ⟨_, _, ch '"', _, rfl, by simp only [quoted, List.nil_append, List.cons_append]; rfl, by decide⟩
    | members hw hk hw1 hw2 hv hw' hr =>
      cases hw
      exact ⟨_, _, ch '"', _, rfl, by simp only [quoted, List.nil_append, List.cons_append]; rfl, by decide⟩

theorem not_mem_tail {a : Nat} {x t : Bytes} (h : t = a :: x) (hn : nl ∉ t) : nl ∉ x :=
  fun m => hn (h ▸ List.mem_cons_of_mem _ m)

theorem objects_line {v : Json} (h : Valid v) :
    feed (selectStep (ch '{') (ch '}')) .start (compact v ++ [nl]) =
      (.start, if isNonemptyObject v then compact v ++ [nl] else []) := by
  have hn := h.nl
  rcases compact_shape h with ⟨rfl, e⟩ | ⟨rfl, e⟩ | ⟨rfl, e⟩ | ⟨_, _, a, x, rfl, e, ha⟩ |
    ⟨_, _, a, x, rfl, e, ha⟩ | ⟨a, x, hc, _, e, h1, h2, _⟩
  · rfl
  · rfl
  · rfl
  · rw [e]
    exact select_other _ _ _ (a :: x) (by decide) (not_mem_tail e hn)
  · rw [e]
    exact select_nonempty _ _ _ x ha fun m => hn (e ▸ List.mem_cons_of_mem _ (List.mem_cons_of_mem _ m))
  · have : isNonemptyObject v = false := by
      cases v <;> simp_all [isContainer, isNonemptyObject]
    rw [e, this]
    exact select_other _ _ _ _ h2 (not_mem_tail e hn)

theorem arrays_line {v : Json} (h : Valid v) :
    feed (selectStep (ch '[') (ch ']')) .start (compact v ++ [nl]) =
      (.start, if isNonemptyArray v then compact v ++ [nl] else []) := by
  have hn := h.nl
  rcases compact_shape h with ⟨rfl, e⟩ | ⟨rfl, e⟩ | ⟨rfl, e⟩ | ⟨_, _, a, x, rfl, e, ha⟩ |
    ⟨_, _, a, x, rfl, e, ha⟩ | ⟨a, x, hc, _, e, h1, h2, _⟩
  · rfl
  · rfl
  · rfl
  · rw [e]
    exact select_nonempty _ _ _ x ha fun m => hn (e ▸ List.mem_cons_of_mem _ (List.mem_cons_of_mem _ m))
  · rw [e]
    exact select_other _ _ _ (a :: x) (by decide) (not_mem_tail e hn)
  · have : isNonemptyArray v = false := by
      cases v <;> simp_all [isContainer, isNonemptyArray]
    rw [e, this]
    exact select_other _ _ _ _ h1 (not_mem_tail e hn)

theorem nonnull_keep (x : Bytes) (hx : nl ∉ x) :
    feed nonnullStep .keepLine (x ++ [nl]) = (.start, x ++ [nl]) := by
  induction x with
  | nil => rfl
  | cons a x ih =>
    have ha : ¬ a = nl := fun e => hx (e ▸ List.mem_cons_self)
    have hs : nonnullStep .keepLine a = (.keepLine, [a]) := by simp [nonnullStep, ha]
    have := feed_cons hs (ih fun m => hx (List.mem_cons_of_mem _ m))
    exact this

theorem nonnull_line {v : Json} (h : Valid v) :
    feed nonnullStep .start (compact v ++ [nl]) =
      (.start, if isNull v then [] else compact v ++ [nl]) := by
  have hn := h.nl
  have key : ∀ a x, compact v = a :: x → a ≠ ch 'n' →
      feed nonnullStep .start (compact v ++ [nl]) = (.start, compact v ++ [nl]) := by
    intro a x e ha
    rw [e]
    have hs : nonnullStep .start a = (.keepLine, [a]) := by simp [nonnullStep, ha]
    have := feed_cons hs (nonnull_keep x (not_mem_tail e hn))
    exact this
  rcases compact_shape h with ⟨rfl, e⟩ | ⟨rfl, e⟩ | ⟨rfl, e⟩ | ⟨_, _, a, x, rfl, e, ha⟩ |
    ⟨_, _, a, x, rfl, e, ha⟩ | ⟨a, x, _, hc, e, h1, h2, h3⟩
  · rfl
  · exact key _ _ e (by decide)
  · exact key _ _ e (by decide)
  · exact key _ _ e (by decide)
  · exact key _ _ e (by decide)
  · rw [hc]
    exact key _ _ e h3

/-- A processor that keeps or drops lines. -/
theorem select_lines (step : SelectSt → Nat → SelectSt × Bytes) (keep : Json → Bool)
    (hstep : ∀ v, Valid v → feed step .start (compact v ++ [nl]) =
      (.start, if keep v then compact v ++ [nl] else [])) (l : List Json) (hv : ∀ v ∈ l, Valid v) :
    feed step .start (lines l) = (.start, lines (l.filter keep)) := by
  induction l with
  | nil => rfl
  | cons v l ih =>
    have h1 := hstep v (hv v List.mem_cons_self)
    have h2 := ih fun x hx => hv x (List.mem_cons_of_mem _ hx)
    have := feed_seq h1 h2
    rw [lines_cons, show compact v ++ nl :: lines l = (compact v ++ [nl]) ++ lines l by simp, this]
    cases hk : keep v
    · simp [hk]
    · simp [hk, lines_cons]

/-! ### Implode -/

theorem implode_text (x : Bytes) (hx : nl ∉ x) (o : Bool) :
    feed implodeStep ⟨o, false⟩ x = (⟨o, false⟩, x) := by
  induction x with
  | nil => rfl
  | cons a x ih =>
    have ha : ¬ a = nl := fun e => hx (e ▸ List.mem_cons_self)
    have hs : implodeStep ⟨o, false⟩ a = (⟨o, false⟩, [a]) := by simp [implodeStep, ha]
    exact feed_cons hs (ih fun m => hx (List.mem_cons_of_mem _ m))

theorem implode_line {v : Json} (h : Valid v) (o b : Bool) :
    feed implodeStep ⟨o, b⟩ (compact v ++ [nl]) =
      (⟨o, true⟩, (if b then [ch ','] else []) ++ compact v) := by
  have hn := h.nl
  have hne : ∃ a x, compact v = a :: x := by
    obtain ⟨a, x, e, _⟩ := text_head h
    exact ⟨a, x, e⟩
  obtain ⟨a, x, e⟩ := hne
  have ha : ¬ a = nl := fun e' => hn (e ▸ e' ▸ List.mem_cons_self)
  have h1 : implodeStep ⟨o, b⟩ a = (⟨o, false⟩, (if b then [ch ','] else []) ++ [a]) := by
    cases b <;> simp [implodeStep, ha]
  have h3 : implodeStep ⟨o, false⟩ nl = (⟨o, true⟩, []) := by simp [implodeStep]
  have := feed_cons h1 (feed_seq (implode_text x (not_mem_tail e hn) o) (feed_one h3))
  rw [e]
  simpa using this

theorem implode_lines (l : List Json) (hv : ∀ v ∈ l, Valid v) (o b : Bool) :
    (feed implodeStep ⟨o, b⟩ (lines l)).2 =
      if l.isEmpty then [] else (if b then [ch ','] else []) ++ compactElems l := by
  induction l generalizing b with
  | nil => rfl
  | cons v l ih =>
    have h1 := implode_line (hv v List.mem_cons_self) o b
    have h2 := ih (fun x hx => hv x (List.mem_cons_of_mem _ hx)) true
    rcases hf : feed implodeStep ⟨o, true⟩ (lines l) with ⟨s', out⟩
    rw [hf] at h2
    simp only at h2
    have := feed_seq h1 hf
    rw [lines_cons, show compact v ++ nl :: lines l = (compact v ++ [nl]) ++ lines l by simp, this, h2]
    cases l with
    | nil => simp [compactElems]
    | cons => simp [compactElems]

theorem implode_doc (l : List Json) (hv : ∀ v ∈ l, Valid v) :
    implodeRest ⟨false, false⟩ (lines l) = compact (.arr l) ++ [nl] := by
  unfold implodeRest
  rw [implode_lines l hv]
  cases l <;> simp [compact, compactElems]

/-! ### Chunks -/

theorem chunk_text (b x y : Bytes) (hx : nl ∉ x) : chunkLoop b (x ++ y) = chunkLoop (b ++ x) y := by
  induction x generalizing b with
  | nil => simp
  | cons a x ih =>
    have ha : ¬ a = nl := fun e => hx (e ▸ List.mem_cons_self)
    simp only [List.cons_append, chunkLoop, ha, if_false]
    rw [ih _ fun m => hx (List.mem_cons_of_mem _ m)]
    simp

theorem chunk_lines (l : List Json) (hv : ∀ v ∈ l, Valid v) :
    chunkLoop [] (lines l) = ([], l.map fun v => compact v ++ [nl]) := by
  induction l with
  | nil => rfl
  | cons v l ih =>
    have ih := ih fun x hx => hv x (List.mem_cons_of_mem _ hx)
    rw [lines_cons, chunk_text _ _ _ (hv v List.mem_cons_self).nl]
    simp [chunkLoop, ih]

end Verif.JsonStream
