/-
The driver: streams that end well, streams that end with an error, and streams with items
that are not strings.
-/
import Verif.JsonStream.ExtractDoc

namespace Verif.JsonStream

variable {p : Processor} {R : p.St → Bytes → Bytes}

theorem Delivers.other {items : List StreamItem} {t : Bytes} (h : Delivers items t) : .other ∉ items := by
  induction h with
  | nil => simp
  | text _ ih => simpa using ih
  | missing _ ih => simpa using ih

theorem Delivers.itemsText {items : List StreamItem} {t : Bytes} (h : Delivers items t) : itemsText items = t := by
  induction h with
  | nil => rfl
  | text _ ih => simp [Verif.JsonStream.itemsText, ih]
  | missing _ ih => simp [Verif.JsonStream.itemsText, ih]

/-- A stream that ends well. -/
theorem drive_ok (h : Follows p R) (s : p.St) {items : List StreamItem} {t : Bytes} (hi : Delivers items t) :
    (drive p s items true).1.flatten = R s t ∧ (drive p s items true).2 = .ok := by
  have := drive_follows h s items hi.other
  rwa [hi.itemsText] at this

/-- A stream that goes on: either everything that is to be written has been written, and
the output is closed, or the rest is written after it. -/
theorem drive_append (h : Follows p R) (s : p.St) {items : List StreamItem} {t : Bytes}
    (hi : Delivers items t) (more : List StreamItem) (ok : Bool) :
    (drive p s (items ++ more) ok = drive p s items false ∧ (drive p s items false).2 = .ok ∧
      ∀ rest, R s (t ++ rest) = (drive p s items false).1.flatten) ∨
    ((drive p s items false).2 = .error ∧ ∃ s',
      drive p s (items ++ more) ok =
        ((drive p s items false).1 ++ (drive p s' more ok).1, (drive p s' more ok).2) ∧
      ∀ rest, R s (t ++ rest) = (drive p s items false).1.flatten ++ R s' rest) := by
  induction hi generalizing s with
  | nil =>
    refine .inr ⟨rfl, s, ?_, ?_⟩
    · simp [drive]
    · intro rest
      simp [drive]
  | @text c l t _ ih =>
    simp only [List.cons_append, drive]
    by_cases e : (p.process s c false).2.isEnd = true
    · left
      simp only [e, if_true, true_and]
      intro rest
      rw [List.append_assoc]
      exact h.ended s c _ e
    · have e : (p.process s c false).2.isEnd = false := by simpa using e
      simp only [e, Bool.false_eq_true, if_false]
      rcases ih (p.process s c false).1 with ⟨h1, h2, h3⟩ | ⟨h1, s', h2, h3⟩
      · left
        rw [h1]
        refine ⟨rfl, h2, fun rest => ?_⟩
        rw [List.append_assoc, h.more s c _ e, h3, List.flatten_append]
      · right
        refine ⟨h1, s', ?_, fun rest => ?_⟩
        · rw [h2]
          simp
        · rw [List.append_assoc, h.more s c _ e, h3, List.flatten_append, List.append_assoc]
  | missing _ ih =>
    simp only [List.cons_append, drive]
    exact ih s

/-! ### The early end of `head` -/

def lineCount (x : Bytes) : Nat := (x.filter (· = nl)).length

theorem headLoop_open (n : Int) (x : Bytes) : ∀ line, line < n → (headLoop n line x).2.2 = false →
    (headLoop n line x).1 = line + lineCount x ∧ line + lineCount x < n := by
  induction x with
  | nil =>
    intro line hl _
    simp [headLoop, lineCount, hl]
  | cons c x ih =>
    intro line hl h
    unfold headLoop at h ⊢
    by_cases hc : c = nl
    · simp only [hc, if_true] at h ⊢
      by_cases h2 : line + 1 ≥ n
      · simp [h2] at h
      · simp only [h2, if_false] at h ⊢
        obtain ⟨h3, h4⟩ := ih _ (by omega) h
        rw [h3]
        simp only [lineCount, List.filter_cons, decide_true, if_true, List.length_cons] at h4 ⊢
        omega
    · simp only [hc, if_false] at h ⊢
      have := ih _ hl h
      simpa [lineCount, hc] using this

theorem lineCount_append (x y : Bytes) : lineCount (x ++ y) = lineCount x + lineCount y := by
  simp [lineCount]

theorem head_process (n : Int) (cs : Compact) (line : Int) (c : Bytes) :
    (headOp n).process (cs, line) c false =
      if (feed compactStep cs c).2 = [] then (((feed compactStep cs c).1, line), ⟨[], false⟩)
      else
        (((feed compactStep cs c).1, ((headProcessor n).process line (feed compactStep cs c).2 false).1),
          ⟨((headProcessor n).process line (feed compactStep cs c).2 false).2.chunks,
            ((headProcessor n).process line (feed compactStep cs c).2 false).2.isEnd⟩) := by
  have e : compactProcessor.stage.run cs [c] false =
      ((feed compactStep cs c).1, (single (feed compactStep cs c).2 false).chunks, false) := by
    simp [Processor.stage, stageLoop, compactProcessor, loop, single]
  simp only [headOp, Stage.processor, Stage.comp]
  rw [e]
  by_cases h : (feed compactStep cs c).2 = []
  · simp [h, single, Processor.stage, stageLoop] <;> rfl
  · simp only [h, single, Processor.stage, stageLoop, if_false, List.isEmpty_iff, Bool.false_and,
      Bool.false_eq_true]
    split <;> simp_all <;> rfl

theorem head_done (n : Int) {items : List StreamItem} {t : Bytes} (hi : Delivers items t) :
    ∀ (cs : Compact) (line : Int), 1 ≤ lineCount (feed compactStep cs t).2 →
      (n - line).toNat ≤ lineCount (feed compactStep cs t).2 →
      (drive (headOp n) (cs, line) items false).2 = .ok := by
  induction hi with
  | nil =>
    intro cs line h _
    simp [feed, lineCount] at h
  | @text c l t _ ih =>
    intro cs line h1 h2
    rw [feed_append] at h1 h2
    simp only [lineCount_append] at h1 h2
    simp only [drive]
    rw [head_process]
    by_cases ho : (feed compactStep cs c).2 = []
    · simp only [ho, if_true, Bool.false_eq_true, if_false] at h1 h2 ⊢
      exact ih _ _ (by simpa [lineCount] using h1) (by simpa [lineCount] using h2)
    · simp only [ho, if_false]
      by_cases hl : line ≥ n
      · rw [head_process_of_le n line _ _ hl]
        simp [single]
      · rw [head_process_of_lt n line _ _ hl]
        simp only [Bool.or_false, isEnd_single]
        cases e : (headLoop n line (feed compactStep cs c).2).2.2
        · obtain ⟨h3, h4⟩ := headLoop_open n _ line (by omega) e
          simp only [Bool.false_eq_true, if_false]
          apply ih
          · omega
          · rw [h3]
            omega
        · simp
  | missing _ ih =>
    intro cs line h1 h2
    simp only [drive]
    exact ih cs line h1 h2

end Verif.JsonStream
