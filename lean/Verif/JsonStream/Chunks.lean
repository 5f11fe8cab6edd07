/-
How inputs are cut into chunks does not matter.
-/
import Verif.JsonStream.Spec

namespace Verif.JsonStream

theorem flatten_single (out : Bytes) (e : Bool) : (single out e).chunks.flatten = out := by
  cases out <;> simp [single]

theorem isEnd_single (out : Bytes) (e : Bool) : (single out e).isEnd = e := rfl

section Feed

variable {σ : Type} (step : σ → Nat → σ × Bytes)

theorem feed_append (s : σ) (x y : Bytes) :
    feed step s (x ++ y) =
      ((feed step (feed step s x).1 y).1, (feed step s x).2 ++ (feed step (feed step s x).1 y).2) := by
  induction x generalizing s with
  | nil => simp [feed]
  | cons c x ih => simp only [List.cons_append, feed, ih, List.append_assoc]

theorem feed_seq {step : σ → Nat → σ × Bytes} {s s1 s2 : σ} {x y o1 o2 : Bytes}
    (h1 : feed step s x = (s1, o1)) (h2 : feed step s1 y = (s2, o2)) :
    feed step s (x ++ y) = (s2, o1 ++ o2) := by
  rw [feed_append, h1, h2]

theorem feed_cons {step : σ → Nat → σ × Bytes} {s s1 s2 : σ} {c : Nat} {y o1 o2 : Bytes}
    (h1 : step s c = (s1, o1)) (h2 : feed step s1 y = (s2, o2)) :
    feed step s (c :: y) = (s2, o1 ++ o2) := by
  simp only [feed, h1, h2]

theorem feed_one {step : σ → Nat → σ × Bytes} {s s1 : σ} {c : Nat} {o1 : Bytes}
    (h1 : step s c = (s1, o1)) : feed step s [c] = (s1, o1) := by
  simp only [feed, h1, List.append_nil]

end Feed

/-- `R s x` is all that a processor in state `s` still writes if the rest of the
input is `x`, however that is cut. -/
structure Follows (p : Processor) (R : p.St → Bytes → Bytes) : Prop where
  more : ∀ s c rest, (p.process s c false).2.isEnd = false →
    R s (c ++ rest) = (p.process s c false).2.chunks.flatten ++ R (p.process s c false).1 rest
  ended : ∀ s c rest, (p.process s c false).2.isEnd = true →
    R s (c ++ rest) = (p.process s c false).2.chunks.flatten
  finish : ∀ s, (p.process s [] true).2.chunks.flatten = R s []
  isEnd : ∀ s, (p.process s [] true).2.isEnd = true

structure FollowsStage (a : Stage) (R : a.St → Bytes → Bytes) : Prop where
  more : ∀ s c rest, (a.run s c false).2.2 = false →
    R s (c.flatten ++ rest) = (a.run s c false).2.1.flatten ++ R (a.run s c false).1 rest
  ended : ∀ s c rest, (a.run s c false).2.2 = true →
    R s (c.flatten ++ rest) = (a.run s c false).2.1.flatten
  finish : ∀ s c, (a.run s c true).2.1.flatten = R s c.flatten
  isEnd : ∀ s c, (a.run s c true).2.2 = true

variable {p : Processor} {R : p.St → Bytes → Bytes}

theorem stageLoop_follows (h : Follows p R) (s : p.St) (cs : List Bytes) (rest : Bytes) :
    ((stageLoop p s cs).2.2 = false →
      R s (cs.flatten ++ rest) = (stageLoop p s cs).2.1.flatten ++ R (stageLoop p s cs).1 rest) ∧
    ((stageLoop p s cs).2.2 = true →
      R s (cs.flatten ++ rest) = (stageLoop p s cs).2.1.flatten) := by
  induction cs generalizing s with
  | nil => simp [stageLoop]
  | cons c cs ih =>
    unfold stageLoop
    by_cases e : (p.process s c false).2.isEnd = true
    · simp only [e, if_true]
      refine ⟨fun h' => absurd h' (by simp), fun _ => ?_⟩
      rw [List.flatten_cons, List.append_assoc, h.ended s c _ e]
    · have e : (p.process s c false).2.isEnd = false := by simpa using e
      simp only [e, Bool.false_eq_true, if_false]
      have := ih (p.process s c false).1
      refine ⟨fun h' => ?_, fun h' => ?_⟩
      · rw [List.flatten_cons, List.append_assoc, h.more s c _ e, this.1 h', List.flatten_append,
          List.append_assoc]
      · rw [List.flatten_cons, List.append_assoc, h.more s c _ e, this.2 h', List.flatten_append]

theorem stage_follows (h : Follows p R) : FollowsStage p.stage R := by
  constructor
  · intro s c rest e
    simp only [Processor.stage, Bool.false_and, Bool.false_eq_true, if_false] at e ⊢
    exact (stageLoop_follows h s c rest).1 e
  · intro s c rest e
    simp only [Processor.stage, Bool.false_and, Bool.false_eq_true, if_false] at e ⊢
    exact (stageLoop_follows h s c rest).2 e
  · intro s c
    have := stageLoop_follows h s c []
    rw [List.append_nil] at this
    simp only [Processor.stage, Bool.true_and]
    cases e : (stageLoop p s c).2.2
    · simp only [Bool.not_false, if_true, List.flatten_append]
      rw [this.1 e, h.finish]
    · simp only [Bool.not_true, Bool.false_eq_true, if_false]
      rw [this.2 e]
  · intro s c
    simp only [Processor.stage, Bool.true_and]
    cases e : (stageLoop p s c).2.2
    · simp
    · simp [e]

theorem comp_follows {a b : Stage} {Ra : a.St → Bytes → Bytes} {Rb : b.St → Bytes → Bytes}
    (ha : FollowsStage a Ra) (hb : FollowsStage b Rb) :
    FollowsStage (a.comp b) (fun s x => Rb s.2 (Ra s.1 x)) := by
  constructor
  · intro s c rest e
    simp only [Stage.comp] at e ⊢
    cases e' : (a.run s.1 c false).2.2
    · rw [e'] at e
      rw [ha.more _ _ _ e', hb.more _ _ _ e]
    · rw [e', hb.isEnd] at e
      exact absurd e (by simp)
  · intro s c rest e
    simp only [Stage.comp] at e ⊢
    cases e' : (a.run s.1 c false).2.2
    · rw [e'] at e
      rw [ha.more _ _ _ e', hb.ended _ _ _ e]
    · rw [ha.ended _ _ _ e', hb.finish]
  · intro s c
    simp only [Stage.comp]
    rw [ha.isEnd, hb.finish, ha.finish]
  · intro s c
    simp only [Stage.comp]
    rw [ha.isEnd, hb.isEnd]

theorem processor_follows {a : Stage} {Ra : a.St → Bytes → Bytes} (h : FollowsStage a Ra) :
    Follows a.processor Ra := by
  constructor
  · intro s c rest e
    have := h.more s [c] rest e
    rwa [List.flatten_singleton] at this
  · intro s c rest e
    have := h.ended s [c] rest e
    rwa [List.flatten_singleton] at this
  · intro s
    exact h.finish s [[]]
  · intro s
    exact h.isEnd s [[]]

/-- The text of the items of a stream. -/
def itemsText : List StreamItem → Bytes
  | [] => []
  | .text c :: l => c ++ itemsText l
  | _ :: l => itemsText l

theorem itemsText_map (l : List Bytes) : itemsText (l.map .text) = l.flatten := by
  induction l with
  | nil => rfl
  | cons c l ih => simp [itemsText, ih]

theorem drive_follows (h : Follows p R) (s : p.St) (items : List StreamItem)
    (hi : .other ∉ items) :
    (drive p s items true).1.flatten = R s (itemsText items) ∧ (drive p s items true).2 = .ok := by
  induction items generalizing s with
  | nil => exact ⟨h.finish s, rfl⟩
  | cons i items ih =>
    have hr : .other ∉ items := fun m => hi (List.mem_cons_of_mem _ m)
    cases i with
    | other => exact absurd List.mem_cons_self hi
    | missing => exact ih s hr
    | text c =>
      unfold drive
      by_cases e : (p.process s c false).2.isEnd = true
      · simp only [e, if_true, and_true]
        exact (h.ended s c _ e).symm
      · have e : (p.process s c false).2.isEnd = false := by simpa using e
        simp only [e, Bool.false_eq_true, if_false]
        refine ⟨?_, (ih _ hr).2⟩
        rw [List.flatten_append, (ih _ hr).1, itemsText, h.more s c _ e]

theorem apply_follows (h : Follows p R) (chunks : List Bytes) :
    (apply p chunks).flatten = R p.init chunks.flatten := by
  unfold apply
  rw [(drive_follows h p.init _ ?_).1, itemsText_map]
  simp

/-! ### The processors -/

theorem loop_follows {σ : Type} (init : σ) (step : σ → Nat → σ × Bytes) (finish : σ → Bytes) :
    Follows (loop init step finish) (fun (s : σ) x => (feed step s x).2 ++ finish (feed step s x).1) := by
  constructor
  · intro (s : σ) c rest _
    change (feed step s (c ++ rest)).2 ++ finish (feed step s (c ++ rest)).1 =
      (single ((feed step s c).2 ++ []) false).chunks.flatten ++
        ((feed step (feed step s c).1 rest).2 ++ finish (feed step (feed step s c).1 rest).1)
    rw [flatten_single, feed_append, List.append_nil, List.append_assoc]
  · intro s c rest e
    simp [loop, single] at e
  · intro s
    simp [loop, flatten_single, feed]
  · intro s
    rfl

theorem headLoop_append (n line : Int) (x y : Bytes) :
    headLoop n line (x ++ y) =
      if (headLoop n line x).2.2 then headLoop n line x
      else ((headLoop n (headLoop n line x).1 y).1,
        (headLoop n line x).2.1 ++ (headLoop n (headLoop n line x).1 y).2.1,
        (headLoop n (headLoop n line x).1 y).2.2) := by
  induction x generalizing line with
  | nil => simp [headLoop]
  | cons c x ih =>
    simp only [List.cons_append, headLoop]
    by_cases hc : c = nl
    · simp only [hc, if_true]
      by_cases hl : line + 1 ≥ n
      · simp only [hl, if_true]
      · simp only [hl, if_false, ih]
        split <;> simp_all
    · simp only [hc, if_false, ih]
      split <;> simp_all

theorem headLoop_line (n line : Int) (x : Bytes) (hl : line < n) :
    (headLoop n line x).2.2 = false → (headLoop n line x).1 < n := by
  induction x generalizing line with
  | nil => intro _; exact hl
  | cons c x ih =>
    unfold headLoop
    by_cases hc : c = nl
    · simp only [hc, if_true]
      by_cases hl : line + 1 ≥ n
      · simp [hl]
      · simp only [hl, if_false]
        exact ih _ (by omega)
    · simp only [hc, if_false]
      exact ih _ hl

/-- What `head` writes from a line on. -/
def headRest (n line : Int) (x : Bytes) : Bytes := if line ≥ n then [] else (headLoop n line x).2.1

theorem head_process_of_le (n s : Int) (c : Bytes) (e : Bool) (h : s ≥ n) :
    (headProcessor n).process s c e = (s, single [] true) := by
  exact if_pos h

theorem head_process_of_lt (n s : Int) (c : Bytes) (e : Bool) (h : ¬ s ≥ n) :
    (headProcessor n).process s c e =
      ((headLoop n s c).1, single (headLoop n s c).2.1 ((headLoop n s c).2.2 || e)) := by
  exact if_neg h

theorem head_follows (n : Int) : Follows (headProcessor n) (headRest n) := by
  constructor
  · intro (s : Int) c rest e
    by_cases hs : s ≥ n
    · rw [head_process_of_le _ _ _ _ hs] at e
      simp [single] at e
    · rw [head_process_of_lt _ _ _ _ hs] at e ⊢
      simp only [Bool.or_false, flatten_single, isEnd_single] at e ⊢
      have h1 := headLoop_line n s c (by omega) e
      have h2 : ¬ (headLoop n s c).1 ≥ n := by omega
      unfold headRest
      rw [headLoop_append, e]
      simp [h2, hs]
  · intro (s : Int) c rest e
    by_cases hs : s ≥ n
    · rw [head_process_of_le _ _ _ _ hs]
      simp [single, headRest, hs]
    · rw [head_process_of_lt _ _ _ _ hs] at e ⊢
      simp only [Bool.or_false, flatten_single, isEnd_single] at e ⊢
      unfold headRest
      rw [headLoop_append, e]
      simp [hs]
  · intro (s : Int)
    by_cases hs : s ≥ n
    · rw [head_process_of_le _ _ _ _ hs]
      simp [single, headRest, hs]
    · rw [head_process_of_lt _ _ _ _ hs]
      simp [single, headRest, hs, headLoop]
  · intro (s : Int)
    by_cases hs : s ≥ n
    · rw [head_process_of_le _ _ _ _ hs]
      rfl
    · rw [head_process_of_lt _ _ _ _ hs]
      simp [single]

theorem implode_opened (s : Implode) (x : Bytes) :
    (feed implodeStep s x).1.opened = s.opened := by
  induction x generalizing s with
  | nil => rfl
  | cons c x ih =>
    simp only [feed, ih]
    unfold implodeStep
    by_cases h : c = nl
    · simp [h]
    · cases hc : s.comma <;> simp [h]

def implodeRest (s : Implode) (x : Bytes) : Bytes :=
  (if s.opened then [] else [ch '[']) ++ (feed implodeStep { s with opened := true } x).2 ++ [ch ']', nl]

theorem implode_follows : Follows implodeProcessor implodeRest := by
  have key : ∀ (s : Implode) (x : Bytes),
      (feed implodeStep { s with opened := true } x).1.opened = true := fun s x => implode_opened _ x
  constructor
  · intro s c rest _
    have e : ({ (feed implodeStep { s with opened := true } c).1 with opened := true } : Implode)
        = (feed implodeStep { s with opened := true } c).1 := by
      have := key s c
      cases h : (feed implodeStep { s with opened := true } c).1
      rw [h] at this
      simp_all
    simp only [implodeProcessor, implodeRest, flatten_single, Bool.false_eq_true, if_false,
      List.append_nil, key, if_true, e]
    rw [feed_append]
    simp
    exact key s c
  · intro s c rest e
    simp [implodeProcessor, single] at e
  · intro s
    simp [implodeProcessor, implodeRest, flatten_single, feed]
  · intro s
    rfl

def quoteRest (opened : Bool) (x : Bytes) : Bytes :=
  (if opened then [] else [ch '"']) ++ x.flatMap quoteByte ++ [ch '"']

theorem quote_follows : Follows quoteProcessor quoteRest := by
  constructor
  · intro s c rest _
    cases s <;> simp [quoteProcessor, quoteRest, flatten_single, List.flatMap_append]
  · intro s c rest e
    simp [quoteProcessor, single] at e
  · intro s
    simp [quoteProcessor, quoteRest, flatten_single]
  · intro s
    rfl

/-! ### Chunks of one value -/

theorem chunkLoop_append (b x y : Bytes) :
    chunkLoop b (x ++ y) = ((chunkLoop (chunkLoop b x).1 y).1,
      (chunkLoop b x).2 ++ (chunkLoop (chunkLoop b x).1 y).2) := by
  induction x generalizing b with
  | nil => simp [chunkLoop]
  | cons c x ih =>
    simp only [List.cons_append, chunkLoop]
    by_cases h : c = nl
    · simp [h, ih]
    · simp [h, ih]

theorem drive_chunkValues (s : Compact) (b : Bytes) (chunks : List Bytes) :
    (drive chunkValuesProcessor (s, b) (chunks.map .text) true).1 =
      (chunkLoop b ((feed compactStep s chunks.flatten).2 ++
        compactFinish (feed compactStep s chunks.flatten).1)).2 := by
  induction chunks generalizing s b with
  | nil =>
    simp only [List.map_nil, drive, if_true, chunkValuesProcessor, compactProcessor, loop,
      flatten_single, List.flatten_nil]
  | cons c chunks ih =>
    simp only [List.map_cons, drive, List.flatten_cons]
    have e : chunkValuesProcessor.process (s, b) c false =
        (((feed compactStep s c).1, (chunkLoop b (feed compactStep s c).2).1),
          { chunks := (chunkLoop b (feed compactStep s c).2).2, isEnd := false }) := by
      simp only [chunkValuesProcessor, compactProcessor, loop, flatten_single, isEnd_single,
        Bool.false_eq_true, if_false, List.append_nil]
    rw [e]
    simp only [Bool.false_eq_true, if_false]
    refine (congrArg (fun z => (chunkLoop b (feed compactStep s c).2).2 ++ z) (ih _ _)).trans ?_
    rw [feed_append, List.append_assoc, chunkLoop_append b]

end Verif.JsonStream
