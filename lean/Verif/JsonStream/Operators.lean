/-
The operators: what they write does not depend on how the input is cut.
-/
import Verif.JsonStream.Prettify
import Verif.JsonStream.Drive

namespace Verif.JsonStream

/-- The operators of `kd.json_stream` that are modelled. -/
inductive IsOperator : Processor → Prop
  | prettify (indent) : IsOperator (prettifyOp indent)
  | head (n) : IsOperator (headOp n)
  | selectObjects : IsOperator selectObjectsOp
  | selectArrays : IsOperator selectArraysOp
  | selectNonnull : IsOperator selectNonnullOp
  | getKeyValues (key) : IsOperator (getKeyValuesOp key)
  | getKeyValue (key) : IsOperator (getKeyValueOp key)
  | implode : IsOperator implodeOp
  | explode : IsOperator explodeOp
  | nth (n) : IsOperator (nthOp n)
  | unquote : IsOperator unquoteOp
  | quote : IsOperator quoteOp
  | chunkValues : IsOperator chunkValuesOp

theorem compact_stage : FollowsStage compactProcessor.stage compactRest := stage_follows compact_follows

/-- An operator that compacts its input first. -/
theorem after_compact {b : Processor} {R : b.St → Bytes → Bytes} (h : Follows b R) :
    Follows (compactProcessor.stage.comp b.stage).processor (fun s x => R s.2 (compactRest s.1 x)) :=
  processor_follows (comp_follows compact_stage (stage_follows h))

theorem objects_follows :
    Follows objectsProcessor (fun (s : SelectSt) x => (feed (selectStep (ch '{') (ch '}')) s x).2) := by
  have := loop_follows (σ := SelectSt) .start (selectStep (ch '{') (ch '}')) (fun _ => [])
  simp only [List.append_nil] at this
  exact this

theorem arrays_follows :
    Follows arraysProcessor (fun (s : SelectSt) x => (feed (selectStep (ch '[') (ch ']')) s x).2) := by
  have := loop_follows (σ := SelectSt) .start (selectStep (ch '[') (ch ']')) (fun _ => [])
  simp only [List.append_nil] at this
  exact this

theorem nonnull_follows :
    Follows nonnullProcessor (fun (s : SelectSt) x => (feed nonnullStep s x).2) := by
  have := loop_follows (σ := SelectSt) .start nonnullStep (fun _ => [])
  simp only [List.append_nil] at this
  exact this

theorem chunkValues_process (s : Compact) (b c : Bytes) (e : Bool) :
    chunkValuesProcessor.process (s, b) c e =
      (((feed compactStep s c).1,
        (chunkLoop b ((feed compactStep s c).2 ++ if e then compactFinish (feed compactStep s c).1 else [])).1),
        { chunks := (chunkLoop b ((feed compactStep s c).2 ++
            if e then compactFinish (feed compactStep s c).1 else [])).2, isEnd := e }) := by
  simp only [chunkValuesProcessor, compactProcessor, loop, flatten_single, isEnd_single]

theorem chunkValues_follows :
    Follows chunkValuesProcessor (fun (s : Compact × Bytes) x => (chunkLoop s.2 (compactRest s.1 x)).2.flatten) := by
  constructor
  · intro (s : Compact × Bytes) c rest _
    obtain ⟨s, b⟩ := s
    refine Eq.trans ?_ (congrArg (fun z : (Compact × Bytes) × Result =>
      z.2.chunks.flatten ++ (chunkLoop z.1.2 (compactRest z.1.1 rest)).2.flatten)
      (chunkValues_process s b c false)).symm
    simp only [compactRest, feed_append, List.append_nil, List.append_assoc, Bool.false_eq_true, if_false]
    rw [chunkLoop_append]
    simp
  · intro (s : Compact × Bytes) c rest e
    obtain ⟨s, b⟩ := s
    have := (congrArg (fun z : (Compact × Bytes) × Result => z.2.isEnd)
      (chunkValues_process s b c false)).symm.trans e
    simp at this
  · intro (s : Compact × Bytes)
    obtain ⟨s, b⟩ := s
    refine (congrArg (fun z : (Compact × Bytes) × Result => z.2.chunks.flatten)
      (chunkValues_process s b [] true)).trans ?_
    simp [compactRest]
  · intro (s : Compact × Bytes)
    obtain ⟨s, b⟩ := s
    exact congrArg (fun z : (Compact × Bytes) × Result => z.2.isEnd) (chunkValues_process s b [] true)

theorem operator_follows {p : Processor} (h : IsOperator p) : ∃ R, Follows p R := by
  cases h with
  | prettify indent => exact ⟨_, prettify_follows indent⟩
  | head n => exact ⟨_, after_compact (head_follows n)⟩
  | selectObjects => exact ⟨_, after_compact objects_follows⟩
  | selectArrays => exact ⟨_, after_compact arrays_follows⟩
  | selectNonnull => exact ⟨_, after_compact nonnull_follows⟩
  | getKeyValues key => exact ⟨_, after_compact extract_follows⟩
  | getKeyValue key =>
    exact ⟨_, processor_follows (comp_follows (comp_follows compact_stage (stage_follows extract_follows))
      (stage_follows (nth_follows 0)))⟩
  | implode => exact ⟨_, after_compact implode_follows⟩
  | explode => exact ⟨_, explode_follows⟩
  | nth n => exact ⟨_, nth_follows n⟩
  | unquote => exact ⟨_, unquote_follows⟩
  | quote => exact ⟨_, quote_follows⟩
  | chunkValues => exact ⟨_, chunkValues_follows⟩

/-! ### Only `head` ends early -/

def NoEnd (p : Processor) : Prop := ∀ s c, (p.process s c false).2.isEnd = false

def NoEndStage (a : Stage) : Prop := ∀ s c, (a.run s c false).2.2 = false

theorem stage_noEnd {p : Processor} (h : NoEnd p) : NoEndStage p.stage := by
  have : ∀ (cs : List Bytes) s, (stageLoop p s cs).2.2 = false := by
    intro cs
    induction cs with
    | nil => intro s; rfl
    | cons c cs ih =>
      intro s
      simp [stageLoop, h s c, ih]
  intro s c
  simpa [Processor.stage] using this c s

theorem comp_noEnd {a b : Stage} (ha : NoEndStage a) (hb : NoEndStage b) : NoEndStage (a.comp b) := by
  intro s c
  simp only [Stage.comp]
  rw [ha, hb]

theorem processor_noEnd {a : Stage} (h : NoEndStage a) : NoEnd a.processor := fun s c => h s [c]

theorem loop_noEnd {σ : Type} (init : σ) (step : σ → Nat → σ × Bytes) (finish : σ → Bytes) :
    NoEnd (loop init step finish) := fun _ _ => rfl

theorem operator_noEnd {p : Processor} (h : IsOperator p) (hn : ∀ n, p ≠ headOp n) : NoEnd p := by
  have hc : NoEndStage compactProcessor.stage := stage_noEnd (loop_noEnd _ _ _)
  cases h with
  | prettify indent => exact loop_noEnd _ _ _
  | head n => exact absurd rfl (hn n)
  | selectObjects => exact processor_noEnd (comp_noEnd hc (stage_noEnd (loop_noEnd _ _ _)))
  | selectArrays => exact processor_noEnd (comp_noEnd hc (stage_noEnd (loop_noEnd _ _ _)))
  | selectNonnull => exact processor_noEnd (comp_noEnd hc (stage_noEnd (loop_noEnd _ _ _)))
  | getKeyValues key => exact processor_noEnd (comp_noEnd hc (stage_noEnd (loop_noEnd _ _ _)))
  | getKeyValue key =>
    exact processor_noEnd (comp_noEnd (comp_noEnd hc (stage_noEnd (loop_noEnd _ _ _)))
      (stage_noEnd (loop_noEnd _ _ _)))
  | implode => exact processor_noEnd (comp_noEnd hc (stage_noEnd (fun _ _ => rfl)))
  | explode => exact loop_noEnd _ _ _
  | nth n => exact loop_noEnd _ _ _
  | unquote => exact loop_noEnd _ _ _
  | quote => exact fun _ _ => rfl
  | chunkValues => exact fun _ _ => rfl

theorem drive_noEnd {p : Processor} (h : NoEnd p) {items : List StreamItem} {t : Bytes}
    (hi : Delivers items t) : ∀ s, (drive p s items false).2 = .error := by
  induction hi with
  | nil => exact fun _ => rfl
  | text _ ih =>
    intro s
    simp only [drive]
    rw [h]
    simp [ih]
  | missing _ ih => exact ih

/-! ### No empty chunks -/

def NoEmpty (p : Processor) : Prop := ∀ s c e, [] ∉ (p.process s c e).2.chunks

def NoEmptyStage (a : Stage) : Prop := ∀ s c e, [] ∉ (a.run s c e).2.1

theorem single_noEmpty (out : Bytes) (e : Bool) : [] ∉ (single out e).chunks := by
  unfold single
  cases out <;> simp

theorem stage_noEmpty {p : Processor} (h : NoEmpty p) : NoEmptyStage p.stage := by
  have : ∀ (cs : List Bytes) s, [] ∉ (stageLoop p s cs).2.1 := by
    intro cs
    induction cs with
    | nil => intro s; simp [stageLoop]
    | cons c cs ih =>
      intro s
      unfold stageLoop
      by_cases e : (p.process s c false).2.isEnd = true
      · simp only [e, if_true]
        exact h _ _ _
      · simp only [e]
        simp only [Bool.false_eq_true, if_false, List.mem_append, not_or]
        exact ⟨h _ _ _, ih _⟩
  intro s c e
  simp only [Processor.stage]
  split
  · simp only [List.mem_append, not_or]
    exact ⟨this _ _, h _ _ _⟩
  · exact this _ _

theorem comp_noEmpty {a b : Stage} (hb : NoEmptyStage b) : NoEmptyStage (a.comp b) :=
  fun _ _ _ => hb _ _ _

theorem processor_noEmpty {a : Stage} (h : NoEmptyStage a) : NoEmpty a.processor := fun s c e => h s [c] e

theorem loop_noEmpty {σ : Type} (init : σ) (step : σ → Nat → σ × Bytes) (finish : σ → Bytes) :
    NoEmpty (loop init step finish) := fun _ _ _ => single_noEmpty _ _

theorem chunkLoop_noEmpty (x : Bytes) : ∀ b, [] ∉ (chunkLoop b x).2 := by
  induction x with
  | nil => simp [chunkLoop]
  | cons c x ih =>
    intro b
    unfold chunkLoop
    split
    · simpa using ih []
    · exact ih _

theorem head_noEmpty (n : Int) : NoEmpty (headProcessor n) := by
  intro (s : Int) c e
  by_cases hs : s ≥ n
  · rw [head_process_of_le _ _ _ _ hs]
    exact single_noEmpty _ _
  · rw [head_process_of_lt _ _ _ _ hs]
    exact single_noEmpty _ _

theorem operator_noEmpty {p : Processor} (h : IsOperator p) : NoEmpty p := by
  cases h with
  | prettify indent => exact loop_noEmpty _ _ _
  | head n => exact processor_noEmpty (comp_noEmpty (stage_noEmpty (head_noEmpty n)))
  | selectObjects => exact processor_noEmpty (comp_noEmpty (stage_noEmpty (loop_noEmpty _ _ _)))
  | selectArrays => exact processor_noEmpty (comp_noEmpty (stage_noEmpty (loop_noEmpty _ _ _)))
  | selectNonnull => exact processor_noEmpty (comp_noEmpty (stage_noEmpty (loop_noEmpty _ _ _)))
  | getKeyValues key => exact processor_noEmpty (comp_noEmpty (stage_noEmpty (loop_noEmpty _ _ _)))
  | getKeyValue key => exact processor_noEmpty (comp_noEmpty (stage_noEmpty (loop_noEmpty _ _ _)))
  | implode => exact processor_noEmpty (comp_noEmpty (stage_noEmpty (fun _ _ _ => single_noEmpty _ _)))
  | explode => exact loop_noEmpty _ _ _
  | nth n => exact loop_noEmpty _ _ _
  | unquote => exact loop_noEmpty _ _ _
  | quote => exact fun _ _ _ => single_noEmpty _ _
  | chunkValues => exact fun _ _ _ => chunkLoop_noEmpty _ _

theorem drive_noEmpty {p : Processor} (h : NoEmpty p) (items : List StreamItem) (ok : Bool) :
    ∀ s, [] ∉ (drive p s items ok).1 := by
  induction items with
  | nil =>
    intro s
    cases ok
    · simp [drive]
    · simpa [drive] using h s [] true
  | cons i items ih =>
    intro s
    cases i with
    | other => simp [drive]
    | missing => exact ih s
    | text c =>
      unfold drive
      by_cases e : (p.process s c false).2.isEnd = true
      · simp only [e, if_true]
        exact h _ _ _
      · simp only [e]
        simp only [Bool.false_eq_true, if_false, List.mem_append, not_or]
        exact ⟨h _ _ _, ih _⟩

/-! ### Documents -/

theorem doc_lines {l : List Json} (h : ∀ v ∈ l, Valid v) : Doc l (lines l) := by
  induction l with
  | nil => exact .nil (by simp [Spaces, lines])
  | cons v l ih =>
    have hv : Text Spaces (.value v) (compact v) := text_spaces (h v List.mem_cons_self)
    have := Doc.cons (w := []) (c := nl) (by simp [Spaces]) hv (by simp [Space, nl])
      (ih fun w hw => h w (List.mem_cons_of_mem _ hw))
    simpa [lines] using this

theorem doc_space {l : List Json} {t : Bytes} (h : Doc l t) {c : Nat} (hc : Space c) :
    feed compactStep (cst 0 false) (t ++ [c]) = (cst 0 false, lines l) := by
  have h0 := compact_space hc 0 false (.inr rfl)
  have hstep : ∀ {c}, Space c → compactStep (cst 0 true) c = (cst 0 false, [nl]) := by
    intro c hc
    simp [compactStep, cst, hc.isSpace, Compact.newline]
  induction h with
  | nil hw => exact feed_seq (compact_spaces hw 0 false (.inr rfl)) (feed_one h0)
  | last hw hv =>
    rw [List.append_assoc]
    rcases compact_top hv with h | h
    · have := feed_seq (compact_spaces hw 0 false (.inr rfl)) (feed_seq h (feed_one h0))
      simpa [lines] using this
    · have := feed_seq (compact_spaces hw 0 false (.inr rfl)) (feed_seq h (feed_one (hstep hc)))
      simpa [lines] using this
  | @cons w v t d l r hw hv hd hr ih =>
    rcases compact_top hv with h | h
    · have := feed_seq (compact_spaces hw 0 false (.inr rfl))
        (feed_seq h (feed_cons (compact_space hd 0 false (.inr rfl)) ih))
      simpa [lines] using this
    · have := feed_seq (compact_spaces hw 0 false (.inr rfl)) (feed_seq h (feed_cons (hstep hd) ih))
      simpa [lines] using this

theorem lineCount_lines {l : List Json} (h : ∀ v ∈ l, Valid v) : lineCount (lines l) = l.length := by
  induction l with
  | nil => rfl
  | cons v l ih =>
    have hn := (h v List.mem_cons_self).nl
    have h0 : lineCount (compact v) = 0 := by
      unfold lineCount
      rw [List.length_eq_zero_iff, List.filter_eq_nil_iff]
      intro a ha e
      have : a = nl := by simpa using e
      exact hn (this ▸ ha)
    have e : lines (v :: l) = compact v ++ ([nl] ++ lines l) := by simp [lines]
    rw [e, lineCount_append, lineCount_append, h0, ih fun w hw => h w (List.mem_cons_of_mem _ hw)]
    simp [lineCount]
    omega

/-! ### Valid values -/

theorem valid_elems {n : Node} {t : Bytes} (h : Text Empty n t) :
    ∀ l, n = .elems l → ∀ v ∈ l, Valid v := by
  induction h with
  | elem _ hv _ _ =>
    rintro l h v hm
    cases h
    simp only [List.mem_singleton] at hm
    exact hm ▸ valid_of_text hv
  | elems _ hv _ _ _ ih' =>
    rintro l h v hm
    cases h
    rcases List.mem_cons.1 hm with rfl | hm
    · exact valid_of_text hv
    · exact ih' _ rfl v hm
  | _ => intros; simp_all

theorem valid_members {n : Node} {t : Bytes} (h : Text Empty n t) :
    ∀ l, n = .members l → ∀ m ∈ l, Valid m.2 := by
  induction h with
  | member _ _ _ _ hv _ _ =>
    rintro l h m hm
    cases h
    simp only [List.mem_singleton] at hm
    exact hm ▸ valid_of_text hv
  | members _ _ _ _ hv _ _ _ ih' =>
    rintro l h m hm
    cases h
    rcases List.mem_cons.1 hm with rfl | hm
    · exact valid_of_text hv
    · exact ih' _ rfl m hm
  | _ => intros; simp_all

theorem Valid.members {v : Json} (h : Valid v) : ∀ m ∈ objectMembers v, Valid m.2 := by
  unfold Valid at h
  generalize compact v = t at h
  cases h with
  | obj h => exact valid_members h _ rfl
  | _ => simp [objectMembers]

theorem text_elems {l : List Json} (h : ∀ v ∈ l, Valid v) (hl : l ≠ []) :
    Text Empty (.elems l) (compactElems l) := by
  induction l with
  | nil => exact absurd rfl hl
  | cons v l ih =>
    have hv := h v List.mem_cons_self
    cases l with
    | nil =>
      have := Text.elem (W := Empty) (w := []) (w' := []) rfl hv rfl
      simpa [compactElems] using this
    | cons u l =>
      have := Text.elems (W := Empty) (w := []) (w' := []) rfl hv rfl
        (ih (fun w hw => h w (List.mem_cons_of_mem _ hw)) (by simp))
      rw [compactElems_cons v (by simp)]
      simpa using this

theorem valid_arr {l : List Json} (h : ∀ v ∈ l, Valid v) : Valid (.arr l) := by
  unfold Valid
  by_cases hl : l = []
  · subst hl
    have := Text.arrNil (W := Empty) (w := []) rfl
    simpa [compact, compactElems] using this
  · have := Text.arr (text_elems h hl)
    simpa [compact] using this

theorem keyValues_mem {key : Bytes} {l : List (Bytes × Json)} {vs : List Json} (h : KeyValues key l vs) :
    ∀ v ∈ vs, ∃ m ∈ l, m.2 = v := by
  induction h with
  | nil => simp
  | hit _ _ ih =>
    intro v hv
    rcases List.mem_cons.1 hv with rfl | hv
    · exact ⟨_, List.mem_cons_self, rfl⟩
    · obtain ⟨m, hm, e⟩ := ih v hv
      exact ⟨m, List.mem_cons_of_mem _ hm, e⟩
  | miss _ _ _ ih =>
    intro v hv
    obtain ⟨m, hm, e⟩ := ih v hv
    exact ⟨m, List.mem_cons_of_mem _ hm, e⟩

theorem keyValues_valid {key : Bytes} {l : List Json} {r : List (List Json)} (h : AllKeyValues key l r)
    (hl : ∀ v ∈ l, Valid v) : ∀ vs ∈ r, Valid (.arr vs) := by
  induction h with
  | nil => simp
  | cons hk _ ih =>
    intro vs hm
    rcases List.mem_cons.1 hm with rfl | hm
    · refine valid_arr fun v hv => ?_
      obtain ⟨m, hm, rfl⟩ := keyValues_mem hk v hv
      exact (hl _ List.mem_cons_self).members m hm
    · exact ih (fun v hv => hl v (List.mem_cons_of_mem _ hv)) vs hm

theorem nthOk_arrays (k : Nat) (r : List (List Json)) : NthOk k (r.map .arr) := by
  induction r with
  | nil => trivial
  | cons vs r ih => exact ⟨by simp [isContainer], ih⟩

/-! ### Pretty texts are texts of the same values -/

def prettyOf (indent : Bytes) (d : Nat) : Node → Bytes → Prop
  | .value v, _ => Text Spaces (.value v) (pretty indent d v)
  | .elems l, _ => ∀ w, Spaces w → Text Spaces (.elems l) (prettyElems indent d l ++ w)
  | .members l, _ => ∀ w, Spaces w → Text Spaces (.members l) (prettyMembers indent d l ++ w)

theorem spaces_newLine {indent : Bytes} (h : Spaces indent) (d : Nat) : Spaces (newLine indent d) := by
  intro c hc
  simp only [newLine, List.mem_cons, List.mem_flatten, List.mem_replicate] at hc
  rcases hc with rfl | ⟨_, ⟨_, rfl⟩, hc⟩
  · simp [Space, nl]
  · exact h c hc

theorem spaces_nil : Spaces [] := by simp [Spaces]

theorem pretty_text {indent : Bytes} (hi : Spaces indent) {n : Node} {t : Bytes} (h : Text Empty n t) :
    ∀ d, prettyOf indent d n t := by
  have hs : Spaces [32] := by simp [Spaces, Space]
  induction h with
  | null => exact fun d => by simpa [prettyOf, pretty] using Text.null
  | bool b => exact fun d => by simpa [prettyOf, pretty] using Text.bool b
  | num h => exact fun d => by simpa [prettyOf, pretty] using Text.num h
  | str h => exact fun d => by simpa [prettyOf, pretty] using Text.str h
  | arrNil _ => exact fun d => by simpa [prettyOf, pretty] using Text.arrNil (W := Spaces) spaces_nil
  | @arr l t ht ih =>
    intro d
    have := Text.arr (ih (d + 1) (newLine indent d) (spaces_newLine hi d))
    have hl := elems_ne_nil ht l rfl
    cases l with
    | nil => exact absurd rfl hl
    | cons v l => simpa [prettyOf, pretty] using this
  | objNil _ => exact fun d => by simpa [prettyOf, pretty] using Text.objNil (W := Spaces) spaces_nil
  | @obj l t ht ih =>
    intro d
    have := Text.obj (ih (d + 1) (newLine indent d) (spaces_newLine hi d))
    have hl := members_ne_nil ht l rfl
    cases l with
    | nil => exact absurd rfl hl
    | cons v l => simpa [prettyOf, pretty] using this
  | elem _ _ _ ih =>
    intro d w hw
    have := Text.elem (spaces_newLine hi d) (ih d) hw
    simpa [prettyElems] using this
  | elems _ _ _ hr ih ih' =>
    intro d w hw
    have := Text.elems (spaces_newLine hi d) (ih d) spaces_nil (ih' d w hw)
    rw [prettyElems_cons _ _ _ (elems_ne_nil hr _ rfl)]
    simpa using this
  | member _ hk _ _ _ _ ih =>
    intro d w hw
    have := Text.member (spaces_newLine hi d) hk spaces_nil hs (ih d) hw
    simpa [prettyMembers] using this
  | members _ hk _ _ _ _ hr ih ih' =>
    intro d w hw
    have := Text.members (spaces_newLine hi d) hk spaces_nil hs (ih d) spaces_nil (ih' d w hw)
    rw [prettyMembers_cons _ _ _ _ (members_ne_nil hr _ rfl)]
    simpa using this

theorem doc_cons_lines {indent : Bytes} (hi : Spaces indent) {l : List Json} (h : ∀ v ∈ l, Valid v) :
    ∀ {v : Json} {t : Bytes}, Text Spaces (.value v) t →
      Doc (v :: l) (t ++ l.flatMap fun w => nl :: pretty indent 0 w) := by
  induction l with
  | nil =>
    intro v t ht
    have := Doc.last spaces_nil ht
    simpa using this
  | cons u l ih =>
    intro v t ht
    have := Doc.cons spaces_nil ht (c := nl) (by simp [Space, nl])
      (ih (fun w hw => h w (List.mem_cons_of_mem _ hw)) (pretty_text hi (h u List.mem_cons_self) 0))
    simpa using this

theorem doc_pretty {indent : Bytes} (hi : Spaces indent) {l : List Json} (h : ∀ v ∈ l, Valid v) :
    Doc l (prettyDoc indent l) := by
  cases l with
  | nil => exact .nil spaces_nil
  | cons v l =>
    exact doc_cons_lines hi (fun w hw => h w (List.mem_cons_of_mem _ hw))
      (pretty_text hi (h v List.mem_cons_self) 0)

end Verif.JsonStream
