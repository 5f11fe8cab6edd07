import Verif.SliceManager.Progress2

/-
Following a branch and the creation of a new directory.
-/

namespace Verif.SliceManager

set_option linter.unusedSectionVars false

variable {I Sch Snn B SB U : Type} [DecidableEq Snn] {api : Api I Sch Snn B SB U}
  {w w' : World I Sch Snn B SB U} {R R' : Path → List (Rev U)} {q : Nat}

/-! ### Branching -/

/-- What `branch` does after each of its steps but the last. -/
def nextBranch : BranchPc → BranchPc
  | .initial => .map
  | .map => .bag .data
  | .bag k => afterBranchBag k
  | .check => .rename
  | .rename => .rename

theorem upTo_self {β : Kind → Type} (f : (k : Kind) → β k) :
    upTo f 0 .data = none ∧ upTo f 1 .schema = none ∧ upTo f 2 .snn = none := ⟨rfl, rfl, rfl⟩

/-- Once its directory is chosen and was not used, `branch` goes on to its end. -/
theorem branch_next (hi : Inv api w R) {src : Mgr I Sch Snn B SB U} {i : Nat} {d : Path}
    {pc : BranchPc} (hjob : (w.slots q).job = .branch src i d pc)
    (hini : pc = .initial → (w.dirs d).initial = none) :
    (pc ≠ .rename →
      (stepJob api w q).slots q = { w.slots q with job := .branch src i d (nextBranch pc) } ∧
      (stepJob api w q).log = w.log) ∧
    (pc = .rename → ∃ b, b.dir = d ∧ b.readOnly = false ∧ b.meta_ = branchMeta src i ∧
      (stepJob api w q).slots q = { w.slots q with mgr := some b, job := .idle } ∧
      (stepJob api w q).log = w.log ++ [.branched d src.dir i, .done q]) := by
  have hjobs := hi.jobs q
  unfold JobOk at hjobs
  rw [hjob] at hjobs
  simp only at hjobs
  obtain ⟨hsrc, hlt⟩ := hjobs
  have hsub : ∀ k n, n ∈ namesOf (src.meta_.revs.take (i + 1)) k → n ∈ namesIn (src.bags k).bags :=
    fun k n hn => (hsrc.sees k).2 n (namesOf_take hn)
  have hbr : ∀ k, (src.bags k).branch (namesOf (src.meta_.revs.take (i + 1)) k) =
      some (branchBags src i k) := fun k => branch_some (hsub k)
  cases pc with
  | initial =>
    refine ⟨fun _ => ?_, fun h => by simp at h⟩
    simp only [stepJob, hjob, stepBranch, hini rfl, Option.isSome_none, Bool.false_eq_true, if_false]
    exact ⟨by rw [goto_same]; rfl, rfl⟩
  | map =>
    refine ⟨fun _ => ?_, fun h => by simp at h⟩
    simp only [stepJob, hjob, stepBranch]
    exact ⟨by rw [goto_same]; rfl, rfl⟩
  | bag k =>
    refine ⟨fun _ => ?_, fun h => by simp at h⟩
    have hnone : (w.dirs d).bags k = none := by
      cases k with
      | data =>
        have hb : building api (w.slots q).job =
            some ⟨d, src.initial, some src.map, upTo (branchBags src i) 0⟩ := by rw [hjob]; rfl
        exact (hi.build q _ hb).2.2.2 .data
      | schema =>
        have hb : building api (w.slots q).job =
            some ⟨d, src.initial, some src.map, upTo (branchBags src i) 1⟩ := by rw [hjob]; rfl
        exact (hi.build q _ hb).2.2.2 .schema
      | snn =>
        have hb : building api (w.slots q).job =
            some ⟨d, src.initial, some src.map, upTo (branchBags src i) 2⟩ := by rw [hjob]; rfl
        exact (hi.build q _ hb).2.2.2 .snn
    simp only [stepJob, hjob, stepBranch, hbr, hnone, Option.isSome_none, Bool.false_eq_true,
      if_false]
    exact ⟨by rw [goto_same]; rfl, rfl⟩
  | check =>
    refine ⟨fun _ => ?_, fun h => by simp at h⟩
    have hb : building api (w.slots q).job =
        some ⟨d, src.initial, some src.map, upTo (branchBags src i) 3⟩ := by rw [hjob]; rfl
    have hR := (hi.build q _ hb).1
    simp only [stepJob, hjob, stepBranch, metaAt_zero hi hR, Option.isSome_none,
      Bool.false_eq_true, if_false]
    exact ⟨by rw [goto_same]; rfl, rfl⟩
  | rename =>
    refine ⟨fun h => absurd rfl h, fun _ => ?_⟩
    have hb : building api (w.slots q).job =
        some ⟨d, src.initial, some src.map, upTo (branchBags src i) 3⟩ := by rw [hjob]; rfl
    have hR := (hi.build q _ hb).1
    obtain ⟨s, hs⟩ := schemaFrom_sees (api := api) (i := src.initial)
      (m := branchBags src i .schema) (ns := namesOf (src.meta_.revs.take (i + 1)) .schema)
      (fun n hn => namesIn_pick.2 ⟨hsub .schema n hn, hn⟩)
    have hcm : (w.dirs d).commit (branchMeta src i) =
        some { w.dirs d with metas := [(0, branchMeta src i)] } := by
      unfold Dir.commit
      rw [metaAt_zero hi hR, hi.metas_nil hR]
      rfl
    simp only [stepJob, hjob, stepBranch, hbr, hs, hcm]
    refine ⟨⟨d, false, src.initial, src.map, allBags (branchBags src i .data)
      (branchBags src i .schema) (branchBags src i .snn), s, branchMeta src i⟩, rfl, rfl, rfl, ?_, ?_⟩
    · rw [return_slot]; rfl
    · rw [return_log]; simp [World.emit, World.setDir]

/-- A branch in progress, failed or finished. -/
def BranchSt (api : Api I Sch Snn B SB U) (q : Nat) (m : Mgr I Sch Snn B SB U) (j : Nat)
    (out : Option Nat) (r : Revision I Sch Snn B U) (log0 : List (Event I U))
    (w : World I Sch Snn B SB U) : Prop :=
  (∃ es, w.log = log0 ++ es) ∧ (hist api w.log m.dir)[j]? = some r ∧
  (((w.slots q).mgr = none ∧
    (((w.slots q).job = .draw m j ∧ out = none) ∨ (∃ s, (w.slots q).job = .claim m j s ∧ out = none) ∨
      (∃ d pc, Target out m.dir d ∧ (w.slots q).job = .branch m j d pc) ∨
      ((w.slots q).job = .idle ∧ out ≠ none))) ∨
  ((w.slots q).job = .idle ∧ ∃ b, (w.slots q).mgr = some b ∧ Target out m.dir b.dir ∧
    b.readOnly = false ∧ b.meta_ = branchMeta m j ∧ hist api log0 b.dir = [] ∧
    (hist api w.log b.dir)[0]? = some ⟨.branch m.dir j, r.view⟩))

theorem branch_step (m : Mgr I Sch Snn B SB U) (j : Nat) (out : Option Nat)
    (r : Revision I Sch Snn B U) (log0 : List (Event I U)) (w : World I Sch Snn B SB U)
    (R : Path → List (Rev U)) (_n : Nat)
    (hi : Inv api w R) (hp : BranchSt api q m j out r log0 w) :
    BranchSt api q m j out r log0 (stepJob api w q) ∧
      ∃ es, (stepJob api w q).log = w.log ++ es ∧ ∀ e ∈ es, ¬ (out = none ∧ e = .raised q) := by
  obtain ⟨⟨es0, hl0⟩, hr, hc⟩ := hp
  have hgrow : ∃ es, (stepJob api w q).log = log0 ++ es := by
    obtain ⟨es, h, _⟩ := (touch_stepJob (api := api) (w := w) (q := q)).2
    exact ⟨es0 ++ es, by rw [h, hl0, List.append_assoc]⟩
  revert hgrow
  rcases hc with ⟨hmn, ⟨hj, hout⟩ | ⟨s, hj, hout⟩ | ⟨d, pc, ht, hj⟩ | ⟨hj, hout⟩⟩ | ⟨hj, hb⟩
  · simp only [stepJob, hj]
    split
    · refine fun hgrow => ⟨⟨hgrow, hr, .inl ⟨by rw [setSlot_same]; exact hmn, .inl ⟨by rw [setSlot_same]; exact hj, hout⟩⟩⟩, [], by simp [World.setSlot], by simp⟩
    · refine fun hgrow => ⟨⟨hgrow, hr, .inl ⟨?_, .inr (.inl ⟨_, by rw [goto_same], hout⟩)⟩⟩, [], by simp [World.setSlot, World.goto], by simp⟩
      rw [goto_same, setSlot_same]
      exact hmn
  · simp only [stepJob, hj]
    split
    · exact fun hgrow => ⟨⟨hgrow, hr, .inl ⟨by rw [goto_same]; exact hmn, .inl ⟨by rw [goto_same], hout⟩⟩⟩, [], by simp [World.setSlot, World.goto], by simp⟩
    · refine fun hgrow => ⟨⟨hgrow, hr, .inl ⟨by rw [goto_same]; exact hmn, .inr (.inr (.inl ⟨_, .initial, ?_, by rw [goto_same]⟩))⟩⟩, [],
        by simp [World.setSlot, World.goto, World.setDir], by simp⟩
      subst hout
      exact ⟨s, rfl⟩
  · by_cases hini : pc = .initial → (w.dirs d).initial = none
    · obtain ⟨h1, h2⟩ := branch_next hi hj hini
      by_cases hpc : pc = .rename
      · obtain ⟨b, hbd, hbr, hbm, hbs, hbl⟩ := h2 hpc
        obtain ⟨R', hi'⟩ := hi.stepJob q
        have hlegal := hi'.legal
        rw [hbl] at hlegal
        have hle : Legal api (hist api w.log) (.branched d m.dir j) := hlegal w.log _ [.done q] rfl
        have hh : hist api (stepJob api w q).log = applyEvent api (hist api w.log) (.branched d m.dir j) := by
          rw [hbl, show w.log ++ [Event.branched d m.dir j, .done q] = w.log ++ [.branched d m.dir j] ++ [.done q] by simp,
            hist_snoc, hist_snoc]
          rfl
        refine fun hgrow => ⟨⟨hgrow, ?_, .inr ⟨by rw [hbs], b, by rw [hbs], by rw [hbd]; exact ht, hbr, hbm, ?_, ?_⟩⟩, _, hbl, by simp⟩
        · rw [hh]
          exact prefix_getElem? (prefix_of_grow (applyEvent_legal hle) m.dir) hr
        · have h0 : hist api w.log d = [] := hle.1
          have hl := hi.legal
          rw [hl0] at hl h0
          have := hist_prefix hl d
          rw [h0] at this
          rw [hbd]
          exact List.prefix_nil.1 this
        · rw [hh, hbd]
          simp [applyEvent, hr]
      · obtain ⟨h3, h4⟩ := h1 hpc
        refine fun hgrow => ⟨⟨hgrow, by rw [h4]; exact hr, .inl ⟨by rw [h3]; exact hmn, .inr (.inr (.inl ⟨d, nextBranch pc, ht, by rw [h3]⟩))⟩⟩, [], by simp [h4], by simp⟩
    · obtain ⟨hpc, hsome⟩ : pc = .initial ∧ (w.dirs d).initial ≠ none := by
        by_cases h : pc = .initial
        · exact ⟨h, fun h' => hini fun _ => h'⟩
        · exact absurd (fun h' => absurd h' h) hini
      subst hpc
      have hout : out ≠ none := by
        rintro rfl
        obtain ⟨s, rfl⟩ := ht
        exact hsome (hi.autoInit q _ _ _ _ hj)
      obtain ⟨x, hx⟩ := Option.ne_none_iff_exists'.1 hsome
      simp only [stepJob, hj, stepBranch, hx, Option.isSome_some, if_true]
      refine fun hgrow => ⟨⟨hgrow, by rw [raise_log, hist_snoc]; exact hr, .inl ⟨by rw [raise_slot]; exact hmn, .inr (.inr (.inr ⟨by rw [raise_slot], hout⟩))⟩⟩,
        _, raise_log q, fun e _ h => hout h.1⟩
  · simp only [stepJob, hj]
    exact fun hgrow => ⟨⟨hgrow, hr, .inl ⟨hmn, .inr (.inr (.inr ⟨hj, hout⟩))⟩⟩, [], by simp, by simp⟩
  · simp only [stepJob, hj]
    exact fun hgrow => ⟨⟨hgrow, hr, .inr ⟨hj, hb⟩⟩, [], by simp, by simp⟩

theorem branch_other (m : Mgr I Sch Snn B SB U) (j : Nat) (out : Option Nat)
    (r : Revision I Sch Snn B U) (log0 : List (Event I U)) (w : World I Sch Snn B SB U)
    (R : Path → List (Rev U)) (_n : Nat)
    (a : Act I U) (hi : Inv api w R) (ha : a.who ≠ q)
    (hp : BranchSt api q m j out r log0 w) : BranchSt api q m j out r log0 (act api w a) := by
  obtain ⟨⟨es0, hl0⟩, hr, hc⟩ := hp
  have hgrow : ∃ es, (act api w a).log = log0 ++ es := by
    obtain ⟨es, h, _⟩ := (touch_act (api := api) (w := w) a).2
    exact ⟨es0 ++ es, by rw [h, hl0, List.append_assoc]⟩
  refine ⟨hgrow, prefix_getElem? (hist_act_prefix hi a _) hr, ?_⟩
  rw [act_slot_other ha]
  rcases hc with h | ⟨h1, b, h2, h3, h4, h5, h5a, h6⟩
  · exact .inl h
  · exact .inr ⟨h1, b, h2, h3, h4, h5, h5a, prefix_getElem? (hist_act_prefix hi a _) h6⟩

/-- A branch into a directory that was not used, alone, finishes in seven steps. -/
theorem branch_finish (hi : Inv api w R) {src : Mgr I Sch Snn B SB U} {i : Nat} {d : Path}
    (hjob : (w.slots q).job = .branch src i d .initial) (hini : (w.dirs d).initial = none) :
    (run api w (List.replicate 7 (.step q))).log = w.log ++ [.branched d src.dir i, .done q] ∧
      ((run api w (List.replicate 7 (.step q))).slots q).job = .idle ∧
      ∃ b, ((run api w (List.replicate 7 (.step q))).slots q).mgr = some b ∧ b.dir = d := by
  have hrun : run api w (List.replicate 7 (.step q)) =
      stepJob api (stepJob api (stepJob api (stepJob api (stepJob api (stepJob api
        (stepJob api w q) q) q) q) q) q) q := rfl
  rw [hrun]
  have next : ∀ {w : World I Sch Snn B SB U} {R} {pc}, Inv api w R →
      (w.slots q).job = .branch src i d pc → (pc = .initial → (w.dirs d).initial = none) →
      pc ≠ .rename → (∃ R', Inv api (stepJob api w q) R') ∧
        ((stepJob api w q).slots q).job = .branch src i d (nextBranch pc) ∧
        (stepJob api w q).log = w.log := by
    intro w R pc h1 h2 h3 h4
    obtain ⟨h5, h6⟩ := (branch_next h1 h2 h3).1 h4
    exact ⟨h1.stepJob q, by rw [h5], h6⟩
  obtain ⟨⟨R1, hi1⟩, hj1, hl1⟩ := next hi hjob (fun _ => hini) (by simp)
  generalize stepJob api w q = w1 at *
  obtain ⟨⟨R2, hi2⟩, hj2, hl2⟩ := next hi1 hj1 (by simp [nextBranch]) (by simp [nextBranch])
  generalize stepJob api w1 q = w2 at *
  obtain ⟨⟨R3, hi3⟩, hj3, hl3⟩ := next hi2 hj2 (by simp [nextBranch]) (by simp [nextBranch])
  generalize stepJob api w2 q = w3 at *
  obtain ⟨⟨R4, hi4⟩, hj4, hl4⟩ := next hi3 hj3 (by simp [nextBranch, afterBranchBag])
    (by simp [nextBranch, afterBranchBag])
  generalize stepJob api w3 q = w4 at *
  obtain ⟨⟨R5, hi5⟩, hj5, hl5⟩ := next hi4 hj4 (by simp [nextBranch, afterBranchBag])
    (by simp [nextBranch, afterBranchBag])
  generalize stepJob api w4 q = w5 at *
  obtain ⟨⟨R6, hi6⟩, hj6, hl6⟩ := next hi5 hj5 (by simp [nextBranch, afterBranchBag])
    (by simp [nextBranch, afterBranchBag])
  generalize stepJob api w5 q = w6 at *
  obtain ⟨b, h1, _, _, h2, h3⟩ := (branch_next hi6 hj6 (by simp [nextBranch, afterBranchBag])).2
    (by simp [nextBranch, afterBranchBag])
  refine ⟨?_, by rw [h2], b, by rw [h2], h1⟩
  rw [h3, hl6, hl5, hl4, hl3, hl2, hl1]

/-! ### Creating -/

/-- What `create_new` does after each of its steps but the last. -/
def nextCreate : CreatePc → CreatePc
  | .initial => .bag .data
  | .bag k => afterCreateBag k
  | .map => .bag .snn
  | .check => .rename
  | .rename => .finish
  | .finish => .finish

/-- Once it has written the initial data, `create_new` goes on to its end. -/
theorem create_next (hi : Inv api w R) {i : I} {d : Path} {pc : CreatePc}
    (hjob : (w.slots q).job = .create d i pc)
    (hini : pc = .initial → (w.dirs d).initial = none) :
    (pc ≠ .finish →
      (stepJob api w q).slots q = { w.slots q with job := .create d i (nextCreate pc) } ∧
      (stepJob api w q).log = w.log ++ (if pc = .rename then [.created d i] else [])) ∧
    (pc = .finish →
      (stepJob api w q).slots q = { w.slots q with mgr := some (createdMgr api d i), job := .idle } ∧
      (stepJob api w q).log = w.log ++ [.done q]) := by
  cases pc with
  | initial =>
    refine ⟨fun _ => ?_, fun h => by simp at h⟩
    simp only [stepJob, hjob, stepCreate, hini rfl, Option.isSome_none, Bool.false_eq_true, if_false]
    exact ⟨by rw [goto_same]; rfl, by simp [World.goto, World.setDir, World.setSlot]⟩
  | map =>
    refine ⟨fun _ => ?_, fun h => by simp at h⟩
    simp only [stepJob, hjob, stepCreate]
    exact ⟨by rw [goto_same]; rfl, by simp [World.goto, World.setDir, World.setSlot]⟩
  | bag k =>
    refine ⟨fun _ => ?_, fun h => by simp at h⟩
    have hnone : (w.dirs d).bags k = none := by
      cases k with
      | data =>
        have hb : building api (w.slots q).job =
            some ⟨d, i, none, upTo (freshBags Snn B SB) 0⟩ := by rw [hjob]; rfl
        exact (hi.build q _ hb).2.2.2 .data
      | schema =>
        have hb : building api (w.slots q).job =
            some ⟨d, i, none, upTo (freshBags Snn B SB) 1⟩ := by rw [hjob]; rfl
        exact (hi.build q _ hb).2.2.2 .schema
      | snn =>
        have hb : building api (w.slots q).job = some ⟨d, i,
            some (initMap api.nodes (api.schemaOf i)), upTo (freshBags Snn B SB) 2⟩ := by
          rw [hjob]; rfl
        exact (hi.build q _ hb).2.2.2 .snn
    simp only [stepJob, hjob, stepCreate, hnone, Option.isSome_none, Bool.false_eq_true, if_false]
    exact ⟨by rw [goto_same]; rfl, by simp [World.goto, World.setDir, World.setSlot]⟩
  | check =>
    refine ⟨fun _ => ?_, fun h => by simp at h⟩
    have hb : building api (w.slots q).job = some ⟨d, i,
        some (initMap api.nodes (api.schemaOf i)), upTo (freshBags Snn B SB) 3⟩ := by
      rw [hjob]; rfl
    have hR := (hi.build q _ hb).1
    simp only [stepJob, hjob, stepCreate, metaAt_zero hi hR, Option.isSome_none,
      Bool.false_eq_true, if_false]
    exact ⟨by rw [goto_same]; rfl, by simp [World.goto, World.setSlot]⟩
  | rename =>
    refine ⟨fun _ => ?_, fun h => by simp at h⟩
    have hb : building api (w.slots q).job = some ⟨d, i,
        some (initMap api.nodes (api.schemaOf i)), upTo (freshBags Snn B SB) 3⟩ := by
      rw [hjob]; rfl
    have hR := (hi.build q _ hb).1
    have hcm : (w.dirs d).commit (createMeta U) =
        some { w.dirs d with metas := [(0, createMeta U)] } := by
      unfold Dir.commit
      rw [metaAt_zero hi hR, hi.metas_nil hR]
      rfl
    simp only [stepJob, hjob, stepCreate, hcm]
    exact ⟨by rw [goto_same]; rfl, by simp [World.goto, World.emit, World.setDir, World.setSlot]⟩
  | finish =>
    refine ⟨fun h => absurd rfl h, fun _ => ?_⟩
    simp only [stepJob, hjob, stepCreate]
    exact ⟨by rw [return_slot]; rfl, return_log _ _⟩

/-- The creation of a directory in progress, failed or finished. -/
def CreateSt (api : Api I Sch Snn B SB U) (q : Nat) (d : Path) (i : I)
    (w : World I Sch Snn B SB U) : Prop :=
  ((w.slots q).mgr = none ∧
    ((∃ pc, (w.slots q).job = .create d i pc ∧
      (pc = .finish → (hist api w.log d)[0]? = some ⟨.creation, View.first api i⟩)) ∨
      (w.slots q).job = .idle)) ∨
  ((w.slots q).job = .idle ∧ (w.slots q).mgr = some (createdMgr api d i) ∧
    (hist api w.log d)[0]? = some ⟨.creation, View.first api i⟩)

theorem create_step (d : Path) (i : I) (w : World I Sch Snn B SB U) (R : Path → List (Rev U))
    (_n : Nat) (hi : Inv api w R) (hp : CreateSt api q d i w) :
    CreateSt api q d i (stepJob api w q) ∧
      ∃ es, (stepJob api w q).log = w.log ++ es ∧ ∀ e ∈ es, ¬ False := by
  refine ⟨?_, ?_⟩
  · rcases hp with ⟨hmn, ⟨pc, hj, hfin⟩ | hj⟩ | ⟨hj, hb⟩
    · by_cases hini : pc = .initial → (w.dirs d).initial = none
      · obtain ⟨h1, h2⟩ := create_next hi hj hini
        by_cases hpc : pc = .finish
        · obtain ⟨h3, h4⟩ := h2 hpc
          refine .inr ⟨by rw [h3], by rw [h3], ?_⟩
          rw [h4, hist_snoc]
          exact hfin hpc
        · obtain ⟨h3, h4⟩ := h1 hpc
          refine .inl ⟨by rw [h3]; exact hmn, .inl ⟨nextCreate pc, by rw [h3], ?_⟩⟩
          intro hn
          have : pc = .rename := by
            cases pc with
            | bag k => cases k <;> simp [nextCreate, afterCreateBag] at hn
            | rename => rfl
            | _ => simp [nextCreate] at hn <;> exact absurd rfl hpc
          subst this
          rw [h4]
          simp [hist_snoc, applyEvent]
      · obtain ⟨hpc, hsome⟩ : pc = .initial ∧ (w.dirs d).initial ≠ none := by
          by_cases h : pc = .initial
          · exact ⟨h, fun h' => hini fun _ => h'⟩
          · exact absurd (fun h' => absurd h' h) hini
        subst hpc
        obtain ⟨x, hx⟩ := Option.ne_none_iff_exists'.1 hsome
        simp only [stepJob, hj, stepCreate, hx, Option.isSome_some, if_true]
        exact .inl ⟨by rw [raise_slot]; exact hmn, .inr (by rw [raise_slot])⟩
    · simp only [stepJob, hj]
      exact .inl ⟨hmn, .inr hj⟩
    · simp only [stepJob, hj]
      exact .inr ⟨hj, hb⟩
  · obtain ⟨es, h, _⟩ := (touch_stepJob (api := api) (w := w) (q := q)).2
    exact ⟨es, h, by simp⟩

theorem create_other (d : Path) (i : I) (w : World I Sch Snn B SB U) (R : Path → List (Rev U))
    (_n : Nat) (a : Act I U) (hi : Inv api w R) (ha : a.who ≠ q) (hp : CreateSt api q d i w) :
    CreateSt api q d i (act api w a) := by
  unfold CreateSt at hp ⊢
  rw [act_slot_other ha]
  rcases hp with ⟨hmn, ⟨pc, hj, hfin⟩ | hj⟩ | ⟨hj, hb, hh⟩
  · exact .inl ⟨hmn, .inl ⟨pc, hj, fun h => prefix_getElem? (hist_act_prefix hi a _) (hfin h)⟩⟩
  · exact .inl ⟨hmn, .inr hj⟩
  · exact .inr ⟨hj, hb, prefix_getElem? (hist_act_prefix hi a _) hh⟩

/-- Creating a directory that was not used, alone, finishes in eight steps. -/
theorem create_finish (hi : Inv api w R) {i : I} {d : Path}
    (hjob : (w.slots q).job = .create d i .initial) (hini : (w.dirs d).initial = none) :
    (run api w (List.replicate 8 (.step q))).log = w.log ++ [.created d i, .done q] ∧
      ((run api w (List.replicate 8 (.step q))).slots q).job = .idle ∧
      ((run api w (List.replicate 8 (.step q))).slots q).mgr = some (createdMgr api d i) := by
  have hrun : run api w (List.replicate 8 (.step q)) =
      stepJob api (stepJob api (stepJob api (stepJob api (stepJob api (stepJob api (stepJob api
        (stepJob api w q) q) q) q) q) q) q) q := rfl
  rw [hrun]
  have next : ∀ {w : World I Sch Snn B SB U} {R} {pc}, Inv api w R →
      (w.slots q).job = .create d i pc → (pc = .initial → (w.dirs d).initial = none) →
      pc ≠ .finish → (∃ R', Inv api (stepJob api w q) R') ∧
        ((stepJob api w q).slots q).job = .create d i (nextCreate pc) ∧
        (stepJob api w q).log = w.log ++ (if pc = .rename then [.created d i] else []) := by
    intro w R pc h1 h2 h3 h4
    obtain ⟨h5, h6⟩ := (create_next h1 h2 h3).1 h4
    exact ⟨h1.stepJob q, by rw [h5], h6⟩
  obtain ⟨⟨R1, hi1⟩, hj1, hl1⟩ := next hi hjob (fun _ => hini) (by simp)
  generalize stepJob api w q = w1 at *
  obtain ⟨⟨R2, hi2⟩, hj2, hl2⟩ := next hi1 hj1 (by simp [nextCreate]) (by simp [nextCreate])
  generalize stepJob api w1 q = w2 at *
  obtain ⟨⟨R3, hi3⟩, hj3, hl3⟩ := next hi2 hj2 (by simp [nextCreate, afterCreateBag])
    (by simp [nextCreate, afterCreateBag])
  generalize stepJob api w2 q = w3 at *
  obtain ⟨⟨R4, hi4⟩, hj4, hl4⟩ := next hi3 hj3 (by simp [nextCreate, afterCreateBag])
    (by simp [nextCreate, afterCreateBag])
  generalize stepJob api w3 q = w4 at *
  obtain ⟨⟨R5, hi5⟩, hj5, hl5⟩ := next hi4 hj4 (by simp [nextCreate, afterCreateBag])
    (by simp [nextCreate, afterCreateBag])
  generalize stepJob api w4 q = w5 at *
  obtain ⟨⟨R6, hi6⟩, hj6, hl6⟩ := next hi5 hj5 (by simp [nextCreate, afterCreateBag])
    (by simp [nextCreate, afterCreateBag])
  generalize stepJob api w5 q = w6 at *
  obtain ⟨⟨R7, hi7⟩, hj7, hl7⟩ := next hi6 hj6 (by simp [nextCreate, afterCreateBag])
    (by simp [nextCreate, afterCreateBag])
  generalize stepJob api w6 q = w7 at *
  obtain ⟨h2, h3⟩ := (create_next hi7 hj7 (by simp [nextCreate, afterCreateBag])).2
    (by simp [nextCreate, afterCreateBag])
  refine ⟨?_, by rw [h2], by rw [h2]⟩
  rw [h3, hl7, hl6, hl5, hl4, hl3, hl2, hl1]
  simp [nextCreate, afterCreateBag]

theorem isEmpty_iff (d : Dir I Snn B SB U) : d.isEmpty = true ↔ d = Dir.empty I Snn B SB U := by
  constructor
  · intro h
    simp only [Dir.isEmpty, Bool.and_eq_true, Option.isNone_iff_eq_none, List.isEmpty_iff] at h
    obtain ⟨⟨⟨⟨⟨⟨h1, h2⟩, h3⟩, h4⟩, h5⟩, h6⟩, h7⟩ := h
    cases d
    simp only [Dir.empty, Dir.mk.injEq] at *
    refine ⟨h1, h2, ?_, h6, h7⟩
    funext k
    cases k <;> assumption
  · rintro rfl
    rfl

end Verif.SliceManager
