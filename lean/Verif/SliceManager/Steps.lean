import Verif.SliceManager.Moves

/-
Every action preserves the invariant.
-/

namespace Verif.SliceManager

set_option linter.unusedSectionVars false

variable {I Sch Snn B SB U : Type} [DecidableEq Snn] {api : Api I Sch Snn B SB U}
  {w w' : World I Sch Snn B SB U} {R R' : Path → List (Rev U)} {q : Nat}

theorem setDir_dirs (w : World I Sch Snn B SB U) (d : Path)
    (f : Dir I Snn B SB U → Dir I Snn B SB U) :
    (w.setDir d f).dirs = dirsWith w.dirs d (f (w.dirs d)) := by
  funext d'
  unfold World.setDir dirsWith
  by_cases h : d' = d
  · simp [h]
  · simp [h]

theorem setSlot_same (w : World I Sch Snn B SB U) (q : Nat)
    (f : Slot I Sch Snn B SB U → Slot I Sch Snn B SB U) : (w.setSlot q f).slots q = f (w.slots q) := by
  simp [World.setSlot]

theorem setSlot_other (w : World I Sch Snn B SB U) {q q' : Nat} (h : q' ≠ q)
    (f : Slot I Sch Snn B SB U → Slot I Sch Snn B SB U) : (w.setSlot q f).slots q' = w.slots q' := by
  simp [World.setSlot, h]

theorem goto_same (w : World I Sch Snn B SB U) (q : Nat) (j : Job I Sch Snn B SB U) :
    (w.goto q j).slots q = { w.slots q with job := j } := setSlot_same ..

theorem goto_other (w : World I Sch Snn B SB U) {q q' : Nat} (h : q' ≠ q)
    (j : Job I Sch Snn B SB U) : (w.goto q j).slots q' = w.slots q' := setSlot_other _ h _

theorem goto_dirs (w : World I Sch Snn B SB U) (q : Nat) (j : Job I Sch Snn B SB U) :
    (w.goto q j).dirs = w.dirs := rfl

theorem emit_dirs (w : World I Sch Snn B SB U) (e : Event I U) : (w.emit e).dirs = w.dirs := rfl

theorem setSlot_dirs (w : World I Sch Snn B SB U) (q : Nat)
    (f : Slot I Sch Snn B SB U → Slot I Sch Snn B SB U) : (w.setSlot q f).dirs = w.dirs := rfl

/-- An operation that is neither filling a directory nor an update. -/
def Plain (api : Api I Sch Snn B SB U) (j : Job I Sch Snn B SB U) : Prop :=
  building api j = none ∧ autoTarget j = none ∧ ∀ u p base pc, j ≠ .update u p base pc

theorem SlotOk.plain (hm : ∀ m, (w'.slots q).mgr = some m → MgrOk api (w'.dirs m.dir) (R' m.dir) m)
    (hj : JobOk api w'.dirs R' (hist api w'.log) q (w'.slots q)) (hp : Plain api (w'.slots q).job) :
    SlotOk api w w' R' q :=
  { mgr := hm
    job := hj
    build := fun b hb => by rw [hp.1] at hb; simp at hb
    pend := fun u p base pc m h => absurd h (hp.2.2 u p base pc)
    auto := fun p s h => by rw [hp.2.1] at h; simp at h
    autoInit := fun src i p s h => by
      have := hp.2.1
      rw [h] at this
      simp [autoTarget] at this }

/-- The instance goes on to something that is neither filling a directory nor an update. -/
theorem Inv.goto (hi : Inv api w R) {j : Job I Sch Snn B SB U}
    (hj : JobOk api w.dirs R (hist api w.log) q { w.slots q with job := j }) (hp : Plain api j) :
    Inv api (w.goto q j) R := by
  refine hi.move (q := q) (d0 := .user 0)
    (Move.slot hi (fun q' h => goto_other w h j) ?_ rfl rfl hi.legal _) (SlotOk.plain ?_ ?_ ?_)
  · rw [goto_same]; exact Nat.le_refl _
  · rw [goto_same]; exact hi.mgrs q
  · rw [goto_same]; exact hj
  · rw [goto_same]; exact hp

/-- A visible event that commits nothing. -/
theorem Inv.note (hi : Inv api w R) (e : Event I U) (he : e = .raised q ∨ e = .done q) :
    Inv api (w.emit e) R := by
  have hh : hist api (w.emit e).log = hist api w.log := by
    rw [World.emit, hist_snoc]; rcases he with rfl | rfl <;> rfl
  have hl : Legal api (hist api w.log) e := by rcases he with rfl | rfl <;> trivial
  exact
    { dirs := by rw [hh]; exact hi.dirs
      fresh := hi.fresh
      mgrs := hi.mgrs
      jobs := by rw [hh]; exact hi.jobs
      build := hi.build
      uniq := hi.uniq
      pend := hi.pend
      autoEmpty := hi.autoEmpty
      autoIn := hi.autoIn
      autoUniq := hi.autoUniq
      autoInit := hi.autoInit
      legal := legal_snoc hi.legal hl }

theorem plain_idle : Plain api (.idle : Job I Sch Snn B SB U) :=
  ⟨rfl, rfl, fun _ _ _ _ h => by simp at h⟩

/-- An operation raises. -/
theorem Inv.raise (hi : Inv api w R) : Inv api (w.raise q) R := by
  unfold World.raise
  exact (hi.goto (q := q) (j := .idle) (by simp [JobOk]) plain_idle).note (q := q) _ (.inl rfl)

/-- A factory method returns. -/
theorem Inv.ret (hi : Inv api w R) {m : Mgr I Sch Snn B SB U}
    (hm : MgrOk api (w.dirs m.dir) (R m.dir) m) : Inv api (w.return q m) R := by
  unfold World.return
  refine Inv.note (q := q) (?_ : Inv api _ R) _ (.inr rfl)
  refine hi.move (q := q) (d0 := .user 0)
    (Move.slot hi (fun q' h => setSlot_other w h _) ?_ rfl rfl hi.legal _) (SlotOk.plain ?_ ?_ ?_)
  · rw [setSlot_same]; exact Nat.le_refl _
  · rw [setSlot_same]
    intro m' hm'
    simp only [Option.some.injEq] at hm'
    subst hm'
    exact hm
  · rw [setSlot_same]; simp [JobOk]
  · rw [setSlot_same]; exact plain_idle

/-! ### Filling a directory -/

/-- The slot of an instance that is filling the same directory as before. -/
theorem SlotOk.filling (hi : Inv api w R) {b b' : Building I Snn B SB}
    (hm : (w'.slots q).mgr = (w.slots q).mgr) (hmv : Move api w w' R R' q b.dir)
    (hj : JobOk api w'.dirs R' (hist api w'.log) q (w'.slots q))
    (hb : building api (w.slots q).job = some b)
    (hb' : building api (w'.slots q).job = some b') (hdir : b'.dir = b.dir)
    (hok : BuildOk (w'.dirs b'.dir) (R' b'.dir) b')
    (ha : autoTarget (w'.slots q).job = autoTarget (w.slots q).job) : SlotOk api w w' R' q :=
  { mgr := fun m h => by
      rw [hm] at h
      exact (hi.mgrs q m h).ext (hmv.extAll _)
    job := hj
    build := fun x hx => by
      rw [hb'] at hx
      simp only [Option.some.injEq] at hx
      subst hx
      refine ⟨hok, fun q' hq x hx he => ?_⟩
      exact hq (hi.uniq q' q x b hx hb (he.trans hdir))
    pend := fun u p base pc m h => by
      rw [h] at hb'
      simp [building] at hb'
    auto := fun p s h => by
      rw [ha] at h
      refine ⟨?_, fun q' hq h' => hq (hi.autoUniq q' q p s h' h)⟩
      have := hi.autoIn q p s h
      by_cases hp : p = b.dir
      · rw [hp] at this ⊢; exact hmv.claimed s this
      · rw [hmv.dirs p hp]; exact this
    autoInit := fun src i p s h => by
      rw [h] at hb'
      simp [building] at hb' }

/-- The initial data has been written. -/
theorem Inv.initial (hi : Inv api w R) {d : Path} {i : I} {j : Job I Sch Snn B SB U}
    {b : Building I Snn B SB}
    (hnone : (w.dirs d).initial = none)
    (hb : building api j = some b) (hbd : b.dir = d) (hbi : b.initial = i)
    (hbm : b.map = none) (hbb : ∀ k, b.bags k = none)
    (ha : autoTarget j = autoTarget (w.slots q).job)
    (hauto : ∀ p s, d = .branch p s → autoTarget (w.slots q).job = some (p, s))
    (hj : ∀ dirs', (∀ d', DirExt (w.dirs d') (dirs' d') (R d') (R d')) →
      JobOk api dirs' R (hist api w.log) q { w.slots q with job := j }) :
    Inv api ((w.setDir d fun x => { x with initial := some i }).goto q j) R := by
  have hmv : Move api w ((w.setDir d fun x => { x with initial := some i }).goto q j) R R q d := by
    refine Move.initial hi (i := i) hnone (fun q' h => ?_) ?_ ?_ rfl hauto
    · rw [goto_other _ h]; rfl
    · rw [goto_same]; rfl
    · rw [goto_dirs, setDir_dirs]
  have hblank := (hi.dirs d).blank hnone
  refine hi.move hmv ?_
  refine
    { mgr := ?_, job := ?_, build := ?_, pend := ?_, auto := ?_, autoInit := ?_ }
  · rw [goto_same]
    intro m hm
    exact (hi.mgrs q m hm).ext (hmv.extAll _)
  · rw [goto_same]
    exact hj _ hmv.extAll
  · rw [goto_same]
    intro x hx
    simp only at hx
    rw [hb] at hx
    simp only [Option.some.injEq] at hx
    subst hx
    refine ⟨?_, ?_⟩
    · rw [hbd]
      refine ⟨hi.noRevs hnone, ?_, ?_, ?_⟩
      · rw [goto_dirs, setDir_dirs, dirsWith_same, hbi]
      · rw [goto_dirs, setDir_dirs, dirsWith_same, hbm]
        exact hblank.1
      · intro k
        rw [goto_dirs, setDir_dirs, dirsWith_same, hbb k]
        exact hblank.2.1 k
    · intro q' hq x hx he
      have := (hi.build q' x hx).2.1
      rw [he, hbd, hnone] at this
      simp at this
  · rw [goto_same]
    intro u p base pc m h
    simp only at h
    rw [h] at hb
    simp [building] at hb
  · rw [goto_same]
    intro p s h
    simp only at h
    rw [ha] at h
    refine ⟨?_, fun q' hq h' => hq (hi.autoUniq q' q p s h' h)⟩
    have := hi.autoIn q p s h
    by_cases hp : p = d
    · rw [hp] at this ⊢; exact hmv.claimed s this
    · rw [hmv.dirs p hp]; exact this
  · rw [goto_same]
    intro src i p s h
    simp only at h
    rw [h] at hb
    simp [building] at hb

/-- The DICT or a bag manager has been written to a directory being filled. -/
theorem Inv.fill (hi : Inv api w R) {d : Path} {f : Dir I Snn B SB U → Dir I Snn B SB U}
    {j : Job I Sch Snn B SB U} {b b' : Building I Snn B SB}
    (hb : building api (w.slots q).job = some b) (hbd : b.dir = d)
    (hb' : building api j = some b') (hbd' : b'.dir = d) (hbi : b'.initial = b.initial)
    (hf : f (w.dirs d) = { w.dirs d with map := b'.map, bags := b'.bags })
    (ha : autoTarget j = autoTarget (w.slots q).job)
    (hl : ∀ k, Later (b.bags k) (b'.bags k))
    (hnd : ∀ k, (namesIn (bagsIn (b'.bags k))).Nodup)
    (hnm : ∀ k n, n ∈ namesIn (bagsIn (b'.bags k)) → ∃ d, n ∈ namesOf (R d) k)
    (hj : ∀ dirs', (∀ d', DirExt (w.dirs d') (dirs' d') (R d') (R d')) →
      JobOk api dirs' R (hist api w.log) q { w.slots q with job := j }) :
    Inv api ((w.setDir d f).goto q j) R := by
  subst hbd
  have hmv : Move api w ((w.setDir b.dir f).goto q j) R R q b.dir := by
    refine Move.fill hi hb (mp := b'.map) (bg := b'.bags) (fun q' h => ?_) ?_ ?_ rfl hl hnd hnm
    · rw [goto_other _ h]; rfl
    · rw [goto_same]; rfl
    · rw [← hf]; exact setDir_dirs w b.dir _
  refine hi.move hmv (SlotOk.filling hi (b := b) (b' := b') ?_ hmv ?_ hb ?_ hbd' ?_ ?_)
  · rw [goto_same]; rfl
  · rw [goto_same]; exact hj _ hmv.extAll
  · rw [goto_same]; exact hb'
  · rw [hbd']
    obtain ⟨hR, hini, hmap, hbags⟩ := hi.build q b hb
    have hx : ((w.setDir b.dir f).goto q j).dirs b.dir =
        { w.dirs b.dir with map := b'.map, bags := b'.bags } := by
      rw [← hf]
      show (w.setDir b.dir f).dirs b.dir = _
      rw [setDir_dirs, dirsWith_same]
    rw [hx]
    exact ⟨hR, by rw [hbi]; exact hini, rfl, fun k => rfl⟩
  · rw [goto_same]; exact ha

/-- Checking for the metadata file changes nothing. -/
theorem Inv.checked (hi : Inv api w R) {j : Job I Sch Snn B SB U} {b : Building I Snn B SB}
    (hb : building api (w.slots q).job = some b) (hb' : building api j = some b)
    (ha : autoTarget j = autoTarget (w.slots q).job)
    (hj : JobOk api w.dirs R (hist api w.log) q { w.slots q with job := j }) :
    Inv api (w.goto q j) R := by
  have hmv : Move api w (w.goto q j) R R q b.dir := by
    refine Move.slot hi (fun q' h => goto_other w h j) ?_ rfl rfl hi.legal _
    rw [goto_same]; exact Nat.le_refl _
  refine hi.move hmv (SlotOk.filling hi (b := b) (b' := b) ?_ hmv ?_ hb ?_ rfl ?_ ?_)
  · rw [goto_same]
  · rw [goto_same]; exact hj
  · rw [goto_same]; exact hb'
  · exact hi.build q b hb
  · rw [goto_same]; exact ha

theorem upTo_three {β : Kind → Type} (f : (k : Kind) → β k) (k : Kind) :
    upTo f 3 k = some (f k) := by cases k <;> simp [upTo]

theorem upTo_zero {β : Kind → Type} (f : (k : Kind) → β k) (k : Kind) : upTo f 0 k = none := by
  cases k <;> simp [upTo]

theorem upTo_later {Snn B SB : Type} (f : (k : Kind) → BagDir (Content Snn B SB k)) (s : Nat)
    (k : Kind) : Later (upTo f s k) (upTo f (s + 1) k) := by
  cases k <;> simp only [upTo]
  · by_cases h : 1 ≤ s
    · rw [if_pos h, if_pos (by omega)]; exact Later.refl _
    · rw [if_neg h]; exact Later.of_none _
  · by_cases h : 2 ≤ s
    · rw [if_pos h, if_pos (by omega)]; exact Later.refl _
    · rw [if_neg h]; exact Later.of_none _
  · by_cases h : 3 ≤ s
    · rw [if_pos h, if_pos (by omega)]; exact Later.refl _
    · rw [if_neg h]; exact Later.of_none _

theorem upTo_bags {Snn B SB : Type} {f : (k : Kind) → BagDir (Content Snn B SB k)} {s : Nat}
    {k : Kind} : bagsIn (upTo f s k) = (f k).bags ∨ bagsIn (upTo f s k) = [] := by
  cases k <;> simp only [upTo] <;> split <;> simp [bagsIn]

theorem upTo_set (x : (k : Kind) → Option (BagDir (Content Snn B SB k)))
    (f : (k : Kind) → BagDir (Content Snn B SB k)) (k : Kind) (s : Nat)
    (hk : s = match k with | .data => 0 | .schema => 1 | .snn => 2)
    (hx : ∀ k, x k = upTo f s k) : setKind x k (some (f k)) = upTo f (s + 1) := by
  funext k'
  by_cases h : k = k'
  · subst h
    rw [setKind_same]
    subst hk
    cases k <;> rfl
  · rw [setKind_other _ _ _ _ h, hx]
    subst hk
    cases k <;> cases k' <;> first | rfl | exact absurd rfl h

theorem metaAt_zero (hi : Inv api w R) {d : Path} (h : R d = []) (n : Nat) :
    (w.dirs d).metaAt n = none := by
  unfold Dir.metaAt
  rw [(hi.dirs d).metas, h]
  rfl

theorem Inv.metas_nil (hi : Inv api w R) {d : Path} (h : R d = []) : (w.dirs d).metas = [] := by
  rw [(hi.dirs d).metas, h]; rfl

/-- `create_new`. -/
theorem Inv.stepCreate (hi : Inv api w R) {d : Path} {i : I} {pc : CreatePc}
    (hjob : (w.slots q).job = .create d i pc) :
    ∃ R', Inv api (stepCreate api w q d i pc) R' := by
  have hjobs := hi.jobs q
  unfold JobOk at hjobs
  rw [hjob] at hjobs
  obtain ⟨⟨nn, hu⟩, hfin⟩ := hjobs
  have hnfresh : ∀ s k, (namesIn (bagsIn (upTo (freshBags Snn B SB) s k))) = [] := by
    intro s k
    rcases upTo_bags (f := freshBags Snn B SB) (s := s) (k := k) with h | h <;> rw [h] <;> rfl
  have hjk : ∀ pc', pc' ≠ .finish → ∀ dirs' : Path → Dir I Snn B SB U,
      JobOk api dirs' R (hist api w.log) q { w.slots q with job := .create d i pc' } := by
    intro pc' hpc dirs'
    simp only [JobOk]
    exact ⟨⟨nn, hu⟩, fun h => absurd h hpc⟩
  cases pc with
  | initial =>
    simp only [Verif.SliceManager.stepCreate]
    by_cases hc : (w.dirs d).initial.isSome = true
    · rw [if_pos hc]; exact ⟨R, hi.raise⟩
    · rw [if_neg hc]
      have hnone : (w.dirs d).initial = none := by
        cases h : (w.dirs d).initial with
        | none => rfl
        | some x => rw [h] at hc; exact absurd rfl hc
      refine ⟨R, hi.initial (b := ⟨d, i, none, upTo (freshBags Snn B SB) 0⟩) hnone rfl rfl rfl rfl
        (fun k => upTo_zero _ k) ?_ ?_ (fun dirs' _ => hjk _ (by simp) dirs')⟩
      · rw [hjob]; rfl
      · rintro p s rfl; simp at hu
  | bag k =>
    simp only [Verif.SliceManager.stepCreate]
    by_cases hc : ((w.dirs d).bags k).isSome = true
    · rw [if_pos hc]; exact ⟨R, hi.raise⟩
    · rw [if_neg hc]
      refine ⟨R, ?_⟩
      cases k with
      | data =>
        have hb : building api (w.slots q).job = some ⟨d, i, none, upTo (freshBags Snn B SB) 0⟩ := by
          rw [hjob]; rfl
        obtain ⟨hR, hini, hmap, hbags⟩ := hi.build q _ hb
        refine hi.fill hb rfl (b' := ⟨d, i, none, upTo (freshBags Snn B SB) 1⟩) rfl rfl rfl ?_ ?_
          (fun k => upTo_later _ 0 k) (fun k => by rw [hnfresh]; simp)
          (fun k n h => by rw [hnfresh] at h; simp at h) (fun dirs' _ => hjk _ (by simp [afterCreateBag]) dirs')
        · simp only at hmap hbags
          rw [upTo_set _ _ .data 0 rfl hbags, ← hmap]
        · rw [hjob]; rfl
      | schema =>
        have hb : building api (w.slots q).job = some ⟨d, i, none, upTo (freshBags Snn B SB) 1⟩ := by
          rw [hjob]; rfl
        obtain ⟨hR, hini, hmap, hbags⟩ := hi.build q _ hb
        refine hi.fill hb rfl (b' := ⟨d, i, none, upTo (freshBags Snn B SB) 2⟩) rfl rfl rfl ?_ ?_
          (fun k => upTo_later _ 1 k) (fun k => by rw [hnfresh]; simp)
          (fun k n h => by rw [hnfresh] at h; simp at h) (fun dirs' _ => hjk _ (by simp [afterCreateBag]) dirs')
        · simp only at hmap hbags
          rw [upTo_set _ _ .schema 1 rfl hbags, ← hmap]
        · rw [hjob]; rfl
      | snn =>
        have hb : building api (w.slots q).job =
            some ⟨d, i, some (initMap api.nodes (api.schemaOf i)), upTo (freshBags Snn B SB) 2⟩ := by
          rw [hjob]; rfl
        obtain ⟨hR, hini, hmap, hbags⟩ := hi.build q _ hb
        refine hi.fill hb rfl (b' := ⟨d, i, some (initMap api.nodes (api.schemaOf i)),
            upTo (freshBags Snn B SB) 3⟩) rfl rfl rfl ?_ ?_
          (fun k => upTo_later _ 2 k) (fun k => by rw [hnfresh]; simp)
          (fun k n h => by rw [hnfresh] at h; simp at h) (fun dirs' _ => hjk _ (by simp [afterCreateBag]) dirs')
        · simp only at hmap hbags
          rw [upTo_set _ _ .snn 2 rfl hbags, ← hmap]
        · rw [hjob]; rfl
  | map =>
    simp only [Verif.SliceManager.stepCreate]
    have hb : building api (w.slots q).job = some ⟨d, i, none, upTo (freshBags Snn B SB) 2⟩ := by
      rw [hjob]; rfl
    obtain ⟨hR, hini, hmap, hbags⟩ := hi.build q _ hb
    refine ⟨R, hi.fill hb rfl (b' := ⟨d, i, some (initMap api.nodes (api.schemaOf i)),
        upTo (freshBags Snn B SB) 2⟩) rfl rfl rfl ?_ ?_
      (fun k => Later.refl _) (fun k => by rw [hnfresh]; simp)
      (fun k n h => by rw [hnfresh] at h; simp at h) (fun dirs' _ => hjk _ (by simp) dirs')⟩
    · simp only at hbags
      have : upTo (freshBags Snn B SB) 2 = (w.dirs d).bags := (funext hbags).symm
      rw [this]
    · rw [hjob]; rfl
  | check =>
    simp only [Verif.SliceManager.stepCreate]
    by_cases hc : ((w.dirs d).metaAt 0).isSome = true
    · rw [if_pos hc]; exact ⟨R, hi.raise⟩
    · rw [if_neg hc]
      refine ⟨R, hi.checked (b := ⟨d, i, some (initMap api.nodes (api.schemaOf i)),
        upTo (freshBags Snn B SB) 3⟩) ?_ rfl ?_ (hjk _ (by simp) _)⟩
      · rw [hjob]; rfl
      · rw [hjob]; rfl
  | rename =>
    simp only [Verif.SliceManager.stepCreate]
    have hb : building api (w.slots q).job = some ⟨d, i,
        some (initMap api.nodes (api.schemaOf i)), upTo (freshBags Snn B SB) 3⟩ := by
      rw [hjob]; rfl
    obtain ⟨hR, hini, hmap, hbags⟩ := hi.build q _ hb
    simp only at hR hini hmap hbags
    have hcm : (w.dirs d).commit (createMeta U) =
        some { w.dirs d with metas := [(0, createMeta U)] } := by
      unfold Dir.commit
      rw [metaAt_zero hi hR, hi.metas_nil hR]
      rfl
    rw [hcm]
    simp only
    refine ⟨fun d' => if d' = d then [⟨.creation, fun _ => []⟩] else R d', ?_⟩
    have hleg : Legal api (hist api w.log) (.created d i) := hi.noHist hR
    have hmv : Move api w (((w.setDir d fun _ => { w.dirs d with metas := [(0, createMeta U)] }).emit
        (.created d i)).goto q (.create d i .finish)) R
        (fun d' => if d' = d then [⟨.creation, fun _ => []⟩] else R d') q d := by
      refine Move.first hi (rev := ⟨.creation, fun _ => []⟩)
        (f := initMap api.nodes (api.schemaOf i)) (bg := freshBags Snn B SB)
        (v := View.first api i) (e := .created d i) hb rfl (fun k => upTo_three _ k)
        (fun q' h => ?_) ?_ ?_ ?_ ?_ ?_ ?_ (closed_first api i) ?_ ?_ rfl
      · rw [goto_other _ h]; rfl
      · rw [goto_same]; rfl
      · rw [goto_dirs, emit_dirs, setDir_dirs]; rfl
      · rfl
      · exact legal_snoc hi.legal hleg
      · intro d'; rfl
      · rfl
      · intro k n hn; simp at hn
      · intro k n hn; simp at hn
    refine hi.move hmv (SlotOk.plain ?_ ?_ ?_)
    · rw [goto_same]
      intro m hm
      exact (hi.mgrs q m hm).ext (hmv.extAll _)
    · rw [goto_same]
      simp only [JobOk]
      refine ⟨⟨nn, hu⟩, fun _ => ?_⟩
      have hx : (((w.setDir d fun _ => { w.dirs d with metas := [(0, createMeta U)] }).emit
          (.created d i)).goto q (.create d i .finish)).dirs d =
          { w.dirs d with metas := [(0, createMeta U)] } := by
        rw [goto_dirs, emit_dirs, setDir_dirs, dirsWith_same]
      rw [hx]
      refine { metaAt := ?_, sees := ?_, initial := hini, map := hmap, schema := rfl }
      · simp [MetaAt, createdMgr, createMeta]
      · intro k
        refine ⟨⟨freshBags Snn B SB k, ?_, Behind.refl _⟩, ?_⟩
        · simp only [hbags]
          exact upTo_three _ k
        · intro n hn
          simp [createdMgr, createMeta, namesOf] at hn
    · rw [goto_same]
      exact ⟨rfl, rfl, fun _ _ _ _ h => by simp at h⟩
  | finish =>
    simp only [Verif.SliceManager.stepCreate]
    exact ⟨R, hi.ret (hfin rfl)⟩

end Verif.SliceManager
