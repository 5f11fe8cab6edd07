import Verif.SliceManager.Steps3

/-
The invariant holds in every reachable world.
-/

namespace Verif.SliceManager

set_option linter.unusedSectionVars false

variable {I Sch Snn B SB U : Type} [DecidableEq Snn] {api : Api I Sch Snn B SB U}
  {w w' : World I Sch Snn B SB U} {R R' : Path → List (Rev U)} {q : Nat}

theorem ready_some {s : Slot I Sch Snn B SB U} {m : Mgr I Sch Snn B SB U} :
    s.ready = some m ↔ s.job = .idle ∧ s.mgr = some m := by
  unfold Slot.ready
  cases s.job <;> simp

theorem isNew_iff {s : Slot I Sch Snn B SB U} :
    s.isNew = true ↔ s.mgr = none ∧ s.job = .idle := by
  unfold Slot.isNew
  cases s.mgr with
  | none => cases s.job <;> simp
  | some m => simp

/-- The index is within the history, and normalised. -/
theorem branchIndex_lt {len : Nat} {i : Int} {j : Nat} (h : branchIndex len i = some j) :
    j < len := by
  unfold branchIndex at h
  by_cases hc : -(len : Int) ≤ i ∧ i < len
  · rw [if_pos hc] at h
    by_cases hn : i < 0
    · rw [if_pos hn] at h
      simp only [Option.some.injEq] at h
      omega
    · rw [if_neg hn] at h
      simp only [Option.some.injEq] at h
      omega
  · rw [if_neg hc] at h
    simp at h

/-- One step of any operation. -/
theorem Inv.stepJob (hi : Inv api w R) (q : Nat) : ∃ R', Inv api (stepJob api w q) R' := by
  cases hj : (w.slots q).job with
  | idle => exact ⟨R, by simp only [Verif.SliceManager.stepJob, hj]; exact hi⟩
  | create d i pc =>
    have := hi.stepCreate hj
    simp only [Verif.SliceManager.stepJob, hj]
    exact this
  | open1 d ro m => exact ⟨R, hi.stepOpen (.inl ⟨_, _, _, hj⟩)⟩
  | open2 d ro m i db => exact ⟨R, hi.stepOpen (.inr (.inl ⟨_, _, _, _, _, hj⟩))⟩
  | open3 d ro m i db sb s => exact ⟨R, hi.stepOpen (.inr (.inr (.inl ⟨_, _, _, _, _, _, _, hj⟩)))⟩
  | copy1 src => exact ⟨R, hi.stepOpen (.inr (.inr (.inr (.inl ⟨_, hj⟩))))⟩
  | copy2 src db => exact ⟨R, hi.stepOpen (.inr (.inr (.inr (.inr (.inl ⟨_, _, hj⟩)))))⟩
  | copy3 src db sb => exact ⟨R, hi.stepOpen (.inr (.inr (.inr (.inr (.inr ⟨_, _, _, hj⟩)))))⟩
  | update u p base pc =>
    cases hm : (w.slots q).mgr with
    | none => exact ⟨R, by simp only [Verif.SliceManager.stepJob, hj, hm]; exact hi⟩
    | some m =>
      simp only [Verif.SliceManager.stepJob, hj, hm]
      exact hi.stepUpdate hj hm
  | draw src i => exact ⟨R, hi.stepClaim (.inl ⟨_, _, hj⟩)⟩
  | claim src i s => exact ⟨R, hi.stepClaim (.inr ⟨_, _, _, hj⟩)⟩
  | branch src i d pc =>
    simp only [Verif.SliceManager.stepJob, hj]
    exact hi.stepBranch hj

/-- An update begins. -/
theorem Inv.beginUpdate (hi : Inv api w R) {m : Mgr I Sch Snn B SB U} {u : U} {p : Plan Snn B SB}
    (hm : (w.slots q).mgr = some m) (hro : m.readOnly = false)
    (hp : api.plan m.initial m.schema m.load u = some p) :
    Inv api (w.setSlot q fun s =>
      { s with job := .update u p s.seq (.bag .data), seq := s.seq + p.data.length + 2 }) R := by
  have hok := hi.mgrs q m hm
  obtain ⟨h, hget, hsh, _, _⟩ := hi.shows hok
  refine hi.move (q := q) (d0 := .user 0)
    (Move.slot hi (fun q' hq => setSlot_other w hq _) ?_ rfl rfl hi.legal _)
    (SlotOk.updating (u := u) (p := p) (base := (w.slots q).seq) (pc := .bag .data) ?_ ?_ ?_ ?_)
  · rw [setSlot_same]; simp only; omega
  · rw [setSlot_same]
  · rw [setSlot_same]; exact hi.mgrs q
  · rw [setSlot_same]
    simp only [JobOk]
    refine ⟨m, h, hm, ?_, fun hc => by simp at hc⟩
    refine { rw := hro, seq := Nat.le_refl _, at_ := hget, plan := ?_, did := ?_, todo := ?_ }
    · have h3 : m.load = h.view.load := funext hsh.2.2
      rw [← hsh.1, ← hsh.2.1, ← h3]
      exact hp
    · intro k hk
      cases k <;> simp [past] at hk
    · intro k _ n hn ho
      obtain ⟨⟨bd, h1, h2⟩, _⟩ := hok.sees k
      have := hi.fresh m.dir k n (by rw [h1]; exact namesIn_prefix h2.1 hn)
      rw [ho] at this
      exact this
  · rw [setSlot_same]
    intro m' hm' _
    refine ⟨?_, ?_⟩
    · intro d k n hn ho hb
      have := hi.fresh d k n hn
      rw [ho] at this
      omega
    · intro d k n hn ho
      have := hi.fresh d k n ((hi.dirs d).named k n hn)
      rw [ho] at this
      exact this

/-- Every action preserves the invariant. -/
theorem Inv.act (hi : Inv api w R) (a : Act I U) : ∃ R', Inv api (act api w a) R' := by
  cases a with
  | create q d i =>
    refine ⟨R, ?_⟩
    simp only [Verif.SliceManager.act]
    by_cases hn : (w.slots q).isNew = true
    · rw [if_pos hn]
      by_cases he : (w.dirs (.user d)).isEmpty = true
      · rw [if_pos he]
        refine hi.goto ?_ ⟨rfl, rfl, fun _ _ _ _ h => by simp at h⟩
        simp only [JobOk]
        exact ⟨⟨d, rfl⟩, fun h => by simp at h⟩
      · rw [if_neg he]; exact hi.raise
    · rw [if_neg hn]; exact hi
  | openAt q d at? ro =>
    refine ⟨R, ?_⟩
    simp only [Verif.SliceManager.act]
    by_cases hn : (w.slots q).isNew = true
    · rw [if_pos hn]
      cases hr : (w.dirs d).readMeta at? with
      | none => exact hi.raise
      | some m =>
        refine hi.goto ?_ ⟨rfl, rfl, fun _ _ _ _ h => by simp at h⟩
        simp only [JobOk]
        exact (hi.dirs d).readMeta_ok hr
    · rw [if_neg hn]; exact hi
  | update q u =>
    refine ⟨R, ?_⟩
    simp only [Verif.SliceManager.act]
    cases hr : (w.slots q).ready with
    | none => exact hi
    | some m =>
      simp only
      have hm := (ready_some.1 hr).2
      by_cases hro : m.readOnly = true
      · rw [if_pos hro]; exact hi.raise
      · rw [if_neg hro]
        cases hp : api.plan m.initial m.schema m.load u with
        | none => exact hi.raise
        | some p => exact hi.beginUpdate hm (by simpa using hro) hp
  | branch q src i out =>
    refine ⟨R, ?_⟩
    simp only [Verif.SliceManager.act]
    by_cases hn : (w.slots q).isNew = true
    · rw [if_pos hn]
      cases hr : (w.slots src).ready with
      | none => exact hi
      | some m =>
        simp only
        have hm := hi.mgrs src m (ready_some.1 hr).2
        cases hb : branchIndex m.meta_.revs.length i with
        | none => exact hi.raise
        | some j =>
          simp only
          have hj := branchIndex_lt hb
          cases out with
          | none =>
            refine hi.goto ?_ ⟨rfl, rfl, fun _ _ _ _ h => by simp at h⟩
            simp only [JobOk]
            exact ⟨hm, hj⟩
          | some d =>
            simp only
            by_cases he : (w.dirs (.user d)).isEmpty = true
            · rw [if_pos he]
              refine hi.goto ?_ ⟨rfl, rfl, fun _ _ _ _ h => by simp at h⟩
              simp only [JobOk]
              exact ⟨hm, hj⟩
            · rw [if_neg he]; exact hi.raise
    · rw [if_neg hn]; exact hi
  | copy q src =>
    refine ⟨R, ?_⟩
    simp only [Verif.SliceManager.act]
    by_cases hn : (w.slots q).isNew = true
    · rw [if_pos hn]
      cases hr : (w.slots src).ready with
      | none => exact hi
      | some m =>
        refine hi.goto ?_ ⟨rfl, rfl, fun _ _ _ _ h => by simp at h⟩
        simp only [JobOk]
        exact hi.mgrs src m (ready_some.1 hr).2
    · rw [if_neg hn]; exact hi
  | setReadOnly q =>
    refine ⟨R, ?_⟩
    simp only [Verif.SliceManager.act]
    cases hr : (w.slots q).ready with
    | none => exact hi
    | some m =>
      obtain ⟨hj, hm⟩ := ready_some.1 hr
      simp only
      refine hi.move (q := q) (d0 := .user 0)
        (Move.slot hi (fun q' h => setSlot_other w h _) ?_ rfl rfl hi.legal _)
        (SlotOk.plain ?_ ?_ ?_)
      · rw [setSlot_same]; exact Nat.le_refl _
      · rw [setSlot_same]
        intro m' hm'
        simp only [hm, Option.map_some, Option.some.injEq] at hm'
        subst hm'
        have := hi.mgrs q m hm
        exact { metaAt := this.metaAt, sees := this.sees, initial := this.initial, map := this.map, schema := this.schema }
      · rw [setSlot_same]
        simp [JobOk, hj]
      · rw [setSlot_same]
        simp only [hj]
        exact plain_idle
  | step q => exact hi.stepJob q
  | fail q =>
    refine ⟨R, ?_⟩
    simp only [Verif.SliceManager.act]
    cases (w.slots q).job <;> first | exact hi | exact hi.raise

theorem Inv.init (api : Api I Sch Snn B SB U) :
    Inv api (World.init I Sch Snn B SB U) fun _ => [] :=
  { dirs := fun d =>
      { metas := rfl
        infos := rfl
        there := fun h => absurd rfl h
        named := fun k n h => by simp [namesOf] at h
        closed := fun h hh => by simp [hist, World.init] at hh
        nodup := fun k => by simp [World.init, Dir.empty, bagsIn]
        blank := fun _ => ⟨rfl, fun _ => rfl, rfl⟩ }
    fresh := fun d k n h => by simp [World.init, Dir.empty, bagsIn] at h
    mgrs := fun q m h => by simp [World.init] at h
    jobs := fun q => by simp [World.init, JobOk]
    build := fun q b h => by simp [World.init, building] at h
    uniq := fun q q' b b' h => by simp [World.init, building] at h
    pend := fun q u p base pc m h => by simp [World.init] at h
    autoEmpty := fun p s _ => rfl
    autoIn := fun q p s h => by simp [World.init, autoTarget] at h
    autoUniq := fun q q' p s h => by simp [World.init, autoTarget] at h
    autoInit := fun q src i p s h => by simp [World.init] at h
    legal := fun pre e post h => by simp [World.init] at h }

theorem Inv.run (hi : Inv api w R) (as : List (Act I U)) : ∃ R', Inv api (run api w as) R' := by
  induction as generalizing w R with
  | nil => exact ⟨R, hi⟩
  | cons a as ih =>
    obtain ⟨R', h'⟩ := hi.act a
    exact ih h'

/-- Every reachable world satisfies the invariant. -/
theorem reach (api : Api I Sch Snn B SB U) (as : List (Act I U)) :
    ∃ R, Inv api (run api (World.init I Sch Snn B SB U) as) R := (Inv.init api).run as

end Verif.SliceManager
