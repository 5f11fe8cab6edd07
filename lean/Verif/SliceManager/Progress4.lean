import Verif.SliceManager.Progress3

/-
Interrupted updates that are tried again, read-only instances, and who writes to a directory.
-/

namespace Verif.SliceManager

set_option linter.unusedSectionVars false

variable {I Sch Snn B SB U : Type} [DecidableEq Snn] {api : Api I Sch Snn B SB U}
  {w w' : World I Sch Snn B SB U} {R R' : Path → List (Rev U)} {q : Nat}

/-! ### Trying again -/

/-- An update by an instance that is up to date, after `n` steps and before its commit. -/
def CurSt (q : Nat) (m0 : Mgr I Sch Snn B SB U) (log0 : List (Event I U)) (u : U) (n : Nat)
    (w : World I Sch Snn B SB U) : Prop :=
  ∃ m p base pc, (w.slots q).mgr = some m ∧ (∀ k, (w.dirs m.dir).bags k = some (m.bags k)) ∧
    m.dir = m0.dir ∧ m.meta_ = m0.meta_ ∧ m.readOnly = m0.readOnly ∧ w.log = log0 ∧
    (w.slots q).job = .update u p base pc ∧
    ((n = 0 ∧ pc = .bag .data) ∨ (n = 1 ∧ pc = .bag .schema) ∨ (n = 2 ∧ pc = .bag .snn) ∨
      (n = 3 ∧ pc = .check) ∨ (n = 4 ∧ pc = .rename))

theorem cur_step (hi : Inv api w R) {m0 : Mgr I Sch Snn B SB U} {log0 : List (Event I U)} {u : U}
    {n : Nat} (hlast : (hist api log0 m0.dir).length = m0.meta_.num + 1)
    (h : CurSt q m0 log0 u n w) (hn : n < 4) : CurSt q m0 log0 u (n + 1) (stepJob api w q) := by
  obtain ⟨m, p, base, pc, hm, hb, hd, hme, hro, hl, hj, hpc⟩ := h
  have hc : Current w R q m :=
    ⟨hm, hb, by rw [hd, hme, ← (hi.dirs m0.dir).len, hl, hlast]⟩
  have hbag : ∀ k, pc = .bag k → n + 1 ≤ 3 →
      ((n + 1 = 0 ∧ afterBag k = .bag .data) ∨ (n + 1 = 1 ∧ afterBag k = .bag .schema) ∨
        (n + 1 = 2 ∧ afterBag k = .bag .snn) ∨ (n + 1 = 3 ∧ afterBag k = .check) ∨
        (n + 1 = 4 ∧ afterBag k = .rename)) → CurSt q m0 log0 u (n + 1) (stepJob api w q) := by
    rintro k rfl _ hpc'
    obtain ⟨m', h1, h2, h3, h4, h5, h6⟩ := inv_update_bag hi hc hj
    have := h6 R rfl
    exact ⟨m', p, base, afterBag k, this.mgr, this.bags, h3.trans hd, h4.trans hme, h5.trans hro,
      h2.trans hl, h1, hpc'⟩
  rcases hpc with ⟨rfl, rfl⟩ | ⟨rfl, rfl⟩ | ⟨rfl, rfl⟩ | ⟨rfl, rfl⟩ | ⟨rfl, rfl⟩
  · exact hbag .data rfl (by omega) (by simp [afterBag])
  · exact hbag .schema rfl (by omega) (by simp [afterBag])
  · exact hbag .snn rfl (by omega) (by simp [afterBag])
  · have hmeta : ((w.dirs m.dir).metaAt (newMeta q m.meta_ u p base).num).isSome = false := by
      rw [hi.metaAt_isSome, hl, hd, hlast]
      simp [newMeta, hme]
    simp only [stepJob, hj, hm, stepUpdate, hmeta]
    refine ⟨m, p, base, .rename, by simp [goto_same, hm], ?_, hd, hme, hro, hl, ?_, by simp⟩
    · simp only [Bool.false_eq_true, if_false, goto_dirs]; exact hb
    · simp [goto_same]
  · omega

theorem cur_steps {m0 : Mgr I Sch Snn B SB U} {log0 : List (Event I U)} {u : U} (k n : Nat)
    (hi : Inv api w R) (hlast : (hist api log0 m0.dir).length = m0.meta_.num + 1)
    (h : CurSt q m0 log0 u n w) (hn : n + k ≤ 4) :
    ∃ R', Inv api (run api w (List.replicate k (.step q))) R' ∧
      CurSt q m0 log0 u (n + k) (run api w (List.replicate k (.step q))) := by
  induction k generalizing n w R with
  | zero => exact ⟨R, hi, h⟩
  | succ k ih =>
    obtain ⟨R', hi'⟩ := hi.stepJob q
    have := ih (n + 1) hi' (cur_step hi hlast h (by omega)) (by omega)
    rw [show n + (k + 1) = n + 1 + k by omega]
    exact this

/-- An instance that is idle and up to date. -/
def Fit (api : Api I Sch Snn B SB U) (q : Nat) (d : Path) (w : World I Sch Snn B SB U) : Prop :=
  ∃ m, (w.slots q).mgr = some m ∧ (w.slots q).job = .idle ∧ m.dir = d ∧ m.readOnly = false ∧
    (∀ k, (w.dirs d).bags k = some (m.bags k)) ∧
    (hist api w.log d).length = m.meta_.num + 1

/-- An attempt that was interrupted before its commit leaves the instance up to date, and nothing
else of it can be seen. -/
theorem fit_fail (hi : Inv api w R) {d : Path} {u : U} {k : Nat} (hk : k ≤ 4)
    (h : Fit api q d w) :
    Fit api q d (run api w (.update q u :: List.replicate k (.step q) ++ [.fail q])) ∧
      hist api (run api w (.update q u :: List.replicate k (.step q) ++ [.fail q])).log =
        hist api w.log := by
  obtain ⟨m, hm, hj, hd, hro, hb, hlast⟩ := h
  have hready : (w.slots q).ready = some m := ready_some.2 ⟨hj, hm⟩
  rw [List.cons_append, run_cons, run_append]
  cases hp : api.plan m.initial m.schema m.load u with
  | none =>
    have e0 : act api w (.update q u) = w.raise q := by
      simp only [act, hready, hro, hp]; simp
    have e1 : ∀ k, run api (w.raise q) (List.replicate k (.step q)) = w.raise q := by
      intro k
      induction k with
      | zero => rfl
      | succ k ih =>
        rw [List.replicate_succ, run_cons]
        have : act api (w.raise q) (.step q) = w.raise q := by
          simp only [act, stepJob, raise_slot]
        rw [this, ih]
    have e2 : run api (w.raise q) [.fail q] = w.raise q := by
      simp only [run, List.foldl, act, raise_slot]
    rw [e0, e1, e2]
    refine ⟨⟨m, by rw [raise_slot]; exact hm, by rw [raise_slot], hd, hro, ?_, ?_⟩, ?_⟩
    · exact hb
    · rw [raise_log, hist_snoc]; exact hlast
    · rw [raise_log, hist_snoc]; rfl
  | some p =>
    have e0 : act api w (.update q u) = w.setSlot q fun s =>
        { s with job := .update u p s.seq (.bag .data), seq := s.seq + p.data.length + 2 } := by
      simp only [act, hready, hro, hp]; simp
    obtain ⟨R0, hi0⟩ := hi.act (.update q u)
    have h0 : CurSt q m w.log u 0 (act api w (.update q u)) := by
      rw [e0]
      refine ⟨m, p, (w.slots q).seq, .bag .data, by rw [setSlot_same]; exact hm, ?_, rfl, rfl, rfl,
        rfl, by rw [setSlot_same], .inl ⟨rfl, rfl⟩⟩
      rw [setSlot_dirs, hd]; exact hb
    obtain ⟨R1, hi1, h1⟩ := cur_steps k 0 hi0 (by rw [hd]; exact hlast) h0 (by omega)
    generalize run api (act api w (.update q u)) (List.replicate k (.step q)) = w1 at *
    obtain ⟨m1, p1, base, pc, hm1, hb1, hd1, hme1, hro1, hl1, hj1, _⟩ := h1
    have e2 : run api w1 [.fail q] = w1.raise q := by
      simp only [run, List.foldl, act, hj1]
    rw [e2]
    refine ⟨⟨m1, by rw [raise_slot]; exact hm1, by rw [raise_slot], hd1.trans hd, hro1.trans hro,
      ?_, ?_⟩, ?_⟩
    · rw [← hd, ← hd1]; exact hb1
    · rw [raise_log, hist_snoc, hl1, hme1]; exact hlast
    · rw [raise_log, hist_snoc, hl1]; rfl

theorem fit_update (hi : Inv api w R) {d : Path} {u : U} {p : Plan Snn B SB}
    {r : Revision I Sch Snn B U} (h : Fit api q d w) (hr : (hist api w.log d).getLast? = some r)
    (hp : api.plan r.view.initial r.view.schema r.view.load u = some p) :
    Fit api q d (run api w (.update q u :: List.replicate 6 (.step q))) ∧
      ∃ names, (run api w (.update q u :: List.replicate 6 (.step q))).log =
        w.log ++ [.updated q d u names, .done q] := by
  obtain ⟨m, hm, hj, hd, hro, hb, hlast⟩ := h
  have hc : Current w R q m :=
    ⟨hm, by rw [hd]; exact hb, by rw [hd, ← (hi.dirs d).len, hlast]⟩
  obtain ⟨h, hh, hs, _⟩ := hi.shows (hi.mgrs q m hm)
  have : h = r := by
    rw [List.getLast?_eq_getElem?, hlast, Nat.add_sub_cancel] at hr
    rw [hd, hr] at hh
    simpa using hh.symm
  subst this
  have hl : (m.load : List Snn → Option (List B)) = h.view.load := funext hs.2.2
  have hp' : api.plan m.initial m.schema m.load u = some p := by
    rw [hl, hs.1, show m.schema = h.view.schema from hs.2.1]; exact hp
  obtain ⟨names, m', h1, h2, h3, h4, h5, h6, h7⟩ := inv_update_solo hi hc hj hro hp'
  refine ⟨⟨m', h3, h2, h4.trans hd, h5, ?_, ?_⟩, names, by rw [h1, hd]⟩
  · rw [← hd, ← h4]; exact h7
  · rw [h1, hd, show w.log ++ [Event.updated q d u names, .done q] =
      w.log ++ [.updated q d u names] ++ [.done q] by simp, hist_snoc, hist_snoc]
    simp only [applyEvent, if_pos, hr, Option.bind_some, View.update, hp, Option.map_some,
      Option.toList_some, List.length_append, List.length_singleton]
    rw [hlast, h6]

/-! ### Read-only instances -/

/-- An instance that is read-only and idle. -/
def Frozen (q : Nat) (m : Mgr I Sch Snn B SB U) (w : World I Sch Snn B SB U) : Prop :=
  (w.slots q).mgr = some m ∧ (w.slots q).job = .idle ∧ m.readOnly = true

theorem frozen_act {m : Mgr I Sch Snn B SB U} (a : Act I U) (h : Frozen q m w) :
    Frozen q m (act api w a) ∧ (a.who = q → (act api w a).dirs = w.dirs) ∧
      ∃ es, (act api w a).log = w.log ++ es ∧ ∀ e ∈ es, ¬ Commits q e := by
  by_cases ha : a.who = q
  · obtain ⟨hm, hj, hro⟩ := h
    have hnew : ¬ ((w.slots q).isNew = true) := by rw [isNew_iff, hm]; simp
    have hready : (w.slots q).ready = some m := ready_some.2 ⟨hj, hm⟩
    have hkeep : Frozen q m w ∧ (a.who = q → w.dirs = w.dirs) ∧
        ∃ es, w.log = w.log ++ es ∧ ∀ e ∈ es, ¬ Commits (I := I) (U := U) q e :=
      ⟨⟨hm, hj, hro⟩, fun _ => rfl, [], by simp, by simp⟩
    cases a with
    | create q' d' i => obtain rfl : q' = q := ha; simp only [act]; rw [if_neg hnew]; exact hkeep
    | openAt q' d' at? ro =>
      obtain rfl : q' = q := ha; simp only [act]; rw [if_neg hnew]; exact hkeep
    | branch q' src i out =>
      obtain rfl : q' = q := ha; simp only [act]; rw [if_neg hnew]; exact hkeep
    | copy q' src => obtain rfl : q' = q := ha; simp only [act]; rw [if_neg hnew]; exact hkeep
    | update q' u =>
      obtain rfl : q' = q := ha
      simp only [act, hready, hro, if_true]
      exact ⟨⟨by rw [raise_slot]; exact hm, by rw [raise_slot], hro⟩, fun _ => rfl, _, raise_log _,
        by simp [Commits]⟩
    | setReadOnly q' =>
      obtain rfl : q' = q := ha
      simp only [act, hready]
      refine ⟨⟨?_, by rw [setSlot_same]; exact hj, hro⟩, fun _ => rfl, [], by simp [World.setSlot],
        by simp⟩
      rw [setSlot_same]
      simp only [hm, Option.map_some]
      cases m
      simp_all
    | fail q' => obtain rfl : q' = q := ha; simp only [act, hj]; exact ⟨hkeep.1, fun _ => trivial, hkeep.2.2⟩
    | step q' =>
      obtain rfl : q' = q := ha; simp only [act, stepJob, hj]
      exact ⟨hkeep.1, fun _ => trivial, hkeep.2.2⟩
  · refine ⟨?_, fun h => absurd h ha, act_log_other ha commits_by⟩
    unfold Frozen
    rw [act_slot_other ha]
    exact h

theorem frozen_run {m : Mgr I Sch Snn B SB U} (as : List (Act I U)) (h : Frozen q m w) :
    Frozen q m (run api w as) ∧
      ∃ es, (run api w as).log = w.log ++ es ∧ ∀ e ∈ es, ¬ Commits q e := by
  induction as generalizing w with
  | nil => exact ⟨h, [], by simp [run], by simp⟩
  | cons a as ih =>
    obtain ⟨h1, _, es1, h2, h3⟩ := frozen_act (api := api) a h
    obtain ⟨h4, es2, h5, h6⟩ := ih h1
    refine ⟨h4, es1 ++ es2, by rw [run_cons, h5, h2, List.append_assoc], ?_⟩
    intro e he
    rcases List.mem_append.1 he with h | h
    · exact h3 e h
    · exact h6 e h

/-! ### Who writes -/

/-- The directory an operation in progress writes to. -/
def Writes (s : Slot I Sch Snn B SB U) (d : Path) : Prop :=
  match s.job with
  | .create d' _ _ => d' = d
  | .branch _ _ d' _ => d' = d
  | .claim src _ _ => src.dir = d
  | .update _ _ _ _ => ∃ m, s.mgr = some m ∧ m.dir = d
  | _ => False

theorem raise_dirs : (w.raise q).dirs = w.dirs := rfl

theorem return_dirs (m : Mgr I Sch Snn B SB U) : (w.return q m).dirs = w.dirs := rfl

theorem stepJob_dirs (d : Path) (h : ¬ Writes (w.slots q) d) :
    (stepJob api w q).dirs d = w.dirs d := by
  unfold Writes at h
  unfold stepJob
  cases hj : (w.slots q).job with
  | idle => rfl
  | create d' i pc =>
    rw [hj] at h
    have hd : d ≠ d' := fun e => h e.symm
    cases pc <;> simp only [stepCreate]
    case initial => split <;> simp [raise_dirs, goto_dirs, setDir_dirs, dirsWith_other _ _ hd]
    case bag k => split <;> simp [raise_dirs, goto_dirs, setDir_dirs, dirsWith_other _ _ hd]
    case map => simp [goto_dirs, setDir_dirs, dirsWith_other _ _ hd]
    case check => split <;> simp [raise_dirs, goto_dirs]
    case rename =>
      split <;> simp [raise_dirs, goto_dirs, emit_dirs, setDir_dirs, dirsWith_other _ _ hd]
    case finish => rfl
  | open1 d' ro m => simp only; split <;> rfl
  | open2 d' ro m i db => simp only; split <;> (try split) <;> rfl
  | open3 d' ro m i db sb s => simp only; split <;> rfl
  | copy1 src => simp only; split <;> rfl
  | copy2 src db => simp only; split <;> rfl
  | copy3 src db sb => simp only; split <;> rfl
  | draw src i => simp only; split <;> rfl
  | claim src i s =>
    rw [hj] at h
    have hd : d ≠ src.dir := fun e => h e.symm
    simp only
    split
    · rfl
    · simp [goto_dirs, setDir_dirs, dirsWith_other _ _ hd]
  | update u p base pc =>
    rw [hj] at h
    simp only
    cases hm : (w.slots q).mgr with
    | none => rfl
    | some m =>
      have hd : d ≠ m.dir := fun e => h ⟨m, hm, e.symm⟩
      cases pc <;> simp only [stepUpdate]
      case bag k =>
        split
        · rfl
        · split
          · rfl
          · simp [setSlot_dirs, setDir_dirs, dirsWith_other _ _ hd]
      case check => split <;> rfl
      case rename =>
        split
        · rfl
        · simp [goto_dirs, emit_dirs, setDir_dirs, dirsWith_other _ _ hd]
      case assign => rfl
  | branch src i d' pc =>
    rw [hj] at h
    have hd : d ≠ d' := fun e => h e.symm
    cases pc <;> simp only [stepBranch]
    case initial => split <;> simp [raise_dirs, goto_dirs, setDir_dirs, dirsWith_other _ _ hd]
    case map => simp [goto_dirs, setDir_dirs, dirsWith_other _ _ hd]
    case bag k =>
      split
      · rfl
      · split <;> simp [raise_dirs, goto_dirs, setDir_dirs, dirsWith_other _ _ hd]
    case check => split <;> rfl
    case rename =>
      split
      · split
        · simp [return_dirs, emit_dirs, setDir_dirs, dirsWith_other _ _ hd]
        · rfl
      · rfl

/-- Calling a method or interrupting it writes nothing. -/
theorem act_dirs (a : Act I U) (h : ∀ q, a ≠ .step q) : (act api w a).dirs = w.dirs := by
  cases a with
  | create q d i => simp only [act]; repeat' split
                    all_goals rfl
  | openAt q d at? ro => simp only [act]; repeat' split
                         all_goals rfl
  | update q u => simp only [act]; repeat' split
                  all_goals rfl
  | branch q src i out => simp only [act]; repeat' split
                          all_goals rfl
  | copy q src => simp only [act]; repeat' split
                  all_goals rfl
  | setReadOnly q => simp only [act]; repeat' split
                     all_goals rfl
  | fail q => simp only [act]; repeat' split
              all_goals rfl
  | step q => exact absurd rfl (h q)

/-- Nobody but managers of a directory that holds revisions writes to it, except for the names
claimed for its branches. -/
theorem writes_committed (hi : Inv api w R) {d : Path} (hR : R d ≠ [])
    (hw : Writes (w.slots q) d) :
    (∃ u p base pc m, (w.slots q).job = .update u p base pc ∧ (w.slots q).mgr = some m ∧
      m.dir = d) ∨
    ((stepJob api w q).log = w.log ∧ ∃ c, (stepJob api w q).dirs d = { w.dirs d with claimed := c }) ∨
    ((stepJob api w q).log = w.log ++ [.raised q] ∧ (stepJob api w q).dirs = w.dirs) ∨
    ((stepJob api w q).log = w.log ++ [.done q] ∧ (stepJob api w q).dirs = w.dirs) := by
  obtain ⟨⟨x, hx⟩, hnb, hna, _⟩ := hi.committed hR
  unfold Writes at hw
  cases hj : (w.slots q).job with
  | idle => simp [hj] at hw
  | open1 _ _ _ => simp [hj] at hw
  | open2 _ _ _ _ _ => simp [hj] at hw
  | open3 _ _ _ _ _ _ _ => simp [hj] at hw
  | copy1 _ => simp [hj] at hw
  | copy2 _ _ => simp [hj] at hw
  | copy3 _ _ _ => simp [hj] at hw
  | draw _ _ => simp [hj] at hw
  | update u p base pc =>
    rw [hj] at hw
    obtain ⟨m, hm, hd⟩ := hw
    exact .inl ⟨u, p, base, pc, m, rfl, hm, hd⟩
  | claim src i s =>
    rw [hj] at hw
    obtain rfl : src.dir = d := hw
    refine .inr (.inl ?_)
    simp only [stepJob, hj]
    split
    · exact ⟨rfl, _, rfl⟩
    · exact ⟨rfl, _, by rw [goto_dirs, setDir_dirs, dirsWith_same]⟩
  | create d' i pc =>
    rw [hj] at hw
    obtain rfl : d' = d := hw
    cases pc with
    | initial =>
      refine .inr (.inr (.inl ?_))
      simp only [stepJob, hj, stepCreate, hx, Option.isSome_some, if_true]
      exact ⟨rfl, rfl⟩
    | finish =>
      refine .inr (.inr (.inr ?_))
      simp only [stepJob, hj, stepCreate]
      exact ⟨rfl, rfl⟩
    | bag k =>
      cases k
      · exact absurd rfl (hnb q ⟨d', i, none, upTo (freshBags Snn B SB) 0⟩ (by rw [hj]; rfl))
      · exact absurd rfl (hnb q ⟨d', i, none, upTo (freshBags Snn B SB) 1⟩ (by rw [hj]; rfl))
      · exact absurd rfl (hnb q ⟨d', i, some (initMap api.nodes (api.schemaOf i)),
          upTo (freshBags Snn B SB) 2⟩ (by rw [hj]; rfl))
    | map => exact absurd rfl (hnb q ⟨d', i, none, upTo (freshBags Snn B SB) 2⟩ (by rw [hj]; rfl))
    | check => exact absurd rfl (hnb q ⟨d', i, some (initMap api.nodes (api.schemaOf i)),
        upTo (freshBags Snn B SB) 3⟩ (by rw [hj]; rfl))
    | rename => exact absurd rfl (hnb q ⟨d', i, some (initMap api.nodes (api.schemaOf i)),
        upTo (freshBags Snn B SB) 3⟩ (by rw [hj]; rfl))
  | branch src i d' pc =>
    rw [hj] at hw
    obtain rfl : d' = d := hw
    cases pc with
    | initial =>
      refine .inr (.inr (.inl ?_))
      simp only [stepJob, hj, stepBranch, hx, Option.isSome_some, if_true]
      exact ⟨rfl, rfl⟩
    | bag k =>
      cases k
      · exact absurd rfl (hnb q ⟨d', src.initial, some src.map, upTo (branchBags src i) 0⟩
          (by rw [hj]; rfl))
      · exact absurd rfl (hnb q ⟨d', src.initial, some src.map, upTo (branchBags src i) 1⟩
          (by rw [hj]; rfl))
      · exact absurd rfl (hnb q ⟨d', src.initial, some src.map, upTo (branchBags src i) 2⟩
          (by rw [hj]; rfl))
    | map => exact absurd rfl (hnb q ⟨d', src.initial, none, upTo (branchBags src i) 0⟩
        (by rw [hj]; rfl))
    | check => exact absurd rfl (hnb q ⟨d', src.initial, some src.map, upTo (branchBags src i) 3⟩
        (by rw [hj]; rfl))
    | rename => exact absurd rfl (hnb q ⟨d', src.initial, some src.map, upTo (branchBags src i) 3⟩
        (by rw [hj]; rfl))

/-- A step of an update that changes the log is its commit, on top of the revision its manager
shows, or it ends the update. -/
theorem update_commit (hi : Inv api w R) {u : U} {p : Plan Snn B SB} {base : Nat} {pc : UpdatePc}
    {m : Mgr I Sch Snn B SB U} (hj : (w.slots q).job = .update u p base pc)
    (hm : (w.slots q).mgr = some m) :
    hist api (stepJob api w q).log = hist api w.log ∨
      (m.meta_.num + 1 = (hist api w.log m.dir).length ∧
       ∃ names, (stepJob api w q).log = w.log ++ [.updated q m.dir u names]) := by
  have hraise : hist api (w.raise q).log = hist api w.log := by rw [raise_log, hist_snoc]; rfl
  simp only [stepJob, hj, hm]
  cases pc with
  | bag k =>
    simp only [stepUpdate]
    split
    · exact .inl hraise
    · split
      · exact .inl hraise
      · exact .inl rfl
  | check =>
    simp only [stepUpdate]
    split
    · exact .inl hraise
    · exact .inl rfl
  | rename =>
    simp only [stepUpdate]
    split
    · exact .inl hraise
    · rename_i x hx
      refine .inr ⟨?_, _, rfl⟩
      have h1 : ((w.dirs m.dir).metaAt (newMeta q m.meta_ u p base).num).isSome = false := by
        unfold Dir.commit at hx
        split at hx
        · simp at hx
        · rename_i h; rw [h]; rfl
      rw [hi.metaAt_isSome] at h1
      have h2 := (hi.mgrs q m hm).metaAt.1
      rw [← (hi.dirs m.dir).len] at h2
      have h1 := of_decide_eq_false h1
      simp only [newMeta] at h1
      omega
  | assign => exact .inl (by simp only [stepUpdate]; rw [return_log, hist_snoc]; rfl)

end Verif.SliceManager
