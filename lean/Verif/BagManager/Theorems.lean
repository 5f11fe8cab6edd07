import Verif.BagManager.Run

/-!
Properties C08-C12 of the bag manager.

`run atomic acts` is the state and the list of observed events after the schedule
`acts`. All theorems need one of two assumptions: the rename of the file system is
atomic, or the schedule is serial (a later process acts only when the earlier ones
have stopped, at any point). The first covers concurrent writers, the second crashes
and restarts on the default file system, whose rename is not atomic.
-/
namespace Verif.BagManager

set_option linter.unusedSectionVars false

variable {D N X B : Type} [DecidableEq D] [DecidableEq N]

/-! ### C08 -/

/-- Whenever a directory is opened, at any point of any schedule, it shows exactly
the last committed version, every bag readable and with the content that was given. -/
theorem C08_reopen_sees_committed_state (atomic : Bool) (acts : List (Act D N X B))
    (hs : atomic = true ∨ Serial acts) (d : D) :
    opened (run atomic acts).1.fs d =
      (replay (run atomic acts).2 d).getLast?.map fun es => es.map some :=
  opened_eq (inv_run atomic acts hs).1 d

/-- Every single step leaves what is seen in all directories unchanged, or it is the
commit point of one call: then all bags of an add appear at once. -/
theorem C08_each_step_is_all_or_nothing (atomic : Bool) (acts : List (Act D N X B))
    (a : Act D N X B) (hs : atomic = true ∨ Serial (acts ++ [a])) :
    let s := (run atomic acts).1
    let r := step atomic s a
    (∀ d, opened r.1.fs d = opened s.fs d) ∨
    ∃ p d n why, r.2 = some (.committed p d n why) ∧
      (∀ d', d' ≠ d → opened r.1.fs d' = opened s.fs d') ∧
      match why with
      | .create => opened s.fs d = none ∧ opened r.1.fs d = some []
      | .branch .. => opened s.fs d = none ∧ (opened r.1.fs d).isSome
      | .add adds => ∃ es, opened s.fs d = some es ∧
          opened r.1.fs d = some (es ++ adds.map fun x => some x.entry) := by
  intro s r
  have hs' : atomic = true ∨ Serial acts := hs.imp id fun h => (List.pairwise_append.1 h).1
  have h1 := inv_run atomic acts hs'
  have h2 := inv_run atomic (acts ++ [a]) hs
  have o1 := opened_eq h1.1
  have o2 := opened_eq h2.1
  rw [run_snoc] at h2 o2
  simp only [replay_append_toList] at o2
  have hl : LegalOpt (replay (run atomic acts).2) r.2 := by
    cases he : r.2 with
    | none => trivial
    | some e =>
      have h3 := h2.2
      simp only at h3
      have he' : (step atomic (run atomic acts).1 a).2 = some e := he
      rw [he'] at h3
      exact h3.init.2
  have o1' : ∀ d, opened s.fs d = _ := o1
  have o2' : ∀ d, opened r.1.fs d =
    (applyOpt (replay (run atomic acts).2) r.2 d).getLast?.map fun es => es.map some := o2
  cases he : r.2 with
  | none => left; intro d; rw [o2', o1', he]; rfl
  | some e =>
    rw [he] at hl o2'
    cases e with
    | returned p => left; intro d; rw [o2', o1']; rfl
    | raised p => left; intro d; rw [o2', o1']; rfl
    | loaded p b c => left; intro d; rw [o2', o1']; rfl
    | committed p d n why =>
      right
      refine ⟨p, d, n, why, rfl, ?_, ?_⟩
      · intro d' hne
        rw [o2', o1']
        cases why <;> simp [applyOpt, applyEvent, push, hne]
      · cases why with
        | create =>
          have hl' : n = 0 ∧ replay (run atomic acts).2 d = [] := hl
          simp only [o2', o1', applyOpt, applyEvent, push, hl'.2]
          exact ⟨rfl, rfl⟩
        | branch src ver ns wd =>
          have hl' : replay (run atomic acts).2 d = [] := hl.2.1
          simp only [o2', o1', applyOpt, applyEvent, push, hl']
          exact ⟨rfl, rfl⟩
        | add adds =>
          have hl' : n = (replay (run atomic acts).2 d).length ∧ n ≠ 0 := ⟨hl.1, hl.2.1⟩
          have hne : replay (run atomic acts).2 d ≠ [] := by
            intro e; rw [e] at hl'; exact hl'.2 (by simpa using hl'.1)
          simp only [o2', o1', applyOpt, applyEvent, push, if_true]
          cases hg : (replay (run atomic acts).2 d).getLast? with
          | none => exact absurd (List.getLast?_eq_none_iff.1 hg) hne
          | some es =>
            refine ⟨es.map some, rfl, ?_⟩
            simp [latest, hg, List.map_map, Function.comp_def]

/-- When `add_bags` returns, its bags are committed, directly after the version that
the manager was at before. -/
theorem C08_returned_add_is_committed (atomic : Bool) (acts : List (Act D N X B))
    (hs : atomic = true ∨ Serial acts) {p : Nat} {d : D} {new : Metadata D N X}
    {adds : List (ToAdd N X B)} {stage : Stage}
    (hjob : ((run atomic acts).1.procs p).job = .persist d new (.add adds) stage)
    (hret : (step atomic (run atomic acts).1 (.advance p)).2 = some (.returned p)) :
    ∃ m es, ((run atomic acts).1.procs p).mgr = some (d, m) ∧ new.num = m.num + 1 ∧
      (replay (run atomic acts).2 d)[m.num]? = some es ∧
      (replay (run atomic acts).2 d)[m.num + 1]? = some (es ++ adds.map ToAdd.entry) := by
  obtain ⟨i, _⟩ := inv_run atomic acts hs
  have hpo := i.proc p
  unfold ProcOk at hpo
  rw [hjob] at hpo
  obtain ⟨hm, ⟨m, u, es, h1, h2, h3, h4, h5⟩, hst⟩ := hpo
  rw [h1] at hm
  obtain ⟨es0, h6, h7⟩ := hm
  rw [h3] at h6; injection h6 with h6; subst h6
  cases stage with
  | committed =>
    obtain ⟨es', h8, h9⟩ := hst
    have hr := h7.added u adds h5
    rw [← h2] at hr
    have : es' = es ++ adds.map ToAdd.entry := map_some_inj (h9.symm.trans hr)
    have hn : new.num = m.num + 1 := by rw [h2]; rfl
    refine ⟨m, es, h1, hn, h3, ?_⟩
    rw [← hn, h8, this]
  | check => simp only [step, hjob] at hret; split at hret <;> simp at hret
  | tempStart v => simp [step, hjob] at hret
  | tempPartial v => simp [step, hjob] at hret
  | tempDone v =>
    simp only [step, hjob] at hret
    split at hret
    · simp at hret
    · split at hret
      · unfold commitRename at hret; split at hret <;> simp at hret
      · simp at hret
  | renameChecked v =>
    simp only [step, hjob] at hret
    unfold commitRename at hret; split at hret <;> simp at hret

/-! ### C09 -/

/-- The commits to each directory form one linear history: update numbers are
consecutive and every add extends the version committed just before it, for which
it is valid. -/
theorem C09_commits_form_a_linear_history (atomic : Bool) (acts : List (Act D N X B))
    (hs : atomic = true ∨ Serial acts) (ev1 : List (Event D N X B)) (e : Event D N X B)
    (ev2 : List (Event D N X B)) (h : (run atomic acts).2 = ev1 ++ e :: ev2) :
    Legal (replay ev1) e :=
  (inv_run atomic acts hs).2 ev1 e ev2 h

theorem length_replay_mono {evs : List (Event D N X B)} (d : D) (e : Event D N X B) :
    (replay evs d).length ≤ (replay (evs ++ [e]) d).length := by
  rw [replay_snoc]
  cases e with
  | committed p d' n why =>
    cases why <;> simp only [applyEvent] <;> exact (push_pref _ _ _ _).length_le
  | _ => exact Nat.le_refl _

theorem length_replay_append (evs evs' : List (Event D N X B)) (d : D) :
    (replay evs d).length ≤ (replay (evs ++ evs') d).length := by
  induction evs' using snoc_induction with
  | h0 => simp
  | h1 l a ih =>
    rw [← List.append_assoc]
    exact Nat.le_trans ih (length_replay_mono d a)

theorem legal_number {h : Hist D N X B} {p n : Nat} {d : D} {why : Why D N X B}
    (hl : Legal h (.committed p d n why)) :
    n = (h d).length ∧ (applyEvent h (.committed p d n why) d).length = n + 1 := by
  cases why with
  | create => obtain ⟨h1, h2⟩ := hl; simp [applyEvent, push, h1, h2]
  | branch src ver ns wd => obtain ⟨h1, h2, _⟩ := hl; simp [applyEvent, push, h1, h2]
  | add adds => obtain ⟨h1, _⟩ := hl; simp [applyEvent, push, h1]

/-- At most one writer succeeds for each update number of a directory. -/
theorem C09_one_winner_per_update_number (atomic : Bool) (acts : List (Act D N X B))
    (hs : atomic = true ∨ Serial acts) {i j p p' n : Nat} {d : D} {why why' : Why D N X B}
    (hi : (run atomic acts).2[i]? = some (.committed p d n why))
    (hj : (run atomic acts).2[j]? = some (.committed p' d n why')) : i = j := by
  have hl := (inv_run atomic acts hs).2
  have key : ∀ {i j p p' : Nat} {why why' : Why D N X B}, i < j →
      (run atomic acts).2[i]? = some (.committed p d n why) →
      (run atomic acts).2[j]? = some (.committed p' d n why') → False := by
    intro i j p p' why why' hij hi hj
    obtain ⟨hi', hie⟩ := List.getElem?_eq_some_iff.1 hi
    obtain ⟨hj', hje⟩ := List.getElem?_eq_some_iff.1 hj
    have ei : (run atomic acts).2 = (run atomic acts).2.take i ++ (.committed p d n why) ::
        (run atomic acts).2.drop (i + 1) := by
      rw [← hie]; simp
    have ej : (run atomic acts).2 = (run atomic acts).2.take j ++ (.committed p' d n why') ::
        (run atomic acts).2.drop (j + 1) := by
      rw [← hje]; simp
    have li := legal_number (hl _ _ _ ei)
    have lj := legal_number (hl _ _ _ ej)
    have e2 : ((run atomic acts).2.take i ++ [Event.committed p d n why]) ++
        ((run atomic acts).2.drop (i + 1)).take (j - (i + 1)) = (run atomic acts).2.take j := by
      have : (run atomic acts).2.take i ++ [Event.committed p d n why] =
          (run atomic acts).2.take (i + 1) := by
        rw [← hie]; simp
      rw [this]
      have := List.take_add (l := (run atomic acts).2) (i := i + 1) (j := j - (i + 1))
      rw [← this]
      congr 1
      omega
    have hm := length_replay_append ((run atomic acts).2.take i ++ [Event.committed p d n why])
      (((run atomic acts).2.drop (i + 1)).take (j - (i + 1))) d
    rw [e2, replay_snoc, li.2] at hm
    omega
  rcases Nat.lt_trichotomy i j with h | h | h
  · exact (key h hi hj).elim
  · exact h
  · exact (key h hj hi).elim

/-- `k` steps of process `p`. -/
def advances (atomic : Bool) (p : Nat) : Nat → Sys D N X B → Sys D N X B × List (Event D N X B)
  | 0, s => (s, [])
  | k + 1, s =>
    let r := step atomic s (.advance p)
    let r' := advances atomic p k r.1
    (r'.1, r.2.toList ++ r'.2)

/-- A writer whose update number was taken by somebody else raises, and does nothing
else. -/
theorem C09_loser_raises (acts : List (Act D N X B)) {p : Nat} {d : D}
    {new : Metadata D N X} {why : Why D N X B} {stage : Stage}
    (hjob : ((run true acts).1.procs p).job = .persist d new why stage)
    (hst : stage ≠ .committed)
    (htaken : new.num < (replay (run true acts).2 d).length) :
    ∃ k, (advances true p k (run true acts).1).2 = [.raised p] ∧
      ((advances true p k (run true acts).1).1.procs p).job = .idle := by
  obtain ⟨i, _⟩ := inv_run true acts (Or.inl rfl)
  have htk : (PyDict.get? (run true acts).1.fs (d, Name.metaFile new.num)).isSome = true := by
    obtain ⟨m, h1, _⟩ := i.glob.present d new.num (replay (run true acts).2 d)[new.num]
      (by simp [htaken])
    rw [h1]; rfl
  have hser := i.serial
  generalize (run true acts).1 = s at *
  have hset : ∀ (fs : Fs D N X B) u f, (PyDict.get? fs (d, Name.metaFile new.num)).isSome = true →
      (PyDict.get? (PyDict.set fs (d, Name.metaTemp new.num u) f)
        (d, Name.metaFile new.num)).isSome = true := by
    intro fs u f hh
    rw [PyDict.get?_set_ne _ (by simp)]; exact hh
  -- from `tempDone` and `check` it raises at once
  have hdone : ∀ (s : Sys D N X B) u, (s.procs p).job = .persist d new why (.tempDone u) →
      (PyDict.get? s.fs (d, Name.metaFile new.num)).isSome = true →
      (advances true p 1 s).2 = [.raised p] ∧ ((advances true p 1 s).1.procs p).job = .idle := by
    intro s u hj ht
    simp [advances, step, hj, ht, setProc]
  have hpart : ∀ (s : Sys D N X B) u, (s.procs p).job = .persist d new why (.tempPartial u) →
      (PyDict.get? s.fs (d, Name.metaFile new.num)).isSome = true →
      (advances true p 2 s).2 = [.raised p] ∧ ((advances true p 2 s).1.procs p).job = .idle := by
    intro s u hj ht
    rw [advances]
    simp only [step, hj]
    have := hdone (setProc { s with fs := PyDict.set s.fs (d, Name.metaTemp new.num u) (.md new) } p
      { s.procs p with job := .persist d new why (.tempDone u) }) u (by simp [setProc])
      (by simp only [setProc]; exact hset s.fs u _ ht)
    simpa using this
  have hstart : ∀ (s : Sys D N X B) u, (s.procs p).job = .persist d new why (.tempStart u) →
      (PyDict.get? s.fs (d, Name.metaFile new.num)).isSome = true →
      (advances true p 3 s).2 = [.raised p] ∧ ((advances true p 3 s).1.procs p).job = .idle := by
    intro s u hj ht
    rw [advances]
    simp only [step, hj]
    have := hpart (setProc { s with fs := PyDict.set s.fs (d, Name.metaTemp new.num u) .partialFile }
      p { s.procs p with job := .persist d new why (.tempPartial u) }) u (by simp [setProc])
      (by simp only [setProc]; exact hset s.fs u _ ht)
    simpa using this
  cases stage with
  | check => exact ⟨1, by simp [advances, step, hjob, htk, setProc]⟩
  | tempStart u => exact ⟨3, hstart s u hjob htk⟩
  | tempPartial u => exact ⟨2, hpart s u hjob htk⟩
  | tempDone u => exact ⟨1, hdone s u hjob htk⟩
  | renameChecked u =>
    rcases hser with ⟨_, h2⟩ | ⟨h1, _⟩
    · exact absurd hjob (h2 p d new why u)
    · simp at h1
  | committed => exact absurd rfl hst

/-- A manager that is not at the latest version never commits an add. -/
theorem C09_stale_manager_never_commits (atomic : Bool) (acts : List (Act D N X B))
    (a : Act D N X B) (hs : atomic = true ∨ Serial (acts ++ [a])) {p : Nat} {d : D}
    {m : Metadata D N X} (hm : ((run atomic acts).1.procs p).mgr = some (d, m))
    (hstale : m.num + 1 < (replay (run atomic acts).2 d).length)
    (d' : D) (n : Nat) (adds : List (ToAdd N X B)) :
    (step atomic (run atomic acts).1 a).2 ≠ some (.committed p d' n (.add adds)) := by
  intro hc
  have hs' : atomic = true ∨ Serial acts := hs.imp id fun h => (List.pairwise_append.1 h).1
  obtain ⟨i, _⟩ := inv_run atomic acts hs'
  have hl : Legal (replay (run atomic acts).2) (.committed p d' n (.add adds)) := by
    have h2 := (inv_run atomic (acts ++ [a]) hs).2
    rw [run_snoc, hc] at h2
    exact h2.init.2
  obtain ⟨hn, _⟩ := legal_number hl
  -- the committing process is `p`, and its job is this add
  have key : ∃ new stage, ((run atomic acts).1.procs p).job = .persist d' new (.add adds) stage ∧
      new.num = n := by
    cases a with
    | advance q =>
      simp only [step] at hc
      cases hjob : ((run atomic acts).1.procs q).job with
      | idle => rw [hjob] at hc; simp at hc
      | writing adds' u todo inflight =>
        rw [hjob] at hc
        cases todo <;> cases inflight <;> simp only [] at hc
        · cases hq : ((run atomic acts).1.procs q).mgr with
          | none => rw [hq] at hc; simp at hc
          | some dm => rw [hq] at hc; simp at hc
        all_goals simp at hc
      | persist d0 new why stage =>
        rw [hjob] at hc
        have hcm : ∀ u, (commitRename (run atomic acts).1 q d0 new why u).2 =
            some (.committed p d' n (.add adds)) → q = p ∧ d0 = d' ∧ new.num = n ∧
              why = .add adds := by
          intro u hcu
          unfold commitRename at hcu
          split at hcu
          · simp at hcu
          · simpa using hcu
        cases stage with
        | check => simp only [] at hc; split at hc <;> simp at hc
        | tempStart u => simp at hc
        | tempPartial u => simp at hc
        | tempDone u =>
          simp only [] at hc
          split at hc
          · simp at hc
          · split at hc
            · obtain ⟨rfl, rfl, e3, rfl⟩ := hcm u hc
              exact ⟨new, _, hjob, e3⟩
            · simp at hc
        | renameChecked u =>
          simp only [] at hc
          obtain ⟨rfl, rfl, e3, rfl⟩ := hcm u hc
          exact ⟨new, _, hjob, e3⟩
        | committed => simp only [] at hc; cases why <;> simp at hc
    | _ =>
      exfalso
      simp only [step] at hc
      repeat' split at hc
      all_goals simp at hc
  obtain ⟨new, stage, hjob, hnum⟩ := key
  have hpo := i.proc p
  unfold ProcOk at hpo
  rw [hjob, hm] at hpo
  obtain ⟨_, ⟨m', u, es, h1, h2, h3, _⟩, _⟩ := hpo
  injection h1 with h1
  injection h1 with e1 e2
  subst e1; subst e2
  rw [h2] at hnum
  simp only [addedMeta] at hnum
  omega

/-! ### C10 -/

open Classical in
/-- The bags of a version that are needed for a request, in the order of adding. -/
noncomputable def neededEntries (es : List (Entry N X B)) (ns : List N) (wd : Bool) :
    List (Entry N X B) := es.filter fun e => Needed es ns wd e.name

theorem needed_known {es : List (Entry N X B)} (hwf : WellFormed es) {ns : List N} {wd : Bool}
    (hk : ∀ x ∈ ns, ∃ e ∈ es, e.name = x) {x : N} (hx : Needed es ns wd x) :
    ∃ e ∈ es, e.name = x := by
  obtain ⟨q, hq, t, ht, hdep⟩ := hx
  have ht' : ∃ e ∈ es, e.name = t := by
    rcases ht with rfl | ⟨_, ht⟩
    · exact hk _ hq
    · cases ht with
      | refl => exact hk _ hq
      | step h1 _ _ => exact ⟨_, h1, rfl⟩
  clear ht
  induction hdep with
  | refl => exact ht'
  | step g1 g2 _ ih => exact ih (hwf.deps_mem g1 g2)

theorem nodup_map_inj {α β : Type} {f : α → β} {l : List α} (h : (l.map f).Nodup) {a b : α}
    (ha : a ∈ l) (hb : b ∈ l) (e : f a = f b) : a = b := by
  induction l with
  | nil => simp at ha
  | cons x xs ih =>
    simp only [List.map_cons, List.nodup_cons] at h
    rcases List.mem_cons.1 ha with ea | ha' <;> rcases List.mem_cons.1 hb with eb | hb'
    · rw [ea, eb]
    · exact absurd (List.mem_map.2 ⟨b, hb', by rw [← e, ea]⟩) h.1
    · exact absurd (List.mem_map.2 ⟨a, ha', by rw [e, eb]⟩) h.1
    · exact ih h.2 ha' hb'

/-- What was loaded: exactly the needed bags. -/
def LoadedOk (es : List (Entry N X B)) (ns : List N) (wd : Bool) (r : List (N × B)) : Prop :=
  (r.map (·.1)).Nodup ∧
  ∀ x b, (x, b) ∈ r ↔ ∃ e ∈ es, e.name = x ∧ e.content = b ∧ Needed es ns wd x

theorem find_loaded {es : List (Entry N X B)} {ns : List N} {wd : Bool} {r : List (N × B)}
    (hr : LoadedOk es ns wd r) {e : Entry N X B} (he : e ∈ es) (hn : Needed es ns wd e.name) :
    (r.find? fun p => p.1 = e.name) = some (e.name, e.content) := by
  have hmem := (hr.2 e.name e.content).2 ⟨e, he, rfl, rfl, hn⟩
  have hnd := hr.1
  clear hr
  induction r with
  | nil => simp at hmem
  | cons p ps ih =>
    simp only [List.map_cons, List.nodup_cons] at hnd
    rcases List.mem_cons.1 hmem with rfl | hmem
    · simp
    · have : p.1 ≠ e.name := by
        intro h
        exact hnd.1 (h ▸ List.mem_map.2 ⟨_, hmem, rfl⟩)
      simp only [List.find?_cons, this, decide_false]
      exact ih hmem hnd.2

theorem topoSort_loaded {m : Metadata D N X} {es : List (Entry N X B)} (hg : SameGraph m es)
    (hwf : WellFormed es) {ns : List N} {wd : Bool} {r : List (N × B)}
    (hr : LoadedOk es ns wd r) :
    topoSort m (r.map (·.1)) = .ok ((neededEntries es ns wd).map (·.name)) := by
  have nd : (names m).Nodup := by rw [hg.names]; exact hwf.1
  rw [topoSort_spec nd hr.1]
  · congr 1
    rw [hg.names, neededEntries, List.filter_map]
    congr 1
    apply List.filter_congr
    intro e he
    simp only [Function.comp_def, decide_eq_decide]
    constructor
    · intro hx
      obtain ⟨⟨x, b⟩, hp, hpx⟩ := List.mem_map.1 hx
      obtain ⟨_, _, _, _, hn⟩ := (hr.2 x b).1 hp
      simp only at hpx
      rw [← hpx]; exact hn
    · intro hn
      exact List.mem_map.2 ⟨_, (hr.2 e.name e.content).2 ⟨e, he, rfl, rfl, hn⟩, rfl⟩
  · intro x hx
    obtain ⟨⟨y, b⟩, hp, rfl⟩ := List.mem_map.1 hx
    obtain ⟨e, he, hn, _⟩ := (hr.2 y b).1 hp
    rw [hg.names]
    exact List.mem_map.2 ⟨e, he, hn⟩

/-- `load_bags` / `get_minimal_bag`: unknown names raise; otherwise exactly the needed
bags are loaded, each once and with its content, and they are merged in the order of
adding. Cached contents are never different from those on disk. -/
theorem C10_load_exactly_the_needed_bags (atomic : Bool) (acts : List (Act D N X B))
    (hs : atomic = true ∨ Serial acts) {p : Nat} {d : D} {m : Metadata D N X}
    (hidle : ((run atomic acts).1.procs p).job = .idle)
    (hm : ((run atomic acts).1.procs p).mgr = some (d, m))
    (ns : List N) (wd : Bool) (pick : Nat → Nat) :
    ∃ es, (replay (run atomic acts).2 d)[m.num]? = some es ∧
      (((∃ x ∈ ns, ∀ e ∈ es, e.name ≠ x) ∧
        step atomic (run atomic acts).1 (.load p ns wd pick) =
          ((run atomic acts).1, some (.raised p))) ∨
       ((∀ x ∈ ns, ∃ e ∈ es, e.name = x) ∧ ∃ r,
        (step atomic (run atomic acts).1 (.load p ns wd pick)).2 =
          some (.loaded p r ((neededEntries es ns wd).map (·.content))) ∧
        LoadedOk es ns wd r)) := by
  obtain ⟨es, h1, h2, hwf⟩ := mgr_version hs hm
  obtain ⟨i, _⟩ := inv_run atomic acts hs
  refine ⟨es, h1, ?_⟩
  simp only [step, hidle, hm]
  rcases depClosure_spec h2.sameGraph hwf ns wd pick with ⟨hk, hd⟩ | ⟨hk, keep, hd, hnd, hmem⟩
  · left; rw [hd]; exact ⟨hk, rfl⟩
  · right
    refine ⟨hk, ?_⟩
    rw [hd]
    simp only []
    have hkeep : ∀ x ∈ keep, ∃ e ∈ es, e.name = x := fun x hx =>
      needed_known hwf hk ((hmem x).1 hx)
    obtain ⟨r, c', g1, g2, g3, g4⟩ := loadExactly_spec h2 hwf.1 keep
      (run atomic acts).1.cache hkeep i.glob.cacheOk
    rw [g1]
    simp only []
    have hlo : LoadedOk es ns wd r := by
      refine ⟨by rw [g3]; exact hnd, fun x b => ⟨fun hp => ?_, ?_⟩⟩
      · obtain ⟨e, he, hn, hc⟩ := g4 _ hp
        refine ⟨e, he, hn, hc, ?_⟩
        rw [← hmem, ← g3]
        exact List.mem_map.2 ⟨_, hp, rfl⟩
      · rintro ⟨e, he, hn, hc, hx⟩
        have hx' := (hmem x).2 hx
        rw [← g3] at hx'
        obtain ⟨⟨y, b'⟩, hp, hy⟩ := List.mem_map.1 hx'
        simp only at hy
        subst hy
        obtain ⟨e', he', hn', hc'⟩ := g4 _ hp
        have : e' = e := nodup_map_inj hwf.1 he' he (by rw [hn', hn])
        subst this
        rw [← hc, hc']; exact hp
    have hsb : singleBagArgs m r = .ok ((neededEntries es ns wd).map (·.content)) := by
      unfold singleBagArgs
      rw [topoSort_loaded h2.sameGraph hwf hlo]
      simp only []
      congr 1
      rw [List.filterMap_map]
      have : ∀ l : List (Entry N X B), (∀ e ∈ l, e ∈ es ∧ Needed es ns wd e.name) →
          l.filterMap ((fun x => (r.find? fun p => p.1 = x).map (·.2)) ∘ (·.name)) =
            l.map (·.content) := by
        intro l
        induction l with
        | nil => intro _; rfl
        | cons a as ih =>
          intro hl
          have ha := hl a (by simp)
          simp only [List.filterMap_cons, Function.comp_def, find_loaded hlo ha.1 ha.2,
            Option.map_some, List.map_cons]
          congr 1
          exact ih fun e he => hl e (List.mem_cons_of_mem _ he)
      apply this
      intro e he
      unfold neededEntries at he
      simpa using List.mem_filter.1 he
    rw [hsb]
    exact ⟨r, rfl, hlo⟩

/-- The merge order respects dependencies: each merged bag comes after the bags it
depends on, all of which are merged. -/
theorem C10_dependencies_first (atomic : Bool) (acts : List (Act D N X B))
    (hs : atomic = true ∨ Serial acts) (d : D) (n : Nat) (es : List (Entry N X B))
    (h : (replay (run atomic acts).2 d)[n]? = some es) (ns : List N) (wd : Bool) :
    WellFormed (neededEntries es ns wd) := by
  obtain ⟨i, _⟩ := inv_run atomic acts hs
  refine (i.glob.wf _ _ _ h).filter _ ?_
  intro e he hP f _ hfd
  simp only [decide_eq_true_eq] at hP ⊢
  exact Needed.closed he hP hfd

/-- `extract_bags` passes exactly the needed bags, dependencies first, to the new
manager, which accepts them. Custom metadata is dropped. -/
theorem C10_extract_adds_exactly_the_needed_bags (atomic : Bool) (acts : List (Act D N X B))
    (hs : atomic = true ∨ Serial acts) {p : Nat} {d : D} {m : Metadata D N X}
    (hm : ((run atomic acts).1.procs p).mgr = some (d, m)) {es : List (Entry N X B)}
    (hes : (replay (run atomic acts).2 d)[m.num]? = some es)
    {ns : List N} {wd : Bool} {r : List (N × B)} (hr : LoadedOk es ns wd r) :
    ∃ adds, extractAdds m r = .ok adds ∧ Valid ([] : List (Entry N X B)) adds ∧
      adds.map ToAdd.entry = (neededEntries es ns wd).map fun e => { e with custom := none } := by
  obtain ⟨es', h1, h2, hwf⟩ := mgr_version hs hm
  rw [hes] at h1; injection h1 with h1; subst h1
  refine ⟨(neededEntries es ns wd).map fun e => ⟨e.name, e.content, e.deps, none⟩, ?_, ?_, ?_⟩
  · unfold extractAdds
    rw [topoSort_loaded h2.sameGraph hwf hr]
    simp only []
    congr 1
    rw [List.filterMap_map]
    have : ∀ l : List (Entry N X B), (∀ e ∈ l, e ∈ es ∧ Needed es ns wd e.name) →
        l.filterMap ((fun x => match (r.find? fun p => p.1 = x), depRel m x with
          | some p, some deps =>
            some ({ name := x, bag := p.2, deps := deps, custom := none } : ToAdd N X B)
          | _, _ => none) ∘ (·.name)) =
          l.map fun e => ⟨e.name, e.content, e.deps, none⟩ := by
      intro l
      induction l with
      | nil => intro _; rfl
      | cons a as ih =>
        intro hl
        have ha := hl a (by simp)
        have nd : (names m).Nodup := by rw [h2.sameGraph.names]; exact hwf.1
        have hd : depRel m a.name = some a.deps :=
          (depRel_some_iff nd _ _).2 ((h2.sameGraph.mem _ _).2 ⟨a, ha.1, rfl, rfl⟩)
        simp only [List.filterMap_cons, Function.comp_def, find_loaded hr ha.1 ha.2, hd,
          List.map_cons]
        congr 1
        exact ih fun e he => hl e (List.mem_cons_of_mem _ he)
    apply this
    intro e he
    unfold neededEntries at he
    simpa using List.mem_filter.1 he
  · have hwf' := C10_dependencies_first atomic acts hs d m.num es hes ns wd
    intro k a ha
    rw [List.getElem?_map] at ha
    obtain ⟨e, he, rfl⟩ := Option.map_eq_some_iff.1 ha
    refine ⟨by simp, ?_, ?_⟩
    · intro j b hj hb
      rw [List.getElem?_map] at hb
      obtain ⟨f, hf, rfl⟩ := Option.map_eq_some_iff.1 hb
      have h3 := hwf'.1
      rw [List.nodup_iff_pairwise_ne, List.pairwise_iff_getElem] at h3
      obtain ⟨hk', rfl⟩ := List.getElem?_eq_some_iff.1 he
      obtain ⟨hj', rfl⟩ := List.getElem?_eq_some_iff.1 hf
      have := h3 j k (by simp [hj']) (by simp [hk']) hj
      simpa using this
    · intro y hy
      obtain ⟨j, f, hj, hf, hn⟩ := hwf'.2 k e he y hy
      exact Or.inr ⟨j, _, hj, by rw [List.getElem?_map, hf]; rfl, hn⟩
  · rw [List.map_map]; rfl

/-! ### C11 -/

/-- The bags that were added to directory `d` by the given events. -/
def addedTo (d : D) (evs : List (Event D N X B)) : List (Entry N X B) :=
  evs.flatMap fun
    | .committed _ d' _ (.add adds) => if d' = d then adds.map ToAdd.entry else []
    | _ => []

theorem latest_after {ev1 ev2 : List (Event D N X B)} {d : D} (hl : AllLegal (ev1 ++ ev2))
    (hne : replay ev1 d ≠ []) :
    replay (ev1 ++ ev2) d ≠ [] ∧
    latest (replay (ev1 ++ ev2) d) = latest (replay ev1 d) ++ addedTo d ev2 := by
  induction ev2 using snoc_induction with
  | h0 => simp [addedTo, hne]
  | h1 l e ih =>
    rw [← List.append_assoc] at hl ⊢
    obtain ⟨hl1, hl2⟩ := hl.init
    obtain ⟨ih1, ih2⟩ := ih hl1
    have hadd : addedTo d (l ++ [e]) = addedTo d l ++ addedTo d [e] := by
      simp [addedTo]
    rw [replay_snoc, hadd, ← List.append_assoc, ← ih2]
    cases e with
    | returned p => exact ⟨ih1, by simp [addedTo, applyEvent]⟩
    | raised p => exact ⟨ih1, by simp [addedTo, applyEvent]⟩
    | loaded p b c => exact ⟨ih1, by simp [addedTo, applyEvent]⟩
    | committed p d' n why =>
      by_cases hd : d' = d
      · subst hd
        cases why with
        | create => exact absurd hl2.2 ih1
        | branch src ver ns wd => exact absurd hl2.2.1 ih1
        | add adds => simp [applyEvent, push, latest, addedTo]
      · have hd' : ¬ d = d' := fun h => hd h.symm
        cases why <;> simp [applyEvent, push, hd', addedTo, hd, ih1]

/-- A branch offers exactly the needed bags of the version it was made from, and from
then on the branch only changes by adds to the branch, the original only by adds to
the original. -/
theorem C11_branch_faithful_and_isolated (atomic : Bool) (acts : List (Act D N X B))
    (hs : atomic = true ∨ Serial acts) {ev1 ev2 : List (Event D N X B)} {p n ver : Nat}
    {src out : D} {ns : List N} {wd : Bool}
    (hev : (run atomic acts).2 = ev1 ++ .committed p out n (.branch src ver ns wd) :: ev2) :
    ∃ es, (replay ev1 src)[ver]? = some es ∧ out ≠ src ∧
      opened (run atomic acts).1.fs out =
        some ((neededEntries es ns wd ++ addedTo out ev2).map some) ∧
      opened (run atomic acts).1.fs src =
        some ((latest (replay ev1 src) ++ addedTo src ev2).map some) := by
  obtain ⟨i, hl⟩ := inv_run atomic acts hs
  obtain ⟨h1, h2, es, h3, h4⟩ := hl _ _ _ hev
  have hne : replay ev1 src ≠ [] := by intro e; rw [e] at h3; simp at h3
  have hos : out ≠ src := by intro e; subst e; exact hne h2
  have hev' : (run atomic acts).2 =
      (ev1 ++ [.committed p out n (.branch src ver ns wd)]) ++ ev2 := by rw [hev]; simp
  have hout : replay (ev1 ++ [.committed p out n (.branch src ver ns wd)]) out =
      [neededEntries es ns wd] := by
    rw [replay_snoc]
    have hg : (replay ev1 src).getD ver [] = es := by simp [List.getD, h3]
    simp only [applyEvent, push, if_true, h2, List.nil_append]
    rw [hg]; rfl
  have hsrc : replay (ev1 ++ [.committed p out n (.branch src ver ns wd)]) src =
      replay ev1 src := by
    rw [replay_snoc]
    have hso : ¬ src = out := fun h => hos h.symm
    simp only [applyEvent, push, hso, if_false]
  rw [hev'] at hl
  have key : ∀ d, replay (ev1 ++ [Event.committed p out n (.branch src ver ns wd)]) d ≠ [] →
      opened (run atomic acts).1.fs d =
        some ((latest (replay (ev1 ++ [Event.committed p out n (.branch src ver ns wd)]) d) ++
          addedTo d ev2).map some) := by
    intro d hd
    obtain ⟨k1, k2⟩ := latest_after hl hd
    rw [opened_eq i d, hev', ← k2]
    unfold latest
    generalize replay _ d = vs at k1
    cases hg : vs.getLast? with
    | none => exact absurd (List.getLast?_eq_none_iff.1 hg) k1
    | some x => rfl
  refine ⟨es, h3, hos, ?_, ?_⟩
  · rw [key out (by rw [hout]; simp), hout]; rfl
  · rw [key src (by rw [hsrc]; exact hne), hsrc]

/-! ### C12 -/

/-- In every version names are unique and dependencies refer to earlier bags. -/
theorem C12_always_well_formed (atomic : Bool) (acts : List (Act D N X B))
    (hs : atomic = true ∨ Serial acts) (d : D) (n : Nat) (es : List (Entry N X B))
    (h : (replay (run atomic acts).2 d)[n]? = some es) : WellFormed es :=
  (inv_run atomic acts hs).1.glob.wf d n es h

/-- Later versions extend earlier ones. -/
theorem C12_versions_only_grow (atomic : Bool) (acts : List (Act D N X B))
    (hs : atomic = true ∨ Serial acts) (d : D) {i j : Nat} (hij : i ≤ j)
    {es es' : List (Entry N X B)}
    (hi : (replay (run atomic acts).2 d)[i]? = some es)
    (hj : (replay (run atomic acts).2 d)[j]? = some es') : es <+: es' :=
  hist_prefix (inv_run atomic acts hs).2 d i j es es' hij hi hj

/-- `add_bags` raises at once, without any effect, exactly when a name is not new or
a dependency is not an earlier bag of the manager's version. -/
theorem C12_add_rejected_iff_invalid (atomic : Bool) (acts : List (Act D N X B))
    (hs : atomic = true ∨ Serial acts) {p : Nat} {d : D} {m : Metadata D N X}
    (hidle : ((run atomic acts).1.procs p).job = .idle)
    (hm : ((run atomic acts).1.procs p).mgr = some (d, m)) (adds : List (ToAdd N X B)) :
    ∃ es, (replay (run atomic acts).2 d)[m.num]? = some es ∧
      (Valid es adds ∧ (step atomic (run atomic acts).1 (.startAdd p adds)).2 = none ∨
       ¬ Valid es adds ∧ step atomic (run atomic acts).1 (.startAdd p adds) =
          ((run atomic acts).1, some (.raised p))) := by
  obtain ⟨es, h1, h2, _⟩ := mgr_version hs hm
  refine ⟨es, h1, ?_⟩
  simp only [step, hidle, hm]
  rw [h2.sameGraph.names, valid_iff_validN]
  rcases validate_iff (es.map (·.name)) adds with ⟨hv, hv'⟩ | ⟨hv, hv'⟩
  · left; rw [hv]; exact ⟨hv', rfl⟩
  · right; rw [hv]; exact ⟨hv', rfl⟩

end Verif.BagManager
