import Verif.BagManager.Theorems

/-! C08, continued: an add that nobody disturbs succeeds. -/
namespace Verif.BagManager

set_option linter.unusedSectionVars false

variable {D N X B : Type} [DecidableEq D] [DecidableEq N]

/-- A schedule from a given state. -/
def runFrom (atomic : Bool) : Sys D N X B → List (Act D N X B) →
    Sys D N X B × List (Event D N X B)
  | s, [] => (s, [])
  | s, a :: as =>
    let r := step atomic s a
    let r' := runFrom atomic r.1 as
    (r'.1, r.2.toList ++ r'.2)

theorem run_append (atomic : Bool) (acts acts' : List (Act D N X B)) :
    (run atomic (acts ++ acts')).2 =
      (run atomic acts).2 ++ (runFrom atomic (run atomic acts).1 acts').2 := by
  induction acts' generalizing acts with
  | nil => simp [runFrom]
  | cons a as ih =>
    have := ih (acts ++ [a])
    rw [List.append_assoc] at this
    simp only [List.cons_append, List.nil_append] at this
    rw [this, run_snoc]
    simp [runFrom]

theorem runFrom_append (atomic : Bool) (s : Sys D N X B) (acts acts' : List (Act D N X B)) :
    runFrom atomic s (acts ++ acts') =
      ((runFrom atomic (runFrom atomic s acts).1 acts').1,
       (runFrom atomic s acts).2 ++ (runFrom atomic (runFrom atomic s acts).1 acts').2) := by
  induction acts generalizing s with
  | nil => simp [runFrom]
  | cons a as ih => simp [runFrom, ih]

/-- Write the bag files one after the other. -/
def writes (p : Nat) : Nat → List (Act D N X B)
  | 0 => []
  | k + 1 => .startWrite p 0 :: .finishWrite p 0 :: writes p k

theorem runFrom_writes (atomic : Bool) (p : Nat) (adds : List (ToAdd N X B)) (u : Nat) (d : D)
    (m : Metadata D N X) (n : Nat) : ∀ (todo : List (Nat × B)) (s : Sys D N X B),
      (s.procs p).job = .writing adds u todo [] → (s.procs p).mgr = some (d, m) →
      PyDict.get? s.fs (d, .metaFile n) = none →
      (runFrom atomic s (writes p todo.length)).2 = [] ∧
      ((runFrom atomic s (writes p todo.length)).1.procs p).job = .writing adds u [] [] ∧
      ((runFrom atomic s (writes p todo.length)).1.procs p).mgr = some (d, m) ∧
      PyDict.get? (runFrom atomic s (writes p todo.length)).1.fs (d, .metaFile n) = none := by
  intro todo
  induction todo with
  | nil => intro s h1 h2 h3; exact ⟨rfl, h1, h2, h3⟩
  | cons t ts ih =>
    intro s h1 h2 h3
    obtain ⟨i, b⟩ := t
    have := ih (step atomic (step atomic s (.startWrite p 0)).1 (.finishWrite p 0)).1
      (by simp [step, h1, h2, setProc]) (by simp [step, h1, h2, setProc])
      (by
        simp only [step, h1, h2, setProc, List.getElem?_cons_zero, if_true, List.nil_append]
        rw [PyDict.get?_set_ne _ (by simp), PyDict.get?_set_ne _ (by simp)]
        exact h3)
    have e1 : (step atomic s (.startWrite p 0)).2 = none := by simp [step, h1, h2]
    have e2 : (step atomic (step atomic s (.startWrite p 0)).1 (.finishWrite p 0)).2 = none := by
      simp [step, h1, h2, setProc]
    simp only [List.length_cons, writes, runFrom, e1, e2, Option.toList_none, List.nil_append]
    exact this

/-- One step of a process that persists metadata whose number is free. -/
theorem runFrom_persist (atomic : Bool) (p : Nat) (d : D) (new : Metadata D N X)
    (why : Why D N X B) :
    (∀ s : Sys D N X B, (s.procs p).job = .persist d new why .committed →
      (runFrom atomic s [.advance p]).2 = [.returned p] ∧
      ((runFrom atomic s [.advance p]).1.procs p).job = .idle) ∧
    (∀ (s : Sys D N X B) (u : Nat), (s.procs p).job = .persist d new why (.tempDone u) →
      PyDict.get? s.fs (d, .metaFile new.num) = none →
      PyDict.get? s.fs (d, .metaTemp new.num u) = some (.md new) →
      ∃ k, (runFrom atomic s (List.replicate k (.advance p))).2 =
        [.committed p d new.num why] ∧
      ((runFrom atomic s (List.replicate k (.advance p))).1.procs p).job =
        .persist d new why .committed) ∧
    (∀ s : Sys D N X B, (s.procs p).job = .persist d new why .check →
      PyDict.get? s.fs (d, .metaFile new.num) = none →
      ∃ u, (runFrom atomic s (List.replicate 3 (.advance p))).2 = [] ∧
      ((runFrom atomic s (List.replicate 3 (.advance p))).1.procs p).job =
        .persist d new why (.tempDone u) ∧
      PyDict.get? (runFrom atomic s (List.replicate 3 (.advance p))).1.fs (d, .metaFile new.num) =
        none ∧
      PyDict.get? (runFrom atomic s (List.replicate 3 (.advance p))).1.fs (d, .metaTemp new.num u) =
        some (.md new)) := by
  refine ⟨?_, ?_, ?_⟩
  · intro s h; cases why <;> simp [runFrom, step, h, setProc]
  · intro s u h1 h2 h3
    cases atomic with
    | true => exact ⟨1, by simp [runFrom, step, h1, h2, h3, setProc, commitRename]⟩
    | false => exact ⟨2, by simp [List.replicate, runFrom, step, h1, h2, h3, setProc, commitRename]⟩
  · intro s h1 h2
    refine ⟨s.nextUuid, ?_⟩
    have hne : ((d, Name.metaFile new.num) : D × Name) ≠ (d, .metaTemp new.num s.nextUuid) := by
      simp
    simp [List.replicate, runFrom, step, h1, h2, setProc, PyDict.get?_set_self,
      PyDict.get?_set_ne _ hne]

theorem runFrom_commit (atomic : Bool) (p : Nat) (adds : List (ToAdd N X B)) (u : Nat) (d : D)
    (m : Metadata D N X) (s : Sys D N X B)
    (h1 : (s.procs p).job = .writing adds u [] []) (h2 : (s.procs p).mgr = some (d, m))
    (h3 : PyDict.get? s.fs (d, .metaFile (m.num + 1)) = none) :
    ∃ k, (runFrom atomic s (List.replicate k (.advance p))).2 =
      [.committed p d (m.num + 1) (.add adds), .returned p] := by
  obtain ⟨r1, r2, r3⟩ := runFrom_persist atomic p d (addedMeta m u adds) (.add adds)
  have e1 : (runFrom atomic s [.advance p]).2 = [] ∧
      ((runFrom atomic s [.advance p]).1.procs p).job =
        .persist d (addedMeta m u adds) (.add adds) .check ∧
      PyDict.get? (runFrom atomic s [.advance p]).1.fs (d, .metaFile (m.num + 1)) = none := by
    simp [runFrom, step, h1, h2, h3, setProc]
  obtain ⟨v, g1, g2, g3, g4⟩ := r3 _ e1.2.1 e1.2.2
  obtain ⟨k, f1, f2⟩ := r2 _ v g2 g3 g4
  obtain ⟨q1, _⟩ := r1 _ f2
  refine ⟨1 + (3 + (k + 1)), ?_⟩
  rw [← List.replicate_append_replicate, runFrom_append, ← List.replicate_append_replicate,
    runFrom_append, ← List.replicate_append_replicate,
    runFrom_append]
  simp only [List.replicate_one]
  rw [e1.1, g1, f1, q1]
  rfl

/-- If the manager is at the latest version of its directory and the bags are valid,
`add_bags` commits and returns when nobody else interferes. -/
theorem C08_undisturbed_add_succeeds (atomic : Bool) (acts : List (Act D N X B))
    (hs : atomic = true ∨ Serial acts) {p : Nat} {d : D} {m : Metadata D N X}
    (hidle : ((run atomic acts).1.procs p).job = .idle)
    (hm : ((run atomic acts).1.procs p).mgr = some (d, m))
    (hlatest : m.num + 1 = (replay (run atomic acts).2 d).length)
    {es : List (Entry N X B)} (hes : (replay (run atomic acts).2 d)[m.num]? = some es)
    (adds : List (ToAdd N X B)) (hv : Valid es adds) :
    ∃ script : List (Act D N X B), (∀ a ∈ script, a.pid = p) ∧
      (run atomic (acts ++ .startAdd p adds :: script)).2 =
        (run atomic acts).2 ++ [.committed p d (m.num + 1) (.add adds), .returned p] := by
  obtain ⟨i, _⟩ := inv_run atomic acts hs
  have hno := i.glob.absent d (m.num + 1) (by omega)
  obtain ⟨es', h1, h2, _⟩ := mgr_version hs hm
  rw [hes] at h1; injection h1 with h1; subst h1
  have hval : validate (names m) adds = .ok () := by
    rw [h2.sameGraph.names]; exact (validate_ok_iff es adds).2 hv
  have key : ∃ k, (runFrom atomic (run atomic acts).1
      (.startAdd p adds :: (writes p adds.length ++ List.replicate k (.advance p)))).2 =
      [.committed p d (m.num + 1) (.add adds), .returned p] := by
    generalize (run atomic acts).1 = s at *
    have e0 : (step atomic s (.startAdd p adds)).2 = none := by simp [step, hidle, hm, hval]
    have e1 : ((step atomic s (.startAdd p adds)).1.procs p).job =
        .writing adds s.nextUuid (adds.mapIdx fun i a => (i, a.bag)) [] := by
      simp [step, hidle, hm, hval, setProc]
    have e2 : ((step atomic s (.startAdd p adds)).1.procs p).mgr = some (d, m) := by
      simp [step, hidle, hm, hval, setProc]
    have e3 : PyDict.get? (step atomic s (.startAdd p adds)).1.fs (d, .metaFile (m.num + 1)) =
        none := by
      simp [step, hidle, hm, hval, setProc, hno]
    obtain ⟨s1, hs1⟩ : ∃ s1, s1 = (step atomic s (.startAdd p adds)).1 := ⟨_, rfl⟩
    rw [← hs1] at e1 e2 e3
    have ew := runFrom_writes atomic p adds s.nextUuid d m (m.num + 1)
      (adds.mapIdx fun i a => (i, a.bag)) s1 e1 e2 e3
    rw [List.length_mapIdx] at ew
    obtain ⟨w1, w2, w3, w4⟩ := ew
    obtain ⟨k, hk⟩ := runFrom_commit atomic p adds s.nextUuid d m _ w2 w3 w4
    refine ⟨k, ?_⟩
    rw [runFrom, e0, ← hs1, runFrom_append, w1, hk]
    rfl
  obtain ⟨k, key⟩ := key
  refine ⟨writes p adds.length ++ List.replicate k (.advance p), ?_, ?_⟩
  · intro a ha
    rcases List.mem_append.1 ha with h | h
    · generalize adds.length = k at h
      induction k with
      | zero => simp [writes] at h
      | succ k ih =>
        simp only [writes, List.mem_cons] at h
        rcases h with rfl | rfl | h
        · rfl
        · rfl
        · exact ih h
    · rw [List.mem_replicate] at h; rw [h.2]; rfl
  · rw [run_append, key]

/-- The persisting of metadata under a free number commits and returns. -/
theorem runFrom_persist_all (atomic : Bool) (p : Nat) (d : D) (new : Metadata D N X)
    (why : Why D N X B) (s : Sys D N X B) (h1 : (s.procs p).job = .persist d new why .check)
    (h2 : PyDict.get? s.fs (d, .metaFile new.num) = none) :
    ∃ k, (runFrom atomic s (List.replicate k (.advance p))).2 =
      [.committed p d new.num why, .returned p] := by
  obtain ⟨r1, r2, r3⟩ := runFrom_persist atomic p d new why
  obtain ⟨v, g1, g2, g3, g4⟩ := r3 _ h1 h2
  obtain ⟨k, f1, f2⟩ := r2 _ v g2 g3 g4
  obtain ⟨q1, _⟩ := r1 _ f2
  refine ⟨3 + (k + 1), ?_⟩
  rw [← List.replicate_append_replicate,
    runFrom_append, ← List.replicate_append_replicate,
    runFrom_append]
  simp only [List.replicate_one]
  rw [g1, f1, q1]
  rfl

/-- Directory `d` has no file. -/
def Empty (fs : Fs D N X B) (d : D) : Prop := ∀ nm, PyDict.get? fs (d, nm) = none

theorem dirNonEmpty_iff (fs : Fs D N X B) (d : D) : dirNonEmpty fs d = false ↔ Empty fs d := by
  unfold dirNonEmpty Empty
  rw [List.any_eq_false]
  constructor
  · intro h nm
    rw [PyDict.get?_none_iff]
    intro hm
    obtain ⟨f, hf, he⟩ := List.mem_map.1 hm
    have := h f hf
    rw [he] at this
    simp at this
  · intro h f hf he
    have hd : f.1.1 = d := by simpa using he
    have := h f.1.2
    rw [PyDict.get?_none_iff] at this
    exact this (List.mem_map.2 ⟨f, hf, by rw [← hd]⟩)

/-- `create_new` raises without any effect in a directory that has files; otherwise it
commits an empty manager and returns when nobody interferes. -/
theorem C08_create_needs_empty_directory (atomic : Bool) (acts : List (Act D N X B))
    {p : Nat} (hidle : ((run atomic acts).1.procs p).job = .idle) (d : D) :
    (¬ Empty (run atomic acts).1.fs d ∧ step atomic (run atomic acts).1 (.startCreate p d) =
      ((run atomic acts).1, some (.raised p))) ∨
    (Empty (run atomic acts).1.fs d ∧ ∃ script : List (Act D N X B), (∀ a ∈ script, a.pid = p) ∧
      (run atomic (acts ++ .startCreate p d :: script)).2 =
        (run atomic acts).2 ++ [.committed p d 0 .create, .returned p]) := by
  cases hd : dirNonEmpty (run atomic acts).1.fs d with
  | true =>
    left
    refine ⟨fun he => ?_, by simp [step, hidle, hd]⟩
    rw [(dirNonEmpty_iff _ _).2 he] at hd
    cases hd
  | false =>
    right
    have he := (dirNonEmpty_iff _ _).1 hd
    refine ⟨he, ?_⟩
    have e0 : (step atomic (run atomic acts).1 (.startCreate p d)).2 = none := by
      simp [step, hidle, hd]
    obtain ⟨k, hk⟩ := runFrom_persist_all atomic p d { num := 0, bags := [] } .create
      (step atomic (run atomic acts).1 (.startCreate p d)).1
      (by simp [step, hidle, hd, setProc])
      (by simp only [step, hidle, hd, setProc, Bool.false_eq_true, if_false]; exact he _)
    refine ⟨List.replicate k (.advance p), ?_, ?_⟩
    · intro a ha; rw [List.mem_replicate] at ha; rw [ha.2]; rfl
    · rw [run_append, runFrom, e0, hk]; rfl

/-- `create_branch` raises without any effect if a name is not a bag of the manager's
version or the output directory has files; otherwise it commits the branch and returns
when nobody interferes. -/
theorem C11_branch_needs_known_names_and_empty_directory (atomic : Bool)
    (acts : List (Act D N X B)) (hs : atomic = true ∨ Serial acts) {p : Nat} {d : D}
    {m : Metadata D N X} (hidle : ((run atomic acts).1.procs p).job = .idle)
    (hm : ((run atomic acts).1.procs p).mgr = some (d, m))
    (ns : List N) (wd : Bool) (out : D) (pick : Nat → Nat) :
    ∃ es, (replay (run atomic acts).2 d)[m.num]? = some es ∧
    ((((∃ x ∈ ns, ∀ e ∈ es, e.name ≠ x) ∨ ¬ Empty (run atomic acts).1.fs out) ∧
      step atomic (run atomic acts).1 (.startBranch p ns wd out pick) =
        ((run atomic acts).1, some (.raised p))) ∨
    ((∀ x ∈ ns, ∃ e ∈ es, e.name = x) ∧ Empty (run atomic acts).1.fs out ∧
      ∃ script : List (Act D N X B), (∀ a ∈ script, a.pid = p) ∧
      (run atomic (acts ++ .startBranch p ns wd out pick :: script)).2 =
        (run atomic acts).2 ++
          [.committed p out 0 (.branch d m.num ns wd), .returned p])) := by
  obtain ⟨es, h1, h2, hwf⟩ := mgr_version hs hm
  refine ⟨es, h1, ?_⟩
  rcases depClosure_spec h2.sameGraph hwf ns wd pick with ⟨hx, hc⟩ | ⟨hx, keep, hc, _⟩
  · left
    exact ⟨Or.inl hx, by simp [step, hidle, hm, hc]⟩
  · cases hd : dirNonEmpty (run atomic acts).1.fs out with
    | true =>
      left
      refine ⟨Or.inr fun he => ?_, by simp [step, hidle, hm, hc, hd]⟩
      rw [(dirNonEmpty_iff _ _).2 he] at hd
      cases hd
    | false =>
      right
      have he := (dirNonEmpty_iff _ _).1 hd
      refine ⟨hx, he, ?_⟩
      have e0 : (step atomic (run atomic acts).1 (.startBranch p ns wd out pick)).2 = none := by
        simp [step, hidle, hm, hc, hd]
      obtain ⟨k, hk⟩ := runFrom_persist_all atomic p out (branchMeta d m keep)
        (.branch d m.num ns wd)
        (step atomic (run atomic acts).1 (.startBranch p ns wd out pick)).1
        (by simp [step, hidle, hm, hc, hd, setProc])
        (by simp only [step, hidle, hm, hc, hd, setProc, Bool.false_eq_true, if_false]; exact he _)
      refine ⟨List.replicate k (.advance p), ?_, ?_⟩
      · intro a ha; rw [List.mem_replicate] at ha; rw [ha.2]; rfl
      · rw [run_append, runFrom, e0, hk]; rfl

/-- `create_from_dir` returns a manager at the latest committed version, and raises
without any effect exactly if nothing was committed in the directory. -/
theorem C08_open_gives_the_latest_version (atomic : Bool) (acts : List (Act D N X B))
    (hs : atomic = true ∨ Serial acts) {p : Nat}
    (hidle : ((run atomic acts).1.procs p).job = .idle) (d : D) :
    (replay (run atomic acts).2 d = [] ∧ step atomic (run atomic acts).1 (.openDir p d) =
      ((run atomic acts).1, some (.raised p))) ∨
    (∃ m, m.num + 1 = (replay (run atomic acts).2 d).length ∧
      (step atomic (run atomic acts).1 (.openDir p d)).2 = some (.returned p) ∧
      ((step atomic (run atomic acts).1 (.openDir p d)).1.procs p).mgr = some (d, m) ∧
      (step atomic (run atomic acts).1 (.openDir p d)).1.fs = (run atomic acts).1.fs) := by
  have ho := C08_reopen_sees_committed_state atomic acts hs d
  cases hc : createFromDir (run atomic acts).1.fs d with
  | none =>
    left
    unfold opened at ho
    rw [hc] at ho
    refine ⟨?_, by simp [step, hidle, hc]⟩
    cases hr : replay (run atomic acts).2 d with
    | nil => rfl
    | cons a as =>
      rw [hr, List.getLast?_eq_some_getLast (by simp)] at ho
      simp at ho
  | some m =>
    right
    have hst : (step atomic (run atomic acts).1 (.openDir p d)).2 = some (.returned p) := by
      simp [step, hidle, hc]
    refine ⟨m, ?_, hst, by simp [step, hidle, hc, setProc], by simp [step, hidle, hc, setProc]⟩
    have i := (inv_run atomic acts hs).1
    unfold createFromDir at hc
    split at hc
    · unfold readLatest at hc
      split at hc
      · cases hc
      · rename_i n hn
        rw [List.max?_eq_some_iff] at hn
        have hmem : ∀ k, k ∈ metaNums (run atomic acts).1.fs d ↔
            (PyDict.get? (run atomic acts).1.fs (d, .metaFile k)).isSome = true := by
          intro k
          rw [PyDict.get?_isSome_iff]
          unfold metaNums PyDict.keys
          rw [List.mem_filterMap, List.mem_map]
          constructor
          · rintro ⟨f, hf, he⟩
            refine ⟨f, hf, ?_⟩
            split at he
            · rename_i k' hk'
              split at he
              · rename_i hd; injection he with he; subst he
                rw [← hd, ← hk']
              · cases he
            · cases he
          · rintro ⟨f, hf, he⟩
            exact ⟨f, hf, by rw [he]; simp⟩
        have hlt : ∀ k, (PyDict.get? (run atomic acts).1.fs (d, .metaFile k)).isSome = true ↔
            k < (replay (run atomic acts).2 d).length := by
          intro k
          constructor
          · intro hk
            refine Nat.lt_of_not_le fun hle => ?_
            rw [i.glob.absent d k hle] at hk
            cases hk
          · intro hk
            obtain ⟨mk, hmk, _⟩ := i.glob.present d k _ (List.getElem?_eq_getElem hk)
            rw [hmk]; rfl
        have h1 := (hlt n).1 ((hmem n).1 hn.1)
        obtain ⟨mk, hmk, hnum, _⟩ := i.glob.present d n _ (List.getElem?_eq_getElem h1)
        rw [hmk] at hc
        simp only [Option.some.injEq] at hc
        subst hc
        rw [hnum]
        have := hn.2 ((replay (run atomic acts).2 d).length - 1)
          ((hmem _).2 ((hlt _).2 (by omega)))
        omega
    · cases hc

end Verif.BagManager
