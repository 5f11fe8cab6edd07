import Verif.BagManager.Theorems

/-!
Concrete schedules that meet the hypotheses of the theorems, and the schedule that
shows that concurrent writers need an atomic rename.
-/
namespace Verif.BagManager

/-- Advance process `p` `k` times. -/
def adv (p k : Nat) : List (Act Nat Nat Nat Nat) := List.replicate k (.advance p)

/-- Process 0 creates directory 7 and adds bags 1 and 2 (2 depends on 1). -/
def demoAdd : List (Act Nat Nat Nat Nat) :=
  [.startCreate 0 7] ++ adv 0 5 ++
  [.startAdd 0 [⟨1, 100, [], some 5⟩, ⟨2, 200, [1], none⟩],
   .startWrite 0 1, .startWrite 0 0, .finishWrite 0 1, .finishWrite 0 0] ++ adv 0 6

/-- It is seen after re-opening. -/
example : opened (run true demoAdd).1.fs 7 =
    some [some ⟨1, [], some 5, 100⟩, some ⟨2, [1], none, 200⟩] := by decide

/-- A crash after writing the bag files of the next add: still the old version. A
second process continues from there; the schedule is serial, so this also holds for
the default file system. -/
def demoCrash : List (Act Nat Nat Nat Nat) :=
  demoAdd ++
  [.startAdd 0 [⟨3, 300, [2], none⟩], .startWrite 0 0, .openDir 1 7,
   .startAdd 1 [⟨3, 333, [1], none⟩], .startWrite 1 0, .finishWrite 1 0] ++ adv 1 5

example : (run true demoCrash).1.fs.map (·.1) =
    [(7, .metaFile 0), (7, .bagFile 1 1), (7, .bagFile 1 0), (7, .metaFile 1),
     (7, .bagFile 3 0), (7, .bagFile 4 0), (7, .metaFile 2)] := by decide

example : Serial demoCrash := by unfold Serial; decide

example : opened (run true demoCrash).1.fs 7 =
    some [some ⟨1, [], some 5, 100⟩, some ⟨2, [1], none, 200⟩, some ⟨3, [1], none, 333⟩] := by
  decide

/-- Hypotheses of `C12_add_rejected_iff_invalid` and `C10_load_exactly_the_needed_bags`. -/
example : ((run true demoAdd).1.procs 0).job = .idle ∧
    (((run true demoAdd).1.procs 0).mgr.map fun dm => (dm.1, dm.2.num)) = some (7, 1) := by
  refine ⟨rfl, rfl⟩

/-- An unknown dependency is rejected; loading bag 2 loads its dependency first. -/
example : (step true (run true demoAdd).1 (.startAdd 0 [⟨3, 300, [4], none⟩])).2 =
    some (.raised 0) := rfl

example : (step true (run true demoAdd).1 (.load 0 [2] false id)).2 =
    some (.loaded 0 [(2, 200), (1, 100)] [100, 200]) := rfl

/-- Two managers of one directory: the second one loses and raises
(`C09_loser_raises`, `C09_stale_manager_never_commits`). -/
def demoRace : List (Act Nat Nat Nat Nat) :=
  demoAdd ++ [.openDir 1 7,
   .startAdd 0 [⟨3, 300, [2], none⟩], .startAdd 1 [⟨4, 400, [], none⟩],
   .startWrite 0 0, .finishWrite 0 0, .startWrite 1 0, .finishWrite 1 0] ++
  adv 1 4 ++ adv 0 5

example : (∃ new, ((run true demoRace).1.procs 1).job =
      .persist 7 new (.add [⟨4, 400, [], none⟩]) (.tempDone 5)) ∧
    (metaNums (run true demoRace).1.fs 7) = [0, 1, 2] := ⟨⟨_, rfl⟩, rfl⟩

/-- A branch of directory 7 for bag 1 in directory 8, and adds on both sides. -/
def demoBranch : List (Act Nat Nat Nat Nat) :=
  demoAdd ++ [.startBranch 0 [1] false 8 id] ++ adv 0 5 ++
  [.startAdd 0 [⟨3, 300, [2], none⟩], .startWrite 0 0, .finishWrite 0 0] ++ adv 0 6 ++
  [.openDir 1 8, .startAdd 1 [⟨3, 333, [1], none⟩], .startWrite 1 0, .finishWrite 1 0] ++ adv 1 6

example : opened (run true demoBranch).1.fs 8 =
    some [some ⟨1, [], some 5, 100⟩, some ⟨3, [1], none, 333⟩] ∧
    opened (run true demoBranch).1.fs 7 = some [some ⟨1, [], some 5, 100⟩,
      some ⟨2, [1], none, 200⟩, some ⟨3, [2], none, 300⟩] := by decide

/-- The default file system: both writers find that the file does not exist, both
rename. -/
def demoLost : List (Act Nat Nat Nat Nat) :=
  [.startCreate 0 7] ++ adv 0 6 ++ [.openDir 1 7,
   .startAdd 0 [⟨3, 300, [], none⟩], .startAdd 1 [⟨4, 400, [], none⟩],
   .startWrite 0 0, .finishWrite 0 0, .startWrite 1 0, .finishWrite 1 0] ++
  adv 0 5 ++ adv 1 5 ++ adv 0 2 ++ adv 1 2

/-- With the rename of the default file system (existence check, then `os.rename`),
C09 is false: there is a schedule in which two writers commit the same update number,
both calls return normally, and the bags of the first one are lost. -/
theorem C09_default_file_system_counterexample :
    ∃ acts : List (Act Nat Nat Nat Nat),
      (∃ ev1 ev2 ev3 ev4, (run false acts).2 =
        ev1 ++ [.committed 0 7 1 (.add [⟨3, 300, [], none⟩])] ++ ev2 ++ [.returned 0] ++ ev3 ++
          [.committed 1 7 1 (.add [⟨4, 400, [], none⟩])] ++ ev4 ++ [.returned 1]) ∧
      opened (run false acts).1.fs 7 = some [some ⟨4, [], none, 400⟩] :=
  ⟨demoLost, ⟨[.committed 0 7 0 .create, .returned 0, .returned 1], [], [], [], rfl⟩, by decide⟩

end Verif.BagManager
