import Verif.BagManager.Step

/-! Schedules: the invariant holds in every reachable state. -/
namespace Verif.BagManager

set_option linter.unusedSectionVars false

variable {D N X B : Type} [DecidableEq D] [DecidableEq N]

theorem run_snoc (atomic : Bool) (acts : List (Act D N X B)) (a : Act D N X B) :
    run atomic (acts ++ [a]) =
      ((step atomic (run atomic acts).1 a).1,
       (run atomic acts).2 ++ (step atomic (run atomic acts).1 a).2.toList) := by
  simp only [run, List.foldl_append, List.foldl_cons, List.foldl_nil]

theorem replay_snoc (evs : List (Event D N X B)) (e : Event D N X B) :
    replay (evs ++ [e]) = applyEvent (replay evs) e := by
  simp [replay, List.foldl_append]

theorem replay_append_toList (evs : List (Event D N X B)) (e : Option (Event D N X B)) :
    replay (evs ++ e.toList) = applyOpt (replay evs) e := by
  cases e with
  | none => simp [applyOpt]
  | some e => exact replay_snoc evs e

theorem inv_init (atomic : Bool) : Inv atomic 0 (init : Sys D N X B) fun _ => [] := by
  refine ⟨⟨List.nodup_nil, ?_, ?_, ?_, ?_, ?_, ?_⟩, ?_, ?_, ?_⟩
  · intro d n _; rfl
  · intro d n es hes; simp at hes
  · intro d n es hes; simp at hes
  · intro d nm u _ _; rfl
  · intro k b hb; simp [init] at hb
  · intro d n u; rfl
  · intro p; exact ⟨trivial, trivial⟩
  · intro p q u _ ho; exact ho.elim
  · cases atomic with
    | true => left; exact ⟨rfl, fun p d new why u => by simp [init]⟩
    | false => right; exact ⟨rfl, fun p _ => rfl, fun d new why u hj => by simp [init] at hj⟩

/-- The process that acted last. -/
def lastPid (acts : List (Act D N X B)) : Nat := (acts.getLast?.map Act.pid).getD 0

/-- All commits of a list of events are legal. -/
def AllLegal (evs : List (Event D N X B)) : Prop :=
  ∀ ev1 e ev2, evs = ev1 ++ e :: ev2 → Legal (replay ev1) e

theorem allLegal_nil : AllLegal ([] : List (Event D N X B)) := by
  intro ev1 e ev2 h; simp at h

theorem AllLegal.snoc {evs : List (Event D N X B)} (h : AllLegal evs) {e : Event D N X B}
    (he : Legal (replay evs) e) : AllLegal (evs ++ [e]) := by
  intro ev1 f ev2 hf
  rcases List.eq_nil_or_concat ev2 with rfl | ⟨ev2', g, rfl⟩
  · have := List.append_inj' hf rfl
    simp only [List.cons.injEq, and_true] at this
    obtain ⟨rfl, rfl⟩ := this
    exact he
  · rw [List.concat_eq_append, ← List.cons_append, ← List.append_assoc] at hf
    have := List.append_inj' hf rfl
    exact h ev1 f ev2' this.1

theorem AllLegal.init {evs : List (Event D N X B)} {e : Event D N X B}
    (h : AllLegal (evs ++ [e])) : AllLegal evs ∧ Legal (replay evs) e := by
  refine ⟨?_, h evs e [] rfl⟩
  intro ev1 f ev2 hf
  exact h ev1 f (ev2 ++ [e]) (by rw [hf]; simp)

theorem snoc_induction {α : Type} {P : List α → Prop} (h0 : P [])
    (h1 : ∀ l a, P l → P (l ++ [a])) (l : List α) : P l := by
  rw [← List.reverse_reverse l]
  induction l.reverse with
  | nil => exact h0
  | cons a as ih => rw [List.reverse_cons]; exact h1 _ _ ih

theorem inv_run (atomic : Bool) (acts : List (Act D N X B)) (hs : atomic = true ∨ Serial acts) :
    Inv atomic (lastPid acts) (run atomic acts).1 (replay (run atomic acts).2) ∧
    AllLegal (run atomic acts).2 := by
  induction acts using snoc_induction with
  | h0 => exact ⟨inv_init atomic, allLegal_nil⟩
  | h1 acts a ih =>
    have hs' : atomic = true ∨ Serial acts := hs.imp id fun h => (List.pairwise_append.1 h).1
    obtain ⟨ih1, ih2⟩ := ih hs'
    have hp : atomic = true ∨ lastPid acts ≤ a.pid := by
      refine hs.imp id fun h => ?_
      unfold lastPid
      cases hl : acts.getLast? with
      | none => exact Nat.zero_le _
      | some b =>
        exact (List.pairwise_append.1 h).2.2 b (List.mem_of_getLast? hl) a (by simp)
    obtain ⟨h1, h2⟩ := inv_step ih1 a hp
    rw [run_snoc]
    simp only [replay_append_toList]
    refine ⟨?_, ?_⟩
    · have : lastPid (acts ++ [a]) = a.pid := by simp [lastPid]
      rw [this]; exact h1
    · cases he : (step atomic (run atomic acts).1 a).2 with
      | none => simpa using ih2
      | some e =>
        rw [he] at h2
        exact ih2.snoc h2

/-- The version a manager is at. -/
theorem mgr_version {atomic : Bool} {acts : List (Act D N X B)}
    (hs : atomic = true ∨ Serial acts) {p : Nat} {d : D} {m : Metadata D N X}
    (hm : ((run atomic acts).1.procs p).mgr = some (d, m)) :
    ∃ es, (replay (run atomic acts).2 d)[m.num]? = some es ∧
      Repr (run atomic acts).1.fs d m es ∧ WellFormed es := by
  obtain ⟨i, _⟩ := inv_run atomic acts hs
  have h := (i.proc p).1
  rw [hm] at h
  obtain ⟨es, h1, h2⟩ := h
  exact ⟨es, h1, h2, i.glob.wf _ _ _ h1⟩

theorem map_some_inj {α : Type} {l l' : List α} (h : l.map some = l'.map some) : l = l' := by
  have := congrArg (List.filterMap id) h
  simpa [List.filterMap_map] using this

theorem opened_eq {atomic : Bool} {last : Nat} {s : Sys D N X B} {h : Hist D N X B}
    (i : Inv atomic last s h) (d : D) :
    opened s.fs d = (h d).getLast?.map fun es => es.map some := by
  have hr := readLatest_spec i.glob d
  unfold opened
  cases hl : (h d).getLast? with
  | none => rw [hl] at hr; simp only at hr; rw [hr]; rfl
  | some es =>
    rw [hl] at hr
    obtain ⟨m, h1, _, h3⟩ := hr
    rw [h1]
    simp only [Option.map_some]
    rw [h3]

/-! ### Histories -/

theorem hist_prefix {evs : List (Event D N X B)} (hl : AllLegal evs) :
    ∀ (d : D) (i j : Nat) es es', i ≤ j → (replay evs d)[i]? = some es → (replay evs d)[j]? = some es' →
      es <+: es' := by
  induction evs using snoc_induction with
  | h0 => intro d i j es es' _ h; simp [replay] at h
  | h1 evs e ih =>
    obtain ⟨hl1, hl2⟩ := hl.init
    have ih := ih hl1
    rw [replay_snoc]
    -- a pushed version extends all versions of its directory
    have push_case : ∀ d' v, (∀ es ∈ replay evs d', es <+: v) →
        ∀ (d : D) (i j : Nat) es es', i ≤ j → (push (replay evs) d' v d)[i]? = some es →
          (push (replay evs) d' v d)[j]? = some es' → es <+: es' := by
      intro d' v hv d i j es es' hij hi hj
      rcases push_getElem? hi with h1 | ⟨h1, h2, h3⟩
      · rcases push_getElem? hj with g1 | ⟨g1, g2, g3⟩
        · exact ih d i j es es' hij h1 g1
        · subst g1; rw [g3]; exact hv es (List.mem_of_getElem? h1)
      · rcases push_getElem? hj with g1 | ⟨g1, g2, g3⟩
        · subst h1
          have := (List.getElem?_eq_some_iff.1 g1).1
          omega
        · rw [h3, g3]; exact List.prefix_rfl
    cases e with
    | returned p => exact ih
    | raised p => exact ih
    | loaded p r a => exact ih
    | committed p d' n why =>
      cases why with
      | create =>
        refine push_case d' [] ?_
        rw [hl2.2]; simp
      | branch src ver ns wd =>
        refine push_case d' _ ?_
        rw [hl2.2.1]; simp
      | add adds =>
        refine push_case d' _ ?_
        intro es hes
        obtain ⟨k, hk, rfl⟩ := List.getElem_of_mem hes
        have hne : replay evs d' ≠ [] := by intro e; rw [e] at hk; simp at hk
        have hlast : (replay evs d')[(replay evs d').length - 1]? = some (latest (replay evs d')) := by
          rw [← List.getLast?_eq_getElem?]
          unfold latest
          cases hg : (replay evs d').getLast? with
          | none => exact absurd (List.getLast?_eq_none_iff.1 hg) hne
          | some x => rfl
        exact (ih d' k _ _ _ (by omega) (by simp [hk]) hlast).trans (List.prefix_append _ _)

end Verif.BagManager
