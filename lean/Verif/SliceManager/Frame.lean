import Verif.SliceManager.Steps4

/-
What one action can change, whatever the world: one instance, and the log by one commit at most.
-/

namespace Verif.SliceManager

set_option linter.unusedSectionVars false

variable {I Sch Snn B SB U : Type} [DecidableEq Snn] {api : Api I Sch Snn B SB U}
  {w w' : World I Sch Snn B SB U} {R R' : Path → List (Rev U)} {q : Nat}

/-- Events that name an instance name this one. -/
def Event.byOnly (q : Nat) : Event I U → Prop
  | .updated q' _ _ _ => q' = q
  | .raised q' => q' = q
  | .done q' => q' = q
  | .created _ _ => True
  | .branched _ _ _ => True

/-- The events an action of `q` may log. -/
def Logged (q : Nat) (es : List (Event I U)) : Prop :=
  es = [] ∨ (∃ e, es = [e] ∧ e.byOnly q) ∨ ∃ d p i, es = [.branched d p i, .done q]

/-- What an action of `q` may change. -/
def Touch (w w' : World I Sch Snn B SB U) (q : Nat) : Prop :=
  (∀ q', q' ≠ q → w'.slots q' = w.slots q') ∧ ∃ es, w'.log = w.log ++ es ∧ Logged q es

theorem Touch.refl (w : World I Sch Snn B SB U) (q : Nat) : Touch w w q :=
  ⟨fun _ _ => rfl, [], by simp, .inl rfl⟩

theorem touch_set (f : Slot I Sch Snn B SB U → Slot I Sch Snn B SB U)
    (hs : w'.slots = w.slots) (hl : ∃ es, w'.log = w.log ++ es ∧ Logged q es) :
    Touch w (w'.setSlot q f) q :=
  ⟨fun q' h => by rw [setSlot_other _ h, hs], hl⟩

theorem touch_goto (j : Job I Sch Snn B SB U)
    (hs : w'.slots = w.slots) (hl : ∃ es, w'.log = w.log ++ es ∧ Logged q es) :
    Touch w (w'.goto q j) q := touch_set _ hs hl

theorem touch_raise : Touch w (w.raise q) q := by
  refine ⟨fun q' h => ?_, [.raised q], rfl, .inr (.inl ⟨_, rfl, rfl⟩)⟩
  exact goto_other w h _

theorem touch_return (m : Mgr I Sch Snn B SB U) : Touch w (w.return q m) q := by
  refine ⟨fun q' h => ?_, [.done q], rfl, .inr (.inl ⟨_, rfl, rfl⟩)⟩
  unfold World.return
  exact setSlot_other w h fun s => { s with mgr := some m, job := .idle }

theorem nolog : ∃ es, w.log = w.log ++ es ∧ Logged (I := I) (U := U) q es :=
  ⟨[], by simp, .inl rfl⟩

theorem onelog (e : Event I U) (h : e.byOnly q) : ∃ es, w.log ++ [e] = w.log ++ es ∧ Logged q es :=
  ⟨[e], rfl, .inr (.inl ⟨e, rfl, h⟩)⟩

theorem touch_stepCreate (d : Path) (i : I) (pc : CreatePc) :
    Touch w (stepCreate api w q d i pc) q := by
  cases pc <;> simp only [stepCreate]
  case initial => split; exact touch_raise; exact touch_goto _ rfl nolog
  case bag k => split; exact touch_raise; exact touch_goto _ rfl nolog
  case map => exact touch_goto _ rfl nolog
  case check => split; exact touch_raise; exact touch_goto _ rfl nolog
  case rename => split; exact touch_raise; exact touch_goto _ rfl (onelog _ trivial)
  case finish => exact touch_return _

theorem touch_stepUpdate (m : Mgr I Sch Snn B SB U) (u : U) (p : Plan Snn B SB) (base : Nat)
    (pc : UpdatePc) : Touch w (stepUpdate api w q m u p base pc) q := by
  cases pc <;> simp only [stepUpdate]
  case bag k =>
    split
    · exact touch_raise
    · split
      · exact touch_raise
      · exact touch_set _ rfl nolog
  case check => split; exact touch_raise; exact touch_goto _ rfl nolog
  case rename => split; exact touch_raise; exact touch_goto _ rfl (onelog _ rfl)
  case assign => exact touch_return _

theorem touch_stepBranch (src : Mgr I Sch Snn B SB U) (i : Nat) (d : Path) (pc : BranchPc) :
    Touch w (stepBranch api w q src i d pc) q := by
  cases pc <;> simp only [stepBranch]
  case initial => split; exact touch_raise; exact touch_goto _ rfl nolog
  case map => exact touch_goto _ rfl nolog
  case bag k =>
    split
    · exact touch_raise
    · split
      · exact touch_raise
      · exact touch_goto _ rfl nolog
  case check => split; exact touch_raise; exact touch_goto _ rfl nolog
  case rename =>
    split
    · split
      · refine ⟨fun q' h => ?_, _, ?_, .inr (.inr ⟨d, src.dir, i, rfl⟩)⟩
        · simp [World.return, World.emit, World.setSlot, World.setDir, h]
        · simp [World.return, World.emit, World.setSlot, World.setDir]
      · exact touch_raise
    · exact touch_raise

theorem touch_stepJob : Touch w (stepJob api w q) q := by
  unfold stepJob
  cases (w.slots q).job with
  | idle => exact Touch.refl w q
  | create d i pc => exact touch_stepCreate d i pc
  | open1 d ro m => simp only; split; exact touch_goto _ rfl nolog; exact touch_raise
  | open2 d ro m i db =>
    simp only
    split
    · split
      · exact touch_goto _ rfl nolog
      · exact touch_raise
    · exact touch_raise
  | open3 d ro m i db sb s => simp only; split; exact touch_return _; exact touch_raise
  | copy1 src => simp only; split; exact touch_goto _ rfl nolog; exact touch_raise
  | copy2 src db => simp only; split; exact touch_goto _ rfl nolog; exact touch_raise
  | copy3 src db sb => simp only; split; exact touch_return _; exact touch_raise
  | update u p base pc =>
    simp only
    split
    · exact Touch.refl w q
    · exact touch_stepUpdate _ u p base pc
  | draw src i =>
    simp only
    split
    · exact touch_set _ rfl nolog
    · refine ⟨fun q' h => ?_, nolog⟩
      rw [goto_other _ h, setSlot_other _ h]
  | claim src i s => simp only; split; exact touch_goto _ rfl nolog; exact touch_goto _ rfl nolog
  | branch src i d pc => exact touch_stepBranch src i d pc

/-- Every action changes only the instance that acts, and logs at most one commit. -/
theorem touch_act (a : Act I U) : Touch w (act api w a) a.who := by
  cases a with
  | create q d i =>
    simp only [act, Act.who]
    split
    · split
      · exact touch_goto _ rfl nolog
      · exact touch_raise
    · exact Touch.refl _ _
  | openAt q d at? ro =>
    simp only [act, Act.who]
    split
    · split
      · exact touch_goto _ rfl nolog
      · exact touch_raise
    · exact Touch.refl _ _
  | update q u =>
    simp only [act, Act.who]
    split
    · exact Touch.refl _ _
    · split
      · exact touch_raise
      · split
        · exact touch_raise
        · exact touch_set _ rfl nolog
  | branch q src i out =>
    simp only [act, Act.who]
    split
    · split
      · exact Touch.refl _ _
      · split
        · exact touch_raise
        · split
          · exact touch_goto _ rfl nolog
          · split
            · exact touch_goto _ rfl nolog
            · exact touch_raise
    · exact Touch.refl _ _
  | copy q src =>
    simp only [act, Act.who]
    split
    · split
      · exact Touch.refl _ _
      · exact touch_goto _ rfl nolog
    · exact Touch.refl _ _
  | setReadOnly q =>
    simp only [act, Act.who]
    split
    · exact Touch.refl _ _
    · exact touch_set _ rfl nolog
  | step q => exact touch_stepJob
  | fail q =>
    simp only [act, Act.who]
    split
    · exact Touch.refl _ _
    · exact touch_raise

theorem run_cons (a : Act I U) (as : List (Act I U)) :
    run api w (a :: as) = run api (act api w a) as := rfl

theorem run_append (as bs : List (Act I U)) : run api w (as ++ bs) = run api (run api w as) bs := by
  simp [run]

/-- The log only grows. -/
theorem run_log (as : List (Act I U)) : ∃ es, (run api w as).log = w.log ++ es := by
  induction as generalizing w with
  | nil => exact ⟨[], by simp [run]⟩
  | cons a as ih =>
    obtain ⟨es1, h1, _⟩ := (touch_act (api := api) (w := w) a).2
    obtain ⟨es2, h2⟩ := ih (w := act api w a)
    exact ⟨es1 ++ es2, by rw [run_cons, h2, h1, List.append_assoc]⟩

/-- A legal event extends one history by at most one revision. -/
theorem applyEvent_legal {h : Hist I Sch Snn B U} {e : Event I U} (hl : Legal api h e) :
    applyEvent api h e = h ∨
      ∃ d r, applyEvent api h e = fun d' => if d' = d then h d' ++ [r] else h d' := by
  cases e with
  | created d i =>
    refine .inr ⟨d, ⟨.creation, View.first api i⟩, ?_⟩
    funext d'
    simp only [applyEvent]
    by_cases hd : d' = d
    · rw [if_pos hd, if_pos hd, hd]
      rw [show h d = [] from hl]; rfl
    · rw [if_neg hd, if_neg hd]
  | updated q d u names =>
    obtain ⟨r, p, h1, h2, _⟩ := hl
    obtain ⟨v, hv⟩ : ∃ v, r.view.update api u names = some v := by
      simp [View.update, h2]
    refine .inr ⟨d, ⟨.update u, v⟩, ?_⟩
    funext d'
    simp only [applyEvent]
    by_cases hd : d' = d
    · rw [if_pos hd, if_pos hd, hd, h1]
      simp only [Option.bind_some, hv, Option.map_some, Option.toList_some]
    · rw [if_neg hd, if_neg hd]
  | branched d parent i =>
    obtain ⟨h1, h2⟩ := hl
    refine .inr ⟨d, ⟨.branch parent i, (h parent)[i].view⟩, ?_⟩
    funext d'
    simp only [applyEvent]
    by_cases hd : d' = d
    · rw [if_pos hd, if_pos hd, hd, h1, List.getElem?_eq_getElem h2]
      rfl
    · rw [if_neg hd, if_neg hd]
  | raised q => exact .inl rfl
  | done q => exact .inl rfl

theorem prefix_of_grow {h h' : Hist I Sch Snn B U}
    (hg : h' = h ∨ ∃ d r, h' = fun d' => if d' = d then h d' ++ [r] else h d') (d : Path) :
    h d <+: h' d := by
  rcases hg with rfl | ⟨d0, r, rfl⟩
  · exact List.prefix_refl _
  · simp only
    by_cases hd : d = d0
    · rw [if_pos hd]; exact List.prefix_append _ _
    · rw [if_neg hd]; exact List.prefix_refl _

theorem legalLog_prefix {log es : List (Event I U)} (h : LegalLog api (log ++ es)) :
    LegalLog api log := by
  intro pre e post hl
  exact h pre e (post ++ es) (by rw [hl]; simp)

/-- A legal log's histories only grow. -/
theorem hist_prefix {log es : List (Event I U)} (h : LegalLog api (log ++ es)) (d : Path) :
    hist api log d <+: hist api (log ++ es) d := by
  induction es generalizing log with
  | nil => simp
  | cons e es ih =>
    have hle : Legal api (hist api log) e := h log e es rfl
    have h1 : hist api log d <+: hist api (log ++ [e]) d := by
      rw [hist_snoc]; exact prefix_of_grow (applyEvent_legal hle) d
    have h2 := ih (log := log ++ [e]) (by simpa using h)
    have : log ++ [e] ++ es = log ++ e :: es := by simp
    rw [this] at h2
    exact h1.trans h2

/-- An instance whose operation is neither idle nor an update is not constructed yet. -/
def Unbuilt (s : Slot I Sch Snn B SB U) : Prop :=
  ∀ m, s.mgr = some m → s.job = .idle ∨ ∃ u p base pc, s.job = .update u p base pc

theorem unbuilt_setSlot (hs : w'.slots = w.slots) (hi : ∀ q, Unbuilt (w.slots q))
    {f : Slot I Sch Snn B SB U → Slot I Sch Snn B SB U} (h : Unbuilt (f (w.slots q))) :
    ∀ q', Unbuilt ((w'.setSlot q f).slots q') := by
  intro q'
  by_cases hq : q' = q
  · subst hq; rw [setSlot_same, hs]; exact h
  · rw [setSlot_other _ hq, hs]; exact hi q'

theorem unbuilt_goto (hs : w'.slots = w.slots) (hi : ∀ q, Unbuilt (w.slots q))
    {j : Job I Sch Snn B SB U} (h : (w.slots q).mgr = none) :
    ∀ q', Unbuilt ((w'.goto q j).slots q') :=
  unbuilt_setSlot hs hi fun m hm => by simp [h] at hm

theorem unbuilt_raise (hi : ∀ q, Unbuilt (w.slots q)) : ∀ q', Unbuilt ((w.raise q).slots q') :=
  unbuilt_setSlot (f := fun s => { s with job := .idle }) rfl hi fun _ _ => .inl rfl

theorem unbuilt_return (hs : w'.slots = w.slots) (hi : ∀ q, Unbuilt (w.slots q))
    {m : Mgr I Sch Snn B SB U} : ∀ q', Unbuilt ((w'.return q m).slots q') :=
  unbuilt_setSlot (f := fun s => { s with mgr := some m, job := .idle }) hs hi
    fun _ _ => .inl rfl

theorem unbuilt_none (hi : ∀ q, Unbuilt (w.slots q)) (h1 : (w.slots q).job ≠ .idle)
    (h2 : ∀ u p base pc, (w.slots q).job ≠ .update u p base pc) : (w.slots q).mgr = none := by
  cases hm : (w.slots q).mgr with
  | none => rfl
  | some m =>
    rcases hi q m hm with h | ⟨u, p, base, pc, h⟩
    · exact absurd h h1
    · exact absurd h (h2 u p base pc)

theorem unbuilt_stepCreate (hi : ∀ q, Unbuilt (w.slots q)) (hn : (w.slots q).mgr = none) (d : Path)
    (i : I) (pc : CreatePc) : ∀ q', Unbuilt ((stepCreate api w q d i pc).slots q') := by
  cases pc <;> simp only [stepCreate]
  case initial => split; exact unbuilt_raise hi; exact unbuilt_goto rfl hi hn
  case bag k => split; exact unbuilt_raise hi; exact unbuilt_goto rfl hi hn
  case map => exact unbuilt_goto rfl hi hn
  case check => split; exact unbuilt_raise hi; exact unbuilt_goto rfl hi hn
  case rename => split; exact unbuilt_raise hi; exact unbuilt_goto rfl hi hn
  case finish => exact unbuilt_return rfl hi

theorem unbuilt_stepUpdate (hi : ∀ q, Unbuilt (w.slots q)) (m : Mgr I Sch Snn B SB U) (u : U)
    (p : Plan Snn B SB) (base : Nat) (pc : UpdatePc) :
    ∀ q', Unbuilt ((stepUpdate api w q m u p base pc).slots q') := by
  cases pc <;> simp only [stepUpdate]
  case bag k =>
    split
    · exact unbuilt_raise hi
    · split
      · exact unbuilt_raise hi
      · refine unbuilt_setSlot (w' := w.setDir m.dir _) rfl hi ?_
        intro _ _
        exact .inr ⟨_, _, _, _, rfl⟩
  case check =>
    split
    · exact unbuilt_raise hi
    · exact unbuilt_setSlot (f := fun s => { s with job := .update u p base .rename }) rfl hi
        fun _ _ => .inr ⟨_, _, _, _, rfl⟩
  case rename =>
    split
    · exact unbuilt_raise hi
    · exact unbuilt_setSlot (f := fun s => { s with job := .update u p base .assign }) rfl hi
        fun _ _ => .inr ⟨_, _, _, _, rfl⟩
  case assign => exact unbuilt_return rfl hi

theorem unbuilt_stepBranch (hi : ∀ q, Unbuilt (w.slots q)) (hn : (w.slots q).mgr = none)
    (src : Mgr I Sch Snn B SB U) (i : Nat) (d : Path) (pc : BranchPc) :
    ∀ q', Unbuilt ((stepBranch api w q src i d pc).slots q') := by
  cases pc <;> simp only [stepBranch]
  case initial => split; exact unbuilt_raise hi; exact unbuilt_goto rfl hi hn
  case map => exact unbuilt_goto rfl hi hn
  case bag k =>
    split
    · exact unbuilt_raise hi
    · split
      · exact unbuilt_raise hi
      · exact unbuilt_goto rfl hi hn
  case check => split; exact unbuilt_raise hi; exact unbuilt_goto rfl hi hn
  case rename =>
    split
    · split
      · exact unbuilt_return rfl hi
      · exact unbuilt_raise hi
    · exact unbuilt_raise hi

theorem unbuilt_act (hi : ∀ q, Unbuilt (w.slots q)) (a : Act I U) :
    ∀ q', Unbuilt ((act api w a).slots q') := by
  cases a with
  | create q d i =>
    simp only [act]
    split
    · rename_i h
      split
      · exact unbuilt_goto rfl hi (isNew_iff.1 h).1
      · exact unbuilt_raise hi
    · exact hi
  | openAt q d at? ro =>
    simp only [act]
    split
    · rename_i h
      split
      · exact unbuilt_goto rfl hi (isNew_iff.1 h).1
      · exact unbuilt_raise hi
    · exact hi
  | update q u =>
    simp only [act]
    split
    · exact hi
    · split
      · exact unbuilt_raise hi
      · split
        · exact unbuilt_raise hi
        · exact unbuilt_setSlot rfl hi fun _ _ => .inr ⟨_, _, _, _, rfl⟩
  | branch q src i out =>
    simp only [act]
    split
    · rename_i h
      split
      · exact hi
      · split
        · exact unbuilt_raise hi
        · split
          · exact unbuilt_goto rfl hi (isNew_iff.1 h).1
          · split
            · exact unbuilt_goto rfl hi (isNew_iff.1 h).1
            · exact unbuilt_raise hi
    · exact hi
  | copy q src =>
    simp only [act]
    split
    · rename_i h
      split
      · exact hi
      · exact unbuilt_goto rfl hi (isNew_iff.1 h).1
    · exact hi
  | setReadOnly q =>
    simp only [act]
    split
    · exact hi
    · rename_i h
      exact unbuilt_setSlot rfl hi fun _ _ => .inl (ready_some.1 h).1
  | fail q =>
    simp only [act]
    split
    · exact hi
    · exact unbuilt_raise hi
  | step q =>
    simp only [act, stepJob]
    cases hj : (w.slots q).job with
    | idle => exact hi
    | create d i pc =>
      exact unbuilt_stepCreate hi (unbuilt_none hi (by simp [hj]) (by simp [hj])) d i pc
    | open1 d ro m =>
      have hn := unbuilt_none hi (q := q) (by simp [hj]) (by simp [hj])
      simp only; split; exact unbuilt_goto rfl hi hn; exact unbuilt_raise hi
    | open2 d ro m i db =>
      have hn := unbuilt_none hi (q := q) (by simp [hj]) (by simp [hj])
      simp only
      split
      · split
        · exact unbuilt_goto rfl hi hn
        · exact unbuilt_raise hi
      · exact unbuilt_raise hi
    | open3 d ro m i db sb s =>
      simp only; split; exact unbuilt_return rfl hi; exact unbuilt_raise hi
    | copy1 src =>
      have hn := unbuilt_none hi (q := q) (by simp [hj]) (by simp [hj])
      simp only; split; exact unbuilt_goto rfl hi hn; exact unbuilt_raise hi
    | copy2 src db =>
      have hn := unbuilt_none hi (q := q) (by simp [hj]) (by simp [hj])
      simp only; split; exact unbuilt_goto rfl hi hn; exact unbuilt_raise hi
    | copy3 src db sb =>
      simp only; split; exact unbuilt_return rfl hi; exact unbuilt_raise hi
    | update u p base pc =>
      simp only
      split
      · exact hi
      · exact unbuilt_stepUpdate hi _ u p base pc
    | draw src i =>
      have hn := unbuilt_none hi (q := q) (by simp [hj]) (by simp [hj])
      have h1 : ∀ q', Unbuilt ((w.setSlot q fun x => { x with seq := x.seq + 1 }).slots q') :=
        unbuilt_setSlot rfl hi fun m hm => by simp [hn] at hm
      simp only
      split
      · exact h1
      · exact unbuilt_goto rfl h1 (by rw [setSlot_same]; exact hn)
    | claim src i s =>
      have hn := unbuilt_none hi (q := q) (by simp [hj]) (by simp [hj])
      simp only; split; exact unbuilt_goto rfl hi hn; exact unbuilt_goto rfl hi hn
    | branch src i d pc =>
      exact unbuilt_stepBranch hi (unbuilt_none hi (by simp [hj]) (by simp [hj])) src i d pc

theorem unbuilt_run (as : List (Act I U)) :
    ∀ q, Unbuilt ((run api (World.init I Sch Snn B SB U) as).slots q) := by
  suffices h : ∀ (w : World I Sch Snn B SB U), (∀ q, Unbuilt (w.slots q)) →
      ∀ q, Unbuilt ((run api w as).slots q) from
    h _ fun q m hm => by simp [World.init] at hm
  induction as with
  | nil => exact fun w h => h
  | cons a as ih => exact fun w h => ih _ (unbuilt_act h a)

end Verif.SliceManager
