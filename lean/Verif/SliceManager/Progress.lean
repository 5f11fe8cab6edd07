import Verif.SliceManager.Frame

/-
Following one instance through an operation while the others do whatever they like.
-/

namespace Verif.SliceManager

set_option linter.unusedSectionVars false

variable {I Sch Snn B SB U : Type} [DecidableEq Snn] {api : Api I Sch Snn B SB U}
  {w w' : World I Sch Snn B SB U} {R R' : Path → List (Rev U)} {q : Nat}

theorem steps_other {a : Act I U} (h : a.who ≠ q) (as : List (Act I U)) :
    steps q (a :: as) = steps q as := by
  cases a <;> simp_all [steps, Act.who]

theorem act_log_other {a : Act I U} (h : a.who ≠ q) {Bad : Event I U → Prop}
    (hbad : ∀ q' e, q' ≠ q → e.byOnly q' → ¬ Bad e) :
    ∃ es, (act api w a).log = w.log ++ es ∧ ∀ e ∈ es, ¬ Bad e := by
  obtain ⟨es, h1, h2⟩ := (touch_act (api := api) (w := w) a).2
  refine ⟨es, h1, fun e he => ?_⟩
  rcases h2 with rfl | ⟨x, rfl, hx⟩ | ⟨d, p, i, rfl⟩
  · simp at he
  · simp only [List.mem_singleton] at he
    subst he
    exact hbad _ _ h hx
  · simp only [List.mem_cons, List.not_mem_nil, or_false] at he
    rcases he with rfl | rfl
    · exact hbad _ _ h trivial
    · exact hbad _ _ h rfl

/-- Following an instance: every step of it goes to the next stage, no action of another instance
takes it back, and neither logs a bad event. -/
theorem progress {P : Nat → World I Sch Snn B SB U → Prop} {Bad : Event I U → Prop}
    (hbad : ∀ q' e, q' ≠ q → e.byOnly q' → ¬ Bad e)
    (hstep : ∀ w R n, Inv api w R → P n w → P (n + 1) (stepJob api w q) ∧
      ∃ es, (stepJob api w q).log = w.log ++ es ∧ ∀ e ∈ es, ¬ Bad e)
    (hother : ∀ w R n a, Inv api w R → a.who ≠ q → P n w → P n (act api w a))
    (bs : List (Act I U)) (hb : OnlySteps q bs) {n : Nat} (hi : Inv api w R) (hp : P n w) :
    P (n + steps q bs) (run api w bs) ∧
      ∃ es, (run api w bs).log = w.log ++ es ∧ ∀ e ∈ es, ¬ Bad e := by
  induction bs generalizing w R n with
  | nil => exact ⟨hp, [], by simp [run], by simp⟩
  | cons a as ih =>
    have hbs : OnlySteps q as := fun x hx => hb x (List.mem_cons_of_mem _ hx)
    rw [run_cons]
    obtain ⟨R', hi'⟩ := hi.act a
    by_cases ha : a.who = q
    · obtain rfl := hb a (List.mem_cons_self ..) ha
      obtain ⟨h1, es1, h2, h3⟩ := hstep w R n hi hp
      obtain ⟨h4, es2, h5, h6⟩ := ih hbs (n := n + 1) hi' h1
      refine ⟨?_, es1 ++ es2, ?_, ?_⟩
      · have : n + steps q (Act.step q :: as) = n + 1 + steps q as := by
          simp only [steps, if_true]; omega
        rw [this]
        exact h4
      · rw [h5, ← List.append_assoc, ← h2]; rfl
      · intro e he
        rcases List.mem_append.1 he with h | h
        · exact h3 e h
        · exact h6 e h
    · obtain ⟨es1, h2, h3⟩ := act_log_other (api := api) (w := w) ha hbad
      obtain ⟨h4, es2, h5, h6⟩ := ih hbs hi' (hother w R n a hi ha hp)
      refine ⟨?_, es1 ++ es2, ?_, ?_⟩
      · rw [steps_other ha]; exact h4
      · rw [h5, ← List.append_assoc, ← h2]
      · intro e he
        rcases List.mem_append.1 he with h | h
        · exact h3 e h
        · exact h6 e h

theorem act_slot_other {a : Act I U} (h : a.who ≠ q) : (act api w a).slots q = w.slots q :=
  (touch_act a).1 q (Ne.symm h)

theorem return_slot (q : Nat) (m : Mgr I Sch Snn B SB U) :
    (w.return q m).slots q = { w.slots q with mgr := some m, job := .idle } := by
  simp [World.return, World.emit, World.setSlot]

theorem return_log (q : Nat) (m : Mgr I Sch Snn B SB U) :
    (w.return q m).log = w.log ++ [.done q] := rfl

theorem raise_slot (q : Nat) : (w.raise q).slots q = { w.slots q with job := .idle } := by
  simp [World.raise, World.emit, World.goto, World.setSlot]

theorem raise_log (q : Nat) : (w.raise q).log = w.log ++ [.raised q] := rfl

/-! ### Opening and copying -/

/-- The stages of `create_from_dir`. -/
def OpenSt (q : Nat) (d : Path) (ro : Bool) (mt : Meta U) (n : Nat) (w : World I Sch Snn B SB U) :
    Prop :=
  match n with
  | 0 => (w.slots q).job = .open1 d ro mt
  | 1 => ∃ i db, (w.slots q).job = .open2 d ro mt i db
  | 2 => ∃ i db sb s, (w.slots q).job = .open3 d ro mt i db sb s
  | _ => (w.slots q).job = .idle ∧
      ∃ m, (w.slots q).mgr = some m ∧ m.dir = d ∧ m.readOnly = ro ∧ m.meta_ = mt

theorem Inv.diskBags (hi : Inv api w R) {d : Path} (h : R d ≠ []) (k : Kind) :
    ∃ b, (w.dirs d).bags k = some b := by
  obtain ⟨i, f, _, _, h3, _⟩ := (hi.dirs d).there h
  exact Option.isSome_iff_exists.1 (h3 k)

theorem schemaFrom_sees {i : I} {m : BagDir (Content Snn B SB .schema)} {ns : List Name}
    (h : ∀ n ∈ ns, n ∈ namesIn m.bags) : ∃ s, schemaFrom api i m ns = some s := by
  unfold schemaFrom
  rw [minimal_some h]
  exact ⟨_, rfl⟩

theorem open_step (d : Path) (ro : Bool) (mt : Meta U) (w : World I Sch Snn B SB U)
    (R : Path → List (Rev U)) (n : Nat) (hi : Inv api w R) (hp : OpenSt q d ro mt n w) :
    OpenSt q d ro mt (n + 1) (stepJob api w q) ∧
      ∃ es, (stepJob api w q).log = w.log ++ es ∧ ∀ e ∈ es, ¬ e = .raised q := by
  have hj := hi.jobs q
  unfold JobOk at hj
  match n, hp with
  | 0, hp =>
    simp only [OpenSt] at hp
    rw [hp] at hj
    simp only at hj
    obtain ⟨b, hb⟩ := hi.diskBags hj.ne_nil .data
    obtain ⟨⟨i, hini⟩, _⟩ := hi.committed hj.ne_nil
    simp only [stepJob, hp, hini, hb]
    refine ⟨?_, [], by simp [World.goto, World.setSlot], by simp⟩
    simp only [OpenSt, goto_same]
    exact ⟨_, _, rfl⟩
  | 1, hp =>
    obtain ⟨i, db, hp⟩ := hp
    rw [hp] at hj
    simp only at hj
    obtain ⟨b, hb⟩ := hi.diskBags hj.1.ne_nil .schema
    obtain ⟨s, hs⟩ := schemaFrom_sees (api := api) (i := i) (hi.sees (k := .schema) hj.1 hb).2
    simp only [stepJob, hp, hb, hs]
    refine ⟨?_, [], by simp [World.goto, World.setSlot], by simp⟩
    simp only [OpenSt, goto_same]
    exact ⟨_, _, _, _, rfl⟩
  | 2, hp =>
    obtain ⟨i, db, sb, s, hp⟩ := hp
    rw [hp] at hj
    simp only at hj
    obtain ⟨b, hb⟩ := hi.diskBags hj.1.ne_nil .snn
    obtain ⟨i', f, _, hf, _⟩ := (hi.dirs d).there hj.1.ne_nil
    simp only [stepJob, hp, hf, hb]
    refine ⟨?_, [.done q], return_log _ _, by simp⟩
    simp only [OpenSt, return_slot]
    exact ⟨trivial, _, rfl, rfl, rfl, rfl⟩
  | n + 3, hp =>
    simp only [OpenSt] at hp
    simp only [stepJob, hp.1]
    exact ⟨hp, [], by simp, by simp⟩

theorem open_other (d : Path) (ro : Bool) (mt : Meta U) (w : World I Sch Snn B SB U)
    (R : Path → List (Rev U)) (n : Nat) (a : Act I U) (_ : Inv api w R) (ha : a.who ≠ q)
    (hp : OpenSt q d ro mt n w) : OpenSt q d ro mt n (act api w a) := by
  have := act_slot_other (api := api) (w := w) ha
  unfold OpenSt at hp ⊢
  rw [this]
  exact hp

/-- The stages of `get_readonly_copy`. -/
def CopySt (q : Nat) (src : Mgr I Sch Snn B SB U) (n : Nat) (w : World I Sch Snn B SB U) : Prop :=
  match n with
  | 0 => (w.slots q).job = .copy1 src
  | 1 => ∃ db, (w.slots q).job = .copy2 src db
  | 2 => ∃ db sb, (w.slots q).job = .copy3 src db sb
  | _ => (w.slots q).job = .idle ∧
      ∃ m, (w.slots q).mgr = some m ∧ m.dir = src.dir ∧ m.readOnly = true ∧ m.meta_ = src.meta_

theorem copy_step (src : Mgr I Sch Snn B SB U) (w : World I Sch Snn B SB U)
    (R : Path → List (Rev U)) (n : Nat) (hi : Inv api w R) (hp : CopySt q src n w) :
    CopySt q src (n + 1) (stepJob api w q) ∧
      ∃ es, (stepJob api w q).log = w.log ++ es ∧ ∀ e ∈ es, ¬ e = .raised q := by
  have hj := hi.jobs q
  unfold JobOk at hj
  match n, hp with
  | 0, hp =>
    simp only [CopySt] at hp
    rw [hp] at hj
    simp only at hj
    obtain ⟨b, hb⟩ := hi.diskBags hj.metaAt.ne_nil .data
    simp only [stepJob, hp, hb]
    refine ⟨?_, [], by simp [World.goto, World.setSlot], by simp⟩
    simp only [CopySt, goto_same]
    exact ⟨_, rfl⟩
  | 1, hp =>
    obtain ⟨db, hp⟩ := hp
    rw [hp] at hj
    simp only at hj
    obtain ⟨b, hb⟩ := hi.diskBags hj.1.metaAt.ne_nil .schema
    simp only [stepJob, hp, hb]
    refine ⟨?_, [], by simp [World.goto, World.setSlot], by simp⟩
    simp only [CopySt, goto_same]
    exact ⟨_, _, rfl⟩
  | 2, hp =>
    obtain ⟨db, sb, hp⟩ := hp
    rw [hp] at hj
    simp only at hj
    obtain ⟨b, hb⟩ := hi.diskBags hj.1.metaAt.ne_nil .snn
    simp only [stepJob, hp, hb]
    refine ⟨?_, [.done q], return_log _ _, by simp⟩
    simp only [CopySt, return_slot]
    exact ⟨trivial, _, rfl, rfl, rfl, rfl⟩
  | n + 3, hp =>
    simp only [CopySt] at hp
    simp only [stepJob, hp.1]
    exact ⟨hp, [], by simp, by simp⟩

theorem copy_other (src : Mgr I Sch Snn B SB U) (w : World I Sch Snn B SB U)
    (R : Path → List (Rev U)) (n : Nat) (a : Act I U) (_ : Inv api w R) (ha : a.who ≠ q)
    (hp : CopySt q src n w) : CopySt q src n (act api w a) := by
  have := act_slot_other (api := api) (w := w) ha
  unfold CopySt at hp ⊢
  rw [this]
  exact hp

theorem raised_by (q' : Nat) (e : Event I U) (h : q' ≠ q) (hb : e.byOnly q') : ¬ e = .raised q := by
  rintro rfl
  exact h hb.symm

end Verif.SliceManager
