import Verif.SliceManager.Progress

/-
Following an update, of a stale instance and of an instance that is up to date.
-/

namespace Verif.SliceManager

set_option linter.unusedSectionVars false

variable {I Sch Snn B SB U : Type} [DecidableEq Snn] {api : Api I Sch Snn B SB U}
  {w w' : World I Sch Snn B SB U} {R R' : Path → List (Rev U)} {q : Nat}

theorem hist_act_prefix (hi : Inv api w R) (a : Act I U) (d : Path) :
    hist api w.log d <+: hist api (act api w a).log d := by
  obtain ⟨R', hi'⟩ := hi.act a
  obtain ⟨es, h1, _⟩ := (touch_act (api := api) (w := w) a).2
  have := hi'.legal
  rw [h1] at this ⊢
  exact hist_prefix this d

theorem hist_run_prefix (hi : Inv api w R) (as : List (Act I U)) (d : Path) :
    hist api w.log d <+: hist api (run api w as).log d := by
  obtain ⟨R', hi'⟩ := hi.run as
  obtain ⟨es, h1⟩ := run_log (api := api) (w := w) as
  have := hi'.legal
  rw [h1] at this ⊢
  exact hist_prefix this d

theorem Inv.metaAt_isSome (hi : Inv api w R) (d : Path) (n : Nat) :
    ((w.dirs d).metaAt n).isSome = decide (n < (hist api w.log d).length) := by
  rw [(hi.dirs d).metaAt, (hi.dirs d).len]
  by_cases h : n < (R d).length
  · rw [if_pos h]; simp [h]
  · rw [if_neg h]; simp [h]

/-- A stale instance that has begun an update. -/
def StaleSt (api : Api I Sch Snn B SB U) (q : Nat) (d : Path) (num : Nat) (n : Nat)
    (w : World I Sch Snn B SB U) : Prop :=
  num + 1 < (hist api w.log d).length ∧
  (∃ m, (w.slots q).mgr = some m ∧ m.dir = d ∧ m.meta_.num = num) ∧
  ((w.slots q).job = .idle ∨ ∃ u p base,
    ((w.slots q).job = .update u p base (.bag .data) ∧ n = 0) ∨
    ((w.slots q).job = .update u p base (.bag .schema) ∧ n = 1) ∨
    ((w.slots q).job = .update u p base (.bag .snn) ∧ n = 2) ∨
    ((w.slots q).job = .update u p base .check ∧ n = 3))

theorem commits_by (q' : Nat) (e : Event I U) (h : q' ≠ q) (hb : e.byOnly q') : ¬ Commits q e := by
  cases e <;> simp_all [Commits, Event.byOnly]

theorem stale_step (d : Path) (num : Nat) (w : World I Sch Snn B SB U)
    (R : Path → List (Rev U)) (n : Nat) (hi : Inv api w R) (hp : StaleSt api q d num n w) :
    StaleSt api q d num (n + 1) (stepJob api w q) ∧
      ∃ es, (stepJob api w q).log = w.log ++ es ∧ ∀ e ∈ es, ¬ Commits q e := by
  obtain ⟨hlt, ⟨m, hm, hd, hn⟩, hj⟩ := hp
  have hraise : StaleSt api q d num (n + 1) (w.raise q) ∧
      ∃ es, (w.raise q).log = w.log ++ es ∧ ∀ e ∈ es, ¬ Commits q e := by
    refine ⟨⟨?_, ⟨m, ?_, hd, hn⟩, .inl ?_⟩, _, raise_log q, by simp [Commits]⟩
    · rw [raise_log, hist_snoc]; exact hlt
    · rw [raise_slot]; exact hm
    · rw [raise_slot]
  have hbag : ∀ (k : Kind) u p base, (w.slots q).job = .update u p base (.bag k) →
      (StaleSt api q d num (n + 1) (stepJob api w q) ∨
        ((stepJob api w q).log = w.log ∧
         (∃ m', ((stepJob api w q).slots q).mgr = some m' ∧ m'.dir = d ∧ m'.meta_.num = num) ∧
         ((stepJob api w q).slots q).job = .update u p base (afterBag k))) ∧
      ∃ es, (stepJob api w q).log = w.log ++ es ∧ ∀ e ∈ es, ¬ Commits q e := by
    intro k u p base hj
    simp only [stepJob, hj, hm, stepUpdate]
    split
    · exact ⟨.inl hraise.1, hraise.2⟩
    · split
      · exact ⟨.inl hraise.1, hraise.2⟩
      · refine ⟨.inr ⟨rfl, ⟨{ m with bags := setKind m.bags k _ }, by rw [setSlot_same], hd, hn⟩, by rw [setSlot_same]⟩, [], ?_, by simp⟩
        simp [World.setSlot, World.setDir]
  rcases hj with hj | ⟨u, p, base, ⟨hj, rfl⟩ | ⟨hj, rfl⟩ | ⟨hj, rfl⟩ | ⟨hj, rfl⟩⟩
  · simp only [stepJob, hj]
    exact ⟨⟨hlt, ⟨m, hm, hd, hn⟩, .inl hj⟩, [], by simp, by simp⟩
  · obtain ⟨h | ⟨h1, h2, h3⟩, h4⟩ := hbag .data u p base hj
    · exact ⟨h, h4⟩
    · exact ⟨⟨by rw [h1]; exact hlt, h2, .inr ⟨u, p, base, .inr (.inl ⟨h3, rfl⟩)⟩⟩, h4⟩
  · obtain ⟨h | ⟨h1, h2, h3⟩, h4⟩ := hbag .schema u p base hj
    · exact ⟨h, h4⟩
    · exact ⟨⟨by rw [h1]; exact hlt, h2, .inr ⟨u, p, base, .inr (.inr (.inl ⟨h3, rfl⟩))⟩⟩, h4⟩
  · obtain ⟨h | ⟨h1, h2, h3⟩, h4⟩ := hbag .snn u p base hj
    · exact ⟨h, h4⟩
    · exact ⟨⟨by rw [h1]; exact hlt, h2, .inr ⟨u, p, base, .inr (.inr (.inr ⟨h3, rfl⟩))⟩⟩, h4⟩
  · simp only [stepJob, hj, hm, stepUpdate]
    rw [hi.metaAt_isSome, if_pos]
    · exact hraise
    · simp only [newMeta, hd, hn, decide_eq_true_eq]; exact hlt

theorem stale_other (d : Path) (num : Nat) (w : World I Sch Snn B SB U)
    (R : Path → List (Rev U)) (n : Nat) (a : Act I U) (hi : Inv api w R) (ha : a.who ≠ q)
    (hp : StaleSt api q d num n w) : StaleSt api q d num n (act api w a) := by
  obtain ⟨h1, h2⟩ := hp
  refine ⟨Nat.lt_of_lt_of_le h1 (hist_act_prefix hi a d).length_le, ?_⟩
  rw [act_slot_other ha]
  exact h2

/-- A stale instance: nothing it can be made to do commits anything. -/
def StaleAny (api : Api I Sch Snn B SB U) (q : Nat) (d : Path) (num : Nat)
    (w : World I Sch Snn B SB U) : Prop :=
  ∃ n, StaleSt api q d num n w

theorem StaleSt.act (d : Path) (num : Nat) (hi : Inv api w R) (a : Act I U)
    (hp : StaleAny api q d num w) :
    StaleAny api q d num (act api w a) ∧
      ∃ es, (act api w a).log = w.log ++ es ∧ ∀ e ∈ es, ¬ Commits q e := by
  obtain ⟨n, hp⟩ := hp
  by_cases ha : a.who = q
  · have hkeep : StaleAny api q d num w ∧
        ∃ es, w.log = w.log ++ es ∧ ∀ e ∈ es, ¬ Commits (I := I) (U := U) q e :=
      ⟨⟨n, hp⟩, [], by simp, by simp⟩
    obtain ⟨hlt, ⟨m, hm, hd, hn⟩, hj⟩ := hp
    have hraise : StaleAny api q d num (w.raise q) ∧
        ∃ es, (w.raise q).log = w.log ++ es ∧ ∀ e ∈ es, ¬ Commits q e := by
      refine ⟨⟨n, ?_, ⟨m, ?_, hd, hn⟩, .inl ?_⟩, _, raise_log q, by simp [Commits]⟩
      · rw [raise_log, hist_snoc]; exact hlt
      · rw [raise_slot]; exact hm
      · rw [raise_slot]
    have hnew : ¬ ((w.slots q).isNew = true) := by
      rw [isNew_iff, hm]; simp
    cases a with
    | create q' d' i => obtain rfl : q' = q := ha; simp only [Verif.SliceManager.act]; rw [if_neg hnew]; exact hkeep
    | openAt q' d' at? ro => obtain rfl : q' = q := ha; simp only [Verif.SliceManager.act]; rw [if_neg hnew]; exact hkeep
    | branch q' src i out => obtain rfl : q' = q := ha; simp only [Verif.SliceManager.act]; rw [if_neg hnew]; exact hkeep
    | copy q' src => obtain rfl : q' = q := ha; simp only [Verif.SliceManager.act]; rw [if_neg hnew]; exact hkeep
    | update q' u =>
      obtain rfl : q' = q := ha
      simp only [Verif.SliceManager.act]
      split
      · exact hkeep
      · split
        · exact hraise
        · split
          · exact hraise
          · refine ⟨⟨0, hlt, ⟨m, by rw [setSlot_same]; exact hm, hd, hn⟩, .inr ⟨u, _, _, .inl ⟨by rw [setSlot_same], rfl⟩⟩⟩,
              [], by simp [World.setSlot], by simp⟩
    | setReadOnly q' =>
      obtain rfl : q' = q := ha
      simp only [Verif.SliceManager.act]
      split
      · exact hkeep
      · refine ⟨⟨n, hlt, ⟨{ m with readOnly := true }, by rw [setSlot_same]; simp [hm], hd, hn⟩, ?_⟩,
          [], by simp [World.setSlot], by simp⟩
        rw [setSlot_same]
        exact hj
    | fail q' =>
      obtain rfl : q' = q := ha
      simp only [Verif.SliceManager.act]
      split
      · exact hkeep
      · exact hraise
    | step q' =>
      obtain rfl : q' = q := ha
      have := stale_step d num w R n hi ⟨hlt, ⟨m, hm, hd, hn⟩, hj⟩
      exact ⟨⟨n + 1, this.1⟩, this.2⟩
  · exact ⟨⟨n, stale_other d num w R n a hi ha hp⟩, act_log_other ha commits_by⟩

theorem StaleSt.run (d : Path) (num : Nat) (hi : Inv api w R) (as : List (Act I U))
    (hp : StaleAny api q d num w) :
    StaleAny api q d num (run api w as) ∧
      ∃ es, (run api w as).log = w.log ++ es ∧ ∀ e ∈ es, ¬ Commits q e := by
  induction as generalizing w R with
  | nil => exact ⟨hp, [], by simp [Verif.SliceManager.run], by simp⟩
  | cons a as ih =>
    obtain ⟨R', hi'⟩ := hi.act a
    obtain ⟨h1, es1, h2, h3⟩ := StaleSt.act d num hi a hp
    obtain ⟨h4, es2, h5, h6⟩ := ih hi' h1
    refine ⟨h4, es1 ++ es2, ?_, ?_⟩
    · rw [run_cons, h5, h2, List.append_assoc]
    · intro e he
      rcases List.mem_append.1 he with h | h
      · exact h3 e h
      · exact h6 e h

/-! ### Every update commits at most once -/

/-- An update of `q` in progress, with what it has committed so far. -/
def OnceSt (q : Nat) (d : Path) (u : U) (infos : List (Info U)) (log0 : List (Event I U))
    (w : World I Sch Snn B SB U) : Prop :=
  ∃ es m, w.log = log0 ++ es ∧ (w.slots q).mgr = some m ∧ m.dir = d ∧
    ((es.filter (isUpdateOf q) = [] ∧ .done q ∉ es ∧ m.history = infos ∧
      (((w.slots q).job = .idle ∧ .raised q ∈ es) ∨ ∃ p base pc, pc ≠ .assign ∧
        (w.slots q).job = .update u p base pc)) ∨
    ∃ names, es.filter (isUpdateOf q) = [.updated q d u names] ∧
      (((w.slots q).job = .idle ∧ .done q ∉ es ∧ .raised q ∈ es ∧ m.history = infos) ∨
       ((w.slots q).job = .idle ∧ .done q ∈ es ∧ m.history = infos ++ [.update u]) ∨
       ∃ p base, (w.slots q).job = .update u p base .assign ∧ .done q ∉ es ∧ m.history = infos))

theorem filter_by {es : List (Event I U)} {q' : Nat} (h : Logged q' es) (hq : q' ≠ q) :
    es.filter (isUpdateOf q) = [] ∧ .done q ∉ es := by
  rcases h with rfl | ⟨e, rfl, he⟩ | ⟨d, p, i, rfl⟩
  · simp
  · cases e <;> simp_all [isUpdateOf, Event.byOnly] <;> exact fun h => hq h.symm
  · simp [isUpdateOf]; exact fun h => hq h.symm

theorem OnceSt.act {d : Path} {u : U} {infos : List (Info U)} {log0 : List (Event I U)}
    {a : Act I U} (ha : a.who = q → a = .step q ∨ a = .fail q) (h : OnceSt q d u infos log0 w) :
    OnceSt q d u infos log0 (act api w a) := by
  by_cases hq : a.who = q
  · have hkeep := h
    obtain ⟨es, m, hl, hm, hd, hc⟩ := h
    have hraise : (w.slots q).job ≠ .idle → OnceSt q d u infos log0 (w.raise q) := by
      intro hne
      refine ⟨es ++ [.raised q], m, by rw [raise_log, hl, List.append_assoc],
        by rw [raise_slot]; exact hm, hd, ?_⟩
      rcases hc with ⟨h1, h2, h3, _⟩ | ⟨names, h1, ⟨h2, _⟩ | ⟨h2, _⟩ | ⟨p, base, h2, h3, h4⟩⟩
      · exact .inl ⟨by simp [h1, isUpdateOf], by simp [h2], h3, .inl ⟨by rw [raise_slot], by simp⟩⟩
      · exact absurd h2 hne
      · exact absurd h2 hne
      · exact .inr ⟨names, by simp [h1, isUpdateOf], .inl ⟨by rw [raise_slot], by simp [h3], by simp, h4⟩⟩
    rcases ha hq with rfl | rfl
    · simp only [Verif.SliceManager.act, stepJob]
      have hidle : (w.slots q).job = .idle → OnceSt q d u infos log0 (stepJob api w q) := by
        intro hj; simp only [stepJob, hj]; exact hkeep
      rcases hc with ⟨h1, h2, h3, ⟨hj, _⟩ | ⟨p, base, pc, hpc, hj⟩⟩ |
        ⟨names, h1, ⟨hj, _⟩ | ⟨hj, _⟩ | ⟨p, base, hj, h2, h3⟩⟩
      · exact hidle hj
      · have hraise := hraise (by simp [hj])
        simp only [hj, hm]
        cases pc with
        | bag k =>
          simp only [stepUpdate]
          split
          · exact hraise
          · split
            · exact hraise
            · refine ⟨es, { m with bags := setKind m.bags k _ }, hl, by rw [setSlot_same], hd, .inl ⟨h1, h2, h3, .inr ⟨p, base, afterBag k, ?_, by rw [setSlot_same]⟩⟩⟩
              cases k <;> simp [afterBag]
        | check =>
          simp only [stepUpdate]
          split
          · exact hraise
          · exact ⟨es, m, hl, by rw [goto_same]; exact hm, hd, .inl ⟨h1, h2, h3, .inr ⟨p, base, .rename, by simp, by rw [goto_same]⟩⟩⟩
        | rename =>
          simp only [stepUpdate]
          split
          · exact hraise
          · refine ⟨es ++ [.updated q d u (newNames q p base .data)], m, ?_, by rw [goto_same]; exact hm, hd,
              .inr ⟨newNames q p base .data, by simp [h1, isUpdateOf], .inr (.inr ⟨p, base, by rw [goto_same], by simp [h2], h3⟩)⟩⟩
            rw [← hd, ← List.append_assoc, ← hl]
            rfl
        | assign => exact absurd rfl hpc
      · exact hidle hj
      · exact hidle hj
      · simp only [hj, hm, stepUpdate]
        refine ⟨es ++ [.done q], { m with meta_ := newMeta q m.meta_ u p base, schema := api.updSchema m.schema p.schema }, ?_,
          by rw [return_slot], hd, .inr ⟨names, by simp [h1, isUpdateOf], .inr (.inl ⟨by rw [return_slot], by simp, ?_⟩)⟩⟩
        · rw [return_log, hl, List.append_assoc]
        · rw [← h3]; simp [Mgr.history, newMeta]
    · simp only [Verif.SliceManager.act]
      split
      · exact hkeep
      · rename_i h; exact hraise h
  · obtain ⟨es, m, hl, hm, hd, hc⟩ := h
    obtain ⟨es', h1, h2⟩ := (touch_act (api := api) (w := w) a).2
    obtain ⟨h3, h4⟩ := filter_by h2 hq
    refine ⟨es ++ es', m, by rw [h1, hl, List.append_assoc], by rw [act_slot_other hq]; exact hm, hd, ?_⟩
    rw [act_slot_other hq, List.filter_append, h3, List.append_nil]
    rcases hc with ⟨h5, h6, h7, h8⟩ | ⟨names, h5, ⟨h6, h7, h8, h9⟩ | ⟨h6, h7, h8⟩ | ⟨p, base, h6, h7, h8⟩⟩
    · refine .inl ⟨h5, by simp [h6, h4], h7, ?_⟩
      rcases h8 with ⟨h8, h9⟩ | h8
      · exact .inl ⟨h8, by simp [h9]⟩
      · exact .inr h8
    · exact .inr ⟨names, h5, .inl ⟨h6, by simp [h7, h4], by simp [h8], h9⟩⟩
    · exact .inr ⟨names, h5, .inr (.inl ⟨h6, by simp [h7], h8⟩)⟩
    · exact .inr ⟨names, h5, .inr (.inr ⟨p, base, h6, by simp [h7, h4], h8⟩)⟩

theorem OnceSt.run {d : Path} {u : U} {infos : List (Info U)} {log0 : List (Event I U)}
    {as : List (Act I U)} (ha : ∀ a ∈ as, a.who = q → a = .step q ∨ a = .fail q)
    (h : OnceSt q d u infos log0 w) : OnceSt q d u infos log0 (run api w as) := by
  induction as generalizing w with
  | nil => exact h
  | cons a as ih =>
    exact ih (fun x hx => ha x (List.mem_cons_of_mem _ hx)) (h.act (ha a (List.mem_cons_self ..)))

/-! ### An instance that is up to date -/

/-- The instance has seen everything in its directory. -/
structure Current (w : World I Sch Snn B SB U) (R : Path → List (Rev U)) (q : Nat)
    (m : Mgr I Sch Snn B SB U) : Prop where
  mgr : (w.slots q).mgr = some m
  bags : ∀ k, (w.dirs m.dir).bags k = some (m.bags k)
  last : (R m.dir).length = m.meta_.num + 1

theorem inv_update_bag (hi : Inv api w R) {m : Mgr I Sch Snn B SB U} {u : U} {p : Plan Snn B SB}
    {base : Nat} {k : Kind} (hc : Current w R q m)
    (hj : (w.slots q).job = .update u p base (.bag k)) :
    ∃ m', ((stepJob api w q).slots q).job = .update u p base (afterBag k) ∧
      (stepJob api w q).log = w.log ∧ m'.dir = m.dir ∧ m'.meta_ = m.meta_ ∧
      m'.readOnly = m.readOnly ∧ ∀ R', (R' m.dir).length = (R m.dir).length →
        Current (stepJob api w q) R' q m' := by
  obtain ⟨h, _, _, hf, _⟩ := hi.shows (hi.mgrs q m hc.mgr)
  simp only [stepJob, hj, hc.mgr, stepUpdate, hf, BagDir.add, hc.bags k, if_true]
  refine ⟨{ m with bags := setKind m.bags k ⟨(m.bags k).num + 1,
    (m.bags k).bags ++ newBags q h.view.map p base k⟩ }, by rw [setSlot_same], rfl, rfl, rfl, rfl, ?_⟩
  intro R' hR'
  refine { mgr := by rw [setSlot_same], bags := ?_, last := by rw [hR']; exact hc.last }
  intro k'
  rw [setSlot_dirs, setDir_dirs, dirsWith_same]
  by_cases hk : k = k'
  · subst hk; simp only [setKind_same]
  · simp only [setKind_other _ _ _ _ hk]; exact hc.bags k'

/-- The instance's update goes through if nobody interferes, and then it is up to date again. -/
theorem inv_update_solo (hi : Inv api w R) {m : Mgr I Sch Snn B SB U} {u : U} {p : Plan Snn B SB}
    (hc : Current w R q m) (hidle : (w.slots q).job = .idle) (hro : m.readOnly = false)
    (hp : api.plan m.initial m.schema m.load u = some p) :
    ∃ names m', (run api w (.update q u :: List.replicate 6 (.step q))).log =
        w.log ++ [.updated q m.dir u names, .done q] ∧
      ((run api w (.update q u :: List.replicate 6 (.step q))).slots q).job = .idle ∧
      ((run api w (.update q u :: List.replicate 6 (.step q))).slots q).mgr = some m' ∧
      m'.dir = m.dir ∧ m'.readOnly = false ∧ m'.meta_.num = m.meta_.num + 1 ∧
      ∀ k, ((run api w (.update q u :: List.replicate 6 (.step q))).dirs m'.dir).bags k =
        some (m'.bags k) := by
  have hready : (w.slots q).ready = some m := ready_some.2 ⟨hidle, hc.mgr⟩
  obtain ⟨R0, hi0⟩ := hi.act (.update q u)
  have e0 : act api w (.update q u) = w.setSlot q fun s =>
      { s with job := .update u p s.seq (.bag .data), seq := s.seq + p.data.length + 2 } := by
    simp only [act, hready, hro, hp]; simp
  have hrun : run api w (.update q u :: List.replicate 6 (.step q)) =
      stepJob api (stepJob api (stepJob api (stepJob api (stepJob api (stepJob api
        (act api w (.update q u)) q) q) q) q) q) q := rfl
  rw [hrun]
  have hl0 : (act api w (.update q u)).log = w.log := by rw [e0]; rfl
  have hlen : ∀ {w' : World I Sch Snn B SB U} {R'}, Inv api w' R' → w'.log = w.log →
      (R' m.dir).length = (R m.dir).length := by
    intro w' R' h1 h2
    rw [← (h1.dirs m.dir).len, ← (hi.dirs m.dir).len, h2]
  have hc0 : Current (act api w (.update q u)) R0 q m := by
    refine { mgr := ?_, bags := ?_, last := ?_ }
    · rw [e0, setSlot_same]; exact hc.mgr
    · rw [e0, setSlot_dirs]; exact hc.bags
    · rw [hlen hi0 hl0]; exact hc.last
  have hj0 : ((act api w (.update q u)).slots q).job = .update u p (w.slots q).seq (.bag .data) := by
    rw [e0, setSlot_same]
  generalize act api w (.update q u) = w0 at *
  generalize (w.slots q).seq = base at *
  -- data bags
  obtain ⟨R1, hi1⟩ := hi0.stepJob q
  obtain ⟨m1, hj1, hl1, hd1, hm1, hr1, hc1⟩ := inv_update_bag hi0 hc0 hj0
  have hc1 := hc1 R1 (by rw [hlen hi1 (hl1.trans hl0), hlen hi0 hl0])
  generalize stepJob api w0 q = w1 at *
  -- schema bag
  obtain ⟨R2, hi2⟩ := hi1.stepJob q
  obtain ⟨m2, hj2, hl2, hd2, hm2, hr2, hc2⟩ := inv_update_bag hi1 hc1 hj1
  have hc2 := hc2 R2 (by rw [hd1, hlen hi2 (hl2.trans (hl1.trans hl0)), hlen hi1 (hl1.trans hl0)])
  generalize stepJob api w1 q = w2 at *
  -- DICT bag
  obtain ⟨R3, hi3⟩ := hi2.stepJob q
  obtain ⟨m3, hj3, hl3, hd3, hm3, hr3, hc3⟩ := inv_update_bag hi2 hc2 hj2
  have hc3 := hc3 R3 (by
    rw [hd2, hd1, hlen hi3 (hl3.trans (hl2.trans (hl1.trans hl0))),
      hlen hi2 (hl2.trans (hl1.trans hl0))])
  generalize stepJob api w2 q = w3 at *
  have hl3' : w3.log = w.log := hl3.trans (hl2.trans (hl1.trans hl0))
  have hd3' : m3.dir = m.dir := hd3.trans (hd2.trans hd1)
  have hm3' : m3.meta_ = m.meta_ := hm3.trans (hm2.trans hm1)
  -- check
  have hmeta : (w3.dirs m3.dir).metaAt (newMeta q m3.meta_ u p base).num = none := by
    rw [(hi3.dirs m3.dir).metaAt, if_neg]
    rw [hc3.last]
    simp [newMeta]
  have e4 : stepJob api w3 q = w3.goto q (.update u p base .rename) := by
    simp only [stepJob, hj3, afterBag, hc3.mgr, stepUpdate, hmeta]; simp
  rw [e4]
  -- rename
  have e5 : stepJob api (w3.goto q (.update u p base .rename)) q =
      (((w3.goto q (.update u p base .rename)).setDir m3.dir fun _ =>
        { w3.dirs m3.dir with metas := (w3.dirs m3.dir).metas ++
          [((newMeta q m3.meta_ u p base).num, newMeta q m3.meta_ u p base)] }).emit
        (.updated q m3.dir u (newNames q p base .data))).goto q (.update u p base .assign) := by
    simp only [stepJob, goto_same, hc3.mgr, stepUpdate, goto_dirs, Dir.commit, hmeta]
  rw [e5]
  refine ⟨newNames q p base .data,
    { m3 with meta_ := newMeta q m3.meta_ u p base, schema := api.updSchema m3.schema p.schema }, ?_⟩
  have hs : (((((w3.goto q (.update u p base .rename)).setDir m3.dir fun _ =>
        { w3.dirs m3.dir with metas := (w3.dirs m3.dir).metas ++
          [((newMeta q m3.meta_ u p base).num, newMeta q m3.meta_ u p base)] }).emit
        (.updated q m3.dir u (newNames q p base .data))).goto q
          (.update u p base .assign)).slots q) =
      { w3.slots q with job := .update u p base .assign } := by
    rw [goto_same]
    simp [World.emit, World.setDir, goto_same]
  simp only [stepJob, hs, hc3.mgr, stepUpdate]
  refine ⟨?_, by rw [return_slot], by rw [return_slot], hd3', ?_, ?_, ?_⟩
  · rw [return_log, ← hl3', ← hd3']
    simp [World.goto, World.emit, World.setDir, World.setSlot]
  · rw [hr3, hr2, hr1]; exact hro
  · simp [newMeta, hm3']
  · intro k
    simp only [World.return, emit_dirs, setSlot_dirs, goto_dirs, setDir_dirs, dirsWith_same]
    exact hc3.bags k

/-- Opening, alone, gives an instance that is up to date. -/
theorem inv_open_solo (hi : Inv api w R) {d : Path} {ro : Bool} (hq : (w.slots q).isNew = true)
    (hne : R d ≠ []) :
    ∃ m R', Inv api (run api w (.openAt q d none ro :: List.replicate 3 (.step q))) R' ∧
      Current (run api w (.openAt q d none ro :: List.replicate 3 (.step q))) R' q m ∧
      (run api w (.openAt q d none ro :: List.replicate 3 (.step q))).log = w.log ++ [.done q] ∧
      ((run api w (.openAt q d none ro :: List.replicate 3 (.step q))).slots q).job = .idle ∧
      m.dir = d ∧ m.readOnly = ro := by
  have hd := hi.dirs d
  have hr := hd.readMeta none
  simp only [if_neg hne] at hr
  have e0 : act api w (.openAt q d none ro) = w.goto q (.open1 d ro ⟨(R d).length - 1, R d⟩) := by
    simp only [act, hq, hr, if_true]
  obtain ⟨⟨i, hini⟩, _⟩ := hi.committed hne
  obtain ⟨bd, hbd⟩ := hi.diskBags hne .data
  obtain ⟨bs, hbs⟩ := hi.diskBags hne .schema
  obtain ⟨bn, hbn⟩ := hi.diskBags hne .snn
  obtain ⟨_, f, _, hf, _⟩ := hd.there hne
  obtain ⟨s, hs⟩ := schemaFrom_sees (api := api) (i := i) (m := bs)
    (ns := namesOf (R d) .schema) (fun n hn => by
      have := hd.named .schema n hn
      rw [hbs] at this
      exact this)
  have hrun : run api w (.openAt q d none ro :: List.replicate 3 (.step q)) =
      stepJob api (stepJob api (stepJob api (act api w (.openAt q d none ro)) q) q) q := rfl
  have e3 : run api w (.openAt q d none ro :: List.replicate 3 (.step q)) =
      (((w.goto q (.open1 d ro ⟨(R d).length - 1, R d⟩)).goto q
        (.open2 d ro ⟨(R d).length - 1, R d⟩ i bd)).goto q
        (.open3 d ro ⟨(R d).length - 1, R d⟩ i bd bs s)).return q
        ⟨d, ro, i, f, allBags bd bs bn, s,
          ⟨(R d).length - 1, R d⟩⟩ := by
    rw [hrun, e0]
    simp only [stepJob, goto_same, goto_dirs, hini, hbd, hbs, hs, hf, hbn]
  obtain ⟨R', hi'⟩ := hi.run (.openAt q d none ro :: List.replicate 3 (.step q))
  have hlog : (run api w (.openAt q d none ro :: List.replicate 3 (.step q))).log =
      w.log ++ [.done q] := by rw [e3]; rfl
  refine ⟨⟨d, ro, i, f, allBags bd bs bn, s,
          ⟨(R d).length - 1, R d⟩⟩, R', hi', ?_, hlog, by rw [e3, return_slot], rfl, rfl⟩
  refine { mgr := by rw [e3, return_slot], bags := ?_, last := ?_ }
  · intro k
    rw [e3]
    simp only [World.return, emit_dirs, setSlot_dirs, goto_dirs]
    cases k with
    | data => exact hbd
    | schema => exact hbs
    | snn => exact hbn
  · have h1 := (hi'.dirs d).len
    have h2 := hd.len
    rw [hlog, hist_snoc] at h1
    simp only [applyEvent] at h1
    have := List.length_pos_iff.2 hne
    simp only
    omega

end Verif.SliceManager
