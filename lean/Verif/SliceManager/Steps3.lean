import Verif.SliceManager.Steps2

/-
Every action preserves the invariant, concluded: updating, and all actions together.
-/

namespace Verif.SliceManager

set_option linter.unusedSectionVars false

variable {I Sch Snn B SB U : Type} [DecidableEq Snn] {api : Api I Sch Snn B SB U}
  {w w' : World I Sch Snn B SB U} {R R' : Path → List (Rev U)} {q : Nat}

/-- Selecting some earlier bags, or these and some bags added after them. -/
theorem pick_added {α : Type} {ns : List Name} {pre new rest : List (Name × α)}
    (hns : ∀ n ∈ ns, n ∈ namesIn pre) (hnd : (namesIn (pre ++ new ++ rest)).Nodup) :
    pick (ns ++ namesIn new) (pre ++ new ++ rest) = pick ns pre ++ new ∧
      pick ns (pre ++ new ++ rest) = pick ns pre := by
  simp only [namesIn, List.map_append, List.nodup_append, List.mem_append] at hnd
  obtain ⟨⟨_, _, h1⟩, _, h2⟩ := hnd
  constructor
  · rw [pick_append, pick_append, pick_eq_self (bags := new), pick_eq_nil (bags := rest),
      List.append_nil]
    · congr 1
      apply pick_congr
      intro n hn
      simp only [List.mem_append]
      refine ⟨fun h => ?_, .inl⟩
      rcases h with h | h
      · exact h
      · exact absurd rfl (h1 n hn n h)
    · intro n hn h
      rcases List.mem_append.1 h with h | h
      · exact h2 n (.inl (hns n h)) n hn rfl
      · exact h2 n (.inr h) n hn rfl
    · intro n hn
      exact List.mem_append.2 (.inr hn)
  · rw [pick_append, pick_append, pick_eq_nil (bags := new), pick_eq_nil (bags := rest),
      List.append_nil, List.append_nil]
    · intro n hn h
      exact h2 n (.inl (hns n h)) n hn rfl
    · intro n hn h
      exact h1 n (hns n h) n hn rfl

theorem SlotOk.updating {u : U} {p : Plan Snn B SB} {base : Nat} {pc : UpdatePc}
    (hj : (w'.slots q).job = .update u p base pc)
    (hm : ∀ m, (w'.slots q).mgr = some m → MgrOk api (w'.dirs m.dir) (R' m.dir) m)
    (hok : JobOk api w'.dirs R' (hist api w'.log) q (w'.slots q))
    (hp : ∀ m, (w'.slots q).mgr = some m → pc ≠ .assign → Pending w' R' q base pc m.dir) :
    SlotOk api w w' R' q :=
  { mgr := hm
    job := hok
    build := fun b hb => by rw [hj] at hb; simp [building] at hb
    pend := fun u' p' base' pc' m h hm hpc => by
      rw [hj] at h
      simp only [Job.update.injEq] at h
      obtain ⟨rfl, rfl, rfl, rfl⟩ := h
      exact hp m hm hpc
    auto := fun p s h => by rw [hj] at h; simp [autoTarget] at h
    autoInit := fun src i p s h => by rw [hj] at h; simp at h }

theorem past_afterBag (k k' : Kind) :
    past (afterBag k) k' = (past (.bag k) k' || k == k') := by
  cases k <;> cases k' <;> rfl

theorem past_self (k : Kind) : past (.bag k) k = false := by cases k <;> rfl

/-- Everything about updating. -/
theorem Inv.stepUpdate (hi : Inv api w R) {m : Mgr I Sch Snn B SB U} {u : U} {p : Plan Snn B SB}
    {base : Nat} {pc : UpdatePc} (hjob : (w.slots q).job = .update u p base pc)
    (hmgr : (w.slots q).mgr = some m) :
    ∃ R', Inv api (stepUpdate api w q m u p base pc) R' := by
  have hj := hi.jobs q
  unfold JobOk at hj
  rw [hjob] at hj
  simp only at hj
  obtain ⟨m', h, hm', hu, has⟩ := hj
  obtain rfl : m' = m := by rw [hmgr] at hm'; simpa using hm'.symm
  have hok := hi.mgrs q m' hmgr
  obtain ⟨h', hget, hsh, hfm, hview⟩ := hi.shows hok
  obtain rfl : h' = h := by have := hu.at_; rw [hget] at this; simpa using this
  have hdir := hi.dirs m'.dir
  cases pc with
  | bag k =>
    have hpend := hi.pend q u p base _ m' hjob hmgr (by simp)
    simp only [Verif.SliceManager.stepUpdate, hfm]
    cases hadd : (m'.bags k).add ((w.dirs m'.dir).bags k) (newBags q h'.view.map p base k) with
    | none => exact ⟨R, hi.raise⟩
    | some bd' =>
      simp only
      obtain ⟨bd, hbd, hnum, hbd'⟩ := add_eq hadd
      have hsame : m'.bags k = bd := by
        obtain ⟨⟨x, h1, h2⟩, _⟩ := hok.sees k
        rw [hbd] at h1
        simp only [Option.some.injEq] at h1
        subst h1
        have := h2.2.2 hnum.symm
        cases hmb : m'.bags k
        cases bd
        rw [hmb] at this hnum
        simp_all
      have hmem : ∀ n ∈ namesIn (newBags q h'.view.map p base k), n ∈ newNames q p base k := by
        intro n hn; rw [newNames_eq] at hn; exact hn
      have hold := hu.todo k (past_self k)
      have hnew : ∀ n ∈ namesIn (newBags q h'.view.map p base k), n ∉ namesIn (m'.bags k).bags := by
        intro n hn hn'
        have h1 := newNames_mem (hmem n hn)
        have h2 := hold n hn' h1.1
        omega
      refine ⟨R, ?_⟩
      have hmv : Move api w ((w.setDir m'.dir fun x =>
          { x with bags := setKind x.bags k (some bd') }).setSlot q fun s =>
            { s with
              mgr := some { m' with bags := setKind m'.bags k bd' }
              job := .update u p base (afterBag k) }) R R q m'.dir := by
        refine Move.add hi (k := k) (bd := bd) (new := newBags q h'.view.map p base k)
          hok.metaAt.ne_nil hbd (fun q' hq => ?_) ?_ ?_ rfl ?_ ?_ ?_ ?_
        · rw [setSlot_other _ hq]; rfl
        · rw [setSlot_same]; rfl
        · rw [setSlot_dirs, setDir_dirs, hbd', hsame]
        · intro n hn
          have h1 := newNames_mem (hmem n hn)
          refine ⟨h1.1, ?_⟩
          have := hu.seq
          omega
        · rw [newNames_eq]; exact newNames_nodup q p base k
        · rw [← hsame]; exact hnew
        · intro n hn k' hn'
          have h1 := newNames_mem (hmem n hn)
          have h2 := hpend.2 _ _ _ hn' h1.1
          omega
      have hdk : (((w.setDir m'.dir fun x =>
          { x with bags := setKind x.bags k (some bd') }).setSlot q fun s =>
            { s with
              mgr := some { m' with bags := setKind m'.bags k bd' }
              job := .update u p base (afterBag k) }).dirs m'.dir) =
          { w.dirs m'.dir with bags := setKind (w.dirs m'.dir).bags k (some bd') } := by
        rw [setSlot_dirs, setDir_dirs, dirsWith_same]
      have hbags : bd'.bags = (m'.bags k).bags ++ newBags q h'.view.map p base k := by rw [hbd']
      refine hi.move hmv (SlotOk.updating (u := u) (p := p) (base := base) (pc := afterBag k)
        ?_ ?_ ?_ ?_)
      · rw [setSlot_same]
      · rw [setSlot_same]
        intro x hx
        simp only [Option.some.injEq] at hx
        subst hx
        have hok' := hok.ext hmv.ext
        rw [hdk] at hok' ⊢
        refine { metaAt := hok'.metaAt, sees := ?_, initial := hok'.initial, map := hok'.map, schema := ?_ }
        · intro k'
          by_cases hk : k = k'
          · subst hk
            simp only [setKind_same]
            refine ⟨⟨_, rfl, Behind.refl _⟩, fun n hn => ?_⟩
            rw [hbags]
            simp only [namesIn, List.map_append, List.mem_append]
            exact .inl ((hok.sees k).2 n hn)
          · have := hok'.sees k'
            simp only [setKind_other _ _ _ _ hk] at this ⊢
            exact this
        · have := hok.schema
          simp only
          by_cases hk : k = .schema
          · subst hk
            rw [setKind_same, hbags, pick_append, pick_eq_nil (bags := newBags _ _ _ _ _),
              List.append_nil]
            · exact this
            · intro n hn hn'
              exact hnew n hn ((hok.sees .schema).2 n hn')
          · rw [setKind_other _ _ _ _ hk]
            exact this
      · rw [setSlot_same]
        simp only [JobOk]
        refine ⟨_, h', rfl, ?_, fun hc => by cases k <;> simp [afterBag] at hc⟩
        refine { rw := hu.rw, seq := hu.seq, at_ := hu.at_, plan := hu.plan, did := ?_, todo := ?_ }
        · intro k' hk'
          by_cases hk : k = k'
          · subst hk
            simp only [setKind_same]
            exact ⟨_, hbags, (hok.sees k).2, hold⟩
          · rw [past_afterBag] at hk'
            simp only [setKind_other _ _ _ _ hk]
            refine hu.did k' ?_
            simpa [hk] using hk'
        · intro k' hk'
          rw [past_afterBag] at hk'
          simp only [Bool.or_eq_false_iff, beq_eq_false_iff_ne] at hk'
          simp only [setKind_other _ _ _ _ hk'.2]
          exact hu.todo k' hk'.1
      · rw [setSlot_same]
        intro x hx _
        simp only [Option.some.injEq] at hx
        subst hx
        refine ⟨?_, hpend.2⟩
        intro d k' n hn ho hb
        rw [past_afterBag]
        by_cases hd : d = m'.dir
        · subst hd
          refine ⟨rfl, ?_⟩
          by_cases hk : k = k'
          · simp [hk]
          · rw [hdk] at hn
            simp only [setKind_other _ _ _ _ hk] at hn
            simp [(hpend.1 _ _ _ hn ho hb).2]
        · rw [setSlot_dirs, setDir_dirs, dirsWith_other _ _ hd] at hn
          exact absurd (hpend.1 _ _ _ hn ho hb).1 hd
  | check =>
    have hpend := hi.pend q u p base _ m' hjob hmgr (by simp)
    simp only [Verif.SliceManager.stepUpdate]
    by_cases hc : ((w.dirs m'.dir).metaAt (newMeta q m'.meta_ u p base).num).isSome = true
    · rw [if_pos hc]; exact ⟨R, hi.raise⟩
    · rw [if_neg hc]
      refine ⟨R, hi.move (q := q) (d0 := .user 0)
        (Move.slot hi (fun q' hq => goto_other w hq _) ?_ rfl rfl hi.legal _)
        (SlotOk.updating (u := u) (p := p) (base := base) (pc := .rename) ?_ ?_ ?_ ?_)⟩
      · rw [goto_same]; exact Nat.le_refl _
      · rw [goto_same]
      · rw [goto_same]; exact hi.mgrs q
      · rw [goto_same]
        simp only [JobOk]
        exact ⟨m', h', hmgr, { hu with }, fun hc => by simp at hc⟩
      · rw [goto_same]
        intro x hx _
        obtain rfl : x = m' := by simp only [hmgr, Option.some.injEq] at hx; exact hx.symm
        exact hpend
  | rename =>
    have hpend := hi.pend q u p base _ m' hjob hmgr (by simp)
    simp only [Verif.SliceManager.stepUpdate]
    cases hcm : (w.dirs m'.dir).commit (newMeta q m'.meta_ u p base) with
    | none => exact ⟨R, hi.raise⟩
    | some x =>
      simp only
      have hlen : (R m'.dir).length = m'.meta_.num + 1 := by
        unfold Dir.commit at hcm
        rw [hdir.metaAt] at hcm
        have h1 := hok.metaAt.1
        by_cases hc : (newMeta q m'.meta_ u p base).num < (R m'.dir).length
        · rw [if_pos hc] at hcm; simp at hcm
        · simp only [newMeta] at hc
          omega
      have hrevs : m'.meta_.revs = R m'.dir := by
        rw [hok.metaAt.2, ← hlen, List.take_length]
      have hx : x = { w.dirs m'.dir with
          metas := (w.dirs m'.dir).metas ++ [((R m'.dir).length,
            ⟨(R m'.dir).length, R m'.dir ++ [⟨.update u, newNames q p base⟩]⟩)] } := by
        unfold Dir.commit at hcm
        rw [hdir.metaAt, if_neg (by simp [newMeta, hlen])] at hcm
        simp only [Option.some.injEq] at hcm
        rw [← hcm]
        simp only [newMeta, hrevs, hlen]
      have hlast : (hist api w.log m'.dir).getLast? = some h' := by
        rw [List.getLast?_eq_getElem?, hdir.len, hlen]
        exact hget
      have hsp : ∀ k, ∃ pre rest, (m'.bags k).bags = pre ++ newBags q h'.view.map p base k ∧
          bagsIn ((w.dirs m'.dir).bags k) = pre ++ newBags q h'.view.map p base k ++ rest ∧
          (∀ n ∈ namesOf (R m'.dir) k, n ∈ namesIn pre) := by
        intro k
        obtain ⟨pre, h1, h2, _⟩ := hu.did k (by cases k <;> rfl)
        obtain ⟨⟨bd, h4, h5⟩, _⟩ := hok.sees k
        obtain ⟨rest, h6⟩ := h5.1
        refine ⟨pre, rest, h1, ?_, ?_⟩
        · rw [h4]
          simp only [bagsIn]
          rw [← h6, h1]
        · rw [← hrevs]; exact h2
      have hrn : ∀ k, namesOf (R m'.dir ++ [⟨.update u, newNames q p base⟩]) k =
          namesOf (R m'.dir) k ++ namesIn (newBags q h'.view.map p base k) := by
        intro k
        rw [namesOf_append, newNames_eq]
        simp [namesOf]
      have hmv : Move api w (((w.setDir m'.dir fun _ => x).emit
          (.updated q m'.dir u (newNames q p base .data))).goto q (.update u p base .assign)) R
          (fun d' => if d' = m'.dir then R m'.dir ++ [⟨.update u, newNames q p base⟩] else R d')
          q m'.dir := by
        refine Move.update hi (rev := ⟨.update u, newNames q p base⟩) (r := h') (p := p)
          (base := base) (u := u) hok.metaAt.ne_nil (fun q' hq => ?_) ?_ ?_ rfl rfl hlast hu.plan
          ?_ ?_ rfl
        · rw [goto_other _ hq]; rfl
        · rw [goto_same]; rfl
        · rw [goto_dirs, emit_dirs, setDir_dirs, hx]
        · intro k
          obtain ⟨pre, rest, h1, h2, h3⟩ := hsp k
          have hnd := hdir.nodup k
          rw [h2] at hnd
          have := pick_added h3 hnd
          rw [hrn, h2, this.1, this.2]
        · intro n hn hn'
          have h1 := newNames_mem hn
          have h2 := hpend.2 _ _ _ hn' h1.1
          omega
      refine ⟨_, hi.move hmv
        (SlotOk.updating (u := u) (p := p) (base := base) (pc := .assign) ?_ ?_ ?_ ?_)⟩
      · rw [goto_same]
      · rw [goto_same]
        intro y hy
        exact (hi.mgrs q y hy).ext (hmv.extAll _)
      · rw [goto_same]
        simp only [JobOk]
        refine ⟨m', h', hmgr, { hu with at_ := prefix_getElem? (hmv.histAll _) hu.at_ }, fun _ => ?_⟩
        have hok' := hok.ext hmv.ext
        have hb : ((((w.setDir m'.dir fun _ => x).emit
          (.updated q m'.dir u (newNames q p base .data))).goto q
            (.update u p base .assign)).dirs m'.dir).bags = (w.dirs m'.dir).bags := by
          rw [goto_dirs, emit_dirs, setDir_dirs, dirsWith_same, hx]
        refine { metaAt := ?_, sees := ?_, initial := hok'.initial, map := hok'.map, schema := ?_ }
        · simp only [updatedMgr, newMeta, if_true]
          refine ⟨by simp [hlen], ?_⟩
          simp only [hrevs]
          rw [List.take_of_length_le (by simp [hlen])]
        · intro k
          rw [hb]
          obtain ⟨pre, rest, h1, h2, h3⟩ := hsp k
          refine ⟨(hok.sees k).1, ?_⟩
          intro n hn
          simp only [updatedMgr, newMeta, hrevs, hrn] at hn
          simp only [updatedMgr]
          rw [h1]
          simp only [namesIn, List.map_append, List.mem_append] at hn ⊢
          rcases hn with hn | hn
          · exact .inl (h3 n hn)
          · exact .inr hn
        · obtain ⟨pre, rest, h1, h2, h3⟩ := hsp .schema
          have hnd := hdir.nodup .schema
          rw [h2] at hnd
          have hnd' : (namesIn (pre ++ newBags q h'.view.map p base .schema ++ [])).Nodup := by
            rw [List.append_nil]
            refine List.Sublist.nodup (List.Sublist.map _ ?_) hnd
            exact List.sublist_append_left _ _
          have h4 := pick_added h3 hnd'
          simp only [List.append_nil] at h4
          have h5 := hok.schema
          rw [hrevs, h1, h4.2] at h5
          simp only [updatedMgr, newMeta, hrevs, hrn, h1, h4.1]
          rw [h5]
          simp [newBags]
      · intro _ _ hc
        exact absurd rfl hc
  | assign =>
    simp only [Verif.SliceManager.stepUpdate]
    exact ⟨R, hi.ret (m := updatedMgr api q m' u p base) (has rfl)⟩

end Verif.SliceManager
