import Verif.SliceManager.Steps

/-
Every action preserves the invariant, continued: opening, copying, branching, updating.
-/

namespace Verif.SliceManager

set_option linter.unusedSectionVars false

variable {I Sch Snn B SB U : Type} [DecidableEq Snn] {api : Api I Sch Snn B SB U}
  {w w' : World I Sch Snn B SB U} {R R' : Path → List (Rev U)} {q : Nat}

/-! ### Reading metadata -/

theorem find_range (n m : Nat) :
    (List.range n).find? (fun j => j == m) = if m < n then some m else none := by
  induction n with
  | zero => simp
  | succ n ih =>
    rw [List.range_succ, List.find?_append, ih]
    by_cases h : m < n
    · rw [if_pos h, if_pos (by omega)]; rfl
    · rw [if_neg h]
      by_cases h2 : n = m
      · subst h2; simp
      · rw [if_neg (by omega)]; simp [h2]

theorem DirOk.metaAt {d : Dir I Snn B SB U} {R : List (Rev U)} {H : List (Revision I Sch Snn B U)}
    (h : DirOk api d R H) (n : Nat) :
    d.metaAt n = if n < R.length then some ⟨n, R.take (n + 1)⟩ else none := by
  unfold Dir.metaAt
  rw [h.metas, List.find?_map]
  have : ((fun e : Nat × Meta U => e.1 == n) ∘ fun j => (j, (⟨j, R.take (j + 1)⟩ : Meta U))) =
      fun j => j == n := rfl
  rw [this, find_range]
  by_cases hn : n < R.length
  · rw [if_pos hn, if_pos hn]; rfl
  · rw [if_neg hn, if_neg hn]; rfl

theorem DirOk.latest {d : Dir I Snn B SB U} {R : List (Rev U)} {H : List (Revision I Sch Snn B U)}
    (h : DirOk api d R H) : d.latest = if R = [] then none else some (R.length - 1) := by
  unfold Dir.latest
  rw [h.metas, List.map_map]
  have : (Prod.fst ∘ fun j => (j, (⟨j, R.take (j + 1)⟩ : Meta U))) = id := rfl
  rw [this, List.map_id]
  by_cases hR : R = []
  · simp [hR]
  · rw [if_neg hR, List.max?_eq_some_iff]
    have : 0 < R.length := List.length_pos_iff.2 hR
    refine ⟨by simp; omega, ?_⟩
    intro b hb
    rw [List.mem_range] at hb
    omega

/-- Reading the metadata gives the one asked for. -/
theorem DirOk.readMeta {d : Dir I Snn B SB U} {R : List (Rev U)}
    {H : List (Revision I Sch Snn B U)} (h : DirOk api d R H) (at? : Option Int) :
    d.readMeta at? =
      match at? with
      | none => if R = [] then none else some ⟨R.length - 1, R⟩
      | some i => if 0 ≤ i ∧ i < R.length then some ⟨i.toNat, R.take (i.toNat + 1)⟩ else none := by
  unfold Dir.readMeta
  rw [h.latest]
  by_cases hR : R = []
  · subst hR
    cases at? with
    | none => rfl
    | some i =>
      simp only [if_true]
      rw [if_neg]
      simp
  · rw [if_neg hR]
    have hpos : 0 < R.length := List.length_pos_iff.2 hR
    cases at? with
    | none =>
      simp only
      rw [h.metaAt, if_pos (by omega), if_neg hR, Nat.sub_add_cancel hpos, List.take_length]
    | some i =>
      simp only
      by_cases hc : 0 ≤ i ∧ i < R.length
      · rw [if_pos hc, if_pos ⟨hc.1, by omega⟩, h.metaAt, if_pos (by omega)]
      · rw [if_neg hc, if_neg]
        intro h'
        apply hc
        omega

theorem DirOk.readMeta_ok {d : Dir I Snn B SB U} {R : List (Rev U)}
    {H : List (Revision I Sch Snn B U)} (h : DirOk api d R H) {at? : Option Int} {m : Meta U}
    (hm : d.readMeta at? = some m) : MetaAt R m := by
  rw [h.readMeta] at hm
  cases at? with
  | none =>
    simp only at hm
    by_cases hR : R = []
    · rw [if_pos hR] at hm; simp at hm
    · rw [if_neg hR] at hm
      simp only [Option.some.injEq] at hm
      subst hm
      have hpos : 0 < R.length := List.length_pos_iff.2 hR
      exact ⟨by simp; omega, by simp [Nat.sub_add_cancel hpos]⟩
  | some i =>
    simp only at hm
    by_cases hc : 0 ≤ i ∧ i < R.length
    · rw [if_pos hc] at hm
      simp only [Option.some.injEq] at hm
      subst hm
      exact ⟨by simp; omega, rfl⟩
    · rw [if_neg hc] at hm; simp at hm

/-- Names in an earlier revision are names in the last one. -/
theorem namesOf_take {R : List (Rev U)} {j : Nat} {k : Kind} {n : Name}
    (h : n ∈ namesOf (R.take j) k) : n ∈ namesOf R k := by
  simp only [namesOf, List.mem_flatMap] at h ⊢
  obtain ⟨r, hr, hn⟩ := h
  exact ⟨r, List.mem_of_mem_take hr, hn⟩

theorem MetaAt.names {R : List (Rev U)} {m : Meta U} (h : MetaAt R m) {k : Kind} {n : Name}
    (hn : n ∈ namesOf m.revs k) : n ∈ namesOf R k := by
  rw [h.2] at hn
  exact namesOf_take hn

/-- What a freshly opened bag manager has seen. -/
theorem Inv.sees (hi : Inv api w R) {d : Path} {m : Meta U} (hm : MetaAt (R d) m) {k : Kind}
    {b : BagDir (Content Snn B SB k)} (hb : (w.dirs d).bags k = some b) :
    Sees ((w.dirs d).bags k) (namesOf m.revs k) b := by
  refine ⟨⟨b, hb, Behind.refl _⟩, fun n hn => ?_⟩
  have := (hi.dirs d).named k n (hm.names hn)
  rw [hb] at this
  exact this

/-- A manager at a committed revision shows it. -/
theorem Inv.shows (hi : Inv api w R) {m : Mgr I Sch Snn B SB U}
    (hm : MgrOk api (w.dirs m.dir) (R m.dir) m) :
    ∃ h, (hist api w.log m.dir)[m.meta_.num]? = some h ∧ Shows m h.view ∧
      m.fullMap = some h.view.map ∧
      h.view = viewFrom api m.initial m.map fun k =>
        pick (namesOf m.meta_.revs k) (bagsIn ((w.dirs m.dir).bags k)) := by
  have hdir := hi.dirs m.dir
  have hlen := hdir.len
  obtain ⟨i, f, h1, h2, h3, h4⟩ := hdir.there hm.metaAt.ne_nil
  have hlt : m.meta_.num < (hist api w.log m.dir).length := by rw [hlen]; exact hm.metaAt.1
  have hget : (hist api w.log m.dir)[m.meta_.num]? = some (hist api w.log m.dir)[m.meta_.num] :=
    List.getElem?_eq_getElem hlt
  have hi1 : i = m.initial := by rw [hm.initial] at h1; simpa using h1.symm
  have hf1 : f = m.map := by rw [hm.map] at h2; simpa using h2.symm
  have hv := h4 _ _ hget
  rw [hi1, hf1, ← hm.metaAt.2] at hv
  have := shows_of_sees (api := api) hm.sees hdir.nodup hm.schema hv
    (hdir.closed _ (List.mem_of_getElem? hget))
  exact ⟨_, hget, this.1, this.2, hv⟩

/-! ### Opening and copying -/

theorem schemaFrom_some {i : I} {m : BagDir (Content Snn B SB .schema)} {ns : List Name} {s : Sch}
    (h : schemaFrom api i m ns = some s) :
    s = ((pick ns m.bags).map Prod.snd).foldl api.updSchema (api.schemaOf i) := by
  unfold schemaFrom BagDir.minimal at h
  by_cases hc : ns.all (fun n => (m.bags.map Prod.fst).contains n) = true
  · rw [if_pos hc] at h
    simp only [Option.map_some, Option.some.injEq] at h
    exact h.symm
  · rw [if_neg hc] at h
    simp at h

/-- Everything about opening and copying. -/
theorem Inv.stepOpen (hi : Inv api w R)
    (hjob : (∃ d ro m, (w.slots q).job = .open1 d ro m) ∨
      (∃ d ro m i db, (w.slots q).job = .open2 d ro m i db) ∨
      (∃ d ro m i db sb s, (w.slots q).job = .open3 d ro m i db sb s) ∨
      (∃ src, (w.slots q).job = .copy1 src) ∨ (∃ src db, (w.slots q).job = .copy2 src db) ∨
      (∃ src db sb, (w.slots q).job = .copy3 src db sb)) : Inv api (stepJob api w q) R := by
  have hj := hi.jobs q
  unfold JobOk at hj
  unfold stepJob
  rcases hjob with ⟨d, ro, m, h⟩ | ⟨d, ro, m, i, db, h⟩ | ⟨d, ro, m, i, db, sb, s, h⟩ | ⟨src, h⟩ |
    ⟨src, db, h⟩ | ⟨src, db, sb, h⟩
  · rw [h] at hj ⊢
    simp only at hj ⊢
    cases h1 : (w.dirs d).initial with
    | none => exact hi.raise
    | some i =>
      cases h2 : (w.dirs d).bags .data with
      | none => exact hi.raise
      | some db =>
        refine hi.goto ?_ ⟨rfl, rfl, fun _ _ _ _ h => by simp at h⟩
        simp only [JobOk]
        exact ⟨hj, h1, hi.sees (k := .data) hj h2⟩
  · rw [h] at hj ⊢
    simp only at hj ⊢
    cases h2 : (w.dirs d).bags .schema with
    | none => exact hi.raise
    | some sb =>
      simp only
      cases h3 : schemaFrom api i sb (namesOf m.revs .schema) with
      | none => exact hi.raise
      | some s =>
        refine hi.goto ?_ ⟨rfl, rfl, fun _ _ _ _ h => by simp at h⟩
        simp only [JobOk]
        exact ⟨hj.1, hj.2.1, hj.2.2, hi.sees (k := .schema) hj.1 h2, schemaFrom_some h3⟩
  · rw [h] at hj ⊢
    simp only at hj ⊢
    cases h1 : (w.dirs d).map with
    | none => exact hi.raise
    | some f =>
      cases h2 : (w.dirs d).bags .snn with
      | none => exact hi.raise
      | some nb =>
        apply hi.ret
        exact
          { metaAt := hj.1
            sees := fun k => by
              cases k with
              | data => exact hj.2.2.1
              | schema => exact hj.2.2.2.1
              | snn => exact hi.sees (k := .snn) hj.1 h2
            initial := hj.2.1
            map := h1
            schema := hj.2.2.2.2 }
  · rw [h] at hj ⊢
    simp only at hj ⊢
    cases h2 : (w.dirs src.dir).bags .data with
    | none => exact hi.raise
    | some db =>
      refine hi.goto ?_ ⟨rfl, rfl, fun _ _ _ _ h => by simp at h⟩
      simp only [JobOk]
      exact ⟨hj, hi.sees (k := .data) hj.metaAt h2⟩
  · rw [h] at hj ⊢
    simp only at hj ⊢
    cases h2 : (w.dirs src.dir).bags .schema with
    | none => exact hi.raise
    | some sb =>
      refine hi.goto ?_ ⟨rfl, rfl, fun _ _ _ _ h => by simp at h⟩
      simp only [JobOk]
      exact ⟨hj.1, hj.2, hi.sees (k := .schema) hj.1.metaAt h2⟩
  · rw [h] at hj ⊢
    simp only at hj ⊢
    cases h2 : (w.dirs src.dir).bags .snn with
    | none => exact hi.raise
    | some nb =>
      apply hi.ret
      exact
        { metaAt := hj.1.metaAt
          sees := fun k => by
            cases k with
            | data => exact hj.2.1
            | schema => exact hj.2.2
            | snn => exact hi.sees (k := .snn) hj.1.metaAt h2
          initial := hj.1.initial
          map := hj.1.map
          schema := by
            have h3 := hj.1.schema
            rw [(hj.1.sees .schema).pick ((hi.dirs src.dir).nodup .schema)] at h3
            rw [h3, ← hj.2.2.pick ((hi.dirs src.dir).nodup .schema)]
            rfl }

/-! ### Branching -/

/-- Drawing and claiming a directory name. -/
theorem Inv.stepClaim (hi : Inv api w R)
    (hjob : (∃ src i, (w.slots q).job = .draw src i) ∨
      (∃ src i s, (w.slots q).job = .claim src i s)) : Inv api (stepJob api w q) R := by
  have hj := hi.jobs q
  unfold JobOk at hj
  unfold stepJob
  rcases hjob with ⟨src, i, h⟩ | ⟨src, i, s, h⟩
  · rw [h] at hj ⊢
    simp only at hj ⊢
    have hi' : Inv api (w.setSlot q fun x => { x with seq := x.seq + 1 }) R := by
      refine hi.move (q := q) (d0 := .user 0)
        (Move.slot hi (fun q' h => setSlot_other w h _) ?_ rfl rfl hi.legal _)
        (SlotOk.plain ?_ ?_ ?_)
      · rw [setSlot_same]; simp
      · rw [setSlot_same]; exact hi.mgrs q
      · rw [setSlot_same]
        simp only [JobOk, h]
        exact hj
      · rw [setSlot_same]
        simp only [h]
        exact ⟨rfl, rfl, fun _ _ _ _ h => by simp at h⟩
    by_cases hc : (w.dirs src.dir).claimed.contains (api.short ⟨q, (w.slots q).seq⟩) = true
    · rw [if_pos hc]; exact hi'
    · rw [if_neg hc]
      refine hi'.goto ?_ ⟨rfl, rfl, fun _ _ _ _ h => by simp at h⟩
      simp only [JobOk]
      exact hj
  · rw [h] at hj ⊢
    simp only at hj ⊢
    by_cases hc : (w.dirs src.dir).claimed.contains s = true
    · rw [if_pos hc]
      refine hi.goto ?_ ⟨rfl, rfl, fun _ _ _ _ h => by simp at h⟩
      simp only [JobOk]
      exact hj
    · rw [if_neg hc]
      have hcl : s ∉ (w.dirs src.dir).claimed := by simpa using hc
      have hmv : Move api w ((w.setDir src.dir fun x => { x with claimed := x.claimed ++ [s] }).goto q
          (.branch src i (.branch src.dir s) .initial)) R R q src.dir := by
        refine Move.claim hi (s := s) hj.1.metaAt.ne_nil (fun q' h => ?_) ?_ ?_ rfl
        · rw [goto_other _ h]; rfl
        · rw [goto_same]; rfl
        · rw [goto_dirs, setDir_dirs]
      have hne : Path.branch src.dir s ≠ src.dir := by
        intro he; exact absurd (congrArg sizeOf he) (by simp; omega)
      refine hi.move hmv
        { mgr := ?_, job := ?_, build := ?_, pend := ?_, auto := ?_, autoInit := ?_ }
      · rw [goto_same]
        intro m hm
        exact (hi.mgrs q m hm).ext (hmv.extAll _)
      · rw [goto_same]
        simp only [JobOk]
        exact ⟨hj.1.ext (hmv.extAll _), hj.2⟩
      · rw [goto_same]
        intro b hb
        simp [building] at hb
      · rw [goto_same]
        intro u p base pc m h
        simp at h
      · rw [goto_same]
        intro p s' h
        simp only [autoTarget, Option.some.injEq, Prod.mk.injEq] at h
        obtain ⟨rfl, rfl⟩ := h
        refine ⟨?_, ?_⟩
        · rw [goto_dirs, setDir_dirs, dirsWith_same]; simp
        · intro q' hq ht
          exact hcl (hi.autoIn q' _ _ ht)
      · rw [goto_same]
        intro src' i' p s' h
        simp only [Job.branch.injEq, Path.branch.injEq] at h
        obtain ⟨_, _, ⟨rfl, rfl⟩, _⟩ := h
        rw [goto_dirs, setDir_dirs, dirsWith_other _ _ hne]
        exact hi.autoEmpty _ _ hcl

theorem pick_nodup {α : Type} {ns : List Name} {bags : List (Name × α)}
    (h : (namesIn bags).Nodup) : (namesIn (pick ns bags)).Nodup :=
  List.Sublist.nodup (List.Sublist.map _ List.filter_sublist) h

/-- `branch` into a directory. -/
theorem Inv.stepBranch (hi : Inv api w R) {src : Mgr I Sch Snn B SB U} {i : Nat} {d : Path}
    {pc : BranchPc} (hjob : (w.slots q).job = .branch src i d pc) :
    ∃ R', Inv api (stepBranch api w q src i d pc) R' := by
  have hjobs := hi.jobs q
  unfold JobOk at hjobs
  rw [hjob] at hjobs
  simp only at hjobs
  obtain ⟨hsrc, hlt⟩ := hjobs
  have hjk : ∀ pc' (dirs' : Path → Dir I Snn B SB U),
      (∀ d', DirExt (w.dirs d') (dirs' d') (R d') (R d')) →
      JobOk api dirs' R (hist api w.log) q { w.slots q with job := .branch src i d pc' } := by
    intro pc' dirs' he
    simp only [JobOk]
    exact ⟨hsrc.ext (he _), hlt⟩
  have hauto : ∀ pc', autoTarget (.branch src i d pc') = autoTarget (w.slots q).job := by
    intro pc'
    rw [hjob]
    cases d <;> rfl
  have hsub : ∀ k n, n ∈ namesOf (src.meta_.revs.take (i + 1)) k → n ∈ namesIn (src.bags k).bags :=
    fun k n hn => (hsrc.sees k).2 n (namesOf_take hn)
  have hbr : ∀ k, (src.bags k).branch (namesOf (src.meta_.revs.take (i + 1)) k) =
      some (branchBags src i k) := fun k => branch_some (hsub k)
  have hsn : ∀ k, (namesIn (src.bags k).bags).Nodup := by
    intro k
    obtain ⟨⟨bd, h1, h2⟩, _⟩ := hsrc.sees k
    have := (hi.dirs src.dir).nodup k
    rw [h1] at this
    exact List.Sublist.nodup (List.Sublist.map _ h2.1.sublist) this
  have hnd : ∀ s k, (namesIn (bagsIn (upTo (branchBags src i) s k))).Nodup := by
    intro s k
    rcases upTo_bags (f := branchBags src i) (s := s) (k := k) with h | h
    · rw [h]; exact pick_nodup (hsn k)
    · rw [h]; simp
  have hnm : ∀ s k n, n ∈ namesIn (bagsIn (upTo (branchBags src i) s k)) →
      ∃ d, n ∈ namesOf (R d) k := by
    intro s k n hn
    rcases upTo_bags (f := branchBags src i) (s := s) (k := k) with h | h
    · rw [h] at hn
      exact ⟨src.dir, hsrc.metaAt.names (namesOf_take (namesIn_pick.1 hn).2)⟩
    · rw [h] at hn; simp at hn
  cases pc with
  | initial =>
    simp only [Verif.SliceManager.stepBranch]
    by_cases hc : (w.dirs d).initial.isSome = true
    · rw [if_pos hc]; exact ⟨R, hi.raise⟩
    · rw [if_neg hc]
      have hnone : (w.dirs d).initial = none := by
        cases h : (w.dirs d).initial with
        | none => rfl
        | some x => rw [h] at hc; exact absurd rfl hc
      refine ⟨R, hi.initial (b := ⟨d, src.initial, none, upTo (branchBags src i) 0⟩) hnone rfl rfl
        rfl rfl (fun k => upTo_zero _ k) (hauto _) ?_ (hjk _)⟩
      rintro p s rfl
      rw [hjob]; rfl
  | map =>
    simp only [Verif.SliceManager.stepBranch]
    have hb : building api (w.slots q).job =
        some ⟨d, src.initial, none, upTo (branchBags src i) 0⟩ := by rw [hjob]; rfl
    obtain ⟨hR, hini, hmap, hbags⟩ := hi.build q _ hb
    refine ⟨R, hi.fill hb rfl (b' := ⟨d, src.initial, some src.map, upTo (branchBags src i) 0⟩)
      rfl rfl rfl ?_ (hauto _) (fun k => Later.refl _) (hnd 0) (hnm 0) (hjk _)⟩
    simp only at hbags
    have : upTo (branchBags src i) 0 = (w.dirs d).bags := (funext hbags).symm
    rw [this]
  | bag k =>
    simp only [Verif.SliceManager.stepBranch, hbr]
    by_cases hc : ((w.dirs d).bags k).isSome = true
    · rw [if_pos hc]; exact ⟨R, hi.raise⟩
    · rw [if_neg hc]
      refine ⟨R, ?_⟩
      cases k with
      | data =>
        have hb : building api (w.slots q).job =
            some ⟨d, src.initial, some src.map, upTo (branchBags src i) 0⟩ := by rw [hjob]; rfl
        obtain ⟨hR, hini, hmap, hbags⟩ := hi.build q _ hb
        refine hi.fill hb rfl (b' := ⟨d, src.initial, some src.map, upTo (branchBags src i) 1⟩)
          rfl rfl rfl ?_ (hauto _) (fun k => upTo_later _ 0 k) (hnd 1) (hnm 1) (hjk _)
        simp only at hmap hbags
        rw [upTo_set _ _ .data 0 rfl hbags, ← hmap]
      | schema =>
        have hb : building api (w.slots q).job =
            some ⟨d, src.initial, some src.map, upTo (branchBags src i) 1⟩ := by rw [hjob]; rfl
        obtain ⟨hR, hini, hmap, hbags⟩ := hi.build q _ hb
        refine hi.fill hb rfl (b' := ⟨d, src.initial, some src.map, upTo (branchBags src i) 2⟩)
          rfl rfl rfl ?_ (hauto _) (fun k => upTo_later _ 1 k) (hnd 2) (hnm 2) (hjk _)
        simp only at hmap hbags
        rw [upTo_set _ _ .schema 1 rfl hbags, ← hmap]
      | snn =>
        have hb : building api (w.slots q).job =
            some ⟨d, src.initial, some src.map, upTo (branchBags src i) 2⟩ := by rw [hjob]; rfl
        obtain ⟨hR, hini, hmap, hbags⟩ := hi.build q _ hb
        refine hi.fill hb rfl (b' := ⟨d, src.initial, some src.map, upTo (branchBags src i) 3⟩)
          rfl rfl rfl ?_ (hauto _) (fun k => upTo_later _ 2 k) (hnd 3) (hnm 3) (hjk _)
        simp only at hmap hbags
        rw [upTo_set _ _ .snn 2 rfl hbags, ← hmap]
  | check =>
    simp only [Verif.SliceManager.stepBranch]
    by_cases hc : ((w.dirs d).metaAt 0).isSome = true
    · rw [if_pos hc]; exact ⟨R, hi.raise⟩
    · rw [if_neg hc]
      refine ⟨R, hi.checked (b := ⟨d, src.initial, some src.map, upTo (branchBags src i) 3⟩) ?_ rfl
        (hauto _) (hjk _ _ fun d' => DirExt.refl _ _)⟩
      rw [hjob]; rfl
  | rename =>
    have hb : building api (w.slots q).job =
        some ⟨d, src.initial, some src.map, upTo (branchBags src i) 3⟩ := by rw [hjob]; rfl
    obtain ⟨hR, hini, hmap, hbags⟩ := hi.build q _ hb
    simp only at hR hini hmap hbags
    have hsf : schemaFrom api src.initial (branchBags src i .schema)
        (namesOf (src.meta_.revs.take (i + 1)) .schema) =
        some (((pick (namesOf (src.meta_.revs.take (i + 1)) .schema)
          (branchBags src i .schema).bags).map Prod.snd).foldl api.updSchema
            (api.schemaOf src.initial)) := by
      unfold schemaFrom
      rw [minimal_some]
      · rfl
      · intro n hn
        exact namesIn_pick.2 ⟨hsub .schema n hn, hn⟩
    have hcm : (w.dirs d).commit (branchMeta src i) =
        some { w.dirs d with metas := [(0, branchMeta src i)] } := by
      unfold Dir.commit
      rw [metaAt_zero hi hR, hi.metas_nil hR]
      rfl
    simp only [Verif.SliceManager.stepBranch, hbr, hsf, hcm]
    obtain ⟨h, hget, hsh, hfm, hview⟩ := hi.shows hsrc
    -- the revision branched from
    have hdir := hi.dirs src.dir
    have hlt' : i < src.meta_.num + 1 := by
      have := hsrc.metaAt.2
      rw [this, List.length_take] at hlt
      omega
    have hiR : i < (R src.dir).length := by have := hsrc.metaAt.1; omega
    have hiH : i < (hist api w.log src.dir).length := by rw [hdir.len]; exact hiR
    have hgi : (hist api w.log src.dir)[i]? = some (hist api w.log src.dir)[i] :=
      List.getElem?_eq_getElem hiH
    generalize hri : (hist api w.log src.dir)[i] = ri at hgi
    obtain ⟨ii, ff, h1, h2, h3, h4⟩ := hdir.there hsrc.metaAt.ne_nil
    have hii : ii = src.initial := by rw [hsrc.initial] at h1; simpa using h1.symm
    have hff : ff = src.map := by rw [hsrc.map] at h2; simpa using h2.symm
    have hvi := h4 i ri hgi
    rw [hii, hff] at hvi
    have htake : src.meta_.revs.take (i + 1) = (R src.dir).take (i + 1) := by
      rw [hsrc.metaAt.2, List.take_take]
      congr 1
      omega
    have hleg : Legal api (hist api w.log) (.branched d src.dir i) := ⟨hi.noHist hR, hiH⟩
    refine ⟨fun d' => if d' = d then [⟨.branch src.dir i, fun k =>
      namesOf (src.meta_.revs.take (i + 1)) k⟩] else R d', ?_⟩
    unfold World.return
    refine Inv.note (q := q) (?_ : Inv api _ _) _ (.inr rfl)
    have hmv : Move api w (((w.setDir d fun _ => { w.dirs d with metas := [(0, branchMeta src i)] }).emit
        (.branched d src.dir i)).setSlot q fun s =>
          { s with
            mgr := some (Mgr.mk d false src.initial src.map (allBags (branchBags src i .data)
              (branchBags src i .schema) (branchBags src i .snn))
              (((pick (namesOf (src.meta_.revs.take (i + 1)) .schema)
                (branchBags src i .schema).bags).map Prod.snd).foldl api.updSchema
                (api.schemaOf src.initial)) (branchMeta src i))
            job := .idle }) R
        (fun d' => if d' = d then [⟨.branch src.dir i, fun k =>
          namesOf (src.meta_.revs.take (i + 1)) k⟩] else R d') q d := by
      refine Move.first hi (rev := ⟨.branch src.dir i, fun k =>
          namesOf (src.meta_.revs.take (i + 1)) k⟩)
        (f := src.map) (bg := branchBags src i)
        (v := ri.view) (e := .branched d src.dir i) hb rfl (fun k => upTo_three _ k)
        (fun q' h => ?_) ?_ ?_ ?_ ?_ ?_ ?_ (hdir.closed _ (List.mem_of_getElem? hgi)) ?_ ?_ rfl
      · rw [setSlot_other _ h]; rfl
      · rw [setSlot_same]; rfl
      · rw [setSlot_dirs, emit_dirs, setDir_dirs]; rfl
      · rfl
      · exact legal_snoc hi.legal hleg
      · intro d'
        simp only [applyEvent, hgi, Option.map_some, Option.toList_some]
      · rw [hvi]
        congr 1
        funext k
        simp only [branchBags]
        rw [pick_pick (fun n hn => hn), ← htake]
        exact (((hsrc.sees k).mono (fun n hn => namesOf_take hn)).pick (hdir.nodup k)).symm
      · intro k n hn
        exact namesIn_pick.2 ⟨hsub k n hn, hn⟩
      · intro k n hn
        exact ⟨src.dir, hsrc.metaAt.names (namesOf_take hn)⟩
    refine hi.move hmv (SlotOk.plain ?_ ?_ ?_)
    · rw [setSlot_same]
      intro m hm
      simp only [Option.some.injEq] at hm
      subst hm
      simp only [setSlot_dirs, emit_dirs, setDir_dirs, dirsWith_same, if_true]
      refine { metaAt := ?_, sees := ?_, initial := hini, map := hmap, schema := ?_ }
      · exact ⟨by simp [branchMeta], by simp [branchMeta]⟩
      · intro k
        have hin : ∀ n ∈ namesOf (branchMeta src i).revs k, n ∈ namesIn (branchBags src i k).bags := by
          intro n hn
          simp only [branchMeta, namesOf, List.flatMap_cons, List.flatMap_nil, List.append_nil] at hn
          exact namesIn_pick.2 ⟨hsub k n hn, hn⟩
        simp only [hbags, upTo_three]
        cases k with
        | data => exact ⟨⟨_, rfl, Behind.refl _⟩, hin⟩
        | schema => exact ⟨⟨_, rfl, Behind.refl _⟩, hin⟩
        | snn => exact ⟨⟨_, rfl, Behind.refl _⟩, hin⟩
      · simp [branchMeta, namesOf, allBags]
    · rw [setSlot_same]; simp [JobOk]
    · rw [setSlot_same]; exact plain_idle

end Verif.SliceManager
