import Verif.SliceManager.Inv

/-
The kinds of actions: touching no directory, filling a new directory, committing its first
revision, adding bags for an update, committing the update, claiming a name for a branch.
-/

namespace Verif.SliceManager

set_option linter.unusedSectionVars false

variable {I Sch Snn B SB U : Type} [DecidableEq Snn] {api : Api I Sch Snn B SB U}
  {w w' : World I Sch Snn B SB U} {R R' : Path → List (Rev U)} {q : Nat}

theorem hist_snoc (log : List (Event I U)) (e : Event I U) :
    hist api (log ++ [e]) = applyEvent api (hist api log) e := by
  simp [hist]

theorem legal_snoc {log : List (Event I U)} {e : Event I U} (h : LegalLog api log)
    (he : Legal api (hist api log) e) : LegalLog api (log ++ [e]) := by
  intro pre e' post hl
  rcases List.eq_nil_or_concat post with rfl | ⟨post', x, rfl⟩
  · have := List.append_inj' hl rfl
    obtain ⟨h1, h2⟩ := this
    simp only [List.cons.injEq, and_true] at h2
    rw [← h1, ← h2]
    exact he
  · have hl' : log ++ [e] = (pre ++ e' :: post') ++ [x] := by rw [hl]; simp
    have := List.append_inj' hl' rfl
    exact h pre e' post' this.1

/-- The directory `d` is replaced, the others are not. -/
def dirsWith (dirs : Path → Dir I Snn B SB U) (d : Path) (x : Dir I Snn B SB U) :
    Path → Dir I Snn B SB U := fun d' => if d' = d then x else dirs d'

theorem dirsWith_same (dirs : Path → Dir I Snn B SB U) (d : Path) (x : Dir I Snn B SB U) :
    dirsWith dirs d x d = x := by simp [dirsWith]

theorem dirsWith_other (dirs : Path → Dir I Snn B SB U) {d d' : Path} (x : Dir I Snn B SB U)
    (h : d' ≠ d) : dirsWith dirs d x d' = dirs d' := by simp [dirsWith, h]

/-- No directory is touched. -/
theorem Move.slot (hi : Inv api w R) (hsl : ∀ q', q' ≠ q → w'.slots q' = w.slots q')
    (hseq : (w.slots q).seq ≤ (w'.slots q).seq) (hd : w'.dirs = w.dirs)
    (hh : hist api w'.log = hist api w.log) (hl : LegalLog api w'.log) (d0 : Path) :
    Move api w w' R R q d0 := by
  refine
    { slots := hsl, seq := hseq, dirs := fun d _ => by rw [hd], revs := fun _ _ => rfl,
      ext := by rw [hd]; exact DirExt.refl _ _, histO := fun d _ => by rw [hh],
      histD := by rw [hh]; exact List.prefix_refl _, ok := by rw [hd, hh]; exact hi.dirs d0,
      legal := hl, fresh := ?_, names := ?_, rnames := ?_, build := ?_, claimed := ?_,
      autoE := ?_, autoI := ?_ }
  · intro k n hn
    rw [hd] at hn
    have := hi.fresh d0 k n hn
    by_cases ho : n.owner = q
    · rw [ho] at this ⊢; exact Nat.lt_of_lt_of_le this hseq
    · rw [hsl _ ho]; exact this
  · intro k n hn
    rw [hd] at hn
    exact .inl hn
  · intro k n hn
    exact .inr ⟨d0, hn⟩
  · intro q' hq b hb hbd
    rw [hd, ← hbd]
    exact hi.build q' b hb
  · intro s hs
    rw [hd]; exact hs
  · intro p s hd0 hc
    rw [hd] at hc ⊢
    rw [hd0]
    exact hi.autoEmpty p s hc
  · intro q' hq src i p s hj hp
    rw [hd, ← hp]
    exact hi.autoInit q' src i p s hj

/-- The directory that an operation is filling, or about to fill, holds no revision. -/
theorem Inv.noRevs (hi : Inv api w R) {d : Path} (h : (w.dirs d).initial = none) : R d = [] := by
  by_cases hr : R d = []
  · exact hr
  · obtain ⟨i, f, h1, _⟩ := (hi.dirs d).there hr
    rw [h] at h1
    simp at h1

theorem DirOk.len {d : Dir I Snn B SB U} {R : List (Rev U)} {H : List (Revision I Sch Snn B U)}
    (h : DirOk api d R H) : H.length = R.length := by
  have := congrArg List.length h.infos
  simpa using this

theorem Inv.noHist (hi : Inv api w R) {d : Path} (h : R d = []) : hist api w.log d = [] := by
  have := (hi.dirs d).len
  rw [h] at this
  exact List.eq_nil_of_length_eq_zero this

theorem noRevs_dirOk (x : Dir I Snn B SB U) (hm : x.metas = []) (hi : x.initial ≠ none)
    (hn : ∀ k, (namesIn (bagsIn (x.bags k))).Nodup) :
    DirOk api x ([] : List (Rev U)) ([] : List (Revision I Sch Snn B U)) :=
  { metas := by simpa using hm
    infos := rfl
    there := fun h => absurd rfl h
    named := fun k n h => by simp [namesOf] at h
    closed := fun h hh => by simp at hh
    nodup := hn
    blank := fun h => absurd h hi }

/-- The initial data is written to a directory that has none. -/
theorem Move.initial (hi : Inv api w R) {d : Path} {i : I}
    (hnone : (w.dirs d).initial = none)
    (hsl : ∀ q', q' ≠ q → w'.slots q' = w.slots q') (hseq : (w'.slots q).seq = (w.slots q).seq)
    (hd : w'.dirs = dirsWith w.dirs d { w.dirs d with initial := some i })
    (hlog : w'.log = w.log)
    (hauto : ∀ p s, d = .branch p s → autoTarget (w.slots q).job = some (p, s)) :
    Move api w w' R R q d := by
  have hb := (hi.dirs d).blank hnone
  have hR := hi.noRevs hnone
  have hx : w'.dirs d = { w.dirs d with initial := some i } := by rw [hd, dirsWith_same]
  have hm : (w.dirs d).metas = [] := by rw [(hi.dirs d).metas, hR]; rfl
  refine
    { slots := hsl, seq := Nat.le_of_eq hseq.symm,
      dirs := fun d' h => by rw [hd, dirsWith_other _ _ h], revs := fun _ _ => rfl,
      ext := ?_, histO := fun _ _ => by rw [hlog],
      histD := by rw [hlog]; exact List.prefix_refl _, ok := ?_,
      legal := by rw [hlog]; exact hi.legal, fresh := ?_, names := ?_, rnames := ?_, build := ?_,
      claimed := ?_, autoE := ?_, autoI := ?_ }
  · rw [hx]
    exact ⟨List.prefix_refl _, fun j hj => by rw [hnone] at hj; simp at hj, fun _ => rfl,
      fun k => Later.refl _⟩
  · rw [hx, hR, hlog, hi.noHist hR]
    refine noRevs_dirOk { w.dirs d with initial := some i } hm (by simp) ?_
    intro k
    simp [hb.2.1 k, bagsIn]
  · intro k n hn
    rw [hx] at hn
    simp [hb.2.1 k, bagsIn] at hn
  · intro k n hn
    rw [hx] at hn
    exact .inl hn
  · intro k n hn
    exact .inr ⟨d, hn⟩
  · intro q' hq b hbb hbd
    have := (hi.build q' b hbb).2.1
    rw [hbd, hnone] at this
    simp at this
  · intro s hs
    rw [hx]; exact hs
  · intro p s hd0 hc
    exfalso
    have ht := hauto p s hd0
    have := hi.autoIn q p s ht
    apply hc
    have hpd : p ≠ d := by rw [hd0]; intro he; exact absurd (congrArg sizeOf he) (by simp; omega)
    rw [hd, dirsWith_other _ _ hpd]
    exact this
  · intro q' hq src j p s hj hp
    exfalso
    have h1 := hauto p s hp.symm
    have h2 : autoTarget (w.slots q').job = some (p, s) := by rw [hj]; rfl
    exact hq (hi.autoUniq q' q p s h2 h1)

/-- A directory being filled gets its DICT or another bag manager. -/
theorem Move.fill (hi : Inv api w R) {b : Building I Snn B SB} {mp : Option (SnnMap Snn)}
    {bg : (k : Kind) → Option (BagDir (Content Snn B SB k))}
    (hb : building api (w.slots q).job = some b)
    (hsl : ∀ q', q' ≠ q → w'.slots q' = w.slots q') (hseq : (w'.slots q).seq = (w.slots q).seq)
    (hd : w'.dirs = dirsWith w.dirs b.dir { w.dirs b.dir with map := mp, bags := bg })
    (hlog : w'.log = w.log)
    (hl : ∀ k, Later (b.bags k) (bg k))
    (hnd : ∀ k, (namesIn (bagsIn (bg k))).Nodup)
    (hnm : ∀ k n, n ∈ namesIn (bagsIn (bg k)) → ∃ d, n ∈ namesOf (R d) k) :
    Move api w w' R R q b.dir := by
  obtain ⟨hR, hini, hmap, hbags⟩ := hi.build q b hb
  have hx : w'.dirs b.dir = { w.dirs b.dir with map := mp, bags := bg } := by
    rw [hd, dirsWith_same]
  have hm : (w.dirs b.dir).metas = [] := by rw [(hi.dirs b.dir).metas, hR]; rfl
  refine
    { slots := hsl, seq := Nat.le_of_eq hseq.symm,
      dirs := fun d' h => by rw [hd, dirsWith_other _ _ h], revs := fun _ _ => rfl,
      ext := ?_, histO := fun _ _ => by rw [hlog],
      histD := by rw [hlog]; exact List.prefix_refl _, ok := ?_,
      legal := by rw [hlog]; exact hi.legal, fresh := ?_, names := ?_, rnames := ?_, build := ?_,
      claimed := ?_, autoE := ?_, autoI := ?_ }
  · rw [hx]
    exact ⟨List.prefix_refl _, fun j hj => hj, fun h => absurd hR h,
      fun k => by rw [hbags k]; exact hl k⟩
  · rw [hx, hR, hlog, hi.noHist hR]
    exact noRevs_dirOk { w.dirs b.dir with map := mp, bags := bg } hm (by simp [hini]) hnd
  · intro k n hn
    rw [hx] at hn
    obtain ⟨d, hn'⟩ := hnm k n hn
    have := hi.fresh d k n ((hi.dirs d).named k n hn')
    by_cases ho : n.owner = q
    · rw [ho] at this ⊢; rw [hseq]; exact this
    · rw [hsl _ ho]; exact this
  · intro k n hn
    rw [hx] at hn
    exact .inr (.inr (hnm k n hn))
  · intro k n hn
    exact .inr ⟨_, hn⟩
  · intro q' hq b' hbb hbd
    exact absurd (hi.uniq q' q b' b hbb hb hbd) hq
  · intro s hs
    rw [hx]; exact hs
  · intro p s hd0 hc
    exfalso
    have hpd : p ≠ b.dir := by
      rw [hd0]; intro he; exact absurd (congrArg sizeOf he) (by simp; omega)
    rw [hd, dirsWith_other _ _ hpd] at hc
    have := hi.autoEmpty p s hc
    rw [← hd0, hini] at this
    simp at this
  · intro q' hq src j p s hj hp
    exfalso
    have := hi.autoInit q' src j p s hj
    rw [hp, hini] at this
    simp at this

/-- The first revision of a directory is committed. -/
theorem Move.first (hi : Inv api w R) {b : Building I Snn B SB} {rev : Rev U} {f : SnnMap Snn}
    {bg : (k : Kind) → BagDir (Content Snn B SB k)} {v : View I Sch Snn B} {e : Event I U}
    (hb : building api (w.slots q).job = some b)
    (hbm : b.map = some f) (hbb : ∀ k, b.bags k = some (bg k))
    (hsl : ∀ q', q' ≠ q → w'.slots q' = w.slots q') (hseq : (w'.slots q).seq = (w.slots q).seq)
    (hd : w'.dirs = dirsWith w.dirs b.dir { w.dirs b.dir with metas := [(0, ⟨0, [rev]⟩)] })
    (hlog : hist api w'.log = hist api (w.log ++ [e])) (hleg : LegalLog api w'.log)
    (he : ∀ d, applyEvent api (hist api w.log) e d =
      if d = b.dir then [⟨rev.info, v⟩] else hist api w.log d)
    (hv : v = viewFrom api b.initial f fun k => pick (rev.names k) (bg k).bags)
    (hc : Closed v)
    (hnm : ∀ k, ∀ n ∈ rev.names k, n ∈ namesIn (bg k).bags)
    (hrn : ∀ k n, n ∈ rev.names k → ∃ d, n ∈ namesOf (R d) k)
    (hR' : R' = fun d => if d = b.dir then [rev] else R d) :
    Move api w w' R R' q b.dir := by
  obtain ⟨hR, hini, hmap, hbags⟩ := hi.build q b hb
  have hx : w'.dirs b.dir = { w.dirs b.dir with metas := [(0, ⟨0, [rev]⟩)] } := by
    rw [hd, dirsWith_same]
  have hm : (w.dirs b.dir).metas = [] := by rw [(hi.dirs b.dir).metas, hR]; rfl
  have hRd : R' b.dir = [rev] := by rw [hR']; simp
  have hHd : hist api w'.log b.dir = [⟨rev.info, v⟩] := by rw [hlog, hist_snoc, he]; simp
  refine
    { slots := hsl, seq := Nat.le_of_eq hseq.symm,
      dirs := fun d' h => by rw [hd, dirsWith_other _ _ h],
      revs := fun d' h => by rw [hR']; simp [h],
      ext := ?_, histO := fun d' h => by rw [hlog, hist_snoc, he]; simp [h],
      histD := by rw [hi.noHist hR]; exact List.nil_prefix, ok := ?_,
      legal := hleg, fresh := ?_, names := ?_, rnames := ?_, build := ?_,
      claimed := ?_, autoE := ?_, autoI := ?_ }
  · rw [hx, hR]
    exact ⟨List.nil_prefix, fun j hj => hj, fun h => absurd rfl h, fun k => Later.refl _⟩
  · rw [hx, hRd, hHd]
    refine { metas := rfl, infos := rfl, there := ?_, named := ?_, closed := ?_, nodup := ?_, blank := ?_ }
    · intro _
      refine ⟨b.initial, f, hini, by rw [← hbm]; exact hmap, fun k => by simp [hbags, hbb], ?_⟩
      intro j h hj
      cases j with
      | zero =>
        simp only [List.getElem?_cons_zero, Option.some.injEq] at hj
        subst hj
        simp only
        rw [hv]
        congr 1
        funext k
        simp [hbags k, hbb k, bagsIn, namesOf]
      | succ j => simp at hj
    · intro k n hn
      simp only [namesOf, List.flatMap_cons, List.flatMap_nil, List.append_nil] at hn
      simp only [hbags k, hbb k, bagsIn]
      exact hnm k n hn
    · intro h hh
      simp only [List.mem_singleton] at hh
      subst hh
      exact hc
    · exact (hi.dirs b.dir).nodup
    · intro hn
      rw [hini] at hn
      simp at hn
  · intro k n hn
    rw [hx] at hn
    have := hi.fresh b.dir k n hn
    by_cases ho : n.owner = q
    · rw [ho] at this ⊢; rw [hseq]; exact this
    · rw [hsl _ ho]; exact this
  · intro k n hn
    rw [hx] at hn
    exact .inl hn
  · intro k n hn
    rw [hRd] at hn
    simp only [namesOf, List.flatMap_cons, List.flatMap_nil, List.append_nil] at hn
    exact .inr (hrn k n hn)
  · intro q' hq b' hbb' hbd
    exact absurd (hi.uniq q' q b' b hbb' hb hbd) hq
  · intro s hs
    rw [hx]; exact hs
  · intro p s hd0 hc
    exfalso
    have hpd : p ≠ b.dir := by
      rw [hd0]; intro he; exact absurd (congrArg sizeOf he) (by simp; omega)
    rw [hd, dirsWith_other _ _ hpd] at hc
    have := hi.autoEmpty p s hc
    rw [← hd0, hini] at this
    simp at this
  · intro q' hq src j p s hj hp
    exfalso
    have := hi.autoInit q' src j p s hj
    rw [hp, hini] at this
    simp at this

/-- Facts common to the actions on a directory that holds revisions. -/
theorem Inv.committed (hi : Inv api w R) {d : Path} (hR : R d ≠ []) :
    (∃ i, (w.dirs d).initial = some i) ∧
    (∀ q' b, building api (w.slots q').job = some b → b.dir ≠ d) ∧
    (∀ q' src i p s, (w.slots q').job = .branch src i (.branch p s) .initial → .branch p s ≠ d) ∧
    ∀ p s, d = .branch p s → s ∈ (w.dirs p).claimed := by
  obtain ⟨i, f, hini, _⟩ := (hi.dirs d).there hR
  refine ⟨⟨i, hini⟩, ?_, ?_, ?_⟩
  · rintro q' b hb rfl
    exact hR (hi.build q' b hb).1
  · rintro q' src j p s hj rfl
    have := hi.autoInit q' src j p s hj
    rw [hini] at this
    simp at this
  · rintro p s rfl
    by_cases hc : s ∈ (w.dirs p).claimed
    · exact hc
    · have := hi.autoEmpty p s hc
      rw [hini] at this
      simp at this

/-- New bags of an update are added to a bag manager of a directory. -/
theorem Move.add (hi : Inv api w R) {d : Path} {k : Kind} {bd : BagDir (Content Snn B SB k)}
    {new : List (Name × Content Snn B SB k)}
    (hR : R d ≠ []) (hk : (w.dirs d).bags k = some bd)
    (hsl : ∀ q', q' ≠ q → w'.slots q' = w.slots q') (hseq : (w'.slots q).seq = (w.slots q).seq)
    (hd : w'.dirs = dirsWith w.dirs d { w.dirs d with
      bags := setKind (w.dirs d).bags k (some ⟨bd.num + 1, bd.bags ++ new⟩) })
    (hlog : w'.log = w.log)
    (hown : ∀ n ∈ namesIn new, n.owner = q ∧ n.seq < (w.slots q).seq)
    (hnd : (namesIn new).Nodup)
    (hnew : ∀ n ∈ namesIn new, n ∉ namesIn bd.bags)
    (hnr : ∀ n ∈ namesIn new, ∀ k, n ∉ namesOf (R d) k) :
    Move api w w' R R q d := by
  obtain ⟨⟨i0, hini⟩, hnb, hna, hcl⟩ := hi.committed hR
  have hx : w'.dirs d = { w.dirs d with
      bags := setKind (w.dirs d).bags k (some ⟨bd.num + 1, bd.bags ++ new⟩) } := by
    rw [hd, dirsWith_same]
  have hbk : (w'.dirs d).bags k = some ⟨bd.num + 1, bd.bags ++ new⟩ := by
    rw [hx]; exact setKind_same _ _ _
  have hbo : ∀ k', k ≠ k' → (w'.dirs d).bags k' = (w.dirs d).bags k' := by
    intro k' h; rw [hx]; exact setKind_other _ _ _ _ h
  have hdir := hi.dirs d
  have hin : ∀ k' n, n ∈ namesIn (bagsIn ((w'.dirs d).bags k')) →
      n ∈ namesIn (bagsIn ((w.dirs d).bags k')) ∨ n ∈ namesIn new := by
    intro k' n hn
    by_cases h : k = k'
    · subst h
      rw [hbk] at hn
      simp only [bagsIn, namesIn, List.map_append, List.mem_append] at hn
      rw [hk]
      exact hn
    · rw [hbo k' h] at hn
      exact .inl hn
  have hpick : ∀ ns k', (∀ n ∈ ns, n ∈ namesOf (R d) k') →
      pick ns (bagsIn ((w'.dirs d).bags k')) = pick ns (bagsIn ((w.dirs d).bags k')) := by
    intro ns k' hns
    by_cases h : k = k'
    · subst h
      rw [hbk, hk]
      simp only [bagsIn]
      rw [pick_append, pick_eq_nil (bags := new), List.append_nil]
      intro n hn hn'
      exact hnr n hn k (hns n hn')
    · rw [hbo k' h]
  refine
    { slots := hsl, seq := Nat.le_of_eq hseq.symm,
      dirs := fun d' h => by rw [hd, dirsWith_other _ _ h], revs := fun _ _ => rfl,
      ext := ?_, histO := fun _ _ => by rw [hlog],
      histD := by rw [hlog]; exact List.prefix_refl _, ok := ?_,
      legal := by rw [hlog]; exact hi.legal, fresh := ?_, names := ?_, rnames := ?_, build := ?_,
      claimed := ?_, autoE := ?_, autoI := ?_ }
  · refine ⟨List.prefix_refl _, fun j hj => by rw [hx]; exact hj, fun _ => by rw [hx], ?_⟩
    intro k'
    by_cases h : k = k'
    · subst h
      rw [hbk, hk]
      intro x hx'
      simp only [Option.some.injEq] at hx'
      subst hx'
      exact ⟨_, rfl, List.prefix_append _ _, by simp, fun h => by simp at h⟩
    · rw [hbo k' h]; exact Later.refl _
  · rw [hlog]
    refine { metas := by rw [hx]; exact hdir.metas, infos := hdir.infos, there := ?_, named := ?_, closed := hdir.closed, nodup := ?_, blank := ?_ }
    · intro hR
      obtain ⟨i, f, h1, h2, h3, h4⟩ := hdir.there hR
      refine ⟨i, f, by rw [hx]; exact h1, by rw [hx]; exact h2, ?_, ?_⟩
      · intro k'
        by_cases h : k = k'
        · subst h; rw [hbk]; rfl
        · rw [hbo k' h]; exact h3 k'
      · intro j h hj
        rw [h4 j h hj]
        congr 1
        funext k'
        rw [hpick]
        intro n hn
        simp only [namesOf, List.mem_flatMap] at hn ⊢
        obtain ⟨r, hr, hn⟩ := hn
        exact ⟨r, List.mem_of_mem_take hr, hn⟩
    · intro k' n hn
      have := hdir.named k' n hn
      by_cases h : k = k'
      · subst h
        rw [hbk]
        rw [hk] at this
        simp only [bagsIn, namesIn, List.map_append, List.mem_append] at this ⊢
        exact .inl this
      · rw [hbo k' h]; exact this
    · intro k'
      have := hdir.nodup k'
      by_cases h : k = k'
      · subst h
        rw [hbk]
        rw [hk] at this
        simp only [bagsIn, namesIn, List.map_append] at this ⊢
        rw [List.nodup_append]
        refine ⟨this, hnd, ?_⟩
        rintro a ha b hb rfl
        exact hnew a hb ha
      · rw [hbo k' h]; exact this
    · intro hn
      rw [hx] at hn
      simp only [hini] at hn
      simp at hn
  · intro k' n hn
    rcases hin k' n hn with h | h
    · have := hi.fresh d k' n h
      by_cases ho : n.owner = q
      · rw [ho] at this ⊢; rw [hseq]; exact this
      · rw [hsl _ ho]; exact this
    · rw [(hown n h).1, hseq]; exact (hown n h).2
  · intro k' n hn
    rcases hin k' n hn with h | h
    · exact .inl h
    · exact .inr (.inl (hown n h).1)
  · intro k' n hn
    exact .inr ⟨d, hn⟩
  · intro q' hq b' hbb' hbd
    exact absurd hbd (hnb q' b' hbb')
  · intro s hs
    rw [hx]; exact hs
  · intro p s hd0 hc
    exfalso
    have hpd : p ≠ d := by
      rw [hd0]; intro he; exact absurd (congrArg sizeOf he) (by simp; omega)
    rw [hd, dirsWith_other _ _ hpd] at hc
    exact hc (hcl p s hd0)
  · intro q' hq src j p s hj hp
    exact absurd hp (hna q' src j p s hj)

theorem namesOf_append (a b : List (Rev U)) (k : Kind) :
    namesOf (a ++ b) k = namesOf a k ++ namesOf b k := by simp [namesOf]

/-- An update is committed. -/
theorem Move.update (hi : Inv api w R) {d : Path} {rev : Rev U} {r : Revision I Sch Snn B U}
    {p : Plan Snn B SB} {base : Nat} {u : U}
    (hR : R d ≠ [])
    (hsl : ∀ q', q' ≠ q → w'.slots q' = w.slots q') (hseq : (w'.slots q).seq = (w.slots q).seq)
    (hd : w'.dirs = dirsWith w.dirs d { w.dirs d with
      metas := (w.dirs d).metas ++ [((R d).length, ⟨(R d).length, R d ++ [rev]⟩)] })
    (hlog : w'.log = w.log ++ [.updated q d u (newNames q p base .data)])
    (hrev : rev = ⟨.update u, newNames q p base⟩)
    (hlast : (hist api w.log d).getLast? = some r)
    (hplan : api.plan r.view.initial r.view.schema r.view.load u = some p)
    (hsel : ∀ k, pick (namesOf (R d ++ [rev]) k) (bagsIn ((w.dirs d).bags k)) =
      pick (namesOf (R d) k) (bagsIn ((w.dirs d).bags k)) ++ newBags q r.view.map p base k)
    (hold : ∀ n ∈ newNames q p base .data, n ∉ namesOf (R d) .data)
    (hR' : R' = fun d' => if d' = d then R d ++ [rev] else R d') :
    Move api w w' R R' q d := by
  obtain ⟨⟨i0, hini⟩, hnb, hna, hcl⟩ := hi.committed hR
  have hx : w'.dirs d = { w.dirs d with
      metas := (w.dirs d).metas ++ [((R d).length, ⟨(R d).length, R d ++ [rev]⟩)] } := by
    rw [hd, dirsWith_same]
  have hRd : R' d = R d ++ [rev] := by rw [hR']; simp
  have hdir := hi.dirs d
  obtain ⟨i, f, h1, h2, h3, h4⟩ := hdir.there hR
  have hlen := hdir.len
  -- the view of the last revision
  have hlast' : (hist api w.log d)[(R d).length - 1]? = some r := by
    rw [← hlen, ← List.getLast?_eq_getElem?]; exact hlast
  have hpos : 0 < (R d).length := List.length_pos_iff.2 hR
  have hview := h4 _ r hlast'
  rw [Nat.sub_add_cancel hpos, List.take_length] at hview
  have hupd := viewFrom_update (q := q) (base := base) hview hplan
  have hdata : r.view.data = pick (namesOf (R d) .data) (bagsIn ((w.dirs d).bags .data)) := by
    rw [hview]; rfl
  have hleg : Legal api (hist api w.log) (.updated q d u (newNames q p base .data)) := by
    refine ⟨r, p, hlast, hplan, by simp [newNames], newNames_nodup q p base .data, ?_⟩
    intro n hn hn'
    rw [hdata] at hn'
    exact hold n hn (namesIn_pick.1 hn').2
  have hHd : hist api w'.log d = hist api w.log d ++ [⟨.update u,
      viewFrom api i f fun k => pick (namesOf (R d) k) (bagsIn ((w.dirs d).bags k)) ++
        newBags q r.view.map p base k⟩] := by
    rw [hlog, hist_snoc]
    simp only [applyEvent, if_true, hlast, Option.bind_some, hupd, Option.map_some,
      Option.toList_some]
  refine
    { slots := hsl, seq := Nat.le_of_eq hseq.symm,
      dirs := fun d' h => by rw [hd, dirsWith_other _ _ h],
      revs := fun d' h => by rw [hR']; simp [h],
      ext := ?_, histO := fun d' h => by rw [hlog, hist_snoc]; simp [applyEvent, h],
      histD := by rw [hHd]; exact List.prefix_append _ _, ok := ?_,
      legal := by rw [hlog]; exact legal_snoc hi.legal hleg, fresh := ?_, names := ?_,
      rnames := ?_, build := ?_, claimed := ?_, autoE := ?_, autoI := ?_ }
  · rw [hx, hRd]
    exact ⟨List.prefix_append _ _, fun j hj => hj, fun _ => rfl, fun k => Later.refl _⟩
  · rw [hx, hRd, hHd]
    refine { metas := ?_, infos := ?_, there := ?_, named := ?_, closed := ?_, nodup := hdir.nodup, blank := ?_ }
    · simp only [List.length_append, List.length_singleton, List.range_succ, List.map_append,
        List.map_cons, List.map_nil]
      rw [hdir.metas]
      congr 1
      · apply List.map_congr_left
        intro j hj
        rw [List.mem_range] at hj
        rw [List.take_append_of_le_length (by omega)]
      · rw [List.take_of_length_le (by simp)]
    · simp [hdir.infos, hrev]
    · intro _
      refine ⟨i, f, h1, h2, h3, ?_⟩
      intro j h hj
      by_cases hjl : j < (R d).length
      · rw [List.getElem?_append_left (by omega)] at hj
        rw [h4 j h hj, List.take_append_of_le_length (by omega)]
      · rw [List.getElem?_append_right (by omega)] at hj
        have hj0 : j = (R d).length := by
          by_cases hj0 : j - (hist api w.log d).length = 0
          · omega
          · rw [List.getElem?_eq_none (by simp; omega)] at hj
            simp at hj
        subst hj0
        simp only [hlen, Nat.sub_self, List.getElem?_cons_zero, Option.some.injEq] at hj
        subst hj
        simp only
        congr 1
        funext k
        rw [List.take_of_length_le (by simp), hsel k]
    · intro k n hn
      rw [namesOf_append, List.mem_append] at hn
      rcases hn with hn | hn
      · exact hdir.named k n hn
      · simp only [namesOf, List.flatMap_cons, List.flatMap_nil, List.append_nil] at hn
        have : n ∈ namesIn (pick (namesOf (R d ++ [rev]) k) (bagsIn ((w.dirs d).bags k))) := by
          rw [hsel k, namesIn, List.map_append, List.mem_append]
          right
          rw [hrev] at hn
          have := newNames_eq q r.view.map p base k
          rw [namesIn] at this
          rw [this]
          exact hn
        exact (namesIn_pick.1 this).1
    · intro h hh
      rcases List.mem_append.1 hh with hh | hh
      · exact hdir.closed h hh
      · simp only [List.mem_singleton] at hh
        subst hh
        refine closed_update (hdir.closed r (List.mem_of_getLast? hlast)) ?_ hupd
        intro p' hp'
        rw [hplan] at hp'
        simp only [Option.some.injEq] at hp'
        subst hp'
        simp [newNames]
    · intro hn
      simp only [hini] at hn
      simp at hn
  · intro k n hn
    rw [hx] at hn
    have := hi.fresh d k n hn
    by_cases ho : n.owner = q
    · rw [ho] at this ⊢; rw [hseq]; exact this
    · rw [hsl _ ho]; exact this
  · intro k n hn
    rw [hx] at hn
    exact .inl hn
  · intro k n hn
    rw [hRd, namesOf_append, List.mem_append] at hn
    rcases hn with hn | hn
    · exact .inr ⟨d, hn⟩
    · simp only [namesOf, List.flatMap_cons, List.flatMap_nil, List.append_nil, hrev] at hn
      exact .inl (newNames_mem hn).1
  · intro q' hq b' hbb' hbd
    exact absurd hbd (hnb q' b' hbb')
  · intro s hs
    rw [hx]; exact hs
  · intro p s hd0 hc
    exfalso
    have hpd : p ≠ d := by
      rw [hd0]; intro he; exact absurd (congrArg sizeOf he) (by simp; omega)
    rw [hd, dirsWith_other _ _ hpd] at hc
    exact hc (hcl p s hd0)
  · intro q' hq src j p s hj hp
    exact absurd hp (hna q' src j p s hj)

/-- A name under `branches` is claimed. -/
theorem Move.claim (hi : Inv api w R) {d : Path} {s : Nat} (hR : R d ≠ [])
    (hsl : ∀ q', q' ≠ q → w'.slots q' = w.slots q') (hseq : (w'.slots q).seq = (w.slots q).seq)
    (hd : w'.dirs = dirsWith w.dirs d { w.dirs d with claimed := (w.dirs d).claimed ++ [s] })
    (hlog : w'.log = w.log) : Move api w w' R R q d := by
  obtain ⟨⟨i0, hini⟩, hnb, hna, hcl⟩ := hi.committed hR
  have hx : w'.dirs d = { w.dirs d with claimed := (w.dirs d).claimed ++ [s] } := by
    rw [hd, dirsWith_same]
  have hdir := hi.dirs d
  refine
    { slots := hsl, seq := Nat.le_of_eq hseq.symm,
      dirs := fun d' h => by rw [hd, dirsWith_other _ _ h], revs := fun _ _ => rfl,
      ext := ?_, histO := fun _ _ => by rw [hlog],
      histD := by rw [hlog]; exact List.prefix_refl _, ok := ?_,
      legal := by rw [hlog]; exact hi.legal, fresh := ?_, names := ?_, rnames := ?_, build := ?_,
      claimed := ?_, autoE := ?_, autoI := ?_ }
  · rw [hx]
    exact ⟨List.prefix_refl _, fun j hj => hj, fun _ => rfl, fun k => Later.refl _⟩
  · rw [hx, hlog]
    exact { metas := hdir.metas, infos := hdir.infos, there := hdir.there, named := hdir.named,
            closed := hdir.closed, nodup := hdir.nodup,
            blank := fun h => by simp only [hini] at h; simp at h }
  · intro k n hn
    rw [hx] at hn
    have := hi.fresh d k n hn
    by_cases ho : n.owner = q
    · rw [ho] at this ⊢; rw [hseq]; exact this
    · rw [hsl _ ho]; exact this
  · intro k n hn
    rw [hx] at hn
    exact .inl hn
  · intro k n hn
    exact .inr ⟨d, hn⟩
  · intro q' hq b' hbb' hbd
    exact absurd hbd (hnb q' b' hbb')
  · intro s hs
    rw [hx]
    exact List.mem_append_left _ hs
  · intro p s' hd0 hc
    exfalso
    have hpd : p ≠ d := by
      rw [hd0]; intro he; exact absurd (congrArg sizeOf he) (by simp; omega)
    rw [hd, dirsWith_other _ _ hpd] at hc
    exact hc (hcl p s' hd0)
  · intro q' hq src j p s hj hp
    exact absurd hp (hna q' src j p s hj)

end Verif.SliceManager
