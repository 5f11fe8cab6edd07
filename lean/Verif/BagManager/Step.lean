import Verif.BagManager.Invariant

/-! Every action preserves the invariant. -/
namespace Verif.BagManager

set_option linter.unusedSectionVars false
set_option linter.unusedSimpArgs false

variable {D N X B : Type} [DecidableEq D] [DecidableEq N]

noncomputable def applyOpt (h : Hist D N X B) : Option (Event D N X B) → Hist D N X B
  | none => h
  | some e => applyEvent h e

def LegalOpt (h : Hist D N X B) : Option (Event D N X B) → Prop
  | none => True
  | some e => Legal h e

theorem SerialOk.same {atomic : Bool} {last p : Nat} {s s' : Sys D N X B}
    (hs : SerialOk atomic last s) (hp : atomic = true ∨ last ≤ p) (hfs : s'.fs = s.fs)
    (hpr : s'.procs = s.procs) : SerialOk atomic p s' := by
  rcases hs with ⟨h1, h2⟩ | ⟨h1, h2, h3⟩
  · left; rw [hpr]; exact ⟨h1, h2⟩
  · right
    rw [hpr, hfs]
    have hle : last ≤ p := by
      rcases hp with h | h
      · rw [h1] at h; simp at h
      · exact h
    refine ⟨h1, fun r hr => h2 r (by omega), fun d new why u hj => ?_⟩
    by_cases e : last = p
    · subst e; exact h3 d new why u hj
    · rw [h2 p (by omega)] at hj; simp at hj

theorem SerialOk.set {atomic : Bool} {last p : Nat} {s : Sys D N X B} {fs' : Fs D N X B}
    {cache' : Cache D N B} {next' : Nat} {q' : Proc D N X B}
    (hs : SerialOk atomic last s) (hp : atomic = true ∨ last ≤ p)
    (hq : ∀ d new why u, q'.job = .persist d new why (.renameChecked u) →
      atomic = false ∧ PyDict.get? fs' (d, .metaFile new.num) = none) :
    SerialOk atomic p (setProc { s with fs := fs', cache := cache', nextUuid := next' } p q') := by
  rcases hs with ⟨h1, h2⟩ | ⟨h1, h2, h3⟩
  · left
    refine ⟨h1, fun r d new why u => ?_⟩
    simp only [setProc]
    split
    · intro hj; have := (hq d new why u hj).1; rw [h1] at this; simp at this
    · exact h2 r d new why u
  · right
    have hle : last ≤ p := by
      rcases hp with h | h
      · rw [h1] at h; simp at h
      · exact h
    refine ⟨h1, fun r hr => ?_, fun d new why u hj => ?_⟩
    · simp only [setProc]
      rw [if_neg (by omega)]
      exact h2 r (by omega)
    · simp only [setProc, if_true] at hj
      exact (hq d new why u hj).2

theorem Inv.core {atomic : Bool} {last : Nat} {s : Sys D N X B} {h : Hist D N X B}
    (i : Inv atomic last s h) : Core s h := ⟨i.glob, i.proc, i.own⟩

theorem Core.inv {atomic : Bool} {last : Nat} {s : Sys D N X B} {h : Hist D N X B}
    (c : Core s h) (hs : SerialOk atomic last s) : Inv atomic last s h :=
  ⟨c.glob, c.proc, c.own, hs⟩

/-- An action without effect. -/
theorem Inv.noop {atomic : Bool} {last p : Nat} {s : Sys D N X B} {h : Hist D N X B}
    (i : Inv atomic last s h) (hp : atomic = true ∨ last ≤ p) : Inv atomic p s h :=
  i.core.inv (i.serial.same hp rfl rfl)

/-- The process gets a new job that holds no uuid (or a new one). -/
theorem Inv.setJob {atomic : Bool} {last p : Nat} {s : Sys D N X B} {h : Hist D N X B}
    (i : Inv atomic last s h) (hp : atomic = true ∨ last ≤ p) {next' : Nat} {q' : Proc D N X B}
    (hn : s.nextUuid ≤ next')
    (hown : ∀ u, Own q'.job u → Own (s.procs p).job u ∨ s.nextUuid ≤ u)
    (hq : ProcOk s.fs h next' q')
    (hr : ∀ d new why u, q'.job = .persist d new why (.renameChecked u) →
      atomic = false ∧ PyDict.get? s.fs (d, .metaFile new.num) = none) :
    Inv atomic p (setProc { s with nextUuid := next' } p q') h :=
  (i.core.step_proc p hn hown hq).inv (i.serial.set (cache' := s.cache) hp hr)

/-- The process writes a file of its uuid. -/
theorem Inv.write {atomic : Bool} {last p : Nat} {s : Sys D N X B} {h : Hist D N X B}
    (i : Inv atomic last s h) (hp : atomic = true ∨ last ≤ p) {d : D} {nm : Name} {u : Nat}
    {f : File D N X B} {q' : Proc D N X B}
    (hu : Name.uuid nm = some u) (hlt : u < s.nextUuid) (hnb : readBag s.fs (d, nm) = none)
    (hf : ∀ n v b, nm = .metaTemp n v → f ≠ .bag b)
    (ho : Own (s.procs p).job u) (ho' : ∀ v, Own q'.job v → v = u)
    (hq : ProcOk (PyDict.set s.fs (d, nm) f) h s.nextUuid q')
    (hr : ∀ d new why u, q'.job ≠ .persist d new why (.renameChecked u)) :
    Inv atomic p (setProc { s with fs := PyDict.set s.fs (d, nm) f } p q') h :=
  (i.core.step p (cache' := s.cache) (trans_set hu hnb f) (i.glob.set hu hlt hnb f hf)
    (fun v hv => by rw [hv]; exact ho) (fun v hv => Or.inl (by rw [ho' v hv]; exact ho)) hq).inv
    (i.serial.set (cache' := s.cache) (next' := s.nextUuid) hp
      (fun d new why u hj => absurd hj (hr d new why u)))

/-- The rename. -/
theorem Inv.commit {atomic : Bool} {last p : Nat} {s : Sys D N X B} {h : Hist D N X B}
    (i : Inv atomic last s h) (hp : atomic = true ∨ last ≤ p) {d : D} {new : Metadata D N X}
    {why : Why D N X B} {u : Nat} {stage : Stage}
    (hjob : (s.procs p).job = .persist d new why stage)
    (hst : stage = .tempDone u ∨ stage = .renameChecked u)
    (hno : PyDict.get? s.fs (d, .metaFile new.num) = none) :
    Inv atomic p (commitRename s p d new why u).1
      (applyOpt h (commitRename s p d new why u).2) ∧
    LegalOpt h (commitRename s p d new why u).2 := by
  have hpo := i.proc p
  unfold ProcOk at hpo
  rw [hjob] at hpo
  obtain ⟨hm, hw, hs⟩ := hpo
  have hs' : u < s.nextUuid ∧ PyDict.get? s.fs (d, .metaTemp new.num u) = some (.md new) := by
    rcases hst with rfl | rfl <;> exact hs
  have ho : Own (s.procs p).job u := by
    rw [hjob]; rcases hst with rfl | rfl <;> rfl
  obtain ⟨es, h1, h2, h3, h4, h5⟩ := commit_legal p i.glob hm hw hno
  obtain ⟨t, g⟩ := commit_core i.glob hs'.2 h1 h2 h3
  unfold commitRename
  rw [hs'.2]
  refine ⟨?_, h5⟩
  simp only [applyOpt, h4]
  have hq : ProcOk (PyDict.set (PyDict.erase s.fs (d, .metaTemp new.num u)) (d, .metaFile new.num)
      (.md new)) (push h d es) s.nextUuid
      { s.procs p with job := .persist d new why .committed } := by
    refine ⟨hm.mono t, hw.mono t, es, ?_, h2.mono t.bag⟩
    simp [push, h1]
  exact (i.core.step p (cache' := s.cache)
    (q' := { s.procs p with job := .persist d new why .committed }) t g
    (fun v hv => by rw [hv]; exact ho) (fun v (hv : False) => hv.elim) hq).inv
    (i.serial.set (cache' := s.cache) (next' := s.nextUuid) hp (fun d new why u hj => by simp at hj))

theorem cacheSet_ok {fs : Fs D N X B} {c : Cache D N B}
    (hc : ∀ k b, (k, b) ∈ c → readBag fs k.2 = some b) {k : N × (D × Name)} {b : B}
    (hb : readBag fs k.2 = some b) :
    (∀ k' b', (k', b') ∈ (cacheSet c k b).2 → readBag fs k'.2 = some b') ∧
    (cacheSet c k b).1 = b := by
  unfold cacheSet
  cases hg : PyDict.get? c k with
  | some b' =>
    refine ⟨hc, ?_⟩
    have := hc k b' (PyDict.mem_of_get? hg)
    rw [hb] at this; injection this with this
    exact this.symm
  | none =>
    refine ⟨?_, rfl⟩
    rw [PyDict.set_of_not_mem ((PyDict.get?_none_iff c k).1 hg)]
    intro k' b' hm
    rcases List.mem_append.1 hm with hm | hm
    · exact hc k' b' hm
    · simp only [List.mem_singleton, Prod.mk.injEq] at hm
      rw [hm.1, hm.2]; exact hb

/-- Loading known names succeeds and returns the contents of the version. -/
theorem loadExactly_spec {fs : Fs D N X B} {d : D} {m : Metadata D N X} {es : List (Entry N X B)}
    (hr : Repr fs d m es) (nd : (es.map (·.name)).Nodup) :
    ∀ (l : List N) (c : Cache D N B), (∀ x ∈ l, ∃ e ∈ es, e.name = x) →
      (∀ k b, (k, b) ∈ c → readBag fs k.2 = some b) →
      ∃ r c', loadExactly fs d m l c = .ok (r, c') ∧
        (∀ k b, (k, b) ∈ c' → readBag fs k.2 = some b) ∧
        r.map (·.1) = l ∧ ∀ p ∈ r, ∃ e ∈ es, e.name = p.1 ∧ e.content = p.2 := by
  intro l
  induction l with
  | nil => intro c _ hc; exact ⟨[], c, rfl, hc, rfl, by simp⟩
  | cons x xs ih =>
    intro c hl hc
    obtain ⟨e, he, hn⟩ := hl x (by simp)
    obtain ⟨bm, h1, h2, _⟩ := hr.find nd he
    rw [hn] at h1
    unfold loadExactly
    rw [h1]
    simp only []
    have hxs : ∀ y ∈ xs, ∃ e ∈ es, e.name = y := fun y hy => hl y (List.mem_cons_of_mem _ hy)
    cases hg : PyDict.get? c (x, bagPath d bm) with
    | some b =>
      obtain ⟨r, c', g1, g2, g3, g4⟩ := ih c hxs hc
      have hb := hc _ _ (PyDict.mem_of_get? hg)
      simp only [h2, Option.some.injEq] at hb
      simp only [g1]
      refine ⟨(x, b) :: r, c', rfl, g2, by simp [g3], ?_⟩
      intro p hp
      rcases List.mem_cons.1 hp with rfl | hp
      · exact ⟨e, he, hn, hb⟩
      · exact g4 p hp
    | none =>
      simp only [h2]
      obtain ⟨k1, k2⟩ := cacheSet_ok (k := (x, bagPath d bm)) hc h2
      obtain ⟨r, c', g1, g2, g3, g4⟩ := ih _ hxs k1
      simp only [g1]
      refine ⟨(x, _) :: r, c', rfl, g2, by simp [g3], ?_⟩
      intro p hp
      rcases List.mem_cons.1 hp with rfl | hp
      · exact ⟨e, he, hn, k2.symm⟩
      · exact g4 p hp

/-- The cache after a finished add. -/
theorem addCache_ok {fs : Fs D N X B} {d : D} :
    ∀ (l : List (ToAdd N X B × BagMeta D N X)) (c : Cache D N B),
      (∀ k b, (k, b) ∈ c → readBag fs k.2 = some b) →
      (∀ ab ∈ l, readBag fs (bagPath d ab.2) = some ab.1.bag) →
      ∀ k b, (k, b) ∈ l.foldl (fun c ab => (cacheSet c (ab.1.name, bagPath d ab.2) ab.1.bag).2) c →
        readBag fs k.2 = some b := by
  intro l
  induction l with
  | nil => intro c hc _; exact hc
  | cons a as ih =>
    intro c hc hl
    exact ih _ (cacheSet_ok (k := (a.1.name, bagPath d a.2)) hc (hl a (by simp))).1
      (fun ab hab => hl ab (List.mem_cons_of_mem _ hab))

theorem nodup_mapIdx_fst (adds : List (ToAdd N X B)) :
    ((adds.mapIdx fun i a => (i, a.bag)).map (·.1)).Nodup := by
  have : (adds.mapIdx fun i a => (i, a.bag)).map (·.1) = List.range adds.length := by
    apply List.ext_getElem
    · simp
    · intro i h1 h2; simp
  rw [this]; exact List.nodup_range

theorem readLatest_spec {fs : Fs D N X B} {cache : Cache D N B} {h : Hist D N X B} {next : Nat}
    (g : Glob fs cache h next) (d : D) :
    match (h d).getLast? with
    | none => createFromDir fs d = none
    | some es => ∃ m, createFromDir fs d = some m ∧ m.num + 1 = (h d).length ∧ Repr fs d m es := by
  have hmem : ∀ n, n ∈ metaNums fs d ↔ n < (h d).length := by
    intro n
    have h1 : n ∈ metaNums fs d ↔ (d, Name.metaFile n) ∈ PyDict.keys fs := by
      unfold metaNums PyDict.keys
      rw [List.mem_filterMap, List.mem_map]
      constructor
      · rintro ⟨⟨⟨d', nm⟩, f⟩, hf, he⟩
        cases nm with
        | bagFile u i => simp at he
        | metaTemp n u => simp at he
        | metaFile k =>
          simp only at he
          split at he
          · next e =>
            injection he with he
            subst e; subst he
            exact ⟨_, hf, rfl⟩
          · simp at he
      · rintro ⟨f, hf, he⟩
        refine ⟨f, hf, ?_⟩
        rw [he]; simp
    rw [h1, ← PyDict.get?_isSome_iff]
    constructor
    · intro hs
      refine Nat.lt_of_not_le fun hle => ?_
      rw [g.absent d n hle] at hs; simp at hs
    · intro hlt
      obtain ⟨m, h2, _⟩ := g.present d n (h d)[n] (by simp [hlt])
      rw [h2]; rfl
  cases hl : (h d).getLast? with
  | none =>
    have h0 := List.getLast?_eq_none_iff.1 hl
    have : metaNums fs d = [] := by
      rw [List.eq_nil_iff_forall_not_mem]
      intro n hn
      have := (hmem n).1 hn
      simp [h0] at this
    simp only [createFromDir, readLatest, this, List.max?_nil, ite_self]
  | some es =>
    have hne : h d ≠ [] := by intro e; rw [e] at hl; simp at hl
    have hpos : 0 < (h d).length := List.length_pos_iff.2 hne
    have hmax : (metaNums fs d).max? = some ((h d).length - 1) := by
      rw [List.max?_eq_some_iff]
      refine ⟨(hmem _).2 (by omega), fun b hb => ?_⟩
      have := (hmem b).1 hb
      omega
    rw [List.getLast?_eq_getElem?] at hl
    obtain ⟨m, h1, h2, h3⟩ := g.present d _ es hl
    refine ⟨m, ?_, by omega, h3⟩
    have hdn : dirNonEmpty fs d = true := by
      unfold dirNonEmpty
      rw [List.any_eq_true]
      exact ⟨_, PyDict.mem_of_get? h1, by simp⟩
    simp only [createFromDir, readLatest, hmax, hdn, if_true, h1]

/-- Facts about every action: the invariant is preserved, commits are legal. -/
theorem inv_step {atomic : Bool} {last : Nat} {s : Sys D N X B} {h : Hist D N X B}
    (i : Inv atomic last s h) (a : Act D N X B) (hp : atomic = true ∨ last ≤ a.pid) :
    Inv atomic a.pid (step atomic s a).1 (applyOpt h (step atomic s a).2) ∧
    LegalOpt h (step atomic s a).2 := by
  cases a with
  | evict p k =>
    refine ⟨?_, trivial⟩
    simp only [step, applyOpt]
    refine Core.inv ⟨?_, i.proc, i.own⟩ (i.serial.same hp rfl rfl)
    exact { i.glob with
      cacheOk := fun k' b hb => i.glob.cacheOk k' b ((PyDict.erase_sublist s.cache k).subset hb) }
  | startCreate p d =>
    simp only [step]
    cases hjob : (s.procs p).job with
    | idle =>
      simp only []
      split
      · exact ⟨i.noop hp, trivial⟩
      · exact ⟨i.setJob hp (Nat.le_refl _) (fun _ hv => hv.elim)
          ⟨(i.proc p).1, rfl, trivial⟩ (by simp), trivial⟩
    | writing adds u todo inflight => exact ⟨i.noop hp, trivial⟩
    | persist d new why stage => exact ⟨i.noop hp, trivial⟩
  | openDir p d =>
    simp only [step]
    cases hjob : (s.procs p).job with
    | idle =>
      simp only []
      have hr := readLatest_spec i.glob d
      cases hc : createFromDir s.fs d with
      | none => exact ⟨i.noop hp, trivial⟩
      | some m =>
        refine ⟨i.setJob hp (Nat.le_refl _) (fun _ hv => by simp [hjob, Own] at hv)
          ⟨?_, by simp [hjob, JobOk]⟩ (by simp [hjob]), trivial⟩
        cases hl : (h d).getLast? with
        | none => rw [hl] at hr; simp only [hc] at hr; simp at hr
        | some es =>
          rw [hl] at hr
          obtain ⟨m', h1, h2, h3⟩ := hr
          rw [hc] at h1; injection h1 with h1; subst h1
          refine ⟨es, ?_, h3⟩
          rw [List.getLast?_eq_getElem?] at hl
          have e : (h d).length - 1 = m.num := by omega
          rw [e] at hl; exact hl
    | writing adds u todo inflight => exact ⟨i.noop hp, trivial⟩
    | persist d new why stage => exact ⟨i.noop hp, trivial⟩
  | startAdd p adds =>
    simp only [step]
    cases hjob : (s.procs p).job with
    | idle =>
      cases hmgr : (s.procs p).mgr with
      | none => exact ⟨i.noop hp, trivial⟩
      | some dm =>
        obtain ⟨d, m⟩ := dm
        simp only []
        have hmo := (i.proc p).1
        rw [hmgr] at hmo
        obtain ⟨es, h1, h2⟩ := hmo
        cases hv : validate (names m) adds with
        | error e => exact ⟨i.noop hp, trivial⟩
        | ok x =>
          have hva : Valid es adds := by
            rw [← validate_ok_iff, ← h2.sameGraph.names]; exact hv
          refine ⟨i.setJob hp (Nat.le_succ _) (fun v hv => Or.inr (by cases hv; exact Nat.le_refl _))
            ⟨by simp only [hmgr]; exact ⟨es, h1, h2⟩, ?_⟩ (by simp), trivial⟩
          simp only [hmgr]
          refine ⟨d, m, es, rfl, h1, hva, Nat.lt_succ_self _, ?_, ?_, ?_⟩
          · rw [List.append_nil]; exact nodup_mapIdx_fst adds
          · intro ib hib
            rw [List.append_nil] at hib
            obtain ⟨j, hj, rfl⟩ := List.mem_mapIdx.1 hib
            refine ⟨⟨adds[j], by simp [hj], rfl⟩, ?_⟩
            unfold readBag
            rw [i.glob.fresh d (.bagFile s.nextUuid j) s.nextUuid rfl (Nat.le_refl _)]
          · intro j a ha hn
            exfalso
            apply hn
            rw [List.append_nil]
            obtain ⟨hj, rfl⟩ := List.getElem?_eq_some_iff.1 ha
            exact List.mem_map.2 ⟨(j, adds[j].bag), List.mem_mapIdx.2 ⟨j, hj, rfl⟩, rfl⟩
    | writing adds u todo inflight => exact ⟨i.noop hp, trivial⟩
    | persist d new why stage => exact ⟨i.noop hp, trivial⟩
  | startBranch p ns wd out pick =>
    simp only [step]
    cases hjob : (s.procs p).job with
    | idle =>
      cases hmgr : (s.procs p).mgr with
      | none => exact ⟨i.noop hp, trivial⟩
      | some dm =>
        obtain ⟨d, m⟩ := dm
        simp only []
        have hmo := (i.proc p).1
        rw [hmgr] at hmo
        obtain ⟨es, h1, h2⟩ := hmo
        rcases depClosure_spec h2.sameGraph (i.glob.wf _ _ _ h1) ns wd pick with
          ⟨_, hd⟩ | ⟨hk, keep, hd, _, hmem⟩
        · rw [hd]; exact ⟨i.noop hp, trivial⟩
        · rw [hd]
          simp only []
          split
          · exact ⟨i.noop hp, trivial⟩
          · refine ⟨i.setJob hp (Nat.le_refl _) (fun _ hv => hv.elim)
              ⟨by simp only [hmgr]; exact ⟨es, h1, h2⟩, ?_⟩ (by simp), trivial⟩
            simp only [hmgr]
            exact ⟨⟨m, keep, es, rfl, rfl, rfl, h1, hmem, hk⟩, trivial⟩
    | writing adds u todo inflight => exact ⟨i.noop hp, trivial⟩
    | persist d new why stage => exact ⟨i.noop hp, trivial⟩
  | load p ns wd pick =>
    simp only [step]
    cases hjob : (s.procs p).job with
    | idle =>
      cases hmgr : (s.procs p).mgr with
      | none => exact ⟨i.noop hp, trivial⟩
      | some dm =>
        obtain ⟨d, m⟩ := dm
        simp only []
        have hmo := (i.proc p).1
        rw [hmgr] at hmo
        obtain ⟨es, h1, h2⟩ := hmo
        have hwf := i.glob.wf _ _ _ h1
        rcases depClosure_spec h2.sameGraph hwf ns wd pick with
          ⟨_, hd⟩ | ⟨hk, keep, hd, hnd, hmem⟩
        · rw [hd]; exact ⟨i.noop hp, trivial⟩
        · rw [hd]
          simp only []
          cases hl : loadExactly s.fs d m keep s.cache with
          | error e => exact ⟨i.noop hp, trivial⟩
          | ok rc =>
            obtain ⟨r, c'⟩ := rc
            simp only []
            cases hs : singleBagArgs m r with
            | error e => exact ⟨i.noop hp, trivial⟩
            | ok args =>
              refine ⟨?_, trivial⟩
              simp only [applyOpt, applyEvent]
              have hkeep : ∀ x ∈ keep, ∃ e ∈ es, e.name = x := by
                intro x hx
                obtain ⟨q, hq, t, ht, hdep⟩ := (hmem x).1 hx
                have hmem_of : ∀ {a b}, DependsOn es a b → a = b ∨ ∃ e ∈ es, e.name = a := by
                  intro a b hab
                  cases hab with
                  | refl => exact Or.inl rfl
                  | step h1 _ _ => exact Or.inr ⟨_, h1, rfl⟩
                have ht' : ∃ e ∈ es, e.name = t := by
                  rcases ht with rfl | ⟨_, ht⟩
                  · exact hk _ hq
                  · rcases hmem_of ht with rfl | h
                    · exact hk _ hq
                    · exact h
                clear ht
                induction hdep with
                | refl => exact ht'
                | step g1 g2 _ ih => exact ih hx (hwf.deps_mem g1 g2)
              obtain ⟨r', c'', g1, g2, _⟩ := loadExactly_spec h2 hwf.1 keep s.cache hkeep
                i.glob.cacheOk
              rw [hl] at g1
              injection g1 with g1
              injection g1 with g3 g4
              subst g3; subst g4
              exact Core.inv ⟨{ i.glob with cacheOk := g2 }, i.proc, i.own⟩
                (i.serial.same hp rfl rfl)
    | writing adds u todo inflight => exact ⟨i.noop hp, trivial⟩
    | persist d new why stage => exact ⟨i.noop hp, trivial⟩
  | fail p =>
    simp only [step]
    have key : Inv atomic p (setProc s p { s.procs p with job := .idle }) h :=
      i.setJob hp (Nat.le_refl _) (fun _ hv => hv.elim) ⟨(i.proc p).1, trivial⟩ (by simp)
    cases hjob : (s.procs p).job with
    | idle => exact ⟨i.noop hp, trivial⟩
    | writing adds u todo inflight => exact ⟨key, trivial⟩
    | persist d new why stage => exact ⟨key, trivial⟩
  | startWrite p j =>
    simp only [step]
    cases hjob : (s.procs p).job with
    | idle => exact ⟨i.noop hp, trivial⟩
    | persist d new why stage => exact ⟨i.noop hp, trivial⟩
    | writing adds u todo inflight =>
      cases hmgr : (s.procs p).mgr with
      | none => exact ⟨i.noop hp, trivial⟩
      | some dm =>
        obtain ⟨d, m⟩ := dm
        simp only []
        cases htj : todo[j]? with
        | none => exact ⟨i.noop hp, trivial⟩
        | some ib =>
          obtain ⟨k, b⟩ := ib
          have hpo := i.proc p
          unfold ProcOk at hpo
          rw [hjob, hmgr] at hpo
          obtain ⟨hmo, d', m', es, h1, h2, h3, h4, h5, h6, h7⟩ := hpo
          injection h1 with h1
          injection h1 with e1 e2
          subst e1; subst e2
          obtain ⟨hj, hjk⟩ := List.getElem?_eq_some_iff.1 htj
          have hperm : (todo.eraseIdx j ++ (inflight ++ [(k, b)])).Perm (todo ++ inflight) := by
            have e : todo.Perm (todo[j] :: todo.eraseIdx j) := by
              rw [List.eraseIdx_eq_take_drop_succ]
              conv => lhs; rw [← List.take_append_drop j todo, List.drop_eq_getElem_cons hj]
              exact List.perm_middle
            rw [hjk] at e
            refine List.Perm.trans ?_ (e.symm.append_right inflight)
            rw [← List.append_assoc]
            exact List.perm_append_comm.trans (by simp)
          have hmemkb : (k, b) ∈ todo ++ inflight :=
            List.mem_append_left _ (List.mem_of_getElem? htj)
          have hnb : readBag s.fs (d, .bagFile u k) = none := (h6 (k, b) hmemkb).2
          have hown : Own (s.procs p).job u := by rw [hjob]; rfl
          refine ⟨i.write hp rfl h4 hnb (by simp) hown (fun v hv => Eq.symm hv) ⟨?_, ?_⟩ (by simp), trivial⟩
          · simp only [hmgr]
            exact MgrOk.mono (trans_set (h := h) (next := s.nextUuid) (u := u) rfl hnb _) hmo
          · simp only [hmgr]
            refine ⟨d, m, es, rfl, h2, h3, h4, (hperm.map _).nodup_iff.2 h5, ?_, ?_⟩
            · intro ib hib
              have hib' := hperm.mem_iff.1 hib
              refine ⟨(h6 ib hib').1, ?_⟩
              by_cases e : ib.1 = k
              · rw [e]; unfold readBag; rw [PyDict.get?_set_self]
              · rw [readBag_set_ne _ (by simp [e])]; exact (h6 ib hib').2
            · intro l a ha hn
              rw [(hperm.map (·.1)).mem_iff] at hn
              have : l ≠ k := by
                intro e; subst e
                exact hn (List.mem_map.2 ⟨_, hmemkb, rfl⟩)
              rw [readBag_set_ne _ (by simp [this])]
              exact h7 l a ha hn
  | finishWrite p j =>
    simp only [step]
    cases hjob : (s.procs p).job with
    | idle => exact ⟨i.noop hp, trivial⟩
    | persist d new why stage => exact ⟨i.noop hp, trivial⟩
    | writing adds u todo inflight =>
      cases hmgr : (s.procs p).mgr with
      | none => exact ⟨i.noop hp, trivial⟩
      | some dm =>
        obtain ⟨d, m⟩ := dm
        simp only []
        cases htj : inflight[j]? with
        | none => exact ⟨i.noop hp, trivial⟩
        | some ib =>
          obtain ⟨k, b⟩ := ib
          have hpo := i.proc p
          unfold ProcOk at hpo
          rw [hjob, hmgr] at hpo
          obtain ⟨hmo, d', m', es, h1, h2, h3, h4, h5, h6, h7⟩ := hpo
          injection h1 with h1
          injection h1 with e1 e2
          subst e1; subst e2
          obtain ⟨hj, hjk⟩ := List.getElem?_eq_some_iff.1 htj
          have hperm : (todo ++ inflight).Perm ((k, b) :: (todo ++ inflight.eraseIdx j)) := by
            have e : inflight.Perm (inflight[j] :: inflight.eraseIdx j) := by
              rw [List.eraseIdx_eq_take_drop_succ]
              conv =>
                lhs
                rw [← List.take_append_drop j inflight, List.drop_eq_getElem_cons hj]
              exact List.perm_middle
            rw [hjk] at e
            exact (e.append_left todo).trans List.perm_middle
          have hmemkb : (k, b) ∈ todo ++ inflight :=
            List.mem_append_right _ (List.mem_of_getElem? htj)
          have hnb : readBag s.fs (d, .bagFile u k) = none := (h6 (k, b) hmemkb).2
          have hown : Own (s.procs p).job u := by rw [hjob]; rfl
          have hnd : (((k, b) :: (todo ++ inflight.eraseIdx j)).map (·.1)).Nodup :=
            (hperm.map _).nodup_iff.1 h5
          rw [List.map_cons, List.nodup_cons] at hnd
          refine ⟨i.write hp rfl h4 hnb (by simp) hown (fun v hv => Eq.symm hv) ⟨?_, ?_⟩ (by simp), trivial⟩
          · simp only [hmgr]
            exact MgrOk.mono (trans_set (h := h) (next := s.nextUuid) (u := u) rfl hnb _) hmo
          · simp only [hmgr]
            refine ⟨d, m, es, rfl, h2, h3, h4, hnd.2, ?_, ?_⟩
            · intro ib hib
              have hib' := hperm.mem_iff.2 (List.mem_cons_of_mem _ hib)
              refine ⟨(h6 ib hib').1, ?_⟩
              have e : ib.1 ≠ k := by
                intro e
                exact hnd.1 (e ▸ List.mem_map.2 ⟨ib, hib, rfl⟩)
              rw [readBag_set_ne _ (by simp [e])]; exact (h6 ib hib').2
            · intro l a ha hn
              by_cases e : l = k
              · subst e
                obtain ⟨a', ha', hb'⟩ := (h6 _ hmemkb).1
                simp only [ha, Option.some.injEq] at ha'
                subst ha'
                unfold readBag; rw [PyDict.get?_set_self, hb']
              · rw [readBag_set_ne _ (by simp [e])]
                refine h7 l a ha ?_
                rw [(hperm.map (·.1)).mem_iff, List.map_cons, List.mem_cons]
                rintro (h | h)
                · exact e h
                · exact hn h
  | advance p =>
    simp only [step]
    cases hjob : (s.procs p).job with
    | idle => exact ⟨i.noop hp, trivial⟩
    | writing adds u todo inflight =>
      cases todo with
      | cons t ts => exact ⟨i.noop hp, trivial⟩
      | nil =>
        cases inflight with
        | cons t ts => exact ⟨i.noop hp, trivial⟩
        | nil =>
          simp only []
          cases hmgr : (s.procs p).mgr with
          | none => exact ⟨i.noop hp, trivial⟩
          | some dm =>
            obtain ⟨d, m⟩ := dm
            have hpo := i.proc p
            unfold ProcOk at hpo
            rw [hjob, hmgr] at hpo
            obtain ⟨hmo, d', m', es, h1, h2, h3, h4, h5, h6, h7⟩ := hpo
            injection h1 with h1
            injection h1 with e1 e2
            subst e1; subst e2
            refine ⟨i.setJob hp (Nat.le_refl _) (fun _ hv => hv.elim)
              ⟨by simp only [hmgr]; exact hmo, ?_⟩ (by simp), trivial⟩
            simp only [hmgr]
            exact ⟨⟨m, u, es, rfl, rfl, h2, h3, fun l a ha => h7 l a ha (by simp)⟩, trivial⟩
    | persist d new why stage =>
      have hpo := i.proc p
      unfold ProcOk at hpo
      rw [hjob] at hpo
      obtain ⟨hmo, hw, hst⟩ := hpo
      cases stage with
      | check =>
        simp only []
        split
        · exact ⟨i.setJob hp (Nat.le_refl _) (fun _ hv => hv.elim) ⟨hmo, trivial⟩ (by simp), trivial⟩
        · exact ⟨i.setJob hp (Nat.le_succ _)
            (fun v hv => Or.inr (by cases hv; exact Nat.le_refl _))
            ⟨hmo, hw, Nat.lt_succ_self _⟩ (by simp), trivial⟩
      | tempStart u =>
        simp only []
        have hlt : u < s.nextUuid := hst
        have hown : Own (s.procs p).job u := by rw [hjob]; rfl
        have hb : readBag s.fs (d, .metaTemp new.num u) = none := i.glob.noBag d new.num u
        have t := trans_set (h := h) (next := s.nextUuid) (u := u) (d := d)
            (nm := .metaTemp new.num u) rfl hb File.partialFile
        exact ⟨i.write hp rfl hlt hb (by simp) hown (fun v hv => Eq.symm hv)
            ⟨hmo.mono t, hw.mono t, hlt⟩ (by simp), trivial⟩
      | tempPartial u =>
        simp only []
        have hlt : u < s.nextUuid := hst
        have hown : Own (s.procs p).job u := by rw [hjob]; rfl
        have hb : readBag s.fs (d, .metaTemp new.num u) = none := i.glob.noBag d new.num u
        have t := trans_set (h := h) (next := s.nextUuid) (u := u) (d := d)
            (nm := .metaTemp new.num u) rfl hb (File.md new)
        exact ⟨i.write hp rfl hlt hb (by simp) hown (fun v hv => Eq.symm hv)
            ⟨hmo.mono t, hw.mono t, hlt, PyDict.get?_set_self _ _ _⟩ (by simp), trivial⟩
      | tempDone u =>
        simp only []
        split
        · exact ⟨i.setJob hp (Nat.le_refl _) (fun _ hv => hv.elim) ⟨hmo, trivial⟩ (by simp), trivial⟩
        · next hno =>
          have hno' : PyDict.get? s.fs (d, .metaFile new.num) = none := by simpa using hno
          cases hat : atomic with
          | true =>
            subst hat
            simp only [if_true]
            exact i.commit hp hjob (Or.inl rfl) hno'
          | false =>
            subst hat
            simp only [Bool.false_eq_true, if_false]
            refine ⟨i.setJob hp (Nat.le_refl _) (fun v hv => Or.inl ?_)
              ⟨hmo, hw, hst⟩ ?_, trivial⟩
            · simp only [Act.pid]; rw [hjob]; exact hv
            intro d' new' why' u' hj
            injection hj with e1 e2 e3 e4
            subst e1; subst e2
            exact ⟨rfl, hno'⟩
      | renameChecked u =>
        simp only []
        refine i.commit hp hjob (Or.inr rfl) ?_
        rcases i.serial with ⟨_, h2⟩ | ⟨h1, h2, h3⟩
        · exact absurd hjob (h2 p d new why u)
        · have hle : last ≤ p := by
            rcases hp with h | h
            · rw [h1] at h; simp at h
            · exact h
          by_cases e : last = p
          · subst e; exact h3 d new why u hjob
          · rw [h2 p (by omega)] at hjob; simp at hjob
      | committed =>
        simp only []
        cases why with
        | create =>
          exact ⟨i.setJob hp (Nat.le_refl _) (fun _ hv => hv.elim) ⟨hst, trivial⟩ (by simp), trivial⟩
        | branch src ver ns wd =>
          exact ⟨i.setJob hp (Nat.le_refl _) (fun _ hv => hv.elim) ⟨hmo, trivial⟩ (by simp), trivial⟩
        | add adds =>
          refine ⟨?_, trivial⟩
          simp only [applyOpt, applyEvent]
          obtain ⟨m, u, es, h1, h2, h3, h4, h5⟩ := hw
          have hc : ∀ k b, (k, b) ∈ (adds.zip (new.bags.drop (new.bags.length - adds.length))).foldl
              (fun c ab => (cacheSet c (ab.1.name, bagPath d ab.2) ab.1.bag).2) s.cache →
              readBag s.fs k.2 = some b := by
            refine addCache_ok _ _ i.glob.cacheOk ?_
            intro ab hab
            rw [h2] at hab
            simp only [addedMeta, List.length_append, List.length_mapIdx, Nat.add_sub_cancel,
              List.drop_left] at hab
            obtain ⟨l, hl, rfl⟩ := List.getElem_of_mem hab
            simp only [List.getElem_zip, List.getElem_mapIdx, bagPath, Option.getD_none]
            simp only [List.length_zip, List.length_mapIdx, Nat.min_self] at hl
            exact h5 l adds[l] (by simp [hl])
          exact (i.core.step p (next' := s.nextUuid) (mine := fun _ => False)
            (Evol.of_next (Nat.le_refl _))
            { i.glob with cacheOk := hc } (fun _ hv => hv.elim) (fun _ hv => hv.elim)
            (q' := { mgr := some (d, new), job := .idle }) ⟨hst, trivial⟩).inv
            (i.serial.set hp (by simp))

end Verif.BagManager
