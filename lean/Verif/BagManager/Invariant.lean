import Verif.BagManager.Lemmas

/-! The invariant of the running system: the file system stores exactly the histories. -/
namespace Verif.BagManager

set_option linter.unusedSectionVars false

variable {D N X B : Type} [DecidableEq D] [DecidableEq N]

/-- The uuid in a file name. -/
def Name.uuid : Name → Option Nat
  | .bagFile u _ => some u
  | .metaFile _ => none
  | .metaTemp _ u => some u

/-- The shared state stores the histories `h`. -/
structure Glob (fs : Fs D N X B) (cache : Cache D N B) (h : Hist D N X B) (next : Nat) : Prop where
  nd : (PyDict.keys fs).Nodup
  absent : ∀ d n, (h d).length ≤ n → PyDict.get? fs (d, .metaFile n) = none
  present : ∀ d n es, (h d)[n]? = some es →
    ∃ m, PyDict.get? fs (d, .metaFile n) = some (.md m) ∧ m.num = n ∧ Repr fs d m es
  wf : ∀ d (n : Nat) es, (h d)[n]? = some es → WellFormed es
  fresh : ∀ d nm u, Name.uuid nm = some u → next ≤ u → PyDict.get? fs (d, nm) = none
  cacheOk : ∀ k b, (k, b) ∈ cache → readBag fs k.2 = some b
  noBag : ∀ d n u, readBag fs (d, .metaTemp n u) = none

/-- A manager holds a committed version. -/
def MgrOk (fs : Fs D N X B) (h : Hist D N X B) : Option (D × Metadata D N X) → Prop
  | none => True
  | some (d, m) => ∃ es, (h d)[m.num]? = some es ∧ Repr fs d m es

def StageOk (fs : Fs D N X B) (h : Hist D N X B) (next : Nat) (d : D) (new : Metadata D N X) :
    Stage → Prop
  | .check => True
  | .tempStart u => u < next
  | .tempPartial u => u < next
  | .tempDone u => u < next ∧ PyDict.get? fs (d, .metaTemp new.num u) = some (.md new)
  | .renameChecked u => u < next ∧ PyDict.get? fs (d, .metaTemp new.num u) = some (.md new)
  | .committed => ∃ es, (h d)[new.num]? = some es ∧ Repr fs d new es

def WhyOk (fs : Fs D N X B) (h : Hist D N X B) (mgr : Option (D × Metadata D N X)) (d : D)
    (new : Metadata D N X) : Why D N X B → Prop
  | .create => new = { num := 0, bags := [] }
  | .add adds => ∃ m u es, mgr = some (d, m) ∧ new = addedMeta m u adds ∧
      (h d)[m.num]? = some es ∧ Valid es adds ∧
      ∀ (i : Nat) a, adds[i]? = some a → readBag fs (d, .bagFile u i) = some a.bag
  | .branch src ver ns wd => ∃ m keep es, mgr = some (src, m) ∧ ver = m.num ∧
      new = branchMeta src m keep ∧ (h src)[ver]? = some es ∧
      (∀ x, x ∈ keep ↔ Needed es ns wd x) ∧ ∀ x ∈ ns, ∃ e ∈ es, e.name = x

def JobOk (fs : Fs D N X B) (h : Hist D N X B) (next : Nat) (mgr : Option (D × Metadata D N X)) :
    Job D N X B → Prop
  | .idle => True
  | .writing adds u todo inflight => ∃ d m es, mgr = some (d, m) ∧ (h d)[m.num]? = some es ∧
      Valid es adds ∧ u < next ∧ ((todo ++ inflight).map (·.1)).Nodup ∧
      (∀ ib ∈ todo ++ inflight, (∃ a, adds[ib.1]? = some a ∧ a.bag = ib.2) ∧
        readBag fs (d, .bagFile u ib.1) = none) ∧
      ∀ (i : Nat) a, adds[i]? = some a → i ∉ (todo ++ inflight).map (·.1) →
        readBag fs (d, .bagFile u i) = some a.bag
  | .persist d new why stage => WhyOk fs h mgr d new why ∧ StageOk fs h next d new stage

/-- The uuid a job writes files of. -/
def Own : Job D N X B → Nat → Prop
  | .idle, _ => False
  | .writing _ u _ _, v => u = v
  | .persist _ _ _ .check, _ => False
  | .persist _ _ _ (.tempStart u), v => u = v
  | .persist _ _ _ (.tempPartial u), v => u = v
  | .persist _ _ _ (.tempDone u), v => u = v
  | .persist _ _ _ (.renameChecked u), v => u = v
  | .persist _ _ _ .committed, _ => False

def ProcOk (fs : Fs D N X B) (h : Hist D N X B) (next : Nat) (q : Proc D N X B) : Prop :=
  MgrOk fs h q.mgr ∧ JobOk fs h next q.mgr q.job

/-- With a non atomic rename, no other process interferes with a rename in progress. -/
def SerialOk (atomic : Bool) (last : Nat) (s : Sys D N X B) : Prop :=
  (atomic = true ∧ ∀ p d new why u, (s.procs p).job ≠ .persist d new why (.renameChecked u)) ∨
  (atomic = false ∧ (∀ p, last < p → (s.procs p).job = .idle) ∧
    ∀ d new why u, (s.procs last).job = .persist d new why (.renameChecked u) →
      PyDict.get? s.fs (d, .metaFile new.num) = none)

structure Inv (atomic : Bool) (last : Nat) (s : Sys D N X B) (h : Hist D N X B) : Prop where
  glob : Glob s.fs s.cache h s.nextUuid
  proc : ∀ p, ProcOk s.fs h s.nextUuid (s.procs p)
  own : ∀ p q u, p ≠ q → Own (s.procs p).job u → ¬ Own (s.procs q).job u
  serial : SerialOk atomic last s

/-! ### How the shared state may change -/

structure Evol (fs fs' : Fs D N X B) (h h' : Hist D N X B) (next next' : Nat)
    (mine : Nat → Prop) : Prop where
  bag : ∀ path b, readBag fs path = some b → readBag fs' path = some b
  le : next ≤ next'
  pref : ∀ d, h d <+: h' d
  frame : ∀ d nm u, Name.uuid nm = some u → u < next → ¬ mine u →
    PyDict.get? fs' (d, nm) = PyDict.get? fs (d, nm)

theorem prefix_getElem? {α : Type} {l l' : List α} (h : l <+: l') {i : Nat} {a : α}
    (hi : l[i]? = some a) : l'[i]? = some a := by
  obtain ⟨t, rfl⟩ := h
  obtain ⟨hlt, _⟩ := List.getElem?_eq_some_iff.1 hi
  rw [List.getElem?_append_left hlt]; exact hi

theorem Evol.of_next {fs : Fs D N X B} {h : Hist D N X B} {next next' : Nat} (hn : next ≤ next') :
    Evol fs fs h h next next' fun _ => False :=
  ⟨fun _ _ hb => hb, hn, fun _ => List.prefix_rfl, fun _ _ _ _ _ _ => rfl⟩

theorem MgrOk.mono {fs fs' : Fs D N X B} {h h' : Hist D N X B} {next next' : Nat}
    {mine : Nat → Prop} (t : Evol fs fs' h h' next next' mine)
    {mgr : Option (D × Metadata D N X)} (hm : MgrOk fs h mgr) : MgrOk fs' h' mgr := by
  cases mgr with
  | none => trivial
  | some dm =>
    obtain ⟨d, m⟩ := dm
    obtain ⟨es, h1, h2⟩ := hm
    exact ⟨es, prefix_getElem? (t.pref d) h1, h2.mono t.bag⟩

theorem WhyOk.mono {fs fs' : Fs D N X B} {h h' : Hist D N X B} {next next' : Nat}
    {mine : Nat → Prop} (t : Evol fs fs' h h' next next' mine)
    {mgr : Option (D × Metadata D N X)} {d : D} {new : Metadata D N X} {why : Why D N X B}
    (hw : WhyOk fs h mgr d new why) : WhyOk fs' h' mgr d new why := by
  cases why with
  | create => exact hw
  | add adds =>
    obtain ⟨m, u, es, h1, h2, h3, h4, h5⟩ := hw
    exact ⟨m, u, es, h1, h2, prefix_getElem? (t.pref d) h3, h4,
      fun i a ha => t.bag _ _ (h5 i a ha)⟩
  | branch src ver ns wd =>
    obtain ⟨m, keep, es, h1, h2, h3, h4, h5⟩ := hw
    exact ⟨m, keep, es, h1, h2, h3, prefix_getElem? (t.pref src) h4, h5⟩

theorem ProcOk.mono {fs fs' : Fs D N X B} {h h' : Hist D N X B} {next next' : Nat}
    {mine : Nat → Prop} (t : Evol fs fs' h h' next next' mine) {q : Proc D N X B}
    (hq : ProcOk fs h next q) (ho : ∀ u, Own q.job u → ¬ mine u) : ProcOk fs' h' next' q := by
  obtain ⟨hm, hj⟩ := hq
  refine ⟨hm.mono t, ?_⟩
  cases hjob : q.job with
  | idle => trivial
  | writing adds u todo inflight =>
    rw [hjob] at hj ho
    obtain ⟨d, m, es, h1, h2, h3, h4, h5, h6, h7⟩ := hj
    refine ⟨d, m, es, h1, prefix_getElem? (t.pref d) h2, h3, Nat.lt_of_lt_of_le h4 t.le, h5,
      ?_, fun i a ha hn => t.bag _ _ (h7 i a ha hn)⟩
    intro ib hib
    refine ⟨(h6 ib hib).1, ?_⟩
    have := (h6 ib hib).2
    unfold readBag at this ⊢
    rw [t.frame d (.bagFile u ib.1) u rfl h4 (ho u rfl)]
    exact this
  | persist d new why stage =>
    rw [hjob] at hj ho
    refine ⟨hj.1.mono t, ?_⟩
    have hs := hj.2
    cases stage with
    | check => trivial
    | tempStart u => exact Nat.lt_of_lt_of_le hs t.le
    | tempPartial u => exact Nat.lt_of_lt_of_le hs t.le
    | tempDone u =>
      exact ⟨Nat.lt_of_lt_of_le hs.1 t.le,
        (t.frame d (.metaTemp new.num u) u rfl hs.1 (ho u rfl)).trans hs.2⟩
    | renameChecked u =>
      exact ⟨Nat.lt_of_lt_of_le hs.1 t.le,
        (t.frame d (.metaTemp new.num u) u rfl hs.1 (ho u rfl)).trans hs.2⟩
    | committed =>
      obtain ⟨es, h1, h2⟩ := hs
      exact ⟨es, prefix_getElem? (t.pref d) h1, h2.mono t.bag⟩

/-! ### Assembling a step -/

/-- The part of `Inv` without the rename discipline. -/
structure Core (s : Sys D N X B) (h : Hist D N X B) : Prop where
  glob : Glob s.fs s.cache h s.nextUuid
  proc : ∀ p, ProcOk s.fs h s.nextUuid (s.procs p)
  own : ∀ p q u, p ≠ q → Own (s.procs p).job u → ¬ Own (s.procs q).job u

theorem Core.step {s : Sys D N X B} {h : Hist D N X B} (c : Core s h) (p : Nat)
    {fs' : Fs D N X B} {cache' : Cache D N B} {next' : Nat} {h' : Hist D N X B}
    {q' : Proc D N X B} {mine : Nat → Prop}
    (t : Evol s.fs fs' h h' s.nextUuid next' mine)
    (g : Glob fs' cache' h' next')
    (hmine : ∀ u, mine u → Own (s.procs p).job u)
    (hown : ∀ u, Own q'.job u → Own (s.procs p).job u ∨ s.nextUuid ≤ u)
    (hq : ProcOk fs' h' next' q') :
    Core (setProc { s with fs := fs', cache := cache', nextUuid := next' } p q') h' := by
  have ownLt : ∀ r u, Own (s.procs r).job u → u < s.nextUuid := by
    intro r u ho
    have hj := (c.proc r).2
    cases hjob : (s.procs r).job with
    | idle => rw [hjob] at ho; exact ho.elim
    | writing adds v todo inflight =>
      rw [hjob] at ho hj
      obtain ⟨_, _, _, _, _, _, h4, _⟩ := hj
      simp only [Own] at ho; subst ho; exact h4
    | persist d new why stage =>
      rw [hjob] at ho hj
      have hs := hj.2
      cases stage with
      | check => exact ho.elim
      | tempStart v => simp only [Own] at ho; subst ho; exact hs
      | tempPartial v => simp only [Own] at ho; subst ho; exact hs
      | tempDone v => simp only [Own] at ho; subst ho; exact hs.1
      | renameChecked v => simp only [Own] at ho; subst ho; exact hs.1
      | committed => exact ho.elim
  refine ⟨g, ?_, ?_⟩
  · intro r
    simp only [setProc]
    by_cases e : r = p
    · simp only [e, if_true]; exact hq
    · simp only [e, if_false]
      exact (c.proc r).mono t fun u hu hm => c.own p r u (Ne.symm e) (hmine u hm) hu
  · intro r r' u hne
    simp only [setProc]
    by_cases e : r = p
    · have e' : r' ≠ p := fun x => hne (e.trans x.symm)
      simp only [e, if_true, e', if_false]
      intro ho ho'
      rcases hown u ho with h1 | h1
      · exact c.own p r' u (fun x => e' x.symm) h1 ho'
      · exact absurd (ownLt r' u ho') (by omega)
    · simp only [e, if_false]
      by_cases e' : r' = p
      · simp only [e', if_true]
        intro ho ho'
        rcases hown u ho' with h1 | h1
        · exact c.own p r u (fun x => e x.symm) h1 ho
        · exact absurd (ownLt r u ho) (by omega)
      · simp only [e', if_false]
        exact c.own r r' u hne

/-- A step that changes only the process. -/
theorem Core.step_proc {s : Sys D N X B} {h : Hist D N X B} (c : Core s h) (p : Nat)
    {next' : Nat} {q' : Proc D N X B} (hn : s.nextUuid ≤ next')
    (hown : ∀ u, Own q'.job u → Own (s.procs p).job u ∨ s.nextUuid ≤ u)
    (hq : ProcOk s.fs h next' q') :
    Core (setProc { s with nextUuid := next' } p q') h :=
  c.step p (cache' := s.cache) (Evol.of_next hn)
    { c.glob with fresh := fun d nm u hu hle => c.glob.fresh d nm u hu (Nat.le_trans hn hle) }
    (fun _ hf => hf.elim) hown hq

theorem readBag_set_ne (fs : Fs D N X B) {k path : D × Name} (h : path ≠ k) (f : File D N X B) :
    readBag (PyDict.set fs k f) path = readBag fs path := by
  unfold readBag; rw [PyDict.get?_set_ne _ h]

/-- Writing to a file that carries a uuid and does not hold a complete bag. -/
theorem trans_set {fs : Fs D N X B} {h : Hist D N X B} {next u : Nat} {d : D} {nm : Name}
    (hu : Name.uuid nm = some u) (hnb : readBag fs (d, nm) = none) (f : File D N X B) :
    Evol fs (PyDict.set fs (d, nm) f) h h next next fun v => v = u := by
  refine ⟨?_, Nat.le_refl _, fun _ => List.prefix_rfl, ?_⟩
  · intro path b hb
    have : path ≠ (d, nm) := by
      intro e; subst e; rw [hnb] at hb; simp at hb
    rw [readBag_set_ne _ this]; exact hb
  · intro d' nm' v hv _ hne
    refine PyDict.get?_set_ne _ ?_ _
    intro e
    injection e with e1 e2
    subst e2
    rw [hu] at hv; injection hv with hv
    exact hne hv.symm

theorem Glob.set {fs : Fs D N X B} {cache : Cache D N B} {h : Hist D N X B} {next u : Nat} {d : D}
    {nm : Name} (g : Glob fs cache h next) (hu : Name.uuid nm = some u) (hlt : u < next)
    (hnb : readBag fs (d, nm) = none) (f : File D N X B)
    (hf : ∀ n v b, nm = .metaTemp n v → f ≠ .bag b) :
    Glob (PyDict.set fs (d, nm) f) cache h next := by
  have t := trans_set (h := h) (next := next) hu hnb f
  have hmeta : ∀ d' n, PyDict.get? (PyDict.set fs (d, nm) f) (d', .metaFile n) =
      PyDict.get? fs (d', .metaFile n) := by
    intro d' n
    refine PyDict.get?_set_ne _ ?_ _
    intro e
    injection e with e1 e2
    subst e2
    simp [Name.uuid] at hu
  refine ⟨PyDict.nodup_set g.nd _ _, ?_, ?_, g.wf, ?_,
    fun k b hb => t.bag _ _ (g.cacheOk k b hb), ?_⟩
  · intro d' n hn; rw [hmeta]; exact g.absent d' n hn
  · intro d' n es hes
    obtain ⟨m, h1, h2, h3⟩ := g.present d' n es hes
    exact ⟨m, by rw [hmeta]; exact h1, h2, h3.mono t.bag⟩
  · intro d' nm' v hv hle
    have : (d', nm') ≠ (d, nm) := by
      intro e
      injection e with e1 e2
      subst e2
      rw [hu] at hv; injection hv with hv
      omega
    rw [PyDict.get?_set_ne _ this]
    exact g.fresh d' nm' v hv hle
  · intro d' n v
    by_cases e : (d', Name.metaTemp n v) = (d, nm)
    · injection e with e1 e2
      subst e1
      unfold readBag
      rw [← e2, PyDict.get?_set_self]
      cases f with
      | bag b => exact absurd rfl (hf n v b e2.symm)
      | partialFile => rfl
      | md m => rfl
    · rw [readBag_set_ne _ e]; exact g.noBag d' n v

/-! ### Commit -/

theorem push_pref (h : Hist D N X B) (d : D) (v : List (Entry N X B)) (d' : D) :
    h d' <+: push h d v d' := by
  unfold push
  split
  · next e => subst e; exact List.prefix_append _ _
  · exact List.prefix_rfl

theorem push_getElem? {h : Hist D N X B} {d d' : D} {v es : List (Entry N X B)} {n : Nat}
    (hs : (push h d v d')[n]? = some es) :
    (h d')[n]? = some es ∨ (d' = d ∧ n = (h d).length ∧ es = v) := by
  unfold push at hs
  split at hs
  · next e =>
    subst e
    by_cases hn : n < (h d').length
    · rw [List.getElem?_append_left hn] at hs; exact Or.inl hs
    · rw [List.getElem?_append_right (by omega)] at hs
      have hz : n - (h d').length = 0 := by
        by_cases hz : n - (h d').length = 0
        · exact hz
        · rw [List.getElem?_eq_none (by simp; omega)] at hs; simp at hs
      rw [hz] at hs
      simp only [List.getElem?_cons_zero, Option.some.injEq] at hs
      exact Or.inr ⟨rfl, by omega, hs.symm⟩
  · exact Or.inl hs

/-- The rename of the temporary metadata file. -/
theorem commit_core {fs : Fs D N X B} {cache : Cache D N B} {h : Hist D N X B} {next u : Nat}
    {d : D} {new : Metadata D N X} {es : List (Entry N X B)}
    (g : Glob fs cache h next) (htmp : PyDict.get? fs (d, .metaTemp new.num u) = some (.md new))
    (hnum : new.num = (h d).length) (hr : Repr fs d new es) (hwf : WellFormed es) :
    let fs' := PyDict.set (PyDict.erase fs (d, .metaTemp new.num u)) (d, .metaFile new.num)
      (.md new)
    Evol fs fs' h (push h d es) next next (fun v => v = u) ∧
    Glob fs' cache (push h d es) next := by
  intro fs'
  have nd := g.nd
  have get_other : ∀ path, path ≠ (d, Name.metaTemp new.num u) → path ≠ (d, Name.metaFile new.num) →
      PyDict.get? fs' path = PyDict.get? fs path := by
    intro path h1 h2
    rw [PyDict.get?_set_ne _ h2, PyDict.get?_erase_ne _ h1]
  have hbag : ∀ path b, readBag fs path = some b → readBag fs' path = some b := by
    intro path b hb
    unfold readBag at hb ⊢
    rw [get_other path]
    · exact hb
    · intro e; subst e; rw [htmp] at hb; simp at hb
    · intro e; subst e; rw [g.absent d new.num (by omega)] at hb; simp at hb
  have t : Evol fs fs' h (push h d es) next next (fun v => v = u) := by
    refine ⟨hbag, Nat.le_refl _, push_pref h d es, ?_⟩
    intro d' nm v hv _ hne
    refine get_other _ ?_ ?_
    · intro e
      injection e with e1 e2
      subst e2
      simp only [Name.uuid, Option.some.injEq] at hv
      exact hne hv.symm
    · intro e
      injection e with e1 e2
      subst e2
      simp [Name.uuid] at hv
  refine ⟨t, PyDict.nodup_set (PyDict.nodup_erase nd _) _ _, ?_, ?_, ?_, ?_,
    fun k b hb => hbag _ _ (g.cacheOk k b hb), ?_⟩
  · intro d' n hn
    have hlen : (h d').length ≤ n := by
      have := (push_pref h d es d').length_le; omega
    rw [get_other]
    · exact g.absent d' n hlen
    · simp
    · intro e
      injection e with e1 e2
      injection e2 with e2
      subst e1; subst e2
      simp [push] at hn; omega
  · intro d' n es' hes
    rcases push_getElem? hes with h1 | ⟨h1, h2, h3⟩
    · obtain ⟨m, h4, h5, h6⟩ := g.present d' n es' h1
      refine ⟨m, ?_, h5, h6.mono hbag⟩
      rw [get_other _ (by simp)]
      · exact h4
      · intro e
        injection e with e1 e2
        injection e2 with e2
        subst e1; subst e2
        rw [g.absent _ _ (by omega)] at h4; simp at h4
    · subst h1; subst h3
      refine ⟨new, ?_, by omega, hr.mono hbag⟩
      rw [h2, ← hnum]
      exact PyDict.get?_set_self _ _ _
  · intro d' n es' hes
    rcases push_getElem? hes with h1 | ⟨_, _, h3⟩
    · exact g.wf d' n es' h1
    · subst h3; exact hwf
  · intro d' nm v hv hle
    by_cases e : (d', nm) = (d, Name.metaTemp new.num u)
    · rw [e, PyDict.get?_set_ne _ (by simp)]
      exact PyDict.get?_erase_self nd _
    · rw [get_other _ e]
      · exact g.fresh d' nm v hv hle
      · intro e
        injection e with e1 e2
        subst e2
        simp [Name.uuid] at hv
  · intro d' n v
    by_cases e : (d', Name.metaTemp n v) = (d, Name.metaTemp new.num u)
    · unfold readBag
      rw [e, PyDict.get?_set_ne _ (by simp), PyDict.get?_erase_self nd]
    · have := g.noBag d' n v
      unfold readBag at this ⊢
      rw [get_other _ e (by simp)]; exact this

open Classical in
/-- A commit is legal and its effect is the one of the event. -/
theorem commit_legal {fs : Fs D N X B} {cache : Cache D N B} {h : Hist D N X B} {next : Nat}
    {d : D} {new : Metadata D N X} {why : Why D N X B} {mgr : Option (D × Metadata D N X)}
    (p : Nat) (g : Glob fs cache h next) (hm : MgrOk fs h mgr) (hw : WhyOk fs h mgr d new why)
    (hno : PyDict.get? fs (d, .metaFile new.num) = none) :
    ∃ es, new.num = (h d).length ∧ Repr fs d new es ∧ WellFormed es ∧
      applyEvent h (.committed p d new.num why) = push h d es ∧
      Legal h (.committed p d new.num why) := by
  have hle : ∀ n, PyDict.get? fs (d, .metaFile n) = none → (h d).length ≤ n := by
    intro n hn
    refine Nat.le_of_not_lt fun hlt => ?_
    obtain ⟨m, h1, _⟩ := g.present d n (h d)[n] (by simp [hlt])
    rw [hn] at h1; simp at h1
  have hlen := hle _ hno
  cases why with
  | create =>
    subst hw
    have h0 : h d = [] := List.length_eq_zero_iff.1 (by simpa using hlen)
    refine ⟨[], by simp [h0], by simp [Repr, entriesOf], WellFormed.nil, rfl, rfl, h0⟩
  | add adds =>
    obtain ⟨m, u, es, h1, h2, h3, h4, h5⟩ := hw
    subst h1
    obtain ⟨es', h6, h7⟩ := hm
    rw [h3] at h6; injection h6 with h6; subst h6
    have hlt := (List.getElem?_eq_some_iff.1 h3).1
    have hnn : new.num = (h d).length := by
      rw [h2] at hlen ⊢
      simp only [addedMeta] at hlen ⊢
      omega
    have hlast : latest (h d) = es := by
      unfold latest
      rw [List.getLast?_eq_getElem?]
      have : (h d).length - 1 = m.num := by
        rw [h2] at hnn; simp only [addedMeta] at hnn; omega
      rw [this, h3]; rfl
    refine ⟨es ++ adds.map ToAdd.entry, hnn, ?_, ?_, ?_, ?_⟩
    · rw [h2]; exact h7.added u adds h5
    · exact (g.wf _ _ _ h3).append h4
    · simp only [applyEvent, hlast]
    · refine ⟨hnn, ?_, by rw [hlast]; exact h4⟩
      rw [h2]; simp [addedMeta]
  | branch src ver ns wd =>
    obtain ⟨m, keep, es, h1, h2, h3, h4, h5, h6⟩ := hw
    subst h1; subst h2
    obtain ⟨es', h7, h8⟩ := hm
    rw [h4] at h7; injection h7 with h7; subst h7
    have h0 : h d = [] := by
      rw [h3] at hlen; exact List.length_eq_zero_iff.1 (by simpa [branchMeta] using hlen)
    refine ⟨es.filter fun e => Needed es ns wd e.name, ?_, ?_, ?_, ?_, ?_⟩
    · rw [h0, h3]; rfl
    · rw [h3]
      refine h8.branch d keep _ fun e _ => ?_
      rw [h5]; simp
    · refine (g.wf _ _ _ h4).filter _ ?_
      intro e he hP f _ hfd
      simp only [decide_eq_true_eq] at hP ⊢
      exact Needed.closed he hP hfd
    · simp only [applyEvent, List.getD, h4, Option.getD_some]
    · exact ⟨by rw [h3]; rfl, h0, es, h4, h6⟩

end Verif.BagManager
