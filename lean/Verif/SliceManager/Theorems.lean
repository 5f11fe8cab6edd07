import Verif.SliceManager.Progress4

/-
C13 to C16: revisions of a data slice manager, crashes, stale managers, branches.

Everything is stated for `run api World.init as`: any number of instances in any number of
processes, in any interleaving of their steps, interrupted or abandoned anywhere.
-/

namespace Verif.SliceManager

set_option linter.unusedSectionVars false

variable {I Sch Snn B SB U : Type} [DecidableEq Snn] (api : Api I Sch Snn B SB U)

/-- Everything that can be reached. -/
abbrev reached (as : List (Act I U)) : World I Sch Snn B SB U :=
  run api (World.init I Sch Snn B SB U) as

/-! ### C13 -/

/-- Every commit that happens is legal: a directory starts once, by a creation or by a branch of an
existing revision, and every update is computed from the last revision. -/
theorem C13_legal (as : List (Act I U)) : LegalLog api (reached api as).log :=
  (reach api as).choose_spec.legal

/-- The revisions of a directory are never changed or removed, whatever happens later. -/
theorem C13_append_only (as bs : List (Act I U)) (d : Path) :
    hist api (reached api as).log d <+: hist api (reached api (as ++ bs)).log d := by
  obtain ⟨R, hi⟩ := reach api as
  unfold reached
  rw [run_append]
  exact hist_run_prefix hi bs d

/-- The metadata files of a directory have the numbers 0, 1, 2, ... and each of them describes all
revisions up to its own. -/
theorem C13_numbers (as : List (Act I U)) (d : Path) :
    ((reached api as).dirs d).metas.map (fun e => (e.1, e.2.num, e.2.revs.map Rev.info)) =
      (List.range (hist api (reached api as).log d).length).map fun j =>
        (j, j, ((hist api (reached api as).log d).take (j + 1)).map Revision.info) := by
  obtain ⟨R, hi⟩ := reach api as
  have hd := hi.dirs d
  rw [hd.metas, hd.len]
  simp only [List.map_map]
  apply List.map_congr_left
  intro j _
  simp only [Function.comp_apply, Prod.mk.injEq, true_and]
  rw [List.map_take, List.map_take, hd.infos]

/-- What a manager says about the revision it is at, from its metadata. -/
theorem mgr_shows {w : World I Sch Snn B SB U} {R : Path → List (Rev U)} (hi : Inv api w R) {q : Nat}
    {m : Mgr I Sch Snn B SB U} (hm : (w.slots q).mgr = some m) :
    ∃ r, (hist api w.log m.dir)[m.meta_.num]? = some r ∧ Shows m r.view ∧
      m.history = ((hist api w.log m.dir).take (m.meta_.num + 1)).map Revision.info := by
  have hk := hi.mgrs q m hm
  obtain ⟨r, h1, h2, _⟩ := hi.shows hk
  refine ⟨r, h1, h2, ?_⟩
  rw [Mgr.history, hk.metaAt.2, List.map_take, List.map_take, (hi.dirs m.dir).infos]

/-- At every moment, every manager shows exactly one of the revisions of its directory, and its
history is the list of the revisions up to that one. -/
theorem C13_shows (as : List (Act I U)) (q : Nat) (m : Mgr I Sch Snn B SB U)
    (hm : ((reached api as).slots q).mgr = some m) :
    ∃ j r, (hist api (reached api as).log m.dir)[j]? = some r ∧ Shows m r.view ∧
      m.history = ((hist api (reached api as).log m.dir).take (j + 1)).map Revision.info := by
  obtain ⟨R, hi⟩ := reach api as
  exact ⟨_, mgr_shows api hi hm⟩

/-- Opening a directory, at its last revision or at an index in range, works whatever other
instances do meanwhile, and shows that revision of the directory. -/
theorem C13_open (as bs : List (Act I U)) (q : Nat) (d : Path) (at? : Option Int) (ro : Bool)
    (j : Nat) (r : Revision I Sch Snn B U)
    (hnew : ((reached api as).slots q).mgr = none ∧ ((reached api as).slots q).job = .idle)
    (hj : (hist api (reached api as).log d)[j]? = some r)
    (hat : at? = some (j : Int) ∨
      (at? = none ∧ j + 1 = (hist api (reached api as).log d).length))
    (hb : OnlySteps q bs) :
    let w := reached api as
    let w' := run api w (.openAt q d at? ro :: bs)
    (∃ es, w'.log = w.log ++ es ∧ .raised q ∉ es) ∧
    (3 ≤ steps q bs → ∃ m, (w'.slots q).mgr = some m ∧ (w'.slots q).job = .idle ∧
      m.dir = d ∧ m.readOnly = ro ∧ Shows m r.view ∧
      m.history = ((hist api w.log d).take (j + 1)).map Revision.info) := by
  obtain ⟨R, hi⟩ := reach api as
  intro w w'
  have hnew' : (w.slots q).isNew = true := isNew_iff.2 hnew
  have hlen : (hist api w.log d).length = (R d).length := (hi.dirs d).len
  have hjl : j < (hist api w.log d).length := by
    rcases Nat.lt_or_ge j (hist api w.log d).length with h | h
    · exact h
    · rw [List.getElem?_eq_none h] at hj; simp at hj
  have hread : (w.dirs d).readMeta at? = some ⟨j, (R d).take (j + 1)⟩ := by
    rw [(hi.dirs d).readMeta]
    rcases hat with rfl | ⟨rfl, h⟩
    · simp only
      rw [if_pos (by constructor <;> omega)]
      simp
    · simp only
      rw [if_neg (by intro h0; rw [h0] at hlen; simp at hlen; rw [hlen] at hjl; simp at hjl)]
      have : (R d).length = j + 1 := by rw [← hlen]; exact h.symm
      rw [this, ← this, List.take_length, this]
      rfl
  have e0 : act api w (.openAt q d at? ro) = w.goto q (.open1 d ro ⟨j, (R d).take (j + 1)⟩) := by
    simp only [act, hnew', hread, if_true]
  obtain ⟨R0, hi0⟩ := hi.act (.openAt q d at? ro)
  have h0 : OpenSt q d ro ⟨j, (R d).take (j + 1)⟩ 0 (act api w (.openAt q d at? ro)) := by
    rw [e0]; simp only [OpenSt, goto_same]
  obtain ⟨h1, es, h2, h3⟩ := progress (Bad := fun e => e = .raised q) raised_by
    (fun w R n => open_step d ro _ w R n) (fun w R n a => open_other d ro _ w R n a) bs hb hi0 h0
  have hl0 : (act api w (.openAt q d at? ro)).log = w.log := by rw [e0]; rfl
  refine ⟨⟨es, by rw [← hl0]; exact h2, fun h => h3 _ h rfl⟩, fun hs => ?_⟩
  obtain ⟨n, hn⟩ : ∃ n, 0 + steps q bs = n + 3 := ⟨steps q bs - 3, by omega⟩
  rw [hn] at h1
  obtain ⟨h4, m, h5, h6, h7, h8⟩ := h1
  obtain ⟨R1, hi1⟩ := hi0.run bs
  obtain ⟨r', h9, h10, h11⟩ := mgr_shows api hi1 h5
  have hpre : hist api w.log d <+: hist api (run api (act api w (.openAt q d at? ro)) bs).log d := by
    have := hist_run_prefix hi0 bs d
    rw [hl0] at this
    exact this
  rw [h6, h8] at h9
  rw [prefix_getElem? hpre hj] at h9
  obtain rfl : r = r' := by simpa using h9
  refine ⟨m, h5, h4, h6, h7, h10, ?_⟩
  rw [h11, h6, h8]
  obtain ⟨t, ht⟩ := hpre
  rw [← ht]
  simp only
  rw [List.take_append_of_le_length (by omega)]

/-- Opening a directory without revisions, or at an index out of range (negative indices
included), raises and changes nothing. -/
theorem C13_open_invalid (as : List (Act I U)) (q : Nat) (d : Path) (at? : Option Int) (ro : Bool)
    (hnew : ((reached api as).slots q).mgr = none ∧ ((reached api as).slots q).job = .idle)
    (hat : match at? with
      | none => hist api (reached api as).log d = []
      | some i => ¬ (0 ≤ i ∧ i < (hist api (reached api as).log d).length)) :
    let w := reached api as
    let w' := act api w (.openAt q d at? ro)
    w'.log = w.log ++ [.raised q] ∧ w'.dirs = w.dirs ∧ w'.slots = w.slots := by
  obtain ⟨R, hi⟩ := reach api as
  intro w w'
  have hnew' : (w.slots q).isNew = true := isNew_iff.2 hnew
  have hlen := (hi.dirs d).len
  have hread : (w.dirs d).readMeta at? = none := by
    rw [(hi.dirs d).readMeta]
    cases at? with
    | none =>
      simp only at hat ⊢
      rw [if_pos]
      rw [hat] at hlen
      exact List.eq_nil_of_length_eq_zero hlen.symm
    | some i =>
      simp only at hat ⊢
      rw [if_neg]
      rw [← hlen]; exact hat
  have e0 : w' = w.raise q := by
    show act api w (.openAt q d at? ro) = _
    simp only [act, hnew', hread, if_true]
  rw [e0]
  refine ⟨rfl, rfl, ?_⟩
  funext q'
  by_cases hq : q' = q
  · rw [hq, raise_slot]
    have : (w.slots q).job = .idle := hnew.2
    rw [← this]
  · exact touch_raise.1 q' hq

/-- A read-only copy is read-only and shows what the original showed when it was made, whatever
happens meanwhile. -/
theorem C13_copy (as bs : List (Act I U)) (q src : Nat) (m : Mgr I Sch Snn B SB U)
    (hnew : ((reached api as).slots q).mgr = none ∧ ((reached api as).slots q).job = .idle)
    (hsrc : ((reached api as).slots src).mgr = some m ∧ ((reached api as).slots src).job = .idle)
    (hb : OnlySteps q bs) :
    let w := reached api as
    let w' := run api w (.copy q src :: bs)
    (∃ es, w'.log = w.log ++ es ∧ .raised q ∉ es) ∧
    (3 ≤ steps q bs → ∃ c v, (w'.slots q).mgr = some c ∧ (w'.slots q).job = .idle ∧
      c.dir = m.dir ∧ c.readOnly = true ∧ c.history = m.history ∧ Shows m v ∧ Shows c v) := by
  obtain ⟨R, hi⟩ := reach api as
  intro w w'
  have hnew' : (w.slots q).isNew = true := isNew_iff.2 hnew
  have hready : (w.slots src).ready = some m := ready_some.2 ⟨hsrc.2, hsrc.1⟩
  have e0 : act api w (.copy q src) = w.goto q (.copy1 m) := by
    simp only [act, hnew', hready, if_true]
  obtain ⟨R0, hi0⟩ := hi.act (.copy q src)
  have h0 : CopySt q m 0 (act api w (.copy q src)) := by
    rw [e0]; simp only [CopySt, goto_same]
  obtain ⟨h1, es, h2, h3⟩ := progress (Bad := fun e => e = .raised q) raised_by
    (fun w R n => copy_step m w R n) (fun w R n a => copy_other m w R n a) bs hb hi0 h0
  have hl0 : (act api w (.copy q src)).log = w.log := by rw [e0]; rfl
  refine ⟨⟨es, by rw [← hl0]; exact h2, fun h => h3 _ h rfl⟩, fun hs => ?_⟩
  obtain ⟨n, hn⟩ : ∃ n, 0 + steps q bs = n + 3 := ⟨steps q bs - 3, by omega⟩
  rw [hn] at h1
  obtain ⟨h4, c, h5, h6, h7, h8⟩ := h1
  obtain ⟨R1, hi1⟩ := hi0.run bs
  obtain ⟨r', h9, h10, _⟩ := mgr_shows api hi1 h5
  obtain ⟨r, h11, h12, _⟩ := mgr_shows api hi hsrc.1
  have hpre := hist_run_prefix hi0 bs m.dir
  rw [hl0] at hpre
  rw [h6, h8, prefix_getElem? hpre h11] at h9
  obtain rfl : r = r' := by simpa using h9
  exact ⟨c, r.view, h5, h4, h6, h7, by rw [Mgr.history, Mgr.history, h8], h12, h10⟩

/-- Creating a manager in a directory that is not empty raises and changes nothing. -/
theorem C13_create_taken (as : List (Act I U)) (q d : Nat) (i : I)
    (hnew : ((reached api as).slots q).mgr = none ∧ ((reached api as).slots q).job = .idle)
    (hd : (reached api as).dirs (.user d) ≠ Dir.empty I Snn B SB U) :
    let w := reached api as
    let w' := act api w (.create q d i)
    w'.log = w.log ++ [.raised q] ∧ w'.dirs = w.dirs ∧ w'.slots = w.slots := by
  intro w w'
  have hnew' : (w.slots q).isNew = true := isNew_iff.2 hnew
  have he : ¬ ((w.dirs (.user d)).isEmpty = true) := fun h => hd ((isEmpty_iff _).1 h)
  have e0 : w' = w.raise q := by
    show act api w (.create q d i) = _
    simp only [act, hnew', he, if_true]
    simp
  rw [e0]
  refine ⟨rfl, rfl, ?_⟩
  funext q'
  by_cases hq : q' = q
  · rw [hq, raise_slot]
    have : (w.slots q).job = .idle := hnew.2
    rw [← this]
  · exact touch_raise.1 q' hq

/-- Creating a manager in an empty directory: if it returns, whatever happened meanwhile, the
manager shows the initial data as the first revision of the directory; if nothing happens meanwhile
it returns. -/
theorem C13_create (as bs : List (Act I U)) (q d : Nat) (i : I)
    (hnew : ((reached api as).slots q).mgr = none ∧ ((reached api as).slots q).job = .idle)
    (hd : (reached api as).dirs (.user d) = Dir.empty I Snn B SB U)
    (hb : OnlySteps q bs) :
    let w := reached api as
    let w' := run api w (.create q d i :: bs)
    (∀ m, (w'.slots q).mgr = some m → m.dir = .user d ∧ m.readOnly = false ∧
      m.history = [.creation] ∧ Shows m (View.first api i) ∧ hist api w.log (.user d) = [] ∧
      (hist api w'.log (.user d))[0]? = some ⟨.creation, View.first api i⟩) ∧
    (bs = List.replicate 8 (.step q) → w'.log = w.log ++ [.created (.user d) i, .done q] ∧
      (w'.slots q).job = .idle ∧ ∃ m, (w'.slots q).mgr = some m) := by
  obtain ⟨R, hi⟩ := reach api as
  intro w w'
  have hnew' : (w.slots q).isNew = true := isNew_iff.2 hnew
  have he : (w.dirs (.user d)).isEmpty = true := (isEmpty_iff _).2 hd
  have e0 : act api w (.create q d i) = w.goto q (.create (.user d) i .initial) := by
    simp only [act, hnew', he, if_true]
  have hl0 : (act api w (.create q d i)).log = w.log := by rw [e0]; rfl
  have hini : ((act api w (.create q d i)).dirs (.user d)).initial = none := by
    rw [e0, goto_dirs]
    show ((reached api as).dirs (.user d)).initial = none
    rw [hd]; rfl
  have hj0 : ((act api w (.create q d i)).slots q).job = .create (.user d) i .initial := by
    rw [e0, goto_same]
  obtain ⟨R0, hi0⟩ := hi.act (.create q d i)
  have hempty : hist api w.log (.user d) = [] := by
    have : ((w.dirs (.user d)).metas) = [] := by
      show ((reached api as).dirs (.user d)).metas = []
      rw [hd]; rfl
    rw [(hi.dirs (.user d)).metas] at this
    have h2 := (hi.dirs (.user d)).len
    apply List.eq_nil_of_length_eq_zero
    rw [h2]
    simpa using this
  refine ⟨fun m hm => ?_, ?_⟩
  · have h0 : CreateSt api q (.user d) i (act api w (.create q d i)) := by
      refine .inl ⟨?_, .inl ⟨.initial, hj0, by simp⟩⟩
      rw [e0, goto_same]; exact hnew.1
    obtain ⟨h1, _⟩ := progress (P := fun _ => CreateSt api q (.user d) i) (Bad := fun _ => False)
      (fun _ _ _ _ => by simp) (fun w R n => create_step (.user d) i w R n)
      (fun w R n a => create_other (.user d) i w R n a) bs hb (n := 0) hi0 h0
    have hm' : ((run api (act api w (.create q d i)) bs).slots q).mgr = some m := hm
    rcases h1 with ⟨h2, _⟩ | ⟨_, h3, h4⟩
    · rw [h2] at hm'; simp at hm'
    · rw [h3] at hm'
      obtain rfl : createdMgr api (.user d) i = m := by simpa using hm'
      obtain ⟨R1, hi1⟩ := hi0.run bs
      obtain ⟨r, h5, h6, _⟩ := mgr_shows api hi1 h3
      rw [show (createdMgr api (.user d) i).dir = .user d from rfl,
        show (createdMgr api (.user d) i).meta_.num = 0 from rfl, h4] at h5
      obtain rfl : (⟨.creation, View.first api i⟩ : Revision I Sch Snn B U) = r := by
        simpa using h5
      exact ⟨rfl, rfl, rfl, h6, hempty, h4⟩
  · rintro rfl
    obtain ⟨h1, h2, h3⟩ := create_finish hi0 hj0 hini
    exact ⟨by rw [← hl0]; exact h1, h2, _, h3⟩

/-! ### C14 -/

/-- Every action, so in particular every point at which a process may die, either leaves the
revisions of all directories as they are or adds exactly one complete revision to one directory. -/
theorem C14_atomic (as : List (Act I U)) (a : Act I U) :
    let h := hist api (reached api as).log
    let h' := hist api (reached api (as ++ [a])).log
    h' = h ∨ ∃ d r, h' d = h d ++ [r] ∧ ∀ d', d' ≠ d → h' d' = h d' := by
  obtain ⟨R, hi⟩ := reach api as
  intro h h'
  have e : reached api (as ++ [a]) = act api (reached api as) a := by
    show run api _ (as ++ [a]) = _
    rw [run_append]; rfl
  obtain ⟨R', hi'⟩ := hi.act a
  obtain ⟨es, h1, h2⟩ := (touch_act (api := api) (w := reached api as) a).2
  have hl := hi'.legal
  show hist api (reached api (as ++ [a])).log = _ ∨ _
  have key : ∀ e es', es = e :: es' → (∀ x ∈ es', x = .done a.who) →
      h' = applyEvent api h e ∧ Legal api h e := by
    rintro e0 es' rfl hdone
    refine ⟨?_, ?_⟩
    · show hist api (reached api (as ++ [a])).log = _
      rw [e, h1, show ∀ l : List (Event I U), l ++ e0 :: es' = (l ++ [e0]) ++ es' by simp]
      have : ∀ (es' l : List (Event I U)), (∀ x ∈ es', x = .done a.who) →
          hist api (l ++ es') = hist api l := by
        intro es'
        induction es' with
        | nil => intro l _; simp
        | cons x xs ih =>
          intro l hx
          rw [show l ++ x :: xs = (l ++ [x]) ++ xs by simp,
            ih _ fun y hy => hx y (List.mem_cons_of_mem _ hy), hist_snoc,
            hx x (List.mem_cons_self ..)]
          rfl
      rw [this es' _ hdone, hist_snoc]
    · rw [h1] at hl
      exact hl _ _ _ rfl
  have fin : ∀ e es', es = e :: es' → (∀ x ∈ es', x = .done a.who) →
      h' = h ∨ ∃ d r, h' d = h d ++ [r] ∧ ∀ d', d' ≠ d → h' d' = h d' := by
    intro e0 es' h3 h4
    obtain ⟨h5, h6⟩ := key e0 es' h3 h4
    rw [h5]
    rcases applyEvent_legal h6 with h7 | ⟨d, r, h7⟩
    · exact .inl h7
    · refine .inr ⟨d, r, by rw [h7]; simp, fun d' hd' => by rw [h7]; simp [hd']⟩
  rcases h2 with h3 | ⟨e0, h3, _⟩ | ⟨d, p, i, h3⟩
  · left
    rw [e, h1, h3]; simp [h]
  · exact fin e0 [] h3 (by simp)
  · exact fin _ [.done a.who] h3 (by simp)

/-- An update that was started commits at most once, and only what it was asked to; when it has
returned it has committed, and the manager has the new revision at the end of its history; when it
has raised, the manager is where it was.  Whatever happens meanwhile, and wherever it is
interrupted. -/
theorem C14_update (as bs : List (Act I U)) (q : Nat) (u : U) (m : Mgr I Sch Snn B SB U)
    (hm : ((reached api as).slots q).mgr = some m) (hidle : ((reached api as).slots q).job = .idle)
    (hb : ∀ a ∈ bs, a.who = q → a = .step q ∨ a = .fail q) :
    let w := reached api as
    let w' := run api w (.update q u :: bs)
    ∃ es m', w'.log = w.log ++ es ∧ (w'.slots q).mgr = some m' ∧ m'.dir = m.dir ∧
      (es.filter (isUpdateOf q) = [] ∨
        ∃ names, es.filter (isUpdateOf q) = [.updated q m.dir u names]) ∧
      (.done q ∈ es → (∃ names, es.filter (isUpdateOf q) = [.updated q m.dir u names]) ∧
        m'.history = m.history ++ [.update u]) ∧
      (.done q ∉ es → m'.history = m.history) ∧
      ((w'.slots q).job = .idle → .done q ∈ es ∨ .raised q ∈ es) := by
  intro w w'
  have hready : (w.slots q).ready = some m := ready_some.2 ⟨hidle, hm⟩
  have hraise : act api w (.update q u) = w.raise q → OnceSt q m.dir u m.history w.log
      (act api w (.update q u)) := by
    intro e
    rw [e]
    exact ⟨[.raised q], m, rfl, by rw [raise_slot]; exact hm, rfl,
      .inl ⟨by simp [isUpdateOf], by simp, rfl, .inl ⟨by rw [raise_slot], by simp⟩⟩⟩
  have h0 : OnceSt q m.dir u m.history w.log (act api w (.update q u)) := by
    cases hro : m.readOnly with
    | true => exact hraise (by simp only [act, hready, hro, if_true])
    | false =>
      cases hp : api.plan m.initial m.schema m.load u with
      | none => exact hraise (by simp only [act, hready, hro, hp]; simp)
      | some p =>
        have e0 : act api w (.update q u) = w.setSlot q fun s =>
            { s with job := .update u p s.seq (.bag .data), seq := s.seq + p.data.length + 2 } := by
          simp only [act, hready, hro, hp]; simp
        rw [e0]
        refine ⟨[], m, by simp [World.setSlot], by rw [setSlot_same]; exact hm, rfl,
          .inl ⟨rfl, by simp, rfl, .inr ⟨p, (w.slots q).seq, .bag .data, by simp, ?_⟩⟩⟩
        rw [setSlot_same]
  obtain ⟨es, m', h1, h2, h3, h4⟩ := OnceSt.run (api := api) hb h0
  refine ⟨es, m', h1, h2, h3, ?_, ?_, ?_, ?_⟩
  · rcases h4 with ⟨h5, _⟩ | ⟨names, h5, _⟩
    · exact .inl h5
    · exact .inr ⟨names, h5⟩
  · intro hd
    rcases h4 with ⟨_, h6, _⟩ | ⟨names, h5, ⟨_, h6, _⟩ | ⟨_, _, h6⟩ | ⟨_, _, _, h6, _⟩⟩
    · exact absurd hd h6
    · exact absurd hd h6
    · exact ⟨⟨names, h5⟩, h6⟩
    · exact absurd hd h6
  · intro hd
    rcases h4 with ⟨_, _, h6, _⟩ | ⟨names, h5, ⟨_, _, _, h6⟩ | ⟨_, h6, _⟩ | ⟨_, _, _, _, h6⟩⟩
    · exact h6
    · exact h6
    · exact absurd h6 hd
    · exact h6
  · intro hj
    have hj : ((run api (act api w (.update q u)) bs).slots q).job = .idle := hj
    rcases h4 with ⟨_, _, _, ⟨_, h6⟩ | ⟨p, base, pc, _, h6⟩⟩ |
      ⟨names, h5, ⟨_, _, h6, _⟩ | ⟨_, h6, _⟩ | ⟨_, _, h6, _, _⟩⟩
    · exact .inr h6
    · rw [h6] at hj; simp at hj
    · exact .inr h6
    · exact .inl h6
    · rw [h6] at hj; simp at hj

/-- Attempts at updating a directory, one after the other: each an update and how many steps it
gets before it is interrupted. -/
def attempts (q : Nat) (ts : List (U × Nat)) : List (Act I U) :=
  ts.flatMap fun t => .update q t.1 :: List.replicate t.2 (.step q) ++ [.fail q]

theorem fit_attempts {w : World I Sch Snn B SB U} {R : Path → List (Rev U)} (hi : Inv api w R)
    {q : Nat} {d : Path} (ts : List (U × Nat)) (hts : ∀ t ∈ ts, t.2 ≤ 4) (h : Fit api q d w) :
    ∃ R', Inv api (run api w (attempts q ts)) R' ∧ Fit api q d (run api w (attempts q ts)) ∧
      hist api (run api w (attempts q ts)).log = hist api w.log := by
  induction ts generalizing w R with
  | nil => exact ⟨R, hi, h, rfl⟩
  | cons t ts ih =>
    obtain ⟨h1, h2⟩ := fit_fail hi (u := t.1) (hts t (List.mem_cons_self ..)) h
    obtain ⟨R1, hi1⟩ := hi.run (.update q t.1 :: List.replicate t.2 (.step q) ++ [.fail q])
    obtain ⟨R2, hi2, h3, h4⟩ := ih hi1 (fun x hx => hts x (List.mem_cons_of_mem _ hx)) h1
    have e : (attempts q (t :: ts) : List (Act I U)) =
        (.update q t.1 :: List.replicate t.2 (.step q) ++ [.fail q]) ++ attempts q ts := by
      simp [attempts]
    rw [e, run_append]
    exact ⟨R2, hi2, h3, h4.trans h2⟩

/-- Wherever the processes using a directory died or are stuck: opening it and updating it works,
also after any number of attempts through the same manager that were interrupted before their
commit; the new revision is the last one before, with the update, and the manager shows it. -/
theorem C14_resume (as : List (Act I U)) (q : Nat) (d : Path) (ts : List (U × Nat)) (u : U)
    (r : Revision I Sch Snn B U) (p : Plan Snn B SB)
    (hnew : ((reached api as).slots q).mgr = none ∧ ((reached api as).slots q).job = .idle)
    (hr : (hist api (reached api as).log d).getLast? = some r)
    (hts : ∀ t ∈ ts, t.2 ≤ 4)
    (hp : api.plan r.view.initial r.view.schema r.view.load u = some p) :
    let w := reached api as
    let w' := run api w (.openAt q d none false :: List.replicate 3 (.step q) ++ attempts q ts ++
      .update q u :: List.replicate 6 (.step q))
    ∃ names v m, r.view.update api u names = some v ∧
      hist api w'.log d = hist api w.log d ++ [⟨.update u, v⟩] ∧
      (∀ d', d' ≠ d → hist api w'.log d' = hist api w.log d') ∧
      (w'.slots q).mgr = some m ∧ (w'.slots q).job = .idle ∧ m.dir = d ∧ Shows m v ∧
      m.history = (hist api w'.log d).map Revision.info ∧
      w'.log.getLast? = some (.done q) := by
  obtain ⟨R, hi⟩ := reach api as
  intro w w'
  have hne : R d ≠ [] := by
    intro h
    rw [hi.noHist h] at hr
    simp at hr
  obtain ⟨m1, R1, hi1, hc1, hl1, hj1, hd1, hro1⟩ :=
    inv_open_solo hi (ro := false) (isNew_iff.2 hnew) hne
  have hfit : Fit api q d (run api w (.openAt q d none false :: List.replicate 3 (.step q))) := by
    refine ⟨m1, hc1.mgr, hj1, hd1, hro1, ?_, ?_⟩
    · have h := hc1.bags
      rw [hd1] at h
      exact h
    · have h := hc1.last
      rw [hd1, ← (hi1.dirs d).len] at h
      exact h
  have hh1 : hist api (run api w (.openAt q d none false :: List.replicate 3 (.step q))).log =
      hist api w.log := by
    rw [hl1, hist_snoc]; rfl
  obtain ⟨R2, hi2, hfit2, hh2⟩ := fit_attempts api hi1 ts hts hfit
  have hh2 := hh2.trans hh1
  have ew : w' = run api (run api (run api w (.openAt q d none false :: List.replicate 3 (.step q)))
      (attempts q ts)) (.update q u :: List.replicate 6 (.step q)) := by
    show run api w _ = _
    rw [run_append, run_append]
  generalize run api (run api w (.openAt q d none false :: List.replicate 3 (.step q)))
      (attempts q ts) = w2 at *
  obtain ⟨hfit3, names, hl3⟩ := fit_update hi2 hfit2 (by rw [hh2]; exact hr) hp
  obtain ⟨R3, hi3⟩ := hi2.run (.update q u :: List.replicate 6 (.step q))
  rw [← ew] at hfit3 hl3 hi3
  obtain ⟨v, hv⟩ : ∃ v, r.view.update api u names = some v := by simp [View.update, hp]
  have hh3 : hist api w'.log = applyEvent api (hist api w.log) (.updated q d u names) := by
    rw [hl3, show w2.log ++ [Event.updated q d u names, .done q] =
      w2.log ++ [.updated q d u names] ++ [.done q] by simp, hist_snoc, hist_snoc, hh2]
    rfl
  have hh4 : hist api w'.log d = hist api w.log d ++ [⟨.update u, v⟩] := by
    have hr' : (hist api w.log d).getLast? = some r := hr
    rw [hh3]
    simp only [applyEvent, if_pos, hr', Option.bind_some, hv, Option.map_some, Option.toList_some]
  obtain ⟨m, hm, hj, hd, _, _, hnum⟩ := hfit3
  obtain ⟨r', h1, h2, h3⟩ := mgr_shows api hi3 hm
  have hlen : (hist api w.log d).length = m.meta_.num := by
    rw [hh4] at hnum
    simpa using hnum
  rw [hd, hh4, ← hlen] at h1
  simp only [List.getElem?_append_right (Nat.le_refl _), Nat.sub_self, List.getElem?_cons_zero,
    Option.some.injEq] at h1
  refine ⟨names, v, m, hv, hh4, ?_, hm, hj, hd, by rw [← h1] at h2; exact h2, ?_, ?_⟩
  · intro d' hd'
    rw [hh3]
    simp [applyEvent, hd']
  · rw [h3, hd, ← hnum, List.take_length]
  · rw [hl3]; simp

/-! ### C15 -/

/-- An update is only ever committed on top of the revision that the updating manager shows, while
that is still the last one of its directory: no update is lost. -/
theorem C15_commits_on_seen (as : List (Act I U)) (a : Act I U) (d : Path)
    (hne : hist api (reached api as).log d ≠ [])
    (hch : hist api (reached api (as ++ [a])).log d ≠ hist api (reached api as).log d) :
    let w := reached api as
    ∃ q m u r v names, a = .step q ∧ (w.slots q).mgr = some m ∧ m.dir = d ∧ m.readOnly = false ∧
      (hist api w.log d).getLast? = some r ∧ Shows m r.view ∧
      m.history = (hist api w.log d).map Revision.info ∧
      r.view.update api u names = some v ∧
      hist api (reached api (as ++ [a])).log d = hist api w.log d ++ [⟨.update u, v⟩] := by
  obtain ⟨R, hi⟩ := reach api as
  intro w
  have e : reached api (as ++ [a]) = act api w a := by
    show run api _ (as ++ [a]) = _
    rw [run_append]; rfl
  rw [e] at hch ⊢
  have hlen := (hi.dirs d).len
  have hR : R d ≠ [] := by
    intro h
    exact hne (hi.noHist h)
  obtain ⟨R', hi'⟩ := hi.act a
  have hdirs : (act api w a).dirs d ≠ w.dirs d := by
    intro h
    have h1 := (hi'.dirs d).metas
    rw [h, (hi.dirs d).metas] at h1
    have h2 := congrArg List.length h1
    simp only [List.length_map, List.length_range] at h2
    have h3 := hist_act_prefix hi a d
    have h4 := (hi'.dirs d).len
    exact hch (h3.eq_of_length (by rw [hlen, h4, h2])).symm
  obtain ⟨q, rfl⟩ : ∃ q, a = .step q := by
    apply Classical.byContradiction
    intro h
    exact hdirs (by rw [act_dirs a fun q hq => h ⟨q, hq⟩])
  have hw : Writes (w.slots q) d := by
    apply Classical.byContradiction
    intro h
    exact hdirs (stepJob_dirs d h)
  have es : act api w (.step q) = stepJob api w q := rfl
  rw [es] at hch hi' ⊢
  rcases writes_committed hi hR hw with ⟨u, p, base, pc, m, hj, hm, hd⟩ | ⟨h1, _⟩ | ⟨h1, _⟩ | ⟨h1, _⟩
  · rcases update_commit hi hj hm with h1 | ⟨h1, names, h2⟩
    · exact absurd (congrFun h1 d) hch
    · obtain ⟨r, h3, h4, h5⟩ := mgr_shows api hi hm
      rw [hd] at h1 h3 h5
      have hr : (hist api w.log d).getLast? = some r := by
        rw [List.getLast?_eq_getElem?, ← h1, Nat.add_sub_cancel]; exact h3
      have hl := hi'.legal
      rw [h2, hd] at hl
      obtain ⟨r', p', h6, h7, _⟩ := hl w.log _ [] rfl
      obtain rfl : r = r' := by
        rw [hr] at h6; simpa using h6
      obtain ⟨v, hv⟩ : ∃ v, r.view.update api u names = some v := by simp [View.update, h7]
      have hjob := hi.jobs q
      unfold JobOk at hjob
      rw [hj] at hjob
      obtain ⟨m', _, hm', hu, _⟩ := hjob
      rw [hm] at hm'
      obtain rfl : m = m' := by simpa using hm'
      refine ⟨q, m, u, r, v, names, rfl, hm, hd, hu.rw, hr, h4, ?_, hv, ?_⟩
      · rw [h5, h1, List.take_length]
      · rw [h2, hd, hist_snoc]
        show applyEvent api (hist api w.log) _ d = _
        simp only [applyEvent, if_pos, hr, Option.bind_some, hv, Option.map_some,
          Option.toList_some]
  · exact absurd (by rw [h1]) hch
  · exact absurd (by rw [h1, hist_snoc]; rfl) hch
  · exact absurd (by rw [h1, hist_snoc]; rfl) hch

/-- A manager whose directory has more revisions than its history never commits again, whatever is
done with it and whatever happens meanwhile. -/
theorem C15_stale_never_commits (as bs : List (Act I U)) (q : Nat) (m : Mgr I Sch Snn B SB U)
    (hm : ((reached api as).slots q).mgr = some m) (hidle : ((reached api as).slots q).job = .idle)
    (hstale : m.history.length < (hist api (reached api as).log m.dir).length) :
    ∃ es, (reached api (as ++ bs)).log = (reached api as).log ++ es ∧ ∀ e ∈ es, ¬ Commits q e := by
  obtain ⟨R, hi⟩ := reach api as
  have hk := (hi.mgrs q m hm).metaAt
  have hh : m.history.length = m.meta_.num + 1 := by
    have := hk.1
    rw [Mgr.history, List.length_map, hk.2, List.length_take]
    omega
  unfold reached
  rw [run_append]
  exact (StaleSt.run m.dir m.meta_.num hi bs
    ⟨0, by rw [← hh]; exact hstale, ⟨m, hm, rfl, rfl⟩, .inl hidle⟩).2

/-- Every update through a stale manager raises, at the latest after four steps, whatever happens
meanwhile. -/
theorem C15_stale_raises (as bs : List (Act I U)) (q : Nat) (u : U) (m : Mgr I Sch Snn B SB U)
    (hm : ((reached api as).slots q).mgr = some m) (hidle : ((reached api as).slots q).job = .idle)
    (hstale : m.history.length < (hist api (reached api as).log m.dir).length)
    (hb : OnlySteps q bs) (hs : 4 ≤ steps q bs) :
    let w := reached api as
    let w' := run api w (.update q u :: bs)
    ∃ es m', w'.log = w.log ++ es ∧ .raised q ∈ es ∧ (∀ e ∈ es, ¬ Commits q e) ∧
      (w'.slots q).job = .idle ∧ (w'.slots q).mgr = some m' ∧ m'.history = m.history ∧
      Shows m' = Shows m := by
  obtain ⟨R, hi⟩ := reach api as
  intro w w'
  have hk := (hi.mgrs q m hm).metaAt
  have hh : m.history.length = m.meta_.num + 1 := by
    have := hk.1
    rw [Mgr.history, List.length_map, hk.2, List.length_take]
    omega
  have hst : StaleAny api q m.dir m.meta_.num w :=
    ⟨0, by rw [← hh]; exact hstale, ⟨m, hm, rfl, rfl⟩, .inl hidle⟩
  obtain ⟨⟨n0, h0⟩, _⟩ := StaleSt.act m.dir m.meta_.num hi (.update q u) hst
  obtain ⟨R0, hi0⟩ := hi.act (.update q u)
  have hready : (w.slots q).ready = some m := ready_some.2 ⟨hidle, hm⟩
  have h00 : StaleSt api q m.dir m.meta_.num 0 (act api w (.update q u)) := by
    obtain ⟨h1, h2, _⟩ := h0
    refine ⟨h1, h2, ?_⟩
    simp only [act, hready]
    split
    · exact .inl (by rw [raise_slot])
    · split
      · exact .inl (by rw [raise_slot])
      · exact .inr ⟨u, _, _, .inl ⟨by rw [setSlot_same], trivial⟩⟩
  obtain ⟨h1, _⟩ := progress (Bad := Commits q) commits_by
    (fun w R n => stale_step m.dir m.meta_.num w R n)
    (fun w R n a => stale_other m.dir m.meta_.num w R n a) bs hb hi0 h00
  obtain ⟨_, _, hj⟩ := h1
  have hj : (w'.slots q).job = .idle := by
    show ((run api (act api w (.update q u)) bs).slots q).job = .idle
    rcases hj with h | ⟨_, _, _, ⟨_, h⟩ | ⟨_, h⟩ | ⟨_, h⟩ | ⟨_, h⟩⟩
    · exact h
    all_goals omega
  obtain ⟨_, es, h2, h3⟩ := StaleSt.run m.dir m.meta_.num hi (.update q u :: bs) hst
  obtain ⟨es', m', h4, h5, h6, _, h7, h8, h9⟩ :=
    C14_update api as bs q u m hm hidle fun a ha hq => .inl (hb a ha hq)
  obtain rfl : es = es' := List.append_cancel_left (h2.symm.trans h4)
  have hnd : .done q ∉ es := fun h => h3 _ h rfl
  obtain ⟨R', hi'⟩ := hi.run (.update q u :: bs)
  refine ⟨es, m', h4, (h9 hj).resolve_left hnd, h3, hj, h5, h8 hnd, ?_⟩
  obtain ⟨r, h10, h11, h12⟩ := mgr_shows api hi hm
  obtain ⟨r', h13, h14, h15⟩ := mgr_shows api hi' h5
  have hk' := (hi'.mgrs q m' h5).metaAt
  have hh' : m'.history.length = m'.meta_.num + 1 := by
    have := hk'.1
    rw [Mgr.history, List.length_map, hk'.2, List.length_take]
    omega
  have hnum : m'.meta_.num = m.meta_.num := by
    rw [h8 hnd, hh] at hh'; omega
  have hpre := hist_run_prefix hi (.update q u :: bs) m.dir
  rw [h6, hnum, prefix_getElem? hpre h10] at h13
  obtain rfl : r = r' := by simpa using h13
  funext v
  have hl : m'.load = m.load := by funext s; rw [h14.2.2 s, h11.2.2 s]
  simp only [Shows, h14.1, h11.1, h14.2.1, h11.2.1, hl]

/-- Updating through a read-only manager raises and changes nothing; so does an update that is not
valid for the revision the manager shows. -/
theorem C15_rejected (as : List (Act I U)) (q : Nat) (u : U) (m : Mgr I Sch Snn B SB U)
    (r : Revision I Sch Snn B U)
    (hm : ((reached api as).slots q).mgr = some m) (hidle : ((reached api as).slots q).job = .idle)
    (hr : (hist api (reached api as).log m.dir)[m.history.length - 1]? = some r)
    (hrej : m.readOnly = true ∨ api.plan r.view.initial r.view.schema r.view.load u = none) :
    let w := reached api as
    let w' := act api w (.update q u)
    w'.log = w.log ++ [.raised q] ∧ w'.dirs = w.dirs ∧ w'.slots = w.slots := by
  obtain ⟨R, hi⟩ := reach api as
  intro w w'
  have hready : (w.slots q).ready = some m := ready_some.2 ⟨hidle, hm⟩
  have e0 : w' = w.raise q := by
    show act api w (.update q u) = _
    simp only [act, hready]
    by_cases hro : m.readOnly = true
    · rw [if_pos hro]
    · rw [if_neg hro]
      have hp := hrej.resolve_left hro
      obtain ⟨r', h1, h2, h3⟩ := mgr_shows api hi hm
      have hk := (hi.mgrs q m hm).metaAt
      have hh : m.history.length = m.meta_.num + 1 := by
        have := hk.1
        rw [Mgr.history, List.length_map, hk.2, List.length_take]
        omega
      rw [hh, Nat.add_sub_cancel] at hr
      obtain rfl : r = r' := by
        have := hr.symm.trans h1; simpa using this
      have hl : (m.load : List Snn → Option (List B)) = r.view.load := funext h2.2.2
      rw [hl, h2.1, show m.schema = r.view.schema from h2.2.1, hp]
  rw [e0]
  refine ⟨rfl, rfl, ?_⟩
  funext q'
  by_cases hq : q' = q
  · rw [hq, raise_slot]
    have : (w.slots q).job = .idle := hidle
    rw [← this]
  · exact touch_raise.1 q' hq

/-- A read-only manager stays read-only and never writes anything, whatever is done with it. -/
theorem C15_read_only (as bs : List (Act I U)) (q : Nat) (m : Mgr I Sch Snn B SB U)
    (hm : ((reached api as).slots q).mgr = some m) (hidle : ((reached api as).slots q).job = .idle)
    (hro : m.readOnly = true) :
    ((reached api (as ++ bs)).slots q).mgr = some m ∧
      (∃ es, (reached api (as ++ bs)).log = (reached api as).log ++ es ∧
        ∀ e ∈ es, ¬ Commits q e) ∧
      ∀ a : Act I U, a.who = q →
        (act api (reached api (as ++ bs)) a).dirs = (reached api (as ++ bs)).dirs := by
  unfold reached
  rw [run_append]
  obtain ⟨h1, h2⟩ := frozen_run (api := api) (q := q) (m := m) bs ⟨hm, hidle, hro⟩
  exact ⟨h1.1, h2, fun a ha => (frozen_act a h1).2.1 ha⟩

/-- `set_read_only` makes a manager read-only and changes nothing else. -/
theorem C15_set_read_only (as : List (Act I U)) (q : Nat) (m : Mgr I Sch Snn B SB U)
    (hm : ((reached api as).slots q).mgr = some m)
    (hidle : ((reached api as).slots q).job = .idle) :
    let w := reached api as
    let w' := act api w (.setReadOnly q)
    w'.dirs = w.dirs ∧ w'.log = w.log ∧ (w'.slots q).job = .idle ∧
      (w'.slots q).mgr = some { m with readOnly := true } ∧
      ∀ q', q' ≠ q → w'.slots q' = w.slots q' := by
  intro w w'
  have hready : (w.slots q).ready = some m := ready_some.2 ⟨hidle, hm⟩
  have hm' : (w.slots q).mgr = some m := hm
  have e0 : w' = w.setSlot q fun s =>
      { s with mgr := s.mgr.map fun m => { m with readOnly := true } } := by
    show act api w (.setReadOnly q) = _
    simp only [act, hready]
  rw [e0]
  refine ⟨rfl, rfl, by rw [setSlot_same]; exact hidle, ?_, fun q' h => setSlot_other _ h _⟩
  rw [setSlot_same]
  simp only [hm', Option.map_some]

/-! ### C16 -/

/-- Which revision an index asks for: counted from the start, or from the end if negative. -/
def asked (len : Nat) (i : Int) : Option Nat :=
  if 0 ≤ i then (if i < len then some i.toNat else none)
  else if 0 ≤ i + len then some (i + len).toNat else none

theorem branchIndex_asked (len : Nat) (i : Int) : branchIndex len i = asked len i := by
  unfold branchIndex asked
  by_cases h1 : 0 ≤ i
  · rw [if_pos h1]
    by_cases h2 : i < (len : Int)
    · rw [if_pos ⟨by omega, h2⟩, if_pos h2, if_neg (by omega)]
    · rw [if_neg (by omega), if_neg h2]
  · rw [if_neg h1]
    by_cases h2 : 0 ≤ i + len
    · rw [if_pos ⟨by omega, by omega⟩, if_pos h2, if_pos (by omega), Int.add_comm]
    · rw [if_neg (by omega), if_neg h2]

/-- Branching at an index out of range, or into a directory that is not empty, raises and changes
nothing. -/
theorem C16_branch_invalid (as : List (Act I U)) (q src : Nat) (i : Int) (out : Option Nat)
    (m : Mgr I Sch Snn B SB U)
    (hnew : ((reached api as).slots q).mgr = none ∧ ((reached api as).slots q).job = .idle)
    (hsrc : ((reached api as).slots src).mgr = some m ∧ ((reached api as).slots src).job = .idle)
    (hbad : asked m.history.length i = none ∨
      ∃ n, out = some n ∧ (reached api as).dirs (.user n) ≠ Dir.empty I Snn B SB U) :
    let w := reached api as
    let w' := act api w (.branch q src i out)
    w'.log = w.log ++ [.raised q] ∧ w'.dirs = w.dirs ∧ w'.slots = w.slots := by
  intro w w'
  have hnew' : (w.slots q).isNew = true := isNew_iff.2 hnew
  have hready : (w.slots src).ready = some m := ready_some.2 ⟨hsrc.2, hsrc.1⟩
  have hlen : m.history.length = m.meta_.revs.length := by simp [Mgr.history]
  have e0 : w' = w.raise q := by
    show act api w (.branch q src i out) = _
    simp only [act, hnew', hready, if_true]
    rw [branchIndex_asked, ← hlen]
    cases ha : asked m.history.length i with
    | none => rfl
    | some j =>
      obtain ⟨n, rfl, hn⟩ := hbad.resolve_left (by rw [ha]; simp)
      have he : ¬ ((w.dirs (.user n)).isEmpty = true) := fun h => hn ((isEmpty_iff _).1 h)
      simp only [he]
      simp
  rw [e0]
  refine ⟨rfl, rfl, ?_⟩
  funext q'
  by_cases hq : q' = q
  · rw [hq, raise_slot]
    have : (w.slots q).job = .idle := hnew.2
    rw [← this]
  · exact touch_raise.1 q' hq

theorem branch_begin {w : World I Sch Snn B SB U} {R : Path → List (Rev U)} (hi : Inv api w R)
    {q src : Nat} {i : Int} {j : Nat} {out : Option Nat} {m : Mgr I Sch Snn B SB U}
    (hnew : (w.slots q).mgr = none ∧ (w.slots q).job = .idle)
    (hsrc : (w.slots src).mgr = some m ∧ (w.slots src).job = .idle)
    (hj : asked m.history.length i = some j)
    (hout : ∀ n, out = some n → w.dirs (.user n) = Dir.empty I Snn B SB U) :
    act api w (.branch q src i out) =
      w.goto q (match out with
        | none => .draw m j
        | some n => .branch m j (.user n) .initial) ∧
    ∃ r, (hist api w.log m.dir)[j]? = some r := by
  have hnew' : (w.slots q).isNew = true := isNew_iff.2 hnew
  have hready : (w.slots src).ready = some m := ready_some.2 ⟨hsrc.2, hsrc.1⟩
  have hlen : m.history.length = m.meta_.revs.length := by simp [Mgr.history]
  have hb : branchIndex m.meta_.revs.length i = some j := by
    rw [branchIndex_asked, ← hlen]; exact hj
  constructor
  · simp only [act, hnew', hready, if_true, hb]
    cases out with
    | none => rfl
    | some n =>
      have he : (w.dirs (.user n)).isEmpty = true := (isEmpty_iff _).2 (hout n rfl)
      simp only [he, if_true]
  · have hk := (hi.mgrs src m hsrc.1).metaAt
    have := branchIndex_lt hb
    have h2 := hk.1
    rw [← (hi.dirs m.dir).len] at h2
    rw [hk.2, List.length_take, ← (hi.dirs m.dir).len] at this
    exact ⟨_, List.getElem?_eq_getElem (by omega)⟩

/-- A branch, whatever happens meanwhile: if it returns, its directory is the one asked for or one
of its own under the parent's, it was new, its first revision shows what the chosen revision of the
parent shows, and its history names the parent and the index.  With no directory asked for, it
never raises. -/
theorem C16_branch (as bs : List (Act I U)) (q src : Nat) (i : Int) (j : Nat) (out : Option Nat)
    (m : Mgr I Sch Snn B SB U)
    (hnew : ((reached api as).slots q).mgr = none ∧ ((reached api as).slots q).job = .idle)
    (hsrc : ((reached api as).slots src).mgr = some m ∧ ((reached api as).slots src).job = .idle)
    (hj : asked m.history.length i = some j)
    (hout : ∀ n, out = some n → (reached api as).dirs (.user n) = Dir.empty I Snn B SB U)
    (hb : OnlySteps q bs) :
    let w := reached api as
    let w' := run api w (.branch q src i out :: bs)
    (∃ es, w'.log = w.log ++ es ∧ (out = none → .raised q ∉ es)) ∧
    ∀ b, (w'.slots q).mgr = some b → Target out m.dir b.dir ∧ b.readOnly = false ∧
      b.history = [.branch m.dir j] ∧ hist api w.log b.dir = [] ∧
      ∃ r, (hist api w.log m.dir)[j]? = some r ∧ Shows b r.view ∧
        (hist api w'.log b.dir)[0]? = some ⟨.branch m.dir j, r.view⟩ := by
  obtain ⟨R, hi⟩ := reach api as
  intro w w'
  obtain ⟨e0, r, hr⟩ := branch_begin api hi hnew hsrc hj hout
  obtain ⟨R0, hi0⟩ := hi.act (.branch q src i out)
  have hl0 : (act api w (.branch q src i out)).log = w.log := by
    show (act api (reached api as) (.branch q src i out)).log = (reached api as).log
    rw [e0]; rfl
  have h0 : BranchSt api q m j out r w.log (act api w (.branch q src i out)) := by
    refine ⟨⟨[], by simp [hl0]⟩, by rw [hl0]; exact hr, .inl ?_⟩
    show ((act api (reached api as) (.branch q src i out)).slots q).mgr = none ∧ _
    rw [show act api w (.branch q src i out) = act api (reached api as) (.branch q src i out) from
      rfl, e0, goto_same]
    refine ⟨hnew.1, ?_⟩
    cases out with
    | none => exact .inl ⟨rfl, rfl⟩
    | some n => exact .inr (.inr (.inl ⟨.user n, .initial, rfl, rfl⟩))
  obtain ⟨h1, es, h2, h3⟩ := progress (P := fun _ => BranchSt api q m j out r w.log)
    (Bad := fun e => out = none ∧ e = .raised q)
    (fun q' e h hb h' => raised_by q' e h hb h'.2)
    (fun w R n => branch_step m j out r _ w R n)
    (fun w R n a => branch_other m j out r _ w R n a) bs hb (n := 0) hi0 h0
  refine ⟨⟨es, by rw [← hl0]; exact h2, fun ho h => h3 _ h ⟨ho, rfl⟩⟩, ?_⟩
  intro b hb'
  have hb' : ((run api (act api w (.branch q src i out)) bs).slots q).mgr = some b := hb'
  obtain ⟨R1, hi1⟩ := hi0.run bs
  obtain ⟨_, _, ⟨h4, _⟩ | ⟨_, b', h4, h5, h6, h7, h8, h9⟩⟩ := h1
  · rw [h4] at hb'; simp at hb'
  · rw [h4] at hb'
    obtain rfl : b' = b := by simpa using hb'
    obtain ⟨r', h10, h11, _⟩ := mgr_shows api hi1 h4
    rw [h7, show (branchMeta m j).num = 0 from rfl, h9] at h10
    obtain rfl : (⟨.branch m.dir j, r.view⟩ : Revision I Sch Snn B U) = r' := by simpa using h10
    exact ⟨h5, h6, by rw [Mgr.history, h7]; rfl, h8, r, hr, h11, h9⟩

/-- A branch that nothing interferes with returns: in seven steps into a directory asked for, in
nine if the directory name drawn for it is not taken. -/
theorem C16_branch_returns (as : List (Act I U)) (q src : Nat) (i : Int) (j : Nat)
    (out : Option Nat) (m : Mgr I Sch Snn B SB U)
    (hnew : ((reached api as).slots q).mgr = none ∧ ((reached api as).slots q).job = .idle)
    (hsrc : ((reached api as).slots src).mgr = some m ∧ ((reached api as).slots src).job = .idle)
    (hj : asked m.history.length i = some j)
    (hout : match out with
      | some n => (reached api as).dirs (.user n) = Dir.empty I Snn B SB U
      | none => api.short ⟨q, ((reached api as).slots q).seq⟩ ∉
          ((reached api as).dirs m.dir).claimed) :
    let w := reached api as
    let w' := run api w (.branch q src i out ::
      List.replicate (if out = none then 9 else 7) (.step q))
    ∃ d, Target out m.dir d ∧ w'.log = w.log ++ [.branched d m.dir j, .done q] ∧
      (w'.slots q).job = .idle ∧ ∃ b, (w'.slots q).mgr = some b ∧ b.dir = d := by
  obtain ⟨R, hi⟩ := reach api as
  intro w w'
  obtain ⟨e0, _⟩ := branch_begin api hi (out := out) hnew hsrc hj
    (fun n hn => by subst hn; exact hout)
  obtain ⟨R0, hi0⟩ := hi.act (.branch q src i out)
  cases out with
  | some n =>
    simp only at e0 hout
    have hjob : ((act api (reached api as) (.branch q src i (some n))).slots q).job =
        .branch m j (.user n) .initial := by rw [e0, goto_same]
    have hini : ((act api (reached api as) (.branch q src i (some n))).dirs (.user n)).initial =
        none := by rw [e0, goto_dirs, hout]; rfl
    obtain ⟨h1, h2, h3⟩ := branch_finish hi0 hjob hini
    refine ⟨.user n, rfl, ?_, h2, h3⟩
    have hl0 : (act api (reached api as) (.branch q src i (some n))).log = w.log := by
      rw [e0]; rfl
    rw [← hl0]
    exact h1
  | none =>
    simp only at e0 hout
    obtain ⟨R1, hi1⟩ := hi0.stepJob q
    obtain ⟨R2, hi2⟩ := hi1.stepJob q
    have hnc : ∀ {w1 : World I Sch Snn B SB U}, w1.dirs = (reached api as).dirs →
        ((w1.dirs m.dir).claimed.contains (api.short ⟨q, ((reached api as).slots q).seq⟩)) = false := by
      intro w1 h
      rw [h]
      simpa using hout
    have e1 : stepJob api (act api (reached api as) (.branch q src i none)) q =
        (((reached api as).goto q (.draw m j)).setSlot q fun x => { x with seq := x.seq + 1 }).goto q
          (.claim m j (api.short ⟨q, ((reached api as).slots q).seq⟩)) := by
      rw [e0]
      simp only [stepJob, goto_same]
      rw [if_neg]
      intro h
      exact Bool.false_ne_true ((hnc (w1 := reached api as) rfl).symm.trans h)
    have e2 : stepJob api (stepJob api (act api (reached api as) (.branch q src i none)) q) q =
        ((stepJob api (act api (reached api as) (.branch q src i none)) q).setDir m.dir fun x =>
          { x with claimed := x.claimed ++ [api.short ⟨q, ((reached api as).slots q).seq⟩] }).goto q
          (.branch m j (.branch m.dir (api.short ⟨q, ((reached api as).slots q).seq⟩)) .initial) := by
      rw [e1]
      simp only [stepJob, goto_same]
      rw [if_neg]
      intro h
      exact Bool.false_ne_true ((hnc (w1 := reached api as) rfl).symm.trans h)
    have hjob : ((stepJob api (stepJob api (act api (reached api as) (.branch q src i none)) q)
        q).slots q).job = .branch m j
          (.branch m.dir (api.short ⟨q, ((reached api as).slots q).seq⟩)) .initial := by
      rw [e2, goto_same]
    have hl : (stepJob api (stepJob api (act api (reached api as) (.branch q src i none)) q) q).log =
        w.log := by
      rw [e2, e1]; rfl
    obtain ⟨h1, h2, h3⟩ := branch_finish hi2 hjob (hi2.autoInit q _ _ _ _ hjob)
    refine ⟨.branch m.dir (api.short ⟨q, ((reached api as).slots q).seq⟩), ⟨_, rfl⟩, ?_, h2, h3⟩
    rw [← hl]
    exact h1

/-- The revisions of a directory are changed by nobody but managers of that directory: later updates
of a parent, of its branches, of branches of branches, leave each other alone, including their
files. -/
theorem C16_isolated (as : List (Act I U)) (a : Act I U) (d : Path)
    (hne : hist api (reached api as).log d ≠ [])
    (hother : ∀ m, ((reached api as).slots a.who).mgr = some m → m.dir ≠ d) :
    let w := reached api as
    let w' := reached api (as ++ [a])
    hist api w'.log d = hist api w.log d ∧
      ∃ c, w'.dirs d = { w.dirs d with claimed := c } := by
  obtain ⟨R, hi⟩ := reach api as
  intro w w'
  have e : w' = act api w a := by
    show run api _ (as ++ [a]) = _
    rw [run_append]; rfl
  have hR : R d ≠ [] := fun h => hne (hi.noHist h)
  constructor
  · apply Classical.byContradiction
    intro h
    obtain ⟨q, m, u, r, v, names, rfl, h1, h2, _⟩ := C15_commits_on_seen api as a d hne h
    exact hother m h1 h2
  · rw [e]
    by_cases ha : ∃ q, a = .step q
    · obtain ⟨q, rfl⟩ := ha
      show ∃ c, (stepJob api w q).dirs d = _
      by_cases hw : Writes (w.slots q) d
      · rcases writes_committed hi hR hw with ⟨u, p, base, pc, m, hj, hm, hd⟩ | ⟨_, h⟩ | ⟨_, h⟩ | ⟨_, h⟩
        · exact absurd hd (hother m hm)
        · exact h
        · exact ⟨_, by rw [h]⟩
        · exact ⟨_, by rw [h]⟩
      · exact ⟨_, by rw [stepJob_dirs d hw]⟩
    · exact ⟨_, by rw [act_dirs a fun q hq => ha ⟨q, hq⟩]⟩

/-- Two instances never branch into the same directory: a branch directory belongs to one commit. -/
theorem C16_own_directory (as : List (Act I U)) (pre mid post : List (Event I U)) (d p p' : Path)
    (i i' : Nat)
    (h : (reached api as).log = pre ++ .branched d p i :: mid ++ .branched d p' i' :: post) :
    False := by
  have hl := C13_legal api as
  have h1 : Legal api (hist api (pre ++ .branched d p i :: mid)) (.branched d p' i') :=
    hl _ _ post h
  have h2 : Legal api (hist api pre) (.branched d p i) :=
    hl pre _ (mid ++ .branched d p' i' :: post) (by rw [h]; simp)
  rw [h] at hl
  have hp := hist_prefix (api := api) (log := pre ++ [.branched d p i]) (es := mid)
    (by
      have := legalLog_prefix (api := api) (log := pre ++ .branched d p i :: mid) hl
      simpa using this) d
  rw [show pre ++ [Event.branched d p i] ++ mid = pre ++ .branched d p i :: mid by simp, h1.1,
    hist_snoc] at hp
  have := List.prefix_nil.1 hp
  simp only [applyEvent, if_pos] at this
  obtain ⟨x, hx⟩ : ∃ x, (hist api pre p)[i]? = some x := ⟨_, List.getElem?_eq_getElem h2.2⟩
  rw [hx] at this
  simp at this

/-! ### Concrete cases

A library in which the initial data is a number, which is also the only node of its schema; an
update adds a node with one data bag of the same number, and is not valid if the node is already
there. -/

/-- The small library. -/
def exApi : Api Nat (List Nat) Nat Nat Nat Nat where
  schemaOf i := [i]
  nodes s := s
  updSchema s n := s ++ [n]
  plan i s load u :=
    if u ∈ s ∨ load s = none then none
    else some ⟨[u], u, fun n => if n = u ∨ n = i then some [0] else none⟩
  short n := n.owner % 2

/-- What a manager says. -/
def exSays (w : World Nat (List Nat) Nat Nat Nat Nat) (q : Nat) :
    Option (List (Info Nat) × List Nat × Option (List Nat) × Option (List Nat)) :=
  (w.slots q).mgr.map fun m => (m.history, m.schema, m.load [7], m.load m.schema)

/-- Created, updated twice, then opened at revision 1 and at the end while another process is in the
middle of an update. -/
def exStory : List (Act Nat Nat) :=
  [.create 0 5 7] ++ List.replicate 8 (.step 0) ++ [.update 0 1] ++ List.replicate 6 (.step 0) ++
    [.update 0 2] ++ List.replicate 6 (.step 0)

example : (reached exApi exStory).log =
    [.created (.user 5) 7, .done 0, .updated 0 (.user 5) 1 [⟨0, 0⟩], .done 0,
      .updated 0 (.user 5) 2 [⟨0, 3⟩], .done 0] := by decide +kernel

example : exSays (reached exApi exStory) 0 =
    some ([.creation, .update 1, .update 2], [7, 1, 2], some [1, 2], some [1, 2]) := by
  decide +kernel

/-- `C13_open`, its hypotheses and its conclusion, with another process in the middle of an update. -/
example :
    exSays (run exApi (reached exApi exStory)
      [.update 0 3, .step 0, .openAt 9 (.user 5) (some 1) true, .step 9, .step 0, .step 9, .step 0,
        .step 0, .step 0, .step 9]) 9 =
    some ([.creation, .update 1], [7, 1], some [1], some [1]) := by decide +kernel

/-- A process dies after it has added its data bags; opening again and updating works (`C14_resume`
with one more interrupted attempt). -/
example :
    exSays (run exApi (reached exApi (exStory ++ [.update 0 3, .step 0]))
      (.openAt 9 (.user 5) none false :: List.replicate 3 (.step 9) ++ attempts 9 [(4, 2)] ++
        .update 9 6 :: List.replicate 6 (.step 9))) 9 = some ([.creation, .update 1, .update 2, .update 6], [7, 1, 2, 6], some [1, 2, 6],
      some [1, 2, 6]) := by decide +kernel

/-- The hypotheses of `C14_resume` in that case. -/
example : ((reached exApi (exStory ++ [.update 0 3, .step 0])).slots 9).mgr.isNone ∧
    ((hist exApi (reached exApi (exStory ++ [.update 0 3, .step 0])).log (.user 5)).getLast?.bind
      fun r => exApi.plan r.view.initial r.view.schema r.view.load 6).isSome := by decide +kernel

/-- Two managers of the same directory; the second one commits, so the first one is stale and its
update raises (`C15_stale_raises`). -/
def exStale : List (Act Nat Nat) :=
  exStory ++ [.openAt 1 (.user 5) none false] ++ List.replicate 3 (.step 1) ++ [.update 1 3] ++
    List.replicate 6 (.step 1)

example : ((reached exApi exStale).slots 0).mgr.any fun m =>
    m.history.length < (hist exApi (reached exApi exStale).log m.dir).length := by decide +kernel

example : (run exApi (reached exApi exStale) (.update 0 4 :: List.replicate 4 (.step 0))).log =
    (reached exApi exStale).log ++ [.raised 0] := by decide +kernel

/-- What the property does not promise: a manager that shows the last revision cannot update either
if another instance was interrupted in the middle of an update of the same directory, because one of
the bag managers has moved on.  Opening the directory again helps (`C14_resume`). -/
theorem C15_blocked_finding :
    let w := reached exApi (exStory ++ [.openAt 1 (.user 5) none false] ++
      List.replicate 3 (.step 1) ++ [.update 1 3, .step 1, .fail 1])
    (w.slots 0).mgr.any (fun m => m.history.length = (hist exApi w.log m.dir).length) ∧
    (run exApi w (.update 0 4 :: List.replicate 6 (.step 0))).log = w.log ++ [.raised 0] := by
  decide +kernel

/-- An update that is interrupted after its commit raises although it has committed; the manager is
then stale. -/
theorem C14_raised_but_committed_finding :
    let w := run exApi (reached exApi exStory)
      (.update 0 3 :: List.replicate 5 (.step 0) ++ [.fail 0])
    w.log = (reached exApi exStory).log ++ [.updated 0 (.user 5) 3 [⟨0, 6⟩], .raised 0] ∧
    (run exApi w (.update 0 4 :: List.replicate 6 (.step 0))).log = w.log ++ [.raised 0] := by
  decide +kernel

/-- A branch at revision 1 of the parent, named by `-2`, then a branch of the branch while the
parent is updated. -/
def exBranches : List (Act Nat Nat) :=
  exStory ++ .branch 1 0 (-2) none :: List.replicate 9 (.step 1) ++ .update 0 3 ::
    .branch 2 1 0 none :: List.replicate 6 (.step 0) ++ List.replicate 9 (.step 2) ++
    .update 2 8 :: List.replicate 6 (.step 2)

example :
    exSays (reached exApi exBranches) 0 = some ([.creation, .update 1, .update 2, .update 3], [7, 1, 2, 3], some [1, 2, 3],
      some [1, 2, 3]) ∧
    exSays (reached exApi exBranches) 1 = some ([.branch (.user 5) 1], [7, 1], some [1], some [1]) ∧
    exSays (reached exApi exBranches) 2 = some ([.branch (.branch (.user 5) 1) 0, .update 8], [7, 1, 8], some [1, 8],
      some [1, 8]) := by
  refine ⟨?_, ?_, ?_⟩ <;> decide +kernel

example : asked 3 (-3) = some 0 ∧ asked 3 (-4) = none ∧ asked 3 2 = some 2 ∧ asked 3 3 = none := by
  decide

/-- Two branches that draw the same short name get different directories. -/
example :
    let w := reached exApi (exStory ++
      [.branch 1 0 0 none, .branch 3 0 0 none, .step 1, .step 3, .step 1, .step 3])
    (match (w.slots 1).job, (w.slots 3).job with
     | .branch _ _ d .initial, .draw _ _ => d = .branch (.user 5) 1
     | _, _ => False) := by
  exact rfl

end Verif.SliceManager
