/-
The processor closes what is open at the end of the text.
-/
import Verif.JsonSalvage.ReadTexts

namespace Verif.JsonSalvage

open Verif.JsonStream

variable {o : Options} {s : Salvage}

/-! ### Strings -/

theorem cut_text (h : AtBase s) {u t : List Nat} (ht : CutText u t) :
    ∃ x, Content x u ∧ processCodePoint o none (run o s t) = done s (quoted x) := by
  cases ht with
  | @single q ts t u hq hb hh hm =>
    obtain ⟨st, b0, x0, hstart, hin, hrule⟩ : ∃ st b0 x0, processCodePoint o (some q) s = num s .base b0 x0 ∧
        InStr q false (num s st [] [ch '"']) ∧
        ∀ c, c ≠ some q → allRules o c (num s .base b0 x0) = (num s st [] [ch '"'], false) := by
      rcases hq with rfl | rfl | rfl
      · refine ⟨.doubleQuote, _, _, run_quote h (.inl rfl), ⟨by simp [num], rfl⟩, fun c hc => ?_⟩
        simp [allRules, num, baseRules, hc, Salvage.set]
      · refine ⟨.singleQuote, _, _, run_quote h (.inr rfl), ⟨by simp [num], rfl⟩, fun c hc => ?_⟩
        simp [allRules, num, baseRules, hc, Salvage.set]
      · refine ⟨.backtick, _, _, run_tick h, ⟨by simp [num], rfl⟩, fun c hc => ?_⟩
        simp [allRules, num, baseRules, hc, Salvage.set, Salvage.emit]
    obtain ⟨s', he, hf⟩ := body_fin (o := o) (triple := false) hb (.inr rfl) hin
    obtain ⟨x, hx, hend⟩ := emits_ended hm he h.surrogate
    refine ⟨x, hx, ?_⟩
    have e1 := fin_skip (o := o) (close := []) (t := t) (fun _ => rfl) (hrule t.head? hh) (by rw [allRules_empty hin])
    have e2 : processCodePoint o none (run o (num s .base b0 x0) t) = s'.endString o := by
      rw [← hf, ← e1]
      rfl
    rw [run_cons, hstart, e2, hend, ended_num]
  | @triple q ts t u hq hb hm =>
    obtain ⟨st, hstart, hin⟩ : ∃ st, processCodePoint o (some q) (num s .base [q, q] [ch '"']) = num s st [] [ch '"'] ∧
        InStr q true (num s st [] [ch '"']) := by
      rcases hq with rfl | rfl
      · refine ⟨.tripleDouble, proc1 ?_, ⟨by simp [num], rfl⟩⟩
        simp [allRules, num, baseRules, Salvage.set]
      · refine ⟨.tripleSingle, proc1 ?_, ⟨by simp [num], rfl⟩⟩
        simp [allRules, num, baseRules, Salvage.set]
    obtain ⟨s', he, hf⟩ := body_fin (o := o) (triple := true) hb (.inr rfl) hin
    obtain ⟨x, hx, hend⟩ := emits_ended hm he h.surrogate
    refine ⟨x, hx, ?_⟩
    have e2 : processCodePoint o none (run o (num s st [] [ch '"']) t) = s'.endString o := by
      rw [← hf]
      rfl
    have e3 : q :: q :: q :: t = [q, q] ++ q :: t := rfl
    rw [e3, run_append, run_quotes h hq, run_cons, hstart, e2, hend, ended_num]

theorem cut_prefixed (h : AtBase s) {c : Nat} {u t : List Nat} (hc : c = ch 'b' ∨ c = ch 'u')
    (ht : CutText u t) (hh : t.head? ≠ some (ch '`')) :
    ∃ x, Content x u ∧ processCodePoint o none (run o s (c :: t)) = done s (quoted x) := by
  obtain ⟨x, h1, h2⟩ := cut_text (o := o) h ht
  refine ⟨x, h1, ?_⟩
  rw [← h2]
  obtain ⟨q, r, rfl, hq⟩ : ∃ q r, t = q :: r ∧ (q = ch '"' ∨ q = ch '\'') := by
    cases ht with
    | single hq _ _ _ =>
      refine ⟨_, _, rfl, ?_⟩
      rcases hq with hq | hq | hq
      · exact .inl hq
      · exact .inr hq
      · simp [hq] at hh
    | triple hq _ _ => exact ⟨_, _, rfl, hq⟩
  rw [run_cons, run_cons, run_cons, run_prefix h hc hq]

/-! ### The end of the input -/

/-- The state after the end of the input, without what is being read. -/
def ending (o : Options) (s : Salvage) (t : List Nat) : Salvage := processCodePoint o none (run o s t)

/-- Containers are closed. -/
def ends : Nat → Salvage → Salvage
  | 0, s => s.set .base []
  | n + 1, s => (ends n s).endContainer

theorem endContainer_set (s : Salvage) (st : State) (b : List Nat) : (s.set st b).endContainer = s.endContainer := by
  obtain ⟨u, stk, sep, key, buf, state, su, out⟩ := s
  rcases stk with _ | ⟨_ | _, stk⟩ <;> cases key <;> rfl

theorem ends_succ (n : Nat) (s : Salvage) : ends (n + 1) s = ends n s.endContainer := by
  induction n generalizing s with
  | zero =>
    show (s.set .base []).endContainer = s.endContainer.set .base []
    rw [endContainer_set]
    rfl
  | succ n ih =>
    show (ends (n + 1) s).endContainer = (ends n s.endContainer).endContainer
    rw [ih]

/-- A key is not written without a separator behind it. -/
def SepOk (s : Salvage) : Prop := s.key = true ∨ s.sep = true ∨ s.stack.head? ≠ some .object

theorem closeAll_same (st : List Container) (sep sep' key key' : Bool)
    (h : st.head? = some .object → key = true ∧ key' = true) : closeAll st sep key = closeAll st sep' key' := by
  induction st generalizing sep sep' key key' with
  | nil => rfl
  | cons c st ih =>
    rcases c with _ | _
    · simp only [closeAll]
      rw [ih]
      intro e
      simp [e]
    · obtain ⟨rfl, rfl⟩ := h rfl
      simp only [closeAll, if_true]
      rw [ih]
      intro e
      simp

theorem ends_output (n : Nat) (s : Salvage) (hs : SepOk s) (h : (ends n s).stack = []) :
    (ends n s).output = s.output ++ closeAll s.stack s.sep s.key := by
  induction n generalizing s with
  | zero =>
    have : s.stack = [] := h
    simp [ends, this, closeAll, Salvage.set]
  | succ n ih =>
    rw [ends_succ] at h ⊢
    have hsep : s.endContainer.sep = true := rfl
    rw [ih _ (.inr (.inl hsep)) h, hsep]
    obtain ⟨u, stk, sep, key, buf, state, su, out⟩ := s
    rcases stk with _ | ⟨_ | _, stk⟩
    · simp [Salvage.endContainer, endValue_eq, closeAll]
    · simp only [Salvage.endContainer, endValue_eq, closeAll, Salvage.emit]
      rw [closeAll_same stk true sep _ (if stk.head? = some .object then true else key)]
      · simp
      · intro e
        rcases stk with _ | ⟨_ | _, stk⟩ <;> simp at e
        simp [nextKey]
    · have hk : key = true ∨ (key = false ∧ sep = true) := by
        rcases hs with h | h | h
        · exact .inl h
        · cases key
          · exact .inr ⟨rfl, h⟩
          · exact .inl rfl
        · simp at h
      rcases hk with rfl | ⟨rfl, rfl⟩
      · simp only [Salvage.endContainer, endValue_eq, closeAll, Salvage.emit, if_true]
        rw [closeAll_same stk true sep _ (if stk.head? = some .object then true else true)]
        · simp
        · intro e
          rcases stk with _ | ⟨_ | _, stk⟩ <;> simp at e
          simp [nextKey]
      · simp only [Salvage.endContainer, endValue_eq, closeAll, Salvage.emit, if_true, Bool.false_eq_true, if_false]
        rw [closeAll_same stk true false _ (if stk.head? = some .object then true else false)]
        · simp
        · intro e
          rcases stk with _ | ⟨_ | _, stk⟩ <;> simp at e
          simp [nextKey]

theorem ending_append (s : Salvage) (t r : List Nat) : ending o s (t ++ r) = ending o (run o s t) r := by
  simp only [ending, run_append]

theorem ending_filler {w t : List Nat} (h : AtBase s) (hw : Filler w) : ending o s (w ++ t) = ending o s t := by
  rw [ending_append, run_filler hw h]

theorem ending_reach {s1 : Salvage} {t r : List Nat} {e : Ending} (he : EndOk e) (h1 : Reach o s t s1 (Ends e))
    (hr : Ends e r.head?) : ending o s (t ++ r) = ending o s1 r := by
  rw [ending_append]
  rcases r with _ | ⟨c, r⟩
  · exact h1 none (ends_closer he (.inl rfl))
  · show processCodePoint o none (run o _ _) = processCodePoint o none (run o _ _)
    rw [run_cons, run_cons, h1 (some c) hr]

theorem ending_end {s1 : Salvage} {t : List Nat} (h1 : Reach o s t s1 Closer) (hs : AtBase s1) : ending o s t = s1 := by
  show processCodePoint o none (run o s t) = s1
  rw [h1 none (.inl rfl), proc_base hs]
  rfl

theorem ending_comment {t : List Nat} (h : AtBase s) (ht : OpenComment t) :
    ∃ st, ending o s t = s.set st [] := by
  obtain ⟨st, h1, h2⟩ := run_openComment (o := o) ht h
  refine ⟨st, ?_⟩
  show processCodePoint o none (run o s t) = _
  rw [h1]
  refine proc1 ?_
  rcases h2 with rfl | rfl <;> simp [allRules, Salvage.set, commentRules]

/-- What the processor makes of the parts of texts that are cut off. -/
def CutOk (o : Options) (d : Nat) : Part → List Nat → Prop
  | .value v _, t => ∀ s : Salvage, AtBase s → s.stack.length = d → s.key = false ∨ IsContainer v →
      ∃ x n, Writes (.value v) x ∧ SepOk (ending o s t) ∧ ends n (ending o s t) = doneC s x
  | .key k _, t => ∀ s : Salvage, AtBase s → s.stack.length = d → s.key = true →
      ∃ x, Content x k ∧ ending o s t = done s (quoted x)
  | .elems l, t => ∀ s : Salvage, AtBase s → s.stack.length = d → s.key = false → s.stack.head? ≠ some .object →
      ∃ n, SepOk (ending o s t) ∧
      ((l = [] ∧ ends n (ending o s t) = s) ∨
        ∃ y, Joined (if s.stack = [] then nl else ch ',') l y ∧ ends n (ending o s t) = done s y)
  | .members l, t => ∀ (s : Salvage) (st : List Container), AtBase s → s.stack = .object :: st → s.stack.length = d → s.key = true →
      ∃ z n, SepOk (ending o s t) ∧ ends (n + 1) (ending o s t) = closeTo s st z ∧
        ((l = [] ∧ z = []) ∨ ∃ y, Writes (.members l) y ∧ z = sepText s.stack s.sep true ++ y)

theorem ends_zero (hs : AtBase s) : ends 0 s = s := base_eq hs

theorem doneC_sepOk (s : Salvage) (x : List Nat) : SepOk (doneC s x) := .inr (.inl rfl)

theorem done_sepOk (s : Salvage) (x : List Nat) : SepOk (done s x) := .inr (.inl rfl)

theorem sepText_next {st : List Container} (h : s.stack = .object :: st) (hs : s.sep = true) :
    sepText s.stack s.sep true = [ch ','] := by
  simp [h, hs, sepText, separator]

/-- The end of an object behind members. -/
theorem end_members {st : List Container} (hs : AtBase s) (hst : s.stack = .object :: st) (hk : s.key = true) :
    s.endContainer = closeTo s st [] := by
  obtain ⟨u, stk, sep, key, buf, state, su, out⟩ := s
  obtain ⟨h1, h2, h3⟩ := hs
  simp only at h1 h2 h3 hst hk
  subst h1 h2 h3 hst hk
  simp [Salvage.endContainer, endValue_eq, closeTo, Salvage.emit]

/-- The end of an object behind a key. -/
theorem end_key {st : List Container} (hs : AtBase s) (hst : s.stack = .object :: st) (hk : s.key = true) (x : List Nat) :
    (done s (quoted x)).endContainer = closeTo s st (sepText s.stack s.sep true ++ (quoted x ++ ch ':' :: nullText)) := by
  obtain ⟨u, stk, sep, key, buf, state, su, out⟩ := s
  obtain ⟨h1, h2, h3⟩ := hs
  simp only at h1 h2 h3 hst hk
  subst h1 h2 h3 hst hk
  simp [Salvage.endContainer, endValue_eq, closeTo, Salvage.emit, done, nextKey, nullText]

theorem member_closeTo {st : List Container} (hs : AtBase s) (hst : s.stack = .object :: st) (hk : s.key = true) (x y z : List Nat) :
    closeTo (done (done s (quoted x)) y) st z =
      closeTo s st (sepText s.stack s.sep true ++ (quoted x ++ ch ':' :: (y ++ z))) := by
  rcases member_close hst hk x y z with h | h
  · rw [h, base_eq hs]
  · exact absurd hs.surrogate h

theorem container_closeTo {st : List Container} (hk : s.key = true) (y z : List Nat) :
    closeTo (doneC s y) st z = closeTo s st (sepText s.stack s.sep true ++ (quoted [] ++ ch ':' :: (y ++ z))) := by
  simp [closeTo, doneC, hk, quoted]

theorem cut_ok {d : Nat} {p : Part} {t : List Nat} (h : Cut o.allowNan (nestOf o) d p t) : CutOk o d p t := by
  induction h with
  | @str d u t ht =>
    intro s hs _ hk
    have hk : s.key = false := by simpa [IsContainer] using hk
    obtain ⟨x, h1, h2⟩ := cut_text (o := o) hs ht
    refine ⟨quoted x, 0, .str h1, ?_, ?_⟩
    · unfold ending; rw [h2]; exact done_sepOk _ _
    · unfold ending; rw [h2, doneC_eq hs hk, ends_zero (done_base _ _)]
  | @prefixed d u t c hc ht hh =>
    intro s hs _ hk
    have hk : s.key = false := by simpa [IsContainer] using hk
    obtain ⟨x, h1, h2⟩ := cut_prefixed (o := o) hs hc ht hh
    refine ⟨quoted x, 0, .str h1, ?_, ?_⟩
    · unfold ending; rw [h2]; exact done_sepOk _ _
    · unfold ending; rw [h2, doneC_eq hs hk, ends_zero (done_base _ _)]
  | @array d l t c hc hn _ ih =>
    intro s hs hd _
    have hstart := run_array (o := o) hs hc (mayNest_of hn hd)
    have hs1 : AtBase (processCodePoint o (some c) s) := by rw [hstart]; exact ⟨hs.1, hs.2, hs.3⟩
    obtain ⟨n, hsep, this⟩ :=
      ih (processCodePoint o (some c) s) hs1 (by rw [hstart]; simp [hd]) (by rw [hstart]) (by rw [hstart]; simp)
    rcases this with ⟨rfl, hr⟩ | ⟨y, hy, hr⟩
    · refine ⟨_, n + 1, .arrNil, hsep, ?_⟩
      show (ends n (ending o (processCodePoint o (some c) s) t)).endContainer = _
      rw [hr, hstart]
      obtain ⟨u, stk, sep, key, buf, state, su, out⟩ := s
      obtain ⟨h1, h2, h3⟩ := hs
      simp only at h1 h2 h3
      subst h1 h2 h3
      simp [Salvage.endContainer, endValue_eq, doneC, Salvage.emit]
    · have hne : ((processCodePoint o (some c) s).stack = []) = False := by rw [hstart]; simp
      simp only [hne, if_false] at hy
      refine ⟨_, n + 1, .arr hy.elems, hsep, ?_⟩
      show (ends n (ending o (processCodePoint o (some c) s) t)).endContainer = _
      rw [hr, hstart]
      obtain ⟨u, stk, sep, key, buf, state, su, out⟩ := s
      obtain ⟨h1, h2, h3⟩ := hs
      simp only at h1 h2 h3
      subst h1 h2 h3
      simp [Salvage.endContainer, endValue_eq, doneC, Salvage.emit, done, sepText]
  | @object d l t hn _ ih =>
    intro s hs hd _
    have hstart := run_object (o := o) hs (mayNest_of hn hd)
    have hs1 : AtBase (processCodePoint o (some (ch '{')) s) := by rw [hstart]; exact ⟨hs.1, hs.2, hs.3⟩
    obtain ⟨z, n, hok, hend, hz⟩ := ih (processCodePoint o (some (ch '{')) s) s.stack hs1 (by rw [hstart])
      (by rw [hstart]; simp [hd]) (by rw [hstart])
    have hsep : sepText (processCodePoint o (some (ch '{')) s).stack (processCodePoint o (some (ch '{')) s).sep true = [] := by
      rw [hstart]
      simp [sepText]
    have key : ∀ z, closeTo (processCodePoint o (some (ch '{')) s) s.stack z = doneC s (ch '{' :: (z ++ [ch '}'])) := by
      intro z
      rw [hstart]
      simp [closeTo, doneC]
    rcases hz with ⟨rfl, rfl⟩ | ⟨y, hy, rfl⟩
    · exact ⟨_, n + 1, .objNil, hok, by rw [key] at hend; exact hend⟩
    · exact ⟨_, n + 1, .obj hy, hok, by rw [hsep, key] at hend; exact hend⟩
  | @keyStr d u t ht => exact fun s hs _ _ => cut_text (o := o) hs ht
  | @keyPrefixed d u t c hc ht hh => exact fun s hs _ _ => cut_prefixed (o := o) hs hc ht hh
  | @elemsEnd d l t h =>
    intro s hs hd hk ho
    refine ⟨0, ?_⟩
    rcases read_ok h s hs hd hk ho with ⟨rfl, hr⟩ | ⟨y, hy, hr⟩
    · rw [ending_end hr hs]
      exact ⟨.inr (.inr ho), .inl ⟨rfl, ends_zero hs⟩⟩
    · rw [ending_end hr (done_base _ _)]
      exact ⟨done_sepOk _ _, .inr ⟨y, hy, ends_zero (done_base _ _)⟩⟩
  | @elemsComment d w t hw ht =>
    intro s hs hd hk ho
    obtain ⟨st, e⟩ := ending_comment (o := o) hs ht
    rw [ending_filler hs hw, e]
    exact ⟨0, .inr (.inr ho), .inl ⟨rfl, base_eq hs⟩⟩
  | @elemsLast d v w t hw _ ih =>
    intro s hs hd hk ho
    obtain ⟨x, n, hx, hok, he⟩ := ih s hs hd (.inl hk)
    rw [ending_filler hs hw]
    rw [doneC_eq hs hk] at he
    exact ⟨n, hok, .inr ⟨x, .one hx, he⟩⟩
  | @elems d v e w t l r hw h1 hr _ ih2 =>
    intro s hs hd hk ho
    obtain ⟨he, h1⟩ := read_ok h1
    obtain ⟨x, hx, h1⟩ := h1 s hs hd (.inl hk)
    rw [doneC_eq hs hk] at h1
    have hkey : (done s x).key = false := by
      have : nextKey s.stack s.key = false := by
        rcases e : s.stack with _ | ⟨_ | _, stk⟩ <;> simp [nextKey, hk]
        simp [e] at ho
      exact this
    have hst : (done s x).stack = s.stack := rfl
    rw [ending_filler hs hw, ending_reach he h1 hr]
    obtain ⟨n, hok, h2⟩ := ih2 (done s x) (done_base _ _) hd hkey ho
    refine ⟨n, hok, .inr ?_⟩
    rcases h2 with ⟨rfl, h2⟩ | ⟨y, hy, h2⟩
    · exact ⟨x, .one hx, h2⟩
    · rw [hst] at hy
      rw [done_twice hk ho] at h2
      exact ⟨_, .cons hx hy, h2⟩
  | @membersEnd d l t h =>
    intro s st hs hst hd hk
    obtain ⟨M, z, hr, hM, hsep, hend, hz⟩ := read_ok h s st hs hst hd hk
    refine ⟨z, 0, ?_, ?_, hz⟩
    · rw [ending_end hr hM]
      rcases hsep with h | h
      · exact .inl h
      · exact .inr (.inl h)
    · rw [ending_end hr hM, ← hend, ends_succ]
      rfl
  | @membersComment d w t hw ht =>
    intro s st hs hst hd hk
    obtain ⟨st', e⟩ := ending_comment (o := o) hs ht
    rw [ending_filler hs hw, e]
    refine ⟨[], 0, .inl hk, ?_, .inl ⟨rfl, rfl⟩⟩
    rw [ends_succ, endContainer_set, ← end_members hs hst hk]
    rfl
  | @membersKey d k w t hw _ ih =>
    intro s st hs hst hd hk
    obtain ⟨x, hx, he⟩ := ih s hs hd hk
    rw [ending_filler hs hw, he]
    refine ⟨_, 0, done_sepOk _ _, ?_, .inr ⟨_, .member hx .null, rfl⟩⟩
    rw [ends_succ, ← end_key hs hst hk]
    rfl
  | @membersKeyComment d k e w tk w' t hw h1 hr hw' ht =>
    intro s st hs hst hd hk
    obtain ⟨he, h1⟩ := read_ok h1
    obtain ⟨x, hx, h1⟩ := h1 s hs hd hk
    obtain ⟨st', e⟩ := ending_comment (o := o) (done_base s (quoted x)) ht
    rw [ending_filler hs hw, ending_reach he h1 hr, ending_filler (done_base _ _) hw', e]
    refine ⟨_, 0, .inr (.inl rfl), ?_, .inr ⟨_, .member hx .null, rfl⟩⟩
    rw [ends_succ, endContainer_set, ← end_key hs hst hk]
    rfl
  | @membersLast d k e v w tk w' t hw h1 hr hw' _ ih =>
    intro s st hs hst hd hk
    obtain ⟨he, h1⟩ := read_ok h1
    obtain ⟨x, hx, h1⟩ := h1 s hs hd hk
    have hk1 : (done s (quoted x)).key = false := by simp [done, hst, hk, nextKey]
    obtain ⟨y, n, hy, hok, h2⟩ := ih (done s (quoted x)) (done_base _ _) hd (.inl hk1)
    rw [doneC_eq (done_base _ _) hk1] at h2
    rw [ending_filler hs hw, ending_reach he h1 hr, ending_filler (done_base _ _) hw']
    refine ⟨_, n, hok, ?_, .inr ⟨_, .member hx hy, rfl⟩⟩
    show (ends n _).endContainer = _
    rw [h2, end_members (done_base _ _) (by exact hst) (by simp [done, hst, hk, nextKey]), member_closeTo hs hst hk]
    simp
  | @membersLastArray d l w t hw _ ih =>
    intro s st hs hst hd hk
    obtain ⟨y, n, hy, hok, h2⟩ := ih s hs hd (.inr trivial)
    rw [ending_filler hs hw]
    refine ⟨_, n, hok, ?_, .inr ⟨_, .member .nil hy, rfl⟩⟩
    show (ends n _).endContainer = _
    rw [h2, end_members (doneC_base hs y) (by exact hst) (by simp [doneC, hst, nextKey]), container_closeTo hk]
    simp
  | @membersLastObject d l w t hw _ ih =>
    intro s st hs hst hd hk
    obtain ⟨y, n, hy, hok, h2⟩ := ih s hs hd (.inr trivial)
    rw [ending_filler hs hw]
    refine ⟨_, n, hok, ?_, .inr ⟨_, .member .nil hy, rfl⟩⟩
    show (ends n _).endContainer = _
    rw [h2, end_members (doneC_base hs y) (by exact hst) (by simp [doneC, hst, nextKey]), container_closeTo hk]
    simp
  | @members d k e v e' w tk w' tv l r hw h1 hr1 hw' h2 hr2 _ ih3 =>
    intro s st hs hst hd hk
    obtain ⟨he1, h1⟩ := read_ok h1
    obtain ⟨x, hx, h1⟩ := h1 s hs hd hk
    obtain ⟨he2, h2⟩ := read_ok h2
    have hk1 : (done s (quoted x)).key = false := by simp [done, hst, hk, nextKey]
    obtain ⟨y, hy, h2⟩ := h2 (done s (quoted x)) (done_base _ _) hd (.inl hk1)
    rw [doneC_eq (done_base _ _) hk1] at h2
    obtain ⟨z, n, hok, hend, hz⟩ := ih3 (done (done s (quoted x)) y) st (done_base _ _) hst hd
      (by simp [done, hst, hk, nextKey])
    rw [ending_filler hs hw, ending_reach he1 h1 hr1, ending_filler (done_base _ _) hw', ending_reach he2 h2 hr2]
    refine ⟨_, n, hok, by rw [hend, member_closeTo hs hst hk], .inr ?_⟩
    rcases hz with ⟨rfl, rfl⟩ | ⟨y', hy', rfl⟩
    · exact ⟨_, .member hx hy, by simp⟩
    · refine ⟨_, .members hx hy hy', ?_⟩
      rw [sepText_next (s := done (done s (quoted x)) y) hst rfl]
      simp
  | @noKeyArray d l' w t l r hw h1 _ ih2 =>
    intro s st hs hst hd hk
    obtain ⟨he1, h1⟩ := read_ok h1
    obtain ⟨y, hy, h1⟩ := h1 s hs hd (.inr trivial)
    obtain ⟨z, n, hok, hend, hz⟩ := ih2 (doneC s y) st (doneC_base hs y) hst hd (by simp [doneC, hst, nextKey])
    rw [ending_filler hs hw, ending_reach he1 h1 (by cases r <;> trivial)]
    refine ⟨_, n, hok, by rw [hend, container_closeTo hk], .inr ?_⟩
    rcases hz with ⟨rfl, rfl⟩ | ⟨y', hy', rfl⟩
    · exact ⟨_, .member .nil hy, by simp⟩
    · refine ⟨_, .members .nil hy hy', ?_⟩
      rw [sepText_next (s := doneC s y) hst rfl]
      simp
  | @noKeyObject d l' w t l r hw h1 _ ih2 =>
    intro s st hs hst hd hk
    obtain ⟨he1, h1⟩ := read_ok h1
    obtain ⟨y, hy, h1⟩ := h1 s hs hd (.inr trivial)
    obtain ⟨z, n, hok, hend, hz⟩ := ih2 (doneC s y) st (doneC_base hs y) hst hd (by simp [doneC, hst, nextKey])
    rw [ending_filler hs hw, ending_reach he1 h1 (by cases r <;> trivial)]
    refine ⟨_, n, hok, by rw [hend, container_closeTo hk], .inr ?_⟩
    rcases hz with ⟨rfl, rfl⟩ | ⟨y', hy', rfl⟩
    · exact ⟨_, .member .nil hy, by simp⟩
    · refine ⟨_, .members .nil hy hy', ?_⟩
      rw [sepText_next (s := doneC s y) hst rfl]
      simp

/-- Whole texts. -/
theorem cut_whole {l : List Value} {t : List Nat} (h : Cut o.allowNan (nestOf o) 0 (.elems l) t) :
    WritesDoc l (finalOutput o (run o initial t)) := by
  have hb : AtBase initial := ⟨rfl, rfl, rfl⟩
  obtain ⟨n, hok, hn⟩ := cut_ok h initial hb rfl rfl (by simp [initial])
  have e : ∀ s2 : Salvage, ends n (ending o initial t) = s2 → s2.stack = [] → finalOutput o (run o initial t) = s2.output := by
    rintro s2 rfl h2
    rw [ends_output n _ hok h2]
    rfl
  rcases hn with ⟨rfl, hn⟩ | ⟨y, hy, hn⟩
  · rw [e _ hn rfl]
    exact .nil
  · rw [e _ hn rfl]
    have := hy.doc
    simpa [done, initial, sepText] using this

end Verif.JsonSalvage
