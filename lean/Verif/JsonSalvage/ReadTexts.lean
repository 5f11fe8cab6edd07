/-
The processor reads values, arrays, objects and whole texts.
-/
import Verif.JsonSalvage.ReadWords

namespace Verif.JsonSalvage

open Verif.JsonStream

variable {o : Options} {s : Salvage}

/-! ### Values in a row -/

/-- Values with `sep` between them. -/
inductive Joined (sep : Nat) : List Value → List Nat → Prop
  | one {v t} : Writes (.value v) t → Joined sep [v] t
  | cons {v t l r} : Writes (.value v) t → Joined sep l r → Joined sep (v :: l) (t ++ sep :: r)

theorem Joined.elems {l : List Value} {y : List Nat} (h : Joined (ch ',') l y) : Writes (.elems l) y := by
  induction h with
  | one h => exact .elem h
  | cons h _ ih => exact .elems h ih

theorem Joined.doc {l : List Value} {y : List Nat} (h : Joined nl l y) : WritesDoc l y := by
  induction h with
  | one h => exact .last h
  | cons h h' ih =>
    cases h' with
    | one _ => exact .cons h ih
    | cons _ _ => exact .cons h ih

/-- A value was written, after an empty key if a key was expected. -/
def doneC (s : Salvage) (x : List Nat) : Salvage :=
  { s with
    output := s.output ++ (sepText s.stack s.sep s.key ++ ((if s.key then [ch '"', ch '"', ch ':'] else []) ++ x)),
    sep := true, key := nextKey s.stack false }

theorem doneC_eq (h : AtBase s) (hk : s.key = false) (x : List Nat) : doneC s x = done s x := by
  obtain ⟨u, stk, sep, key, buf, state, su, out⟩ := s
  obtain ⟨h1, h2, h3⟩ := h
  simp only at h1 h2 h3 hk
  subst h1 h2 h3 hk
  simp [doneC, done]

theorem doneC_base (h : AtBase s) (x : List Nat) : AtBase (doneC s x) := ⟨h.1, h.2, h.3⟩

/-- The end of an object. -/
def closeTo (s : Salvage) (st : List Container) (z : List Nat) : Salvage :=
  { s with output := s.output ++ (z ++ [ch '}']), stack := st, sep := true, key := nextKey st false }

/-- What ends a container or the text. -/
def Closer (c : Option Nat) : Prop := c = none ∨ c = some (ch ']') ∨ c = some (ch '}') ∨ c = some (ch ')')

def EndOk (e : Ending) : Prop := ∀ q, e = .quote q → q = ch '"' ∨ q = ch '\''

theorem ends_closer {e : Ending} (he : EndOk e) {c : Option Nat} (hc : Closer c) : Ends e c := by
  rcases hc with rfl | rfl | rfl | rfl
  · cases e <;> trivial
  all_goals
    cases e with
    | closed => trivial
    | number => simp [Ends, IsDigit, IsLetter]
    | word => simp [Ends]
    | quote q => rcases he q rfl with rfl | rfl <;> simp [Ends]

theorem number_endOk {n t : List Nat} {e : Ending} (h : NumberText n t e) : EndOk e := by
  intro q hq
  cases h <;> simp at hq

theorem quoted_endOk {u t : List Nat} {e : Ending} (h : QuotedText u t e) : EndOk e := by
  intro q hq
  cases h with
  | empty h => simp at hq; subst hq; exact h
  | single => simp at hq
  | triple => simp at hq

/-- Texts after each other. -/
theorem reach_then {s1 s2 : Salvage} {t r : List Nat} {e : Ending} (he : EndOk e) (h1 : Reach o s t s1 (Ends e))
    (hr : Ends e r.head?) (h2 : Reach o s1 r s2 Closer) : Reach o s (t ++ r) s2 Closer := by
  refine h1.append (fun c hc => ?_) h2 (fun _ => ⟨none, .inl rfl⟩)
  rcases r with _ | ⟨d, r⟩
  · simpa using ends_closer he hc
  · simpa using hr

theorem reach_filler {w t : List Nat} (h : AtBase s) (hw : Filler w) {s1 : Salvage} {P : Option Nat → Prop}
    (h2 : Reach o s t s1 P) : Reach o s (w ++ t) s1 P := by
  intro c hc
  rw [run_append, run_filler hw h]
  exact h2 c hc

/-! ### Containers -/

def nestOf (o : Options) (d : Nat) : Prop := o.maxDepth < 0 ∨ (d : Int) < o.maxDepth

theorem mayNest_of {d : Nat} (h : nestOf o d) (hd : s.stack.length = d) : s.mayNest o = true := by
  subst hd
  simpa [Salvage.mayNest, nestOf] using h

theorem run_array (h : AtBase s) {c : Nat} (hc : c = ch '[' ∨ c = ch '(') (hn : s.mayNest o = true) :
    processCodePoint o (some c) s =
      { s with stack := .array :: s.stack, sep := false, key := false,
               output := s.output ++ (sepText s.stack s.sep s.key ++ ((if s.key then [ch '"', ch '"', ch ':'] else []) ++ [ch '['])) } := by
  rw [proc_base h]
  have e : baseEmpty o (some c) s = s.startArray := by
    rcases hc with rfl | rfl <;> simp [baseEmpty, isWhitespace, hn]
  rw [e]
  obtain ⟨u, stk, sep, key, buf, state, su, out⟩ := s
  obtain ⟨h1, h2, h3⟩ := h
  simp only at h1 h2 h3
  subst h1 h2 h3
  cases key <;> simp [Salvage.startArray, Salvage.startNonKey, startValue_eq, Salvage.emit, Salvage.set]

theorem run_object (h : AtBase s) (hn : s.mayNest o = true) :
    processCodePoint o (some (ch '{')) s =
      { s with stack := .object :: s.stack, sep := false, key := true,
               output := s.output ++ (sepText s.stack s.sep s.key ++ ((if s.key then [ch '"', ch '"', ch ':'] else []) ++ [ch '{'])) } := by
  rw [proc_base h]
  have e : baseEmpty o (some (ch '{')) s = s.startObject := by
    simp [baseEmpty, isWhitespace, hn]
  rw [e]
  obtain ⟨u, stk, sep, key, buf, state, su, out⟩ := s
  obtain ⟨h1, h2, h3⟩ := h
  simp only at h1 h2 h3
  subst h1 h2 h3
  cases key <;> simp [Salvage.startObject, Salvage.startNonKey, startValue_eq, Salvage.emit, Salvage.set]

theorem run_closer (h : AtBase s) {c : Nat} (hc : c = ch ']' ∨ c = ch '}' ∨ c = ch ')') :
    processCodePoint o (some c) s = s.endContainer := by
  rw [proc_base h]
  rcases hc with rfl | rfl | rfl <;> simp [baseEmpty, isWhitespace]

theorem closer_of {c : Nat} (hc : c = ch ']' ∨ c = ch '}' ∨ c = ch ')') : Closer (some c) := by
  rcases hc with rfl | rfl | rfl <;> simp [Closer]

def IsContainer : Value → Prop
  | .arr _ => True
  | .obj _ => True
  | _ => False

/-- What the processor makes of the parts of texts. -/
def ReadOk (o : Options) (d : Nat) : Part → List Nat → Prop
  | .value v e, t => EndOk e ∧ ∀ s : Salvage, AtBase s → s.stack.length = d → s.key = false ∨ IsContainer v →
      ∃ x, Writes (.value v) x ∧ Reach o s t (doneC s x) (Ends e)
  | .key k e, t => EndOk e ∧ ∀ s : Salvage, AtBase s → s.stack.length = d → s.key = true →
      ∃ x, Content x k ∧ Reach o s t (done s (quoted x)) (Ends e)
  | .elems l, t => ∀ s : Salvage, AtBase s → s.stack.length = d → s.key = false → s.stack.head? ≠ some .object →
      (l = [] ∧ Reach o s t s Closer) ∨
        ∃ y, Joined (if s.stack = [] then nl else ch ',') l y ∧ Reach o s t (done s y) Closer
  | .members l, t => ∀ (s : Salvage) (st : List Container), AtBase s → s.stack = .object :: st → s.stack.length = d → s.key = true →
      ∃ M z, Reach o s t M Closer ∧ AtBase M ∧ (M.key = true ∨ M.sep = true) ∧ M.endContainer = closeTo s st z ∧
        ((l = [] ∧ z = []) ∨ ∃ y, Writes (.members l) y ∧ z = sepText s.stack s.sep true ++ y)

theorem done_twice (hk : s.key = false) (ho : s.stack.head? ≠ some .object) (x y : List Nat) :
    done (done s x) y = done s (x ++ (if s.stack = [] then nl else ch ',') :: y) := by
  obtain ⟨u, stk, sep, key, buf, state, su, out⟩ := s
  simp only at hk ho
  subst hk
  rcases stk with _ | ⟨_ | _, stk⟩
  · simp [done, nextKey, sepText, separator]
  · simp [done, nextKey, sepText, separator]
  · simp at ho

/-- A value with a key, and what follows it. -/
theorem member_close {st : List Container} (hst : s.stack = .object :: st) (hk : s.key = true) (x y z : List Nat) :
    closeTo (done (done s (quoted x)) y) st z =
      closeTo (s.set .base []) st (sepText s.stack s.sep true ++ (quoted x ++ ch ':' :: (y ++ z))) ∨ s.surrogate ≠ none := by
  obtain ⟨u, stk, sep, key, buf, state, su, out⟩ := s
  simp only at hst hk
  subst hst hk
  rcases su with _ | su
  · left
    simp [done, closeTo, nextKey, sepText, separator, Salvage.set]
  · right; simp

theorem read_ok {d : Nat} {p : Part} {t : List Nat} (h : Reads o.allowNan (nestOf o) d p t) : ReadOk o d p t := by
  induction h with
  | @atom d a v t ha ht =>
    refine ⟨by simp [EndOk], fun s hs _ hk => ?_⟩
    have hk : s.key = false := by
      rcases hk with hk | hk
      · exact hk
      · have : ∀ p ∈ meanings o.allowNan, ¬ IsContainer p.2 := by
          cases o.allowNan <;> simp [meanings, IsContainer]
        exact absurd hk (this _ ha)
    obtain ⟨x, h1, h2⟩ := atom_run hs hk ha ht
    exact ⟨x, h1, by rw [doneC_eq hs hk]; exact .of_eq h2⟩
  | @num d n t e hn =>
    refine ⟨number_endOk hn, fun s hs _ hk => ?_⟩
    have hk : s.key = false := by simpa [IsContainer] using hk
    exact ⟨n, .num, by rw [doneC_eq hs hk]; exact number_reach hs hk hn⟩
  | @str d u t e hq =>
    refine ⟨quoted_endOk hq, fun s hs _ hk => ?_⟩
    have hk : s.key = false := by simpa [IsContainer] using hk
    obtain ⟨x, h1, h2⟩ := quoted_reach (o := o) hs hq
    exact ⟨quoted x, .str h1, by rw [doneC_eq hs hk]; exact h2⟩
  | @prefixed d u t e c hc hq hh =>
    refine ⟨quoted_endOk hq, fun s hs _ hk => ?_⟩
    have hk : s.key = false := by simpa [IsContainer] using hk
    obtain ⟨x, h1, h2⟩ := prefixed_reach (o := o) hs hc hq hh
    exact ⟨quoted x, .str h1, by rw [doneC_eq hs hk]; exact h2⟩
  | @word d w hw hd ha =>
    refine ⟨by simp [EndOk], fun s hs _ hk => ?_⟩
    have hk : s.key = false := by simpa [IsContainer] using hk
    obtain ⟨x, h1, h2⟩ := word_reach (o := o) hs hw (.inr ⟨hd, fun k _ => no_atom ha k⟩)
    exact ⟨quoted x, .str h1, by rw [doneC_eq hs hk]; exact h2⟩
  | @array d l t c e hc hn _ he ih =>
    refine ⟨by simp [EndOk], fun s hs hd _ => ?_⟩
    have hstart := run_array (o := o) hs hc (mayNest_of hn hd)
    have hs1 : AtBase (processCodePoint o (some c) s) := by rw [hstart]; exact ⟨hs.1, hs.2, hs.3⟩
    have := ih (processCodePoint o (some c) s) hs1 (by rw [hstart]; simp [hd]) (by rw [hstart]) (by rw [hstart]; simp)
    have close : ∀ s2 : Salvage, AtBase s2 → Reach o (processCodePoint o (some c) s) t s2 Closer →
        run o s (c :: (t ++ [e])) = s2.endContainer := by
      intro s2 hb hr
      rw [run_cons, run_append, run_cons, run_nil, hr _ (closer_of he), run_closer hb he]
    rcases this with ⟨rfl, hr⟩ | ⟨y, hy, hr⟩
    · refine ⟨_, .arrNil, .of_eq ?_⟩
      rw [close _ hs1 hr, hstart]
      obtain ⟨u, stk, sep, key, buf, state, su, out⟩ := s
      obtain ⟨h1, h2, h3⟩ := hs
      simp only at h1 h2 h3
      subst h1 h2 h3
      simp [Salvage.endContainer, endValue_eq, doneC, Salvage.emit]
    · have hne : ((processCodePoint o (some c) s).stack = []) = False := by rw [hstart]; simp
      simp only [hne, if_false] at hy
      refine ⟨_, .arr hy.elems, .of_eq ?_⟩
      rw [close _ (done_base _ _) hr, hstart]
      obtain ⟨u, stk, sep, key, buf, state, su, out⟩ := s
      obtain ⟨h1, h2, h3⟩ := hs
      simp only at h1 h2 h3
      subst h1 h2 h3
      simp [Salvage.endContainer, endValue_eq, doneC, Salvage.emit, done, sepText]
  | @object d l t e hn _ he ih =>
    refine ⟨by simp [EndOk], fun s hs hd _ => ?_⟩
    have hstart := run_object (o := o) hs (mayNest_of hn hd)
    have hs1 : AtBase (processCodePoint o (some (ch '{')) s) := by rw [hstart]; exact ⟨hs.1, hs.2, hs.3⟩
    obtain ⟨M, z, hr, hM, _, hend, hz⟩ := ih (processCodePoint o (some (ch '{')) s) s.stack hs1 (by rw [hstart])
      (by rw [hstart]; simp [hd]) (by rw [hstart])
    have hrun : run o s (ch '{' :: (t ++ [e])) = closeTo (processCodePoint o (some (ch '{')) s) s.stack z := by
      rw [run_cons, run_append, run_cons, run_nil, hr _ (closer_of he), run_closer hM he, hend]
    have hsep : sepText (processCodePoint o (some (ch '{')) s).stack (processCodePoint o (some (ch '{')) s).sep true = [] := by
      rw [hstart]
      simp [sepText]
    have key : ∀ z, closeTo (processCodePoint o (some (ch '{')) s) s.stack z = doneC s (ch '{' :: (z ++ [ch '}'])) := by
      intro z
      rw [hstart]
      simp [closeTo, doneC]
    rcases hz with ⟨rfl, rfl⟩ | ⟨y, hy, rfl⟩
    · exact ⟨_, .objNil, .of_eq (by rw [hrun, key]; rfl)⟩
    · exact ⟨_, .obj hy, .of_eq (by rw [hrun, hsep, key]; rfl)⟩
  | @keyStr d u t e hq =>
    exact ⟨quoted_endOk hq, fun s hs _ _ => quoted_reach (o := o) hs hq⟩
  | @keyPrefixed d u t e c hc hq hh =>
    exact ⟨quoted_endOk hq, fun s hs _ _ => prefixed_reach (o := o) hs hc hq hh⟩
  | @keyWord d w hw =>
    exact ⟨by simp [EndOk], fun s hs _ hk => word_reach (o := o) hs hw (.inl hk)⟩
  | @elemsNil d w hw =>
    intro s hs _ _ _
    exact .inl ⟨rfl, .of_eq (run_filler hw hs)⟩
  | @elems d v e w t l r hw _ hr _ ih1 ih2 =>
    intro s hs hd hk ho
    right
    obtain ⟨he, h1⟩ := ih1
    obtain ⟨x, hx, h1⟩ := h1 s hs hd (.inl hk)
    rw [doneC_eq hs hk] at h1
    have hkey : (done s x).key = false := by
      have : nextKey s.stack s.key = false := by
        rcases e : s.stack with _ | ⟨_ | _, stk⟩ <;> simp [nextKey, hk]
        simp [e] at ho
      exact this
    have hst : (done s x).stack = s.stack := rfl
    rcases ih2 (done s x) (done_base _ _) hd hkey ho with ⟨rfl, h2⟩ | ⟨y, hy, h2⟩
    · exact ⟨x, .one hx, reach_filler hs hw (reach_then he h1 hr h2)⟩
    · rw [hst] at hy
      rw [done_twice hk ho] at h2
      exact ⟨_, .cons hx hy, reach_filler hs hw (reach_then he h1 hr h2)⟩
  | @membersNil d w hw =>
    intro s st hs hst _ hk
    refine ⟨s, [], .of_eq (run_filler hw hs), hs, .inl hk, ?_, .inl ⟨rfl, rfl⟩⟩
    obtain ⟨u, stk, sep, key, buf, state, su, out⟩ := s
    obtain ⟨h1, h2, h3⟩ := hs
    simp only at h1 h2 h3 hst hk
    subst h1 h2 h3 hst hk
    simp [Salvage.endContainer, endValue_eq, closeTo, Salvage.emit]
  | @members d k e v e' w tk w' tv l r hw _ hr1 hw' _ hr2 _ ih1 ih2 ih3 =>
    intro s st hs hst hd hk
    obtain ⟨he1, h1⟩ := ih1
    obtain ⟨x, hx, h1⟩ := h1 s hs hd hk
    obtain ⟨he2, h2⟩ := ih2
    have hk1 : (done s (quoted x)).key = false := by simp [done, hst, hk, nextKey]
    obtain ⟨y, hy, h2⟩ := h2 (done s (quoted x)) (done_base _ _) hd (.inl hk1)
    rw [doneC_eq (done_base _ _) hk1] at h2
    obtain ⟨M, z, h3, hM, hsep, hend, hz⟩ := ih3 (done (done s (quoted x)) y) st (done_base _ _) hst hd
      (by simp [done, hst, hk, nextKey])
    have hclose : M.endContainer = closeTo s st (sepText s.stack s.sep true ++ (quoted x ++ ch ':' :: (y ++ z))) := by
      rw [hend]
      rcases member_close hst hk x y z with h | h
      · rw [h, base_eq hs]
      · exact absurd hs.surrogate h
    refine ⟨M, _, reach_filler hs hw (reach_then he1 h1 hr1 (reach_filler (done_base _ _) hw' (reach_then he2 h2 hr2 h3))), hM, hsep, hclose,
      .inr ?_⟩
    rcases hz with ⟨rfl, rfl⟩ | ⟨y', hy', rfl⟩
    · refine ⟨_, .member hx hy, ?_⟩
      simp
    · refine ⟨_, .members hx hy hy', ?_⟩
      have : sepText (done (done s (quoted x)) y).stack (done (done s (quoted x)) y).sep true = [ch ','] := by
        simp [done, hst, sepText, separator]
      rw [this]
      simp
  | @keyOnly d k e w tk w' hw _ hr hw' ih1 =>
    intro s st hs hst hd hk
    obtain ⟨he1, h1⟩ := ih1
    obtain ⟨x, hx, h1⟩ := h1 s hs hd hk
    refine ⟨done s (quoted x), _, reach_filler hs hw (reach_then he1 h1 hr (.of_eq (run_filler hw' (done_base _ _)))), done_base _ _, .inr rfl, ?_,
      .inr ⟨_, .member hx .null, rfl⟩⟩
    obtain ⟨u, stk, sep, key, buf, state, su, out⟩ := s
    obtain ⟨h1, h2, h3⟩ := hs
    simp only at h1 h2 h3 hst hk
    subst h1 h2 h3 hst hk
    simp [Salvage.endContainer, endValue_eq, closeTo, Salvage.emit, done, nextKey, nullText]
  | @noKeyArray d l' w t l r hw _ _ ih1 ih2 =>
    intro s st hs hst hd hk
    obtain ⟨he1, h1⟩ := ih1
    obtain ⟨y, hy, h1⟩ := h1 s hs hd (.inr trivial)
    obtain ⟨M, z, h3, hM, hsep, hend, hz⟩ := ih2 (doneC s y) st (doneC_base hs y) hst hd (by simp [doneC, hst, nextKey])
    have hclose : M.endContainer = closeTo s st (sepText s.stack s.sep true ++ (quoted [] ++ ch ':' :: (y ++ z))) := by
      rw [hend]
      simp [closeTo, doneC, hk, quoted]
    refine ⟨M, _, reach_filler hs hw (reach_then he1 h1 (by cases r <;> trivial) h3), hM, hsep, hclose, .inr ?_⟩
    rcases hz with ⟨rfl, rfl⟩ | ⟨y', hy', rfl⟩
    · refine ⟨_, .member .nil hy, ?_⟩
      simp
    · refine ⟨_, .members .nil hy hy', ?_⟩
      have : sepText (doneC s y).stack (doneC s y).sep true = [ch ','] := by
        simp [doneC, hst, sepText, separator]
      rw [this]
      simp
  | @noKeyObject d l' w t l r hw _ _ ih1 ih2 =>
    intro s st hs hst hd hk
    obtain ⟨he1, h1⟩ := ih1
    obtain ⟨y, hy, h1⟩ := h1 s hs hd (.inr trivial)
    obtain ⟨M, z, h3, hM, hsep, hend, hz⟩ := ih2 (doneC s y) st (doneC_base hs y) hst hd (by simp [doneC, hst, nextKey])
    have hclose : M.endContainer = closeTo s st (sepText s.stack s.sep true ++ (quoted [] ++ ch ':' :: (y ++ z))) := by
      rw [hend]
      simp [closeTo, doneC, hk, quoted]
    refine ⟨M, _, reach_filler hs hw (reach_then he1 h1 (by cases r <;> trivial) h3), hM, hsep, hclose, .inr ?_⟩
    rcases hz with ⟨rfl, rfl⟩ | ⟨y', hy', rfl⟩
    · refine ⟨_, .member .nil hy, ?_⟩
      simp
    · refine ⟨_, .members .nil hy hy', ?_⟩
      have : sepText (doneC s y).stack (doneC s y).sep true = [ch ','] := by
        simp [doneC, hst, sepText, separator]
      rw [this]
      simp

/-- Whole texts. -/
theorem read_text {l : List Value} {t : List Nat} (h : Reads o.allowNan (nestOf o) 0 (.elems l) t) :
    WritesDoc l (finalOutput o (run o initial t)) := by
  have hb : AtBase initial := ⟨rfl, rfl, rfl⟩
  have fin : ∀ s2 : Salvage, AtBase s2 → s2.stack = [] → Reach o initial t s2 Closer →
      finalOutput o (run o initial t) = s2.output := by
    intro s2 h1 h2 h3
    unfold finalOutput
    rw [h3 none (.inl rfl), proc_base h1]
    simp [baseEmpty, h2, closeAll]
  rcases read_ok h initial hb rfl rfl (by simp [initial]) with ⟨rfl, hr⟩ | ⟨y, hy, hr⟩
  · rw [fin _ hb rfl hr]
    exact .nil
  · rw [fin _ (done_base _ _) rfl hr]
    have := hy.doc
    simpa [done, initial, sepText] using this

end Verif.JsonSalvage
