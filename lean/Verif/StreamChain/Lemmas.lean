import Verif.StreamChain.Spec

/-!
The invariant of a stream chain.
-/

namespace Verif.StreamChain

set_option linter.unusedSectionVars false

variable {B S : Type} [DecidableEq S]

/-- The streams that were added. -/
def contents (inputs : List (Input B S)) : List (List B × S) := inputs.map fun x => (x.items, x.ending)

/-- The concatenation of all items. -/
def allItems (inputs : List (Input B S)) : List B := inputs.flatMap fun x => x.items

structure Input.Wf (x : Input B S) : Prop where
  read : x.read ≤ x.ready
  ready : x.ready ≤ x.items.length
  ended : x.ended = true → x.ready = x.items.length

structure Input.Full (x : Input B S) : Prop where
  ended : x.ended = true
  read : x.read = x.items.length

structure Input.Done (ok : S) (x : Input B S) : Prop extends x.Full where
  ok : x.ending = ok

/-- Where the active thread is. -/
def Phase (ok : S) (d : Nat) (x : Input B S) (before items : List B) (closed : Option S) :
    Pc B S → Prop
  | .begin => items = before ++ x.items.take x.read ∧ closed = none
  | .reading a => a = d ∧ items = before ++ x.items.take x.read ∧ closed = none
  | .subscribing a => a = d ∧ items = before ++ x.items.take x.read ∧ closed = none
  | .waiting a => a = d ∧ items = before ++ x.items.take x.read ∧ closed = none
  | .writing a b => a = d ∧ 0 < x.read ∧ x.items[x.read - 1]? = some b ∧
      items = before ++ x.items.take (x.read - 1) ∧ closed = none
  | .closing s => x.Full ∧ s = x.ending ∧ s ≠ ok ∧ items = before ++ x.items ∧ closed = none
  | .erroring => x.Full ∧ x.ending ≠ ok ∧ items = before ++ x.items ∧ closed = some x.ending
  | .popping => x.Full ∧ x.ending = ok ∧ items = before ++ x.items ∧ closed = none

/-- The three states of the scheduler. -/
inductive State (ok : S) (w : World B S) : Prop where
  | idle (hthreads : w.threads = []) (hqueue : w.queue = []) (herr : w.errorReported = false)
      (hdone : ∀ x ∈ w.inputs, x.Done ok) (hitems : w.items = allItems w.inputs)
      (hclosed : w.closed = if w.destroyed then some ok else none)
  | failed (pre post : List (Input B S)) (x : Input B S) (hthreads : w.threads = [])
      (hqueue : w.queue = []) (herr : w.errorReported = true) (hinputs : w.inputs = pre ++ x :: post)
      (hdone : ∀ y ∈ pre, y.Done ok) (hfull : x.Full) (hend : x.ending ≠ ok)
      (hitems : w.items = allItems pre ++ x.items) (hclosed : w.closed = some x.ending)
  | busy (pre post : List (Input B S)) (x : Input B S) (pc : Pc B S) (hthreads : w.threads = [pc])
      (hqueue : w.queue = List.range' pre.length (post.length + 1)) (herr : w.errorReported = false)
      (hinputs : w.inputs = pre ++ x :: post)
      (hdone : ∀ y ∈ pre, y.Done ok) (hpost : ∀ y ∈ post, y.read = 0) (hdestroyed : w.destroyed = false)
      (hphase : Phase ok pre.length x (allItems pre) w.items w.closed pc)

structure Inv (ok : S) (w : World B S) : Prop where
  wf : ∀ x ∈ w.inputs, x.Wf
  fatal : w.fatal = false
  destroyed : w.destroyed = true → w.released = true
  state : State ok w

theorem Inv.init (ok : S) : Inv ok ({} : World B S) where
  wf := by intro x hx; cases hx
  fatal := rfl
  destroyed := by intro h; cases h
  state := .idle rfl rfl rfl (by intro x hx; cases hx) rfl rfl

theorem getElem?_mid (pre post : List (Input B S)) (x : Input B S) :
    (pre ++ x :: post)[pre.length]? = some x := by
  rw [List.getElem?_append_right (Nat.le_refl _)]
  simp

theorem set_mid (pre post : List (Input B S)) (x y : Input B S) :
    (pre ++ x :: post).set pre.length y = pre ++ y :: post := by
  rw [List.set_append_right _ _ (Nat.le_refl _)]
  simp

theorem allItems_append (a b : List (Input B S)) : allItems (a ++ b) = allItems a ++ allItems b := by
  simp [allItems]

theorem allItems_cons (x : Input B S) (b : List (Input B S)) :
    allItems (x :: b) = x.items ++ allItems b := by
  simp [allItems]

/-- The two changes of a stream from outside. -/
structure Outside (f : Input B S → Input B S) : Prop where
  items : ∀ x, (f x).items = x.items
  ending : ∀ x, (f x).ending = x.ending
  read : ∀ x, (f x).read = x.read
  ended : ∀ x : Input B S, x.ended = true → (f x).ended = true
  wf : ∀ x : Input B S, x.Wf → (f x).Wf

theorem outside_produce : Outside (Input.produce (B := B) (S := S)) where
  items := by intro x; unfold Input.produce; split <;> rfl
  ending := by intro x; unfold Input.produce; split <;> rfl
  read := by intro x; unfold Input.produce; split <;> rfl
  ended := by intro x h; unfold Input.produce; split <;> exact h
  wf := by
    intro x h
    unfold Input.produce
    split
    · rename_i hc
      exact ⟨by have := h.read; simp only; omega, by simp only; omega, by
        intro he
        simp only at he
        rw [he] at hc
        exact absurd hc.2 (by simp)⟩
    · exact h

theorem outside_finish : Outside (Input.finish (B := B) (S := S)) where
  items := by intro x; unfold Input.finish; split <;> rfl
  ending := by intro x; unfold Input.finish; split <;> rfl
  read := by intro x; unfold Input.finish; split <;> rfl
  ended := by intro x h; unfold Input.finish; split <;> first | rfl | exact h
  wf := by
    intro x h
    unfold Input.finish
    split
    · rename_i hc
      exact ⟨h.read, h.ready, fun _ => hc⟩
    · exact h

theorem Outside.full {f : Input B S → Input B S} (hf : Outside f) {x : Input B S} (h : x.Full) :
    (f x).Full :=
  ⟨hf.ended x h.ended, by rw [hf.read, hf.items]; exact h.read⟩

theorem Outside.done {f : Input B S → Input B S} (hf : Outside f) {ok : S} {x : Input B S}
    (h : x.Done ok) : (f x).Done ok :=
  { hf.full h.toFull with ok := by rw [hf.ending]; exact h.ok }

theorem Outside.phase {f : Input B S → Input B S} (hf : Outside f) {ok : S} {d : Nat} {x : Input B S}
    {before items : List B} {closed : Option S} {pc : Pc B S}
    (h : Phase ok d x before items closed pc) : Phase ok d (f x) before items closed pc := by
  cases pc <;> simp only [Phase, hf.items, hf.ending, hf.read] at h ⊢
  case closing => exact ⟨hf.full h.1, h.2⟩
  case erroring => exact ⟨hf.full h.1, h.2⟩
  case popping => exact ⟨hf.full h.1, h.2⟩
  all_goals exact h

/-- Where a position of the list is. -/
theorem set_split (pre post : List (Input B S)) (x y z : Input B S) (i : Nat)
    (h : (pre ++ x :: post)[i]? = some y) :
    (pre[i]? = some y ∧ (pre ++ x :: post).set i z = pre.set i z ++ x :: post) ∨
    (y = x ∧ (pre ++ x :: post).set i z = pre ++ z :: post) ∨
    (y ∈ post ∧ (pre ++ x :: post).set i z = pre ++ x :: post.set (i - pre.length - 1) z) := by
  by_cases h1 : i < pre.length
  · rw [List.getElem?_append_left h1] at h
    exact .inl ⟨h, by rw [List.set_append_left _ _ h1]⟩
  · rw [List.getElem?_append_right (by omega)] at h
    rw [List.set_append_right _ _ (by omega)]
    by_cases h2 : i - pre.length = 0
    · rw [h2] at h ⊢
      exact .inr (.inl ⟨by simpa using h.symm, by simp⟩)
    · obtain ⟨k, hk⟩ : ∃ k, i - pre.length = k + 1 := ⟨i - pre.length - 1, by omega⟩
      rw [hk] at h ⊢
      exact .inr (.inr ⟨List.mem_of_getElem? (by simpa using h), by simp⟩)

theorem map_set_same {C : Type} (g : Input B S → C) (l : List (Input B S)) (i : Nat)
    (y z : Input B S) (h : l[i]? = some y) (hg : g z = g y) : (l.set i z).map g = l.map g := by
  apply List.ext_getElem?
  intro k
  simp only [List.getElem?_map, List.getElem?_set]
  by_cases hk : i = k
  · subst hk
    have hlt : i < l.length := (List.getElem?_eq_some_iff.1 h).1
    rw [if_pos rfl, if_pos hlt, h]
    simp [hg]
  · rw [if_neg hk]

theorem allItems_set (l : List (Input B S)) (i : Nat)
    (y z : Input B S) (h : l[i]? = some y) (hg : z.items = y.items) :
    allItems (l.set i z) = allItems l := by
  unfold allItems
  rw [List.flatMap_def, List.flatMap_def]
  exact congrArg List.flatten (map_set_same (fun x => x.items) l i y z h hg)

theorem contents_set (l : List (Input B S)) (i : Nat)
    (y z : Input B S) (h : l[i]? = some y) (hg : z.items = y.items) (he : z.ending = y.ending) :
    contents (l.set i z) = contents l :=
  map_set_same (fun x => (x.items, x.ending)) l i y z h (by simp only [hg, he])

theorem mem_set_of {P : Input B S → Prop} {l : List (Input B S)} {i : Nat} {z : Input B S}
    (h : ∀ x ∈ l, P x) (hz : P z) : ∀ x ∈ l.set i z, P x := by
  intro x hx
  rcases List.mem_or_eq_of_mem_set hx with h' | h'
  · exact h x h'
  · exact h' ▸ hz

theorem Inv.change {ok : S} {w : World B S} (h : Inv ok w) (i : Nat) {f : Input B S → Input B S}
    (hf : Outside f) : Inv ok (w.change i f) := by
  unfold World.change
  cases hi : w.inputs[i]? with
  | none => exact h
  | some y =>
    have hy := List.mem_of_getElem? hi
    have hwf : ∀ x ∈ w.inputs.set i (f y), x.Wf := mem_set_of h.wf (hf.wf y (h.wf y hy))
    refine { h with wf := hwf, state := ?_ }
    cases h.state with
    | idle hthreads hqueue herr hdone hitems hclosed =>
      exact .idle hthreads hqueue herr (mem_set_of hdone (hf.done (hdone y hy)))
        (by rw [allItems_set _ _ y _ hi (hf.items y)]; exact hitems) hclosed
    | failed pre post x hthreads hqueue herr hinputs hdone hfull hend hitems hclosed =>
      rw [hinputs] at hi
      have hs := set_split pre post x y (f y) i hi
      rcases hs with ⟨hp, hs⟩ | ⟨rfl, hs⟩ | ⟨hp, hs⟩
      · exact .failed (pre.set i (f y)) post x hthreads hqueue herr (by simp only [hinputs]; exact hs)
          (mem_set_of hdone (hf.done (hdone y (List.mem_of_getElem? hp)))) hfull hend
          (by rw [allItems_set _ _ y _ hp (hf.items y)]; exact hitems) hclosed
      · exact .failed pre post (f y) hthreads hqueue herr (by simp only [hinputs]; exact hs)
          hdone (hf.full hfull) (by rw [hf.ending]; exact hend) (by rw [hf.items]; exact hitems)
          (by rw [hf.ending]; exact hclosed)
      · exact .failed pre _ x hthreads hqueue herr (by simp only [hinputs]; exact hs)
          hdone hfull hend hitems hclosed
    | busy pre post x pc hthreads hqueue herr hinputs hdone hpost hdestroyed hphase =>
      rw [hinputs] at hi
      have hs := set_split pre post x y (f y) i hi
      rcases hs with ⟨hp, hs⟩ | ⟨rfl, hs⟩ | ⟨hp, hs⟩
      · exact .busy (pre.set i (f y)) post x pc hthreads (by simpa using hqueue) herr
          (by simp only [hinputs]; exact hs)
          (mem_set_of hdone (hf.done (hdone y (List.mem_of_getElem? hp)))) hpost hdestroyed
          (by rw [allItems_set _ _ y _ hp (hf.items y), List.length_set]; exact hphase)
      · exact .busy pre post (f y) pc hthreads hqueue herr (by simp only [hinputs]; exact hs)
          hdone hpost hdestroyed (hf.phase hphase)
      · exact .busy pre (post.set (i - pre.length - 1) (f y)) x pc hthreads (by simpa using hqueue) herr
          (by simp only [hinputs]; exact hs) hdone
          (mem_set_of hpost (by rw [hf.read]; exact hpost y hp)) hdestroyed hphase

theorem Inv.addInput {ok : S} {w : World B S} (h : Inv ok w) {x : Input B S} (hx : x.Wf)
    (hr : x.read = 0) : Inv ok (w.addInput x) := by
  have hwf : ∀ y ∈ w.inputs ++ [x], y.Wf := by
    intro y hy
    rcases List.mem_append.1 hy with hy | hy
    · exact h.wf y hy
    · exact List.mem_singleton.1 hy ▸ hx
  unfold World.addInput
  by_cases hrel : w.released = true
  · rw [if_pos hrel]
    exact h
  rw [if_neg hrel]
  have hdestroyed : w.destroyed = false := by
    cases hd : w.destroyed with
    | false => rfl
    | true => exact absurd (h.destroyed hd) hrel
  by_cases herr : w.errorReported = true
  · rw [if_pos herr]
    refine { h with wf := hwf, state := ?_ }
    cases h.state with
    | idle hthreads hqueue herr' => rw [herr] at herr'; cases herr'
    | busy pre post x pc hthreads hqueue herr' => rw [herr] at herr'; cases herr'
    | failed pre post y hthreads hqueue herr hinputs hdone hfull hend hitems hclosed =>
      exact .failed pre (post ++ [x]) y hthreads hqueue herr (by simp [hinputs]) hdone hfull hend hitems
        hclosed
  · rw [if_neg herr]
    refine { h with wf := hwf, state := ?_ }
    cases h.state with
    | failed pre post y hthreads hqueue herr' => exact absurd herr' herr
    | idle hthreads hqueue herr hdone hitems hclosed =>
      refine .busy w.inputs [] x .begin ?_ ?_ herr rfl hdone (by simp) hdestroyed ?_
      · simp [hqueue, hthreads]
      · simp [hqueue]
      · rw [hdestroyed] at hclosed
        exact ⟨by rw [hr]; simpa using hitems, hclosed⟩
    | busy pre post y pc hthreads hqueue herr hinputs hdone hpost hdestroyed hphase =>
      have hne : w.queue ≠ [] := by
        rw [hqueue]
        simp
      refine .busy pre (post ++ [x]) y pc ?_ ?_ herr (by simp [hinputs]) hdone ?_ hdestroyed
        hphase
      · simp only [if_neg hne]
        exact hthreads
      · simp only [hqueue, hinputs, List.length_append, List.length_cons, List.length_nil]
        rw [List.range'_concat (s := pre.length) (n := post.length + 1)]
        simp
      · intro z hz
        rcases List.mem_append.1 hz with hz | hz
        · exact hpost z hz
        · exact List.mem_singleton.1 hz ▸ hr

theorem range'_head (d n : Nat) : List.range' d (n + 1) = d :: List.range' (d + 1) n := by
  rw [List.range'_succ]

theorem Inv.thread {ok : S} {w : World B S} (h : Inv ok w) (j : Nat) : Inv ok (w.thread ok j) := by
  unfold World.thread
  cases h.state with
  | idle hthreads => rw [hthreads]; exact h
  | failed pre post x hthreads => rw [hthreads]; exact h
  | busy pre post x pc hthreads hqueue herr hinputs hdone hpost hdestroyed hphase =>
    have hxw : x.Wf := h.wf x (by rw [hinputs]; simp)
    cases j with
    | succ j => rw [hthreads]; exact h
    | zero =>
    have hgoto : ∀ pc', ({ w with threads := w.threads.set 0 pc' } : World B S).threads = [pc'] := by
      intro pc'; simp [hthreads]
    cases pc with
    | begin =>
      obtain ⟨hitems, hclosed⟩ := hphase
      rw [hthreads]
      rw [range'_head] at hqueue
      simp only [hqueue, herr, List.getElem?_cons_zero, Bool.false_eq_true, if_false, World.goto]
      refine { h with
          state := .busy pre post x (.reading pre.length) (hgoto _) ?_ rfl hinputs hdone
            hpost hdestroyed ⟨rfl, hitems, hclosed⟩ }
      simp only [range'_head]
    | reading a =>
      obtain ⟨rfl, hitems, hclosed⟩ := hphase
      rw [hthreads]
      simp only [List.getElem?_cons_zero, World.read, hinputs, getElem?_mid]
      by_cases hlt : x.read < x.ready
      · have hlt' : x.read < x.items.length := by have := hxw.ready; omega
        rw [if_pos hlt, List.getElem?_eq_getElem hlt']
        simp only [World.goto, set_mid]
        have hxw' : ({ x with read := x.read + 1 } : Input B S).Wf :=
          ⟨by simp only; omega, hxw.ready, hxw.ended⟩
        refine { h with
          wf := ?_
          state := .busy pre post { x with read := x.read + 1 } (.writing pre.length x.items[x.read])
            (hgoto _) hqueue herr rfl hdone hpost hdestroyed ?_ }
        · intro y hy
          rcases List.mem_append.1 hy with hy | hy
          · exact h.wf y (by rw [hinputs]; simp [hy])
          · rcases List.mem_cons.1 hy with rfl | hy
            · exact hxw'
            · exact h.wf y (by rw [hinputs]; simp [hy])
        · refine ⟨rfl, by simp, ?_, ?_, hclosed⟩
          · simp [List.getElem?_eq_getElem hlt']
          · simpa using hitems
      · rw [if_neg hlt]
        by_cases he : x.ended = true
        · have hfull : x.Full := ⟨he, by have := hxw.read; have := hxw.ended he; omega⟩
          have hitems' : w.items = allItems pre ++ x.items := by
            rw [hitems, hfull.read, List.take_length]
          rw [if_pos he]
          by_cases hok : x.ending = ok
          · rw [if_pos hok]
            exact { h with
          state := .busy pre post x .popping (hgoto _) hqueue herr hinputs hdone
            hpost hdestroyed ⟨hfull, hok, hitems', hclosed⟩ }
          · rw [if_neg hok]
            exact { h with
          state := .busy pre post x (.closing x.ending) (hgoto _) hqueue herr hinputs
            hdone hpost hdestroyed ⟨hfull, rfl, hok, hitems', hclosed⟩ }
        · rw [if_neg he]
          exact { h with
          state := .busy pre post x (.subscribing pre.length) (hgoto _) hqueue herr hinputs
            hdone hpost hdestroyed ⟨rfl, hitems, hclosed⟩ }
    | writing a b =>
      obtain ⟨rfl, hpos, hb, hitems, hclosed⟩ := hphase
      rw [hthreads]
      simp only [List.getElem?_cons_zero, hclosed, Option.isSome_none, Bool.false_eq_true, if_false,
        World.goto]
      refine { h with
          state := .busy pre post x (.reading pre.length) rfl hqueue herr hinputs
            hdone hpost hdestroyed ⟨rfl, ?_, rfl⟩ }
      obtain ⟨k, hk⟩ : ∃ k, x.read = k + 1 := ⟨x.read - 1, by omega⟩
      simp only [hitems, hk, Nat.add_sub_cancel] at hb ⊢
      rw [List.take_add_one, hb, List.append_assoc]
      rfl
    | closing s =>
      obtain ⟨hfull, rfl, hok, hitems, hclosed⟩ := hphase
      rw [hthreads]
      simp only [List.getElem?_cons_zero, hclosed, Option.isSome_none, Bool.false_eq_true, if_false,
        World.goto]
      exact { h with
          state := .busy pre post x .erroring rfl hqueue herr hinputs
            hdone hpost hdestroyed ⟨hfull, hok, hitems, rfl⟩ }
    | erroring =>
      obtain ⟨hfull, hok, hitems, hclosed⟩ := hphase
      rw [hthreads]
      simp only [List.getElem?_cons_zero, World.endThread]
      exact { h with
          state := .failed pre post x rfl rfl rfl hinputs hdone hfull hok hitems
            hclosed }
    | popping =>
      obtain ⟨hfull, hok, hitems, hclosed⟩ := hphase
      have hdone' : ∀ y ∈ pre ++ [x], y.Done ok := by
        intro y hy
        rcases List.mem_append.1 hy with hy | hy
        · exact hdone y hy
        · exact List.mem_singleton.1 hy ▸ { hfull with ok := hok }
      rw [hthreads]
      cases post with
      | nil =>
        rw [List.length_nil] at hqueue
        simp only [List.getElem?_cons_zero, hqueue, World.endThread]
        exact { h with
          state := .idle rfl rfl herr (by simp only [hinputs]; exact hdone')
            (by simp only [hinputs, hitems]; simp [allItems])
            (by simp only [hclosed, hdestroyed]; rfl) }
      | cons y post =>
        rw [List.length_cons, range'_head, range'_head] at hqueue
        simp only [List.getElem?_cons_zero, hqueue, World.goto]
        refine { h with
          state := .busy (pre ++ [x]) post y (.reading (pre.length + 1)) rfl ?_ herr
            (by simp [hinputs]) hdone' (fun z hz => hpost z (by simp [hz])) hdestroyed ⟨by simp, ?_, hclosed⟩ }
        · simp only [List.length_append, List.length_cons, List.length_nil, range'_head]
        · simp [hpost y (by simp), hitems, allItems]
    | subscribing a =>
      obtain ⟨rfl, hitems, hclosed⟩ := hphase
      rw [hthreads]
      simp only [List.getElem?_cons_zero, World.subscribe, hinputs, getElem?_mid]
      by_cases ha : x.available = true
      · rw [if_pos ha]
        exact { h with
          state := .busy pre post x .begin (hgoto _) hqueue herr hinputs
            hdone hpost hdestroyed ⟨hitems, hclosed⟩ }
      · rw [if_neg ha]
        exact { h with
          state := .busy pre post x (.waiting pre.length) (hgoto _) hqueue herr hinputs
            hdone hpost hdestroyed ⟨rfl, hitems, hclosed⟩ }
    | waiting a =>
      obtain ⟨rfl, hitems, hclosed⟩ := hphase
      rw [hthreads]
      simp only [List.getElem?_cons_zero, World.wake, hinputs, getElem?_mid]
      by_cases ha : x.available = true
      · rw [if_pos ha]
        exact { h with
          state := .busy pre post x .begin (hgoto _) hqueue herr hinputs
            hdone hpost hdestroyed ⟨hitems, hclosed⟩ }
      · rw [if_neg ha]
        exact h

theorem Inv.destroy {ok : S} {w : World B S} (h : Inv ok w) : Inv ok (w.destroy ok) := by
  unfold World.destroy
  by_cases hc : w.released = true ∧ w.threads.length = 0 ∧ w.destroyed = false
  · rw [if_pos hc]
    cases h.state with
    | idle hthreads hqueue herr hdone hitems hclosed =>
      rw [hc.2.2] at hclosed
      simp only [hqueue, herr, hclosed, ne_eq, not_true_eq_false, if_false, Bool.false_eq_true,
        Option.isSome_none]
      exact { h with
        destroyed := fun _ => hc.1
        state := .idle hthreads rfl rfl hdone hitems rfl }
    | failed pre post x hthreads hqueue herr hinputs hdone hfull hend hitems hclosed =>
      simp only [hqueue, herr, ne_eq, not_true_eq_false, if_false, if_true]
      exact { h with
        destroyed := fun _ => hc.1
        state := .failed pre post x hthreads rfl rfl hinputs hdone hfull hend hitems hclosed }
    | busy pre post x pc hthreads =>
      rw [hthreads] at hc
      exact absurd hc.2.1 (by simp)
  · rw [if_neg hc]
    exact h

theorem Inv.step {ok : S} {w : World B S} (h : Inv ok w) (op : Op B S) : Inv ok (step ok w op) := by
  cases op with
  | add items ending =>
    exact h.addInput ⟨Nat.le_refl _, Nat.zero_le _, by intro he; cases he⟩ rfl
  | addItem b =>
    exact h.addInput ⟨Nat.zero_le _, Nat.le_refl _, fun _ => rfl⟩ rfl
  | addError s =>
    simp only [StreamChain.step]
    split
    · exact h
    · exact h.addInput ⟨Nat.le_refl _, Nat.le_refl _, fun _ => rfl⟩ rfl
  | produce i => exact h.change i outside_produce
  | finish i => exact h.change i outside_finish
  | thread j => exact h.thread j
  | release =>
    refine { h with destroyed := fun _ => rfl, state := ?_ }
    cases h.state with
    | idle hthreads hqueue herr hdone hitems hclosed =>
      exact .idle hthreads hqueue herr hdone hitems hclosed
    | failed pre post x hthreads hqueue herr hinputs hdone hfull hend hitems hclosed =>
      exact .failed pre post x hthreads hqueue herr hinputs hdone hfull hend hitems hclosed
    | busy pre post x pc hthreads hqueue herr hinputs hdone hpost hdestroyed hphase =>
      exact .busy pre post x pc hthreads hqueue herr hinputs hdone hpost hdestroyed hphase
  | destroy => exact h.destroy

theorem Inv.run {ok : S} (ops : List (Op B S)) : ∀ {w : World B S}, Inv ok w → Inv ok (run ok w ops) := by
  induction ops with
  | nil => intro w h; exact h
  | cons op ops ih => intro w h; exact ih (h.step op)

/-! ### What is never changed -/

theorem addInput_inputs (w : World B S) (x : Input B S) :
    (w.addInput x).inputs = if w.released then w.inputs else w.inputs ++ [x] := by
  unfold World.addInput
  split
  · rfl
  · split <;> rfl

theorem addInput_released (w : World B S) (x : Input B S) : (w.addInput x).released = w.released := by
  unfold World.addInput
  split
  · rfl
  · split <;> rfl

theorem thread_released (ok : S) (w : World B S) (j : Nat) : (w.thread ok j).released = w.released := by
  unfold World.thread World.read World.subscribe World.wake World.die World.goto World.endThread
  repeat' split
  all_goals rfl

theorem destroy_released (ok : S) (w : World B S) : (w.destroy ok).released = w.released := by
  unfold World.destroy World.die
  repeat' split
  all_goals rfl

theorem destroy_inputs (ok : S) (w : World B S) : (w.destroy ok).inputs = w.inputs := by
  unfold World.destroy World.die
  repeat' split
  all_goals rfl

theorem thread_contents (ok : S) (w : World B S) (j : Nat) :
    contents (w.thread ok j).inputs = contents w.inputs := by
  unfold World.thread World.read World.subscribe World.wake World.die World.goto World.endThread
  repeat' split
  all_goals first
    | rfl
    | (rename_i hx _ _ _ _; exact contents_set _ _ _ _ hx rfl rfl)

theorem change_released (w : World B S) (i : Nat) (f : Input B S → Input B S) :
    (w.change i f).released = w.released := by
  unfold World.change
  split <;> rfl

theorem change_contents (w : World B S) (i : Nat) {f : Input B S → Input B S} (hf : Outside f) :
    contents (w.change i f).inputs = contents w.inputs := by
  unfold World.change
  split
  · rfl
  · rename_i x hx
    exact contents_set _ _ x _ hx (hf.items x) (hf.ending x)

theorem contents_append (a b : List (Input B S)) : contents (a ++ b) = contents a ++ contents b := by
  simp [contents]

theorem added_cons (ok : S) (op : Op B S) (ops : List (Op B S)) (h : op ≠ .release) :
    added ok (op :: ops) = (op.added ok).toList ++ added ok ops := by
  cases op with
  | release => exact absurd rfl h
  | addError s =>
    by_cases hs : s = ok
    · simp [added, Op.added, hs]
    · simp [added, Op.added, hs]
  | _ => simp [added, Op.added]

theorem step_contents (ok : S) (w : World B S) (op : Op B S) :
    contents (step ok w op).inputs =
      contents w.inputs ++ if w.released then [] else (op.added ok).toList := by
  cases op with
  | add items ending =>
    simp only [step, addInput_inputs]
    by_cases h : w.released = true
    · simp [h]
    · simp [h, contents, Op.added]
  | addItem b =>
    simp only [step, addInput_inputs]
    by_cases h : w.released = true
    · simp [h]
    · simp [h, contents, Op.added]
  | addError s =>
    simp only [step]
    by_cases hs : s = ok
    · simp [hs, Op.added]
    · simp only [if_neg hs, addInput_inputs]
      by_cases h : w.released = true
      · simp [h]
      · simp [h, contents, Op.added, hs]
  | produce i => simp [step, Op.added, change_contents w i outside_produce]
  | finish i => simp [step, Op.added, change_contents w i outside_finish]
  | thread j => simp [step, Op.added, thread_contents]
  | release => simp [step, Op.added]
  | destroy => simp [step, Op.added, destroy_inputs]

theorem step_released (ok : S) (w : World B S) (op : Op B S) (h : op ≠ .release) :
    (step ok w op).released = w.released := by
  cases op with
  | add items ending => exact addInput_released _ _
  | addItem b => exact addInput_released _ _
  | addError s =>
    simp only [step]
    split
    · rfl
    · exact addInput_released _ _
  | produce i => exact change_released _ _ _
  | finish i => exact change_released _ _ _
  | thread j => exact thread_released _ _ _
  | release => exact absurd rfl h
  | destroy => exact destroy_released _ _

theorem run_contents (ok : S) (ops : List (Op B S)) : ∀ (w : World B S),
    contents (run ok w ops).inputs = contents w.inputs ++ if w.released then [] else added ok ops := by
  induction ops with
  | nil => intro w; simp [run, added]
  | cons op ops ih =>
    intro w
    show contents (run ok (step ok w op) ops).inputs = _
    rw [ih, step_contents, List.append_assoc]
    congr 1
    by_cases h : op = .release
    · subst h
      simp [step, added, Op.added]
    · rw [step_released ok w op h, added_cons ok op ops h]
      by_cases hr : w.released = true
      · simp [hr]
      · simp [hr]

theorem run_released (ok : S) (ops : List (Op B S)) : ∀ (w : World B S),
    ((run ok w ops).released = true ↔ w.released = true ∨ Op.release ∈ ops) := by
  induction ops with
  | nil => intro w; simp [run]
  | cons op ops ih =>
    intro w
    show (run ok (step ok w op) ops).released = true ↔ _
    rw [ih]
    by_cases h : op = .release
    · subst h
      simp [step]
    · rw [step_released ok w op h, List.mem_cons]
      exact ⟨fun h' => h'.elim .inl fun h' => .inr (.inr h'),
        fun h' => h'.elim .inl fun h' => h'.elim (fun e => absurd e.symm h) .inr⟩

end Verif.StreamChain
