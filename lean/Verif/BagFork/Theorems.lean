import Verif.BagFork.WorldLemmas

/-!
C25: a fork of a bag is an independent copy although the lists are shared and copied on write.
The specification, with bags that are plain functions, is in `Verif.BagFork.Spec`.
-/

namespace Verif.BagFork

set_option linter.unusedSectionVars false

variable {A L : Type} [DecidableEq A]

/-- After any sequence of calls every bag has exactly the lists that it would have if every fork
had been a full copy. -/
theorem C25_forks_are_copies (c : Cfg A L) (calls : List (Call A L))
    (hv : ∀ call ∈ calls, call.Valid c) :
    let w := calls.foldl (step c) World.init
    let bags := calls.foldl (specStep c.emptyList) []
    w.bags.length = bags.length ∧
    ∀ (b : Nat) (bag : SpecBag A L), bags[b]? = some bag →
      ∀ alloc offset, offset < c.capacity alloc → read w b alloc offset = bag.lists alloc offset := by
  intro w bags
  have h := r_run c calls hv _ _ (r_init c)
  refine ⟨h.len, ?_⟩
  intro b bag hb alloc offset ho
  have hlt : b < w.bags.length := by
    rw [h.len]
    exact (List.getElem?_eq_some_iff.1 hb).1
  obtain ⟨_, sb, _, _, h3, _, h5⟩ := h.bags b _ (List.getElem?_eq_getElem hlt)
  have h3 : bags[b]? = some sb := h3
  rw [hb] at h3
  cases h3
  rw [read_eq, List.getElem?_eq_getElem hlt]
  exact h5 alloc offset ho

/-- The results of the calls: a change fails exactly for bags that do not exist or are
immutable, and `freeze` returns the new copy exactly for mutable bags. -/
theorem C25_results (c : Cfg A L) (calls : List (Call A L)) (hv : ∀ call ∈ calls, call.Valid c)
    (b : Nat) :
    let w := calls.foldl (step c) World.init
    let bags := calls.foldl (specStep c.emptyList) []
    (∀ (alloc : A) offset updateSize (f : L → L), offset < c.capacity alloc →
      ((∃ w', modify c w b alloc offset updateSize f = .ok w') ↔
        ∃ bag, bags[b]? = some bag ∧ bag.isMutable = true)) ∧
    (∀ bag, bags[b]? = some bag →
      (freeze w b).2 = if bag.isMutable then bags.length else b) := by
  intro w bags
  have h := r_run c calls hv _ _ (r_init c)
  refine ⟨?_, ?_⟩
  · intro alloc offset updateSize f ho
    cases hb : w.bags[b]? with
    | none =>
      have hs : bags[b]? = none := spec_none h hb
      rw [hs]
      unfold modify getMutableImpl
      rw [hb]
      constructor
      · rintro ⟨_, e⟩; cases e
      · rintro ⟨_, e, _⟩; cases e
    | some bag =>
      obtain ⟨sb, hsb, hm⟩ := spec_of_bag h hb
      have hsb' : bags[b]? = some sb := hsb
      cases hmut : bag.isMutable with
      | true =>
        obtain ⟨w', h1, _⟩ := r_modify h b bag hb hmut sb hsb alloc offset updateSize ho f
        exact ⟨fun _ => ⟨sb, hsb', hm.trans hmut⟩, fun _ => ⟨w', h1⟩⟩
      | false =>
        constructor
        · rintro ⟨_, e⟩
          unfold modify getMutableImpl at e
          rw [hb] at e
          simp only [hmut] at e
          cases e
        · rintro ⟨sb', e, e2⟩
          rw [hsb'] at e
          cases e
          rw [hm, hmut] at e2
          cases e2
  · intro bag hbag
    have hlt : b < w.bags.length := by
      rw [h.len]
      exact (List.getElem?_eq_some_iff.1 hbag).1
    have hb := List.getElem?_eq_getElem hlt
    obtain ⟨sb, hsb, hm⟩ := spec_of_bag h hb
    have hsb' : bags[b]? = some sb := hsb
    rw [hbag] at hsb'
    cases hsb'
    have hlen : w.bags.length = bags.length := h.len
    unfold freeze
    rw [hb, hm]
    simp only
    cases w.bags[b].isMutable with
    | true => exact hlen
    | false => rfl

/-- The lists of a bag are changed by nothing but changes through this bag: not by changes of a
bag it was forked from, and not by changes of its forks. -/
theorem C25_only_own_changes (c : Cfg A L) (before calls : List (Call A L))
    (hv : ∀ call ∈ before, call.Valid c) (hv' : ∀ call ∈ calls, call.Valid c) (b : Nat)
    (hb : b < (before.foldl (step c) World.init).bags.length)
    (hno : ∀ alloc offset updateSize f, Call.modify b alloc offset updateSize f ∉ calls)
    (alloc : A) (offset : Nat) (ho : offset < c.capacity alloc) :
    read (calls.foldl (step c) (before.foldl (step c) World.init)) b alloc offset =
      read (before.foldl (step c) World.init) b alloc offset := by
  have h := r_run c before hv _ _ (r_init c)
  generalize before.foldl (step c) World.init = w at h hb ⊢
  generalize before.foldl (specStep c.emptyList) [] = sp at h
  -- reads in the model are those of the specification
  have hread : ∀ (w : World A L) (sp : List (SpecBag A L)) (bag : SpecBag A L), R c w sp →
      sp[b]? = some bag → read w b alloc offset = bag.lists alloc offset := by
    intro w sp bag h hbag
    have hlt : b < w.bags.length := by
      rw [h.len]
      exact (List.getElem?_eq_some_iff.1 hbag).1
    obtain ⟨_, sb, _, _, h3, _, h5⟩ := h.bags b _ (List.getElem?_eq_getElem hlt)
    rw [hbag] at h3
    cases h3
    rw [read_eq, List.getElem?_eq_getElem hlt]
    exact h5 alloc offset ho
  -- in the specification the lists stay
  have hspec : ∀ (calls : List (Call A L)),
      (∀ alloc offset updateSize f, Call.modify b alloc offset updateSize f ∉ calls) →
      ∀ (sp : List (SpecBag A L)) (bag : SpecBag A L), sp[b]? = some bag →
      ∃ bag', (calls.foldl (specStep c.emptyList) sp)[b]? = some bag' ∧ bag'.lists = bag.lists := by
    intro calls
    induction calls with
    | nil => exact fun _ sp bag hbag => ⟨bag, hbag, rfl⟩
    | cons call calls ih =>
      intro hno sp bag hbag
      have hbl := (List.getElem?_eq_some_iff.1 hbag).1
      have happ : ∀ x, (sp ++ [x])[b]? = some bag := by
        intro x
        rw [List.getElem?_append_left hbl, hbag]
      have step : ∃ bag', (specStep c.emptyList sp call)[b]? = some bag' ∧ bag'.lists = bag.lists := by
        cases call with
        | newBag m => exact ⟨bag, happ _, rfl⟩
        | fork b' im =>
          simp only [specStep]
          cases sp[b']? with
          | none => exact ⟨bag, hbag, rfl⟩
          | some x => exact ⟨bag, happ _, rfl⟩
        | freeze b' =>
          simp only [specStep]
          cases sp[b']? with
          | none => exact ⟨bag, hbag, rfl⟩
          | some x =>
            simp only
            split
            · exact ⟨bag, happ _, rfl⟩
            · exact ⟨bag, hbag, rfl⟩
        | makeImmutable b' =>
          simp only [specStep]
          cases hb' : sp[b']? with
          | none => exact ⟨bag, hbag, rfl⟩
          | some x =>
            simp only
            rw [getElem?_set_some (List.getElem?_eq_some_iff.1 hb').1]
            split
            · rename_i e
              subst e
              rw [hbag] at hb'
              cases hb'
              exact ⟨_, rfl, rfl⟩
            · exact ⟨bag, hbag, rfl⟩
        | modify b' alloc' offset' n f =>
          have hbb : b' ≠ b := by
            rintro rfl
            exact hno _ _ _ _ List.mem_cons_self
          simp only [specStep]
          cases sp[b']? with
          | none => exact ⟨bag, hbag, rfl⟩
          | some x =>
            simp only
            split
            · rw [List.getElem?_set_ne hbb]
              exact ⟨bag, hbag, rfl⟩
            · exact ⟨bag, hbag, rfl⟩
      obtain ⟨bag', h1, h2⟩ := step
      obtain ⟨bag'', h3, h4⟩ := ih
        (fun a o n f hm => hno a o n f (List.mem_cons_of_mem _ hm)) _ bag' h1
      exact ⟨bag'', h3, h4.trans h2⟩
  have hlt : b < sp.length := h.len ▸ hb
  obtain ⟨bag', h1, h2⟩ := hspec calls hno sp _ (List.getElem?_eq_getElem hlt)
  rw [hread _ _ bag' (r_run c calls hv' w sp h) h1, h2,
    hread w sp _ h (List.getElem?_eq_getElem hlt)]

/-- A call without the hint about the number of lists that will be changed. -/
def Call.noHint : Call A L → Call A L
  | .modify b alloc offset _ f => .modify b alloc offset 0 f
  | call => call

/-- Whether maps or arrays store the lists, and the hints about the size of updates, cannot be
seen. -/
theorem C25_storage_is_invisible (c : Cfg A L) (useArray : Nat → Nat → Bool)
    (calls calls' : List (Call A L)) (hsame : calls.map Call.noHint = calls'.map Call.noHint)
    (hv : ∀ call ∈ calls, call.Valid c) (b : Nat) (alloc : A) (offset : Nat)
    (ho : offset < c.capacity alloc) :
    read (calls'.foldl (step { c with useArray := useArray }) World.init) b alloc offset =
      read (calls.foldl (step c) World.init) b alloc offset := by
  have hspec : ∀ call (sp : List (SpecBag A L)),
      specStep c.emptyList sp (Call.noHint call) = specStep c.emptyList sp call := by
    intro call sp
    cases call <;> rfl
  have hfold : ∀ (calls : List (Call A L)) (sp : List (SpecBag A L)),
      (calls.map Call.noHint).foldl (specStep c.emptyList) sp = calls.foldl (specStep c.emptyList) sp := by
    intro calls
    induction calls with
    | nil => exact fun _ => rfl
    | cons call calls ih =>
      intro sp
      simp only [List.map_cons, List.foldl_cons]
      rw [hspec, ih]
  have hvalid : ∀ (c : Cfg A L) (call : Call A L), call.noHint.Valid c ↔ call.Valid c := by
    intro c call
    cases call <;> exact Iff.rfl
  have hv' : ∀ call ∈ calls', call.Valid { c with useArray := useArray } := by
    intro call hcall
    have hm : call.noHint ∈ calls.map Call.noHint := by
      rw [hsame]
      exact List.mem_map_of_mem hcall
    obtain ⟨call', h1, h2⟩ := List.mem_map.1 hm
    have := (hvalid c call').2 (hv call' h1)
    rw [h2] at this
    have := (hvalid c call).1 this
    cases call <;> exact this
  obtain ⟨hl, h1⟩ := C25_forks_are_copies c calls hv
  obtain ⟨hl', h1'⟩ := C25_forks_are_copies { c with useArray := useArray } calls' hv'
  have he : calls'.foldl (specStep c.emptyList) [] = calls.foldl (specStep c.emptyList) [] := by
    rw [← hfold, ← hsame, hfold]
  simp only at h1' hl'
  rw [he] at h1' hl'
  cases hb : (calls.foldl (specStep c.emptyList) [])[b]? with
  | some bag => rw [h1 b bag hb alloc offset ho, h1' b bag hb alloc offset ho]
  | none =>
    rw [List.getElem?_eq_none_iff] at hb
    have e1 : (calls.foldl (step c) World.init).bags[b]? = none := by
      rw [List.getElem?_eq_none_iff, hl]
      exact hb
    have e2 : (calls'.foldl (step { c with useArray := useArray }) World.init).bags[b]? = none := by
      rw [List.getElem?_eq_none_iff, hl']
      exact hb
    rw [read_eq, read_eq, e1, e2]
    rfl

/-- With fallbacks the list is that of the first bag that has it, and the empty list if none
has. -/
theorem C25_first_present (c : Cfg A L) (w : World A L) (b : Nat) (fallbacks : List Nat) (alloc : A)
    (offset : Nat) :
    getFirstPresentList c w b fallbacks alloc offset =
      ((b :: fallbacks).findSome? fun b => read w b alloc offset).getD c.emptyList := by
  induction fallbacks generalizing b with
  | nil =>
    rw [getFirstPresentList, List.findSome?_cons]
    cases read w b alloc offset <;> rfl
  | cons fb rest ih =>
    rw [getFirstPresentList, List.findSome?_cons]
    cases read w b alloc offset with
    | some l => rfl
    | none => exact ih fb

/-- Two lists of numbers, of an allocation with capacity 5, with the rule of the code for
arrays: first kept in a map, then in an array. -/
def exampleCfg : Cfg Unit (List Nat) := ⟨fun _ => 5, [], shouldUseArray⟩

def exampleCalls : List (Call Unit (List Nat)) :=
  [.newBag true, .modify 0 () 0 1 (· ++ [1]), .fork 0 false, .modify 1 () 0 1 (· ++ [2]),
   .modify 0 () 0 1 (· ++ [3]), .modify 1 () 3 1 (· ++ [4]), .freeze 1, .modify 1 () 3 1 (· ++ [5]),
   .modify 2 () 3 1 (· ++ [6])]

example : (∀ call ∈ exampleCalls, call.Valid exampleCfg) := by
  decide +kernel

example : (List.range 3).map (fun b => [0, 1, 3].map fun o =>
      read (exampleCalls.foldl (step exampleCfg) World.init) b () o) =
    [[some [1, 3], none, none], [some [1, 2], none, some [4, 5]], [some [1, 2], none, some [4]]] := by
  decide +kernel

example : getFirstPresentList exampleCfg (exampleCalls.foldl (step exampleCfg) World.init) 0 [1, 2] ()
    3 = [4, 5] := by decide +kernel

end Verif.BagFork
