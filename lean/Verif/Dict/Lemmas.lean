import Verif.Dict.Spec

namespace Verif.Dict

set_option linter.unusedSectionVars false

variable {K V : Type} [DecidableEq K]

/-! ### Layers -/

theorem layers_eq (heap : List (Dict K V)) (d : Nat) :
    layers heap d = dataOf heap d :: ((parentOf heap d).map (layers heap)).getD [] := by
  rw [layers]
  split <;> rename_i h <;> rw [h] <;> rfl

theorem get_eq (heap : List (Dict K V)) (d : Nat) (k : K) :
    get heap d k = valueIn (layers heap d) k := by
  induction d using Nat.strongRecOn with
  | ind d ih =>
    rw [get, layers_eq]
    unfold valueIn
    rw [List.findSome?_cons]
    cases hl : (dataOf heap d).lookup k with
    | some v => rfl
    | none =>
      simp only
      split
      · rename_i h
        rw [h]
        rfl
      · rename_i p h
        rw [h]
        exact ih p (parentOf_lt h)

theorem lookup_none_iff (l : List (K × V)) (k : K) :
    l.lookup k = none ↔ k ∉ l.map Prod.fst := by
  induction l with
  | nil => simp
  | cons e l ih =>
    obtain ⟨j, v⟩ := e
    rw [List.lookup_cons, List.map_cons, List.mem_cons, not_or]
    by_cases h : k = j
    · subst h
      simp
    · have : (k == j) = false := by simpa using h
      rw [this]
      simp only
      rw [ih]
      exact ⟨fun h' => ⟨h, h'⟩, fun h' => h'.2⟩

theorem lookup_mem_iff (l : List (K × V)) (hn : (l.map Prod.fst).Nodup) (k : K) (v : V) :
    l.lookup k = some v ↔ (k, v) ∈ l := by
  induction l with
  | nil => simp
  | cons e l ih =>
    obtain ⟨j, w⟩ := e
    rw [List.map_cons, List.nodup_cons] at hn
    rw [List.lookup_cons, List.mem_cons]
    by_cases h : k = j
    · subst h
      simp only [BEq.rfl]
      constructor
      · intro e
        injection e with e
        subst e
        exact .inl rfl
      · rintro (e | hm)
        · injection e with _ e
          rw [e]
        · exact absurd (List.mem_map_of_mem hm) hn.1
    · have : (k == j) = false := by simpa using h
      rw [this]
      simp only
      rw [ih hn.2]
      constructor
      · exact .inr
      · rintro (e | hm)
        · injection e with e _
          exact absurd e h
        · exact hm

theorem valueIn_none_iff (ls : List (List (K × V))) (k : K) :
    valueIn ls k = none ↔ ∀ l ∈ ls, k ∉ l.map Prod.fst := by
  unfold valueIn
  rw [List.findSome?_eq_none_iff]
  constructor
  · intro h l hl
    exact (lookup_none_iff l k).1 (h l hl)
  · intro h l hl
    exact (lookup_none_iff l k).2 (h l hl)

theorem valueIn_cons (l : List (K × V)) (ls : List (List (K × V))) (k : K) :
    valueIn (l :: ls) k = (l.lookup k).or (valueIn ls k) := by
  unfold valueIn
  rw [List.findSome?_cons]
  cases l.lookup k <;> rfl

theorem valueIn_append (ls ls' : List (List (K × V))) (k : K) :
    valueIn (ls ++ ls') k = (valueIn ls k).or (valueIn ls' k) := by
  unfold valueIn
  rw [List.findSome?_append]

/-! ### The entries that are not hidden -/

/-- The entries of layers whose keys are not in `seen` or in an earlier layer. -/
def fresh (seen : List K) : List (List (K × V)) → List (K × V)
  | [] => []
  | l :: ls => l.filter (fun e => e.1 ∉ seen) ++ fresh (l.map Prod.fst ++ seen) ls

theorem fresh_congr (ls : List (List (K × V))) (s s' : List K) (h : ∀ k, k ∈ s ↔ k ∈ s') :
    fresh s ls = fresh s' ls := by
  induction ls generalizing s s' with
  | nil => rfl
  | cons l ls ih =>
    unfold fresh
    rw [ih (l.map Prod.fst ++ s) (l.map Prod.fst ++ s')]
    · congr 1
      apply List.filter_congr
      intro e _
      simp only [h]
    · intro k
      simp only [List.mem_append, h]

theorem mem_fresh_keys (ls : List (List (K × V))) (seen : List K) (k : K) :
    k ∈ (fresh seen ls).map Prod.fst ↔ k ∉ seen ∧ ∃ l ∈ ls, k ∈ l.map Prod.fst := by
  induction ls generalizing seen with
  | nil => simp [fresh]
  | cons l ls ih =>
    unfold fresh
    rw [List.map_append, List.mem_append, ih]
    simp only [List.mem_append, not_or, List.mem_cons, exists_eq_or_imp]
    have : k ∈ (l.filter fun e => e.1 ∉ seen).map Prod.fst ↔ k ∈ l.map Prod.fst ∧ k ∉ seen := by
      simp only [List.mem_map, List.mem_filter, decide_eq_true_eq]
      constructor
      · rintro ⟨e, ⟨h1, h2⟩, rfl⟩
        exact ⟨⟨e, h1, rfl⟩, h2⟩
      · rintro ⟨⟨e, h1, rfl⟩, h2⟩
        exact ⟨e, ⟨h1, h2⟩, rfl⟩
    rw [this]
    constructor
    · rintro (⟨h1, h2⟩ | ⟨⟨_, h2⟩, h3⟩)
      · exact ⟨h2, .inl h1⟩
      · exact ⟨h2, .inr h3⟩
    · rintro ⟨h1, h2 | h2⟩
      · exact .inl ⟨h2, h1⟩
      · by_cases hk : k ∈ l.map Prod.fst
        · exact .inl ⟨hk, h1⟩
        · exact .inr ⟨⟨hk, h1⟩, h2⟩

theorem fresh_nodup (ls : List (List (K × V))) (hn : ∀ l ∈ ls, (l.map Prod.fst).Nodup)
    (seen : List K) : ((fresh seen ls).map Prod.fst).Nodup := by
  induction ls generalizing seen with
  | nil => exact List.nodup_nil
  | cons l ls ih =>
    unfold fresh
    rw [List.map_append, List.nodup_append]
    refine ⟨?_, ih (fun l hl => hn l (List.mem_cons_of_mem _ hl)) _, ?_⟩
    · exact List.Nodup.sublist (List.Sublist.map _ List.filter_sublist) (hn l List.mem_cons_self)
    · rintro a ha b hb rfl
      rw [mem_fresh_keys] at hb
      simp only [List.mem_append, not_or] at hb
      apply hb.1.1
      simp only [List.mem_map, List.mem_filter] at ha ⊢
      obtain ⟨e, ⟨h1, _⟩, h2⟩ := ha
      exact ⟨e, h1, h2⟩

theorem mem_fresh (ls : List (List (K × V))) (hn : ∀ l ∈ ls, (l.map Prod.fst).Nodup)
    (seen : List K) (k : K) (v : V) :
    (k, v) ∈ fresh seen ls ↔ k ∉ seen ∧ valueIn ls k = some v := by
  induction ls generalizing seen with
  | nil => simp [fresh, valueIn]
  | cons l ls ih =>
    unfold fresh
    rw [List.mem_append, ih (fun l hl => hn l (List.mem_cons_of_mem _ hl)), valueIn_cons,
      List.mem_filter, ← lookup_mem_iff l (hn l List.mem_cons_self)]
    simp only [List.mem_append, not_or, decide_eq_true_eq]
    rw [← lookup_none_iff]
    cases l.lookup k with
    | some w =>
      constructor
      · rintro (⟨h1, h2⟩ | ⟨⟨h1, _⟩, _⟩)
        · exact ⟨h2, h1⟩
        · cases h1
      · rintro ⟨h1, h2⟩
        exact .inl ⟨h2, h1⟩
    | none =>
      constructor
      · rintro (⟨h1, _⟩ | ⟨⟨_, h1⟩, h2⟩)
        · cases h1
        · exact ⟨h1, h2⟩
      · rintro ⟨h1, h2⟩
        exact .inr ⟨⟨rfl, h1⟩, h2⟩

theorem fresh_nil_cons (seen : List K) (ls : List (List (K × V))) :
    fresh seen ([] :: ls) = fresh seen ls := rfl

theorem fresh_empties (es ls : List (List (K × V))) (h : ∀ l ∈ es, l = []) (seen : List K) :
    fresh seen (es ++ ls) = fresh seen ls := by
  induction es with
  | nil => rfl
  | cons e es ih =>
    rw [h e List.mem_cons_self, List.cons_append, fresh_nil_cons]
    exact ih (fun l hl => h l (List.mem_cons_of_mem _ hl))

theorem fresh_head (l : List (K × V)) (ls : List (List (K × V))) :
    fresh [] (l :: ls) = l ++ fresh (l.map Prod.fst) ls := by
  rw [fresh, List.append_nil]
  congr 1
  rw [List.filter_eq_self]
  intro e _
  simp

/-! ### The collector -/

theorem collectEntries_spec {α : Type} (item : K × V → α) (more : Bool) (l : List (K × V))
    (hn : (l.map Prod.fst).Nodup) (st : Collector K α) :
    let r := collectEntries item more st l
    r.origKeys = st.origKeys ∧
    r.out = st.out ++ (l.filter (fun e => e.1 ∉ st.origKeys ++ st.usedKeys)).map item ∧
    (more = true → ∀ k, k ∈ r.origKeys ++ r.usedKeys ↔
      k ∈ l.map Prod.fst ++ (st.origKeys ++ st.usedKeys)) := by
  induction l generalizing st with
  | nil =>
    refine ⟨rfl, by simp [collectEntries], fun _ k => by simp [collectEntries]⟩
  | cons e l ih =>
    rw [List.map_cons, List.nodup_cons] at hn
    unfold collectEntries
    by_cases h : e.1 ∉ st.origKeys ∧ e.1 ∉ st.usedKeys
    · rw [if_pos h]
      obtain ⟨h1, h2, h3⟩ := ih hn.2
        { st with
          out := st.out ++ [item e]
          usedKeys := if more then e.1 :: st.usedKeys else st.usedKeys }
      refine ⟨h1, ?_, ?_⟩
      · rw [h2]
        have he : (decide (e.1 ∉ st.origKeys ++ st.usedKeys)) = true := by
          simp [h.1, h.2]
        rw [List.filter_cons, he]
        simp only [if_true, List.map_cons, List.append_assoc, List.singleton_append]
        congr 3
        apply List.filter_congr
        intro x hx
        have hne : x.1 ≠ e.1 := fun e' => hn.1 (e' ▸ List.mem_map_of_mem hx)
        cases more <;> simp [hne]
      · intro hm k
        rw [h3 hm k]
        simp only [hm, if_true, List.mem_append, List.mem_cons, List.map_cons]
        constructor
        · rintro (a | a | a | a)
          · exact .inl (.inr a)
          · exact .inr (.inl a)
          · exact .inl (.inl a)
          · exact .inr (.inr a)
        · rintro ((a | a) | a | a)
          · exact .inr (.inr (.inl a))
          · exact .inl a
          · exact .inr (.inl a)
          · exact .inr (.inr (.inr a))
    · rw [if_neg h]
      have hs : e.1 ∈ st.origKeys ++ st.usedKeys := by
        by_cases h1 : e.1 ∈ st.origKeys
        · simp [h1]
        · by_cases h2 : e.1 ∈ st.usedKeys
          · simp [h2]
          · exact absurd ⟨h1, h2⟩ h
      obtain ⟨h1, h2, h3⟩ := ih hn.2 st
      refine ⟨h1, ?_, ?_⟩
      · rw [h2, List.filter_cons]
        have he : (decide (e.1 ∉ st.origKeys ++ st.usedKeys)) = false := by
          rw [decide_eq_false_iff_not]
          exact fun hnot => hnot hs
        rw [he]
        simp
      · intro hm k
        rw [h3 hm k, List.map_cons, List.cons_append, List.mem_cons]
        constructor
        · exact .inr
        · rintro (rfl | a)
          · exact List.mem_append.2 (.inr hs)
          · exact a

/-- The layers along a handle. -/
def layersBy (heap : List (Dict K V)) (getParent : Nat → Option Nat) (d : Nat) :
    List (List (K × V)) :=
  dataOf heap d ::
    match getParent d with
    | none => []
    | some p => if p < d then layersBy heap getParent p else []
termination_by d

theorem layersBy_eq (heap : List (Dict K V)) (gp : Nat → Option Nat)
    (hgp : ∀ d p, gp d = some p → p < d) (d : Nat) :
    layersBy heap gp d = dataOf heap d :: ((gp d).map (layersBy heap gp)).getD [] := by
  rw [layersBy]
  congr 1
  cases h : gp d with
  | none => rfl
  | some p =>
    simp only [Option.map_some, Option.getD_some]
    rw [if_pos (hgp d p h)]

def NodupMaps (heap : List (Dict K V)) : Prop := ∀ d, ((dataOf heap d).map Prod.fst).Nodup

theorem fresh_append (as bs : List (List (K × V))) (seen : List K) :
    fresh seen (as ++ bs) = fresh seen as ++ fresh (as.flatMap (List.map Prod.fst) ++ seen) bs := by
  induction as generalizing seen with
  | nil => rfl
  | cons a as ih =>
    rw [List.cons_append, fresh, fresh, ih, List.append_assoc]
    congr 2
    apply fresh_congr
    intro k
    simp only [List.flatMap_cons, List.mem_append]
    constructor
    · rintro (h | h | h)
      · exact .inl (.inr h)
      · exact .inl (.inl h)
      · exact .inr h
    · rintro ((h | h) | h)
      · exact .inr (.inl h)
      · exact .inl h
      · exact .inr (.inr h)

theorem collectChain_spec {α : Type} (heap : List (Dict K V)) (hw : NodupMaps heap)
    (gp : Nat → Option Nat) (hgp : ∀ d p, gp d = some p → p < d) (item : K × V → α)
    (hasFallbacks : Bool) (d : Nat) (st : Collector K α) :
    let r := collectChain heap gp item hasFallbacks d st
    r.out = st.out ++ (fresh (st.origKeys ++ st.usedKeys) (layersBy heap gp d)).map item ∧
    (hasFallbacks = true → ∀ k, k ∈ r.origKeys ++ r.usedKeys ↔
      k ∈ (layersBy heap gp d).flatMap (List.map Prod.fst) ++ (st.origKeys ++ st.usedKeys)) := by
  induction d using Nat.strongRecOn generalizing st with
  | ind d ih =>
    rw [collectChain, layersBy_eq heap gp hgp]
    obtain ⟨h1, h2, h3⟩ := collectEntries_spec item ((gp d).isSome || hasFallbacks)
      (dataOf heap d) (hw d) st
    cases hg : gp d with
    | none =>
      rw [hg] at h1 h2 h3
      simp only [Option.map_none, Option.getD_none]
      refine ⟨?_, ?_⟩
      · rw [h2]
        simp [fresh]
      · intro hf k
        rw [h3 (by simp [hf]) k]
        simp
    | some p =>
      rw [hg] at h1 h2 h3
      simp only [Option.map_some, Option.getD_some]
      rw [if_pos (hgp d p hg)]
      obtain ⟨g1, g2⟩ := ih p (hgp d p hg)
        (collectEntries item ((some p).isSome || hasFallbacks) st (dataOf heap d))
      refine ⟨?_, ?_⟩
      · rw [g1, h2, fresh, List.map_append, List.append_assoc]
        congr 3
        exact fresh_congr _ _ _ (h3 rfl)
      · intro hf k
        rw [g2 hf k, List.flatMap_cons, List.mem_append, h3 rfl k]
        simp only [List.mem_append]
        constructor
        · rintro (h | h | h)
          · exact .inl (.inr h)
          · exact .inl (.inl h)
          · exact .inr h
        · rintro ((h | h) | h)
          · exact .inr (.inl h)
          · exact .inl h
          · exact .inr (.inr h)

theorem collectFallbacks_spec {α : Type} (heap : List (Dict K V)) (hw : NodupMaps heap)
    (gp : Nat → Option Nat) (hgp : ∀ d p, gp d = some p → p < d) (item : K × V → α)
    (fbs : List Nat) (st : Collector K α) :
    (collectFallbacks heap gp item fbs st).out = st.out ++
      (fresh (st.origKeys ++ st.usedKeys) (fbs.flatMap (layersBy heap gp))).map item := by
  induction fbs generalizing st with
  | nil => simp [collectFallbacks, fresh]
  | cons fb rest ih =>
    rw [collectFallbacks, ih, List.flatMap_cons, fresh_append]
    obtain ⟨g1, g2⟩ := collectChain_spec heap hw gp hgp item (!rest.isEmpty) fb
      { st with usedKeys := st.origKeys ++ st.usedKeys, origKeys := [] }
    rw [g1]
    simp only [List.nil_append, List.map_append, List.append_assoc] at g2 ⊢
    congr 3
    cases rest with
    | nil => rfl
    | cons a b =>
      apply fresh_congr
      intro k
      rw [g2 rfl k]

theorem collect_spec {α : Type} (heap : List (Dict K V)) (hw : NodupMaps heap)
    (gp : Nat → Option Nat) (hgp : ∀ d p, gp d = some p → p < d) (item : K × V → α)
    (dict : Option Nat) (fbs : List Nat) (st : Collector K α) :
    collectLoop heap gp item dict fbs st = st.out ++
      (fresh (st.origKeys ++ st.usedKeys)
        ((dict.map (layersBy heap gp)).getD [] ++ fbs.flatMap (layersBy heap gp))).map item := by
  cases dict with
  | none => exact collectFallbacks_spec heap hw gp hgp item fbs st
  | some d =>
    simp only [collectLoop, Option.map_some, Option.getD_some]
    rw [collectFallbacks_spec heap hw gp hgp, fresh_append]
    obtain ⟨g1, g2⟩ := collectChain_spec heap hw gp hgp item (!fbs.isEmpty) d st
    rw [g1, List.map_append, List.append_assoc]
    congr 3
    cases fbs with
    | nil => rfl
    | cons a b => exact fresh_congr _ _ _ (g2 rfl)

theorem layersBy_parentOf (heap : List (Dict K V)) (d : Nat) :
    layersBy heap (parentOf heap) d = layers heap d := by
  induction d using Nat.strongRecOn with
  | ind d ih =>
    rw [layersBy_eq heap _ (fun d p => parentOf_lt), layers_eq]
    cases h : parentOf heap d with
    | none => rfl
    | some p =>
      simp only [Option.map_some, Option.getD_some]
      rw [ih p (parentOf_lt h)]

/-! ### The first dict that is not empty -/

theorem findFirstNonEmpty_eq (heap : List (Dict K V)) (d : Nat) :
    findFirstNonEmpty heap d = if (dataOf heap d).isEmpty then
      (parentOf heap d).bind (findFirstNonEmpty heap) else some d := by
  rw [findFirstNonEmpty]
  split
  · split <;> rename_i h <;> rw [h] <;> rfl
  · rfl

theorem findFirstNonEmpty_none (heap : List (Dict K V)) (d : Nat)
    (h : findFirstNonEmpty heap d = none) : ∀ l ∈ layers heap d, l = [] := by
  induction d using Nat.strongRecOn with
  | ind d ih =>
    rw [findFirstNonEmpty_eq] at h
    split at h
    · rename_i he
      rw [layers_eq]
      intro l hl
      rcases List.mem_cons.1 hl with rfl | hl
      · exact List.isEmpty_iff.1 he
      · cases hp : parentOf heap d with
        | none => rw [hp] at hl; cases hl
        | some p =>
          rw [hp] at hl h
          exact ih p (parentOf_lt hp) h l hl
    · cases h

theorem findFirstNonEmpty_some (heap : List (Dict K V)) (d s : Nat)
    (h : findFirstNonEmpty heap d = some s) : dataOf heap s ≠ [] ∧
      ∃ es, Before heap s d es ∧ ∀ l ∈ es, l = [] := by
  induction d using Nat.strongRecOn with
  | ind d ih =>
    rw [findFirstNonEmpty_eq] at h
    split at h
    · rename_i he
      cases hp : parentOf heap d with
      | none => rw [hp] at h; cases h
      | some p =>
        rw [hp] at h
        obtain ⟨h1, es, h2, h3⟩ := ih p (parentOf_lt hp) h
        refine ⟨h1, dataOf heap d :: es, .step ?_ hp h2, ?_⟩
        · rintro rfl
          exact h1 (List.isEmpty_iff.1 he)
        · intro l hl
          rcases List.mem_cons.1 hl with rfl | hl
          · exact List.isEmpty_iff.1 he
          · exact h3 l hl
    · rename_i he
      cases h
      exact ⟨fun e => he (List.isEmpty_iff.2 e), [], .refl, by simp⟩

theorem before_layers {heap : List (Dict K V)} {s d : Nat} {ls : List (List (K × V))}
    (h : Before heap s d ls) : layers heap d = ls ++ layers heap s := by
  induction h with
  | refl => rfl
  | step hne hp hb ih =>
    rw [layers_eq, hp]
    simp only [Option.map_some, Option.getD_some]
    rw [ih]
    rfl

/-- Keys and values are the entries that are not hidden. -/
theorem getItems_eq {α : Type} (heap : List (Dict K V)) (hw : NodupMaps heap) (item : K × V → α)
    (d : Nat) (fbs : List Nat) :
    getItems heap item d fbs = (fresh [] (allLayers heap d fbs)).map item := by
  induction fbs generalizing d with
  | nil =>
    rw [getItems]
    unfold allLayers
    simp only [List.flatMap_cons, List.flatMap_nil, List.append_nil]
    cases hf : findFirstNonEmpty heap d with
    | none =>
      simp only
      have := fresh_empties (layers heap d) [] (findFirstNonEmpty_none heap d hf) ([] : List K)
      rw [List.append_nil] at this
      rw [this]
      rfl
    | some s =>
      simp only
      obtain ⟨h1, es, h2, h3⟩ := findFirstNonEmpty_some heap d s hf
      rw [before_layers h2, fresh_empties es _ h3, layers_eq heap s, fresh_head]
      cases hp : parentOf heap s with
      | none => simp [fresh]
      | some p =>
        simp only [Option.isSome_some, Bool.true_or, if_true]
        rw [collect_spec heap hw _ (fun d p => parentOf_lt)]
        simp [layersBy_parentOf]
  | cons fb rest ih =>
    rw [getItems]
    unfold allLayers
    rw [List.flatMap_cons]
    cases hf : findFirstNonEmpty heap d with
    | none =>
      simp only
      rw [ih fb, fresh_empties (layers heap d) _ (findFirstNonEmpty_none heap d hf)]
      rfl
    | some s =>
      simp only [List.isEmpty_cons, Bool.not_false, Bool.or_true, if_true]
      obtain ⟨h1, es, h2, h3⟩ := findFirstNonEmpty_some heap d s hf
      rw [before_layers h2, List.append_assoc, fresh_empties es _ h3, layers_eq heap s,
        List.cons_append, fresh_head, collect_spec heap hw _ (fun d p => parentOf_lt)]
      simp only [List.map_append]
      have : ∀ x, layersBy heap (parentOf heap) x = layers heap x := layersBy_parentOf heap
      have hfun : layersBy heap (parentOf heap) = layers heap := funext this
      rw [hfun, List.append_nil]

theorem nodupMaps_of_wf {heap : List (Dict K V)} (h : WF heap) : NodupMaps heap := by
  intro d
  unfold dataOf
  cases hd : heap[d]? with
  | none => exact List.nodup_nil
  | some dict => exact (h d dict hd).1

theorem layers_nodup {heap : List (Dict K V)} (h : NodupMaps heap) (d : Nat) :
    ∀ l ∈ layers heap d, (l.map Prod.fst).Nodup := by
  induction d using Nat.strongRecOn with
  | ind d ih =>
    rw [layers_eq]
    intro l hl
    rcases List.mem_cons.1 hl with rfl | hl
    · exact h d
    · cases hp : parentOf heap d with
      | none => rw [hp] at hl; cases hl
      | some p =>
        rw [hp] at hl
        exact ih p (parentOf_lt hp) l hl

theorem allLayers_nodup {heap : List (Dict K V)} (h : NodupMaps heap) (d : Nat) (fbs : List Nat) :
    ∀ l ∈ allLayers heap d fbs, (l.map Prod.fst).Nodup := by
  intro l hl
  unfold allLayers at hl
  obtain ⟨x, _, hx⟩ := List.mem_flatMap.1 hl
  exact layers_nodup h x l hx

theorem getWithFallbacks_eq (heap : List (Dict K V)) (d : Nat) (fbs : List Nat) (k : K) :
    getWithFallbacks heap d fbs k = valueIn (allLayers heap d fbs) k := by
  induction fbs generalizing d with
  | nil =>
    rw [getWithFallbacks, get_eq]
    unfold allLayers
    simp only [List.flatMap_cons, List.flatMap_nil, List.append_nil]
    cases valueIn (layers heap d) k <;> rfl
  | cons fb rest ih =>
    rw [getWithFallbacks, get_eq]
    have : allLayers heap d (fb :: rest) = layers heap d ++ allLayers heap fb rest := by
      unfold allLayers
      rw [List.flatMap_cons]
    rw [this, valueIn_append]
    cases valueIn (layers heap d) k with
    | some v => rfl
    | none =>
      simp only [Option.none_or]
      exact ih fb

/-! ### Modified keys -/

theorem parentUntil_lt (heap : List (Dict K V)) (stop : Option Nat) (d p : Nat)
    (h : parentUntil heap stop d = some p) : p < d := by
  unfold parentUntil at h
  split at h
  · cases h
  · exact parentOf_lt h

theorem layersBy_until_in {heap : List (Dict K V)} {s d : Nat} {ls : List (List (K × V))}
    (h : Before heap s d ls) (hne : d ≠ s) : layersBy heap (parentUntil heap (some s)) d = ls := by
  induction h with
  | refl => exact absurd rfl hne
  | @step d p ls _ hp hb ih =>
    rw [layersBy_eq heap _ (parentUntil_lt heap _)]
    unfold parentUntil
    rw [hp]
    by_cases hps : p = s
    · subst hps
      simp only [if_true, Option.map_none, Option.getD_none]
      cases hb with
      | refl => rfl
      | step hne _ _ => exact absurd rfl hne
    · rw [if_neg (fun e => hps (Option.some.inj e))]
      simp only [Option.map_some, Option.getD_some]
      rw [show (fun d => if parentOf heap d = some s then none else parentOf heap d) =
        parentUntil heap (some s) from rfl, ih hps]

theorem layersBy_until_out (heap : List (Dict K V)) (stop : Option Nat) (d : Nat)
    (h : ∀ s, stop = some s → ¬ ∃ ls, Before heap s d ls) :
    layersBy heap (parentUntil heap stop) d = layers heap d := by
  induction d using Nat.strongRecOn with
  | ind d ih =>
    rw [layersBy_eq heap _ (parentUntil_lt heap _), layers_eq]
    congr 1
    unfold parentUntil
    cases hp : parentOf heap d with
    | none =>
      simp
    | some p =>
      have hnb : ∀ s, stop = some s → ¬ ∃ ls, Before heap s p ls := by
        rintro s hs ⟨ls, hls⟩
        by_cases hds : d = s
        · exact h s hs ⟨[], hds ▸ .refl⟩
        · exact h s hs ⟨_, .step hds hp hls⟩
      have : ¬ some p = stop := by
        intro e
        exact hnb p e.symm ⟨[], .refl⟩
      rw [if_neg this]
      simp only [Option.map_some, Option.getD_some]
      exact ih p (parentOf_lt hp) hnb

/-- The layers whose keys `GetModifiedKeys` lists. -/
theorem getModifiedKeys_eq (heap : List (Dict K V)) (hw : NodupMaps heap) (d : Nat)
    (parent : Option Nat) :
    ∃ ls, getModifiedKeys heap d parent = (fresh [] ls).map Prod.fst ∧
      (∀ l ∈ ls, (l.map Prod.fst).Nodup) ∧
      ((∃ s, parent.bind (findFirstNonEmpty heap) = some s ∧ ∃ es, Before heap s d (es ++ ls) ∧
          ∀ l ∈ es, l = []) ∨
        ((∀ s, parent.bind (findFirstNonEmpty heap) = some s → ¬ ∃ ls, Before heap s d ls) ∧
          ∃ es, layers heap d = es ++ ls ∧ ∀ l ∈ es, l = [])) := by
  unfold getModifiedKeys
  cases hf : findFirstNonEmpty heap d with
  | none =>
    refine ⟨[], rfl, by simp, .inr ⟨?_, layers heap d, by simp, findFirstNonEmpty_none heap d hf⟩⟩
    rintro s hs ⟨ls, hb⟩
    have hall := findFirstNonEmpty_none heap d hf
    rw [before_layers hb] at hall
    have hse : dataOf heap s = [] := by
      apply hall
      rw [layers_eq heap s]
      simp
    cases parent with
    | none => cases hs
    | some p => exact (findFirstNonEmpty_some heap p s hs).1 hse
  | some this =>
    obtain ⟨hne, es, hes, hempty⟩ := findFirstNonEmpty_some heap d this hf
    simp only
    generalize hs' : parent.bind (findFirstNonEmpty heap) = stop
    -- what is before `stop` in the chain of `this` is so in the chain of `d`
    have trans : ∀ s x y (a b : List (List (K × V))), Before heap s x b → Before heap x y a →
        (dataOf heap s ≠ []) → (∀ l ∈ a, l = []) → Before heap s y (a ++ b) := by
      intro s x y a b hb ha hsne hempty
      induction ha with
      | refl => exact hb
      | step h1 h2 h3 ih =>
        refine .step ?_ h2 (ih (fun l hl => hempty l (List.mem_cons_of_mem _ hl)))
        rintro rfl
        exact hsne (hempty _ List.mem_cons_self)
    have hstopne : ∀ s, stop = some s → dataOf heap s ≠ [] := by
      intro s hs
      cases parent with
      | none => rw [← hs'] at hs; cases hs
      | some p =>
        rw [← hs'] at hs
        exact (findFirstNonEmpty_some heap p s hs).1
    -- a chain from `d` passes through `this`
    have split : ∀ s ls, stop = some s → Before heap s d ls → ∃ ls', Before heap s this ls' := by
      intro s ls hs hb
      have key : ∀ y (a : List (List (K × V))), Before heap this y a → (∀ l ∈ a, l = []) →
          ∀ ls, Before heap s y ls → ∃ ls', Before heap s this ls' := by
        intro y a ha
        induction ha with
        | refl => exact fun _ ls hb => ⟨ls, hb⟩
        | step h1 h2 h3 ih =>
          intro hempty ls hb
          cases hb with
          | refl => exact absurd (hempty _ List.mem_cons_self) (hstopne s hs)
          | step g1 g2 g3 =>
            rw [h2] at g2
            cases g2
            exact ih (fun l hl => hempty l (List.mem_cons_of_mem _ hl)) _ g3
      exact key d es hes hempty ls hb
    by_cases hts : some this = stop
    · rw [if_pos hts]
      refine ⟨[], rfl, by simp, .inl ⟨this, hts.symm, es, by simpa using hes, hempty⟩⟩
    · rw [if_neg hts]
      have hval : (if parentOf heap this ≠ stop then
          collectLoop heap (parentUntil heap stop) Prod.fst (parentUntil heap stop this) []
            ⟨(dataOf heap this).map Prod.fst, [], (dataOf heap this).map Prod.fst⟩
          else (dataOf heap this).map Prod.fst) =
          (fresh [] (layersBy heap (parentUntil heap stop) this)).map Prod.fst := by
        rw [layersBy_eq heap _ (parentUntil_lt heap _), fresh_head, List.map_append]
        by_cases hp : parentOf heap this = stop
        · rw [if_neg (fun h => h hp)]
          unfold parentUntil
          rw [if_pos hp]
          simp [fresh]
        · rw [if_pos hp, collect_spec heap hw _ (parentUntil_lt heap _)]
          simp
      refine ⟨_, hval, ?_, ?_⟩
      · -- the layers along the handle are maps
        generalize this = x
        induction x using Nat.strongRecOn with
        | ind x ih =>
          rw [layersBy_eq heap _ (parentUntil_lt heap _)]
          intro l hl
          rcases List.mem_cons.1 hl with rfl | hl
          · exact hw x
          · cases hp : parentUntil heap stop x with
            | none => rw [hp] at hl; cases hl
            | some p =>
              rw [hp] at hl
              exact ih p (parentUntil_lt heap _ _ _ hp) l hl
      · by_cases hin : ∃ s, stop = some s ∧ ∃ ls, Before heap s this ls
        · obtain ⟨s, hs, ls, hb⟩ := hin
          refine .inl ⟨s, hs, es, ?_, hempty⟩
          subst hs
          rw [layersBy_until_in hb (fun e => hts (by rw [e]))]
          exact trans s this d es ls hb hes (hstopne s rfl) hempty
        · refine .inr ⟨?_, es, ?_, hempty⟩
          · rintro s hs ⟨ls, hb⟩
            obtain ⟨ls', hb'⟩ := split s ls hs hb
            exact hin ⟨s, hs, ls', hb'⟩
          · rw [layersBy_until_out heap stop this (fun s hs hb => hin ⟨s, hs, hb⟩),
              before_layers hes]

end Verif.Dict
