import Verif.Dict.HeapLemmas

/-!
The theorems about dicts. The last section runs them on a concrete history.
-/

namespace Verif.Dict

set_option linter.unusedSectionVars false

variable {K V : Type} [DecidableEq K]

/-! ### C26: lookup and listing agree -/

/-- Lookup takes the value of the first layer that has the key. -/
theorem C26_lookup (heap : List (Dict K V)) (d : Nat) (fallbacks : List Nat) (key : K) :
    getWithFallbacks heap d fallbacks key = valueIn (allLayers heap d fallbacks) key ∧
    get heap d key = valueIn (layers heap d) key :=
  ⟨getWithFallbacks_eq heap d fallbacks key, get_eq heap d key⟩

/-- The listed keys are exactly those that lookup finds, each once, and the listed values are the
values that lookup gives, in the order of the keys. -/
theorem C26_keys_and_values (heap : List (Dict K V)) (hw : WF heap) (d : Nat)
    (fallbacks : List Nat) :
    (getKeys heap d fallbacks).Nodup ∧
    (∀ key, key ∈ getKeys heap d fallbacks ↔
      (getWithFallbacks heap d fallbacks key).isSome = true) ∧
    (getValues heap d fallbacks).map some =
      (getKeys heap d fallbacks).map (getWithFallbacks heap d fallbacks) := by
  have hn := nodupMaps_of_wf hw
  refine ⟨keys_nodup heap hn d fallbacks, ?_, (keys_values heap hn d fallbacks).symm⟩
  intro key
  rw [mem_keys heap hn, getWithFallbacks_eq]

/-- Sorted keys are the keys in increasing order, and the values sorted by key are their values,
for every strict order that compares any two of the keys. -/
theorem C26_sorted (c : Cfg K V) (heap : List (Dict K V)) (hw : WF heap) (d : Nat)
    (fallbacks : List Nat)
    (hirrefl : ∀ a ∈ getKeys heap d fallbacks, c.less a a = false)
    (htrans : ∀ x ∈ getKeys heap d fallbacks, ∀ y ∈ getKeys heap d fallbacks,
      ∀ z ∈ getKeys heap d fallbacks, c.less x y = true → c.less y z = true → c.less x z = true)
    (htotal : ∀ x ∈ getKeys heap d fallbacks, ∀ y ∈ getKeys heap d fallbacks, x ≠ y →
      c.less x y = true ∨ c.less y x = true) :
    (getSortedKeys c heap d fallbacks).Perm (getKeys heap d fallbacks) ∧
    (getSortedKeys c heap d fallbacks).Pairwise (fun x y => c.less x y = true) ∧
    (getSortedByKeyValues c heap d fallbacks).map some =
      (getSortedKeys c heap d fallbacks).map (getWithFallbacks heap d fallbacks) := by
  have hn := nodupMaps_of_wf hw
  have ho : OrderOn c.less (getKeys heap d fallbacks) := ⟨hirrefl, htrans, htotal⟩
  have hnd := keys_nodup heap hn d fallbacks
  refine ⟨sort_perm _ _, sort_pairwise _ _ ho hnd, ?_⟩
  unfold getSortedKeys getSortedByKeyValues
  simp only
  rw [← sort_indices c _ hnd ho]
  have hperm := sort_perm (lessAt c (getKeys heap d fallbacks))
    (List.range (getKeys heap d fallbacks).length)
  have hmem : ∀ i ∈ sort (lessAt c (getKeys heap d fallbacks))
      (List.range (getKeys heap d fallbacks).length), i < (getKeys heap d fallbacks).length :=
    fun i hi => List.mem_range.1 (hperm.mem_iff.1 hi)
  generalize sort (lessAt c (getKeys heap d fallbacks))
    (List.range (getKeys heap d fallbacks).length) = is at hmem ⊢
  have hkv := keys_values heap hn d fallbacks
  induction is with
  | nil => rfl
  | cons i is ih =>
    have hi := hmem i List.mem_cons_self
    rw [List.filterMap_cons, List.getElem?_eq_getElem hi]
    simp only [List.map_cons]
    rw [ih (fun j hj => hmem j (List.mem_cons_of_mem _ hj))]
    congr 1
    have h1 : ((getKeys heap d fallbacks).map (getWithFallbacks heap d fallbacks))[i]? =
        ((getValues heap d fallbacks).map some)[i]? := by rw [hkv]
    rw [List.getElem?_map, List.getElem?_map, List.getElem?_eq_getElem hi] at h1
    rw [List.getD_eq_getElem?_getD]
    cases hv : (getValues heap d fallbacks)[i]? with
    | none => rw [hv] at h1; cases h1
    | some v =>
      rw [hv] at h1
      exact (Option.some.inj h1).symm

/-- The keys with present values are the keys whose value is not missing, each once. -/
theorem C26_present_keys (isMissing : V → Bool) (heap : List (Dict K V)) (hw : WF heap) (d : Nat)
    (fallbacks : List Nat) :
    (keysWithPresentValues isMissing heap d fallbacks).Nodup ∧
    ∀ key, key ∈ keysWithPresentValues isMissing heap d fallbacks ↔
      ∃ v, getWithFallbacks heap d fallbacks key = some v ∧ isMissing v = false := by
  have hn := nodupMaps_of_wf hw
  unfold keysWithPresentValues
  have hzip : (getKeys heap d fallbacks).zip (getValues heap d fallbacks) =
      fresh [] (allLayers heap d fallbacks) := by
    unfold getKeys getValues
    rw [getItems_eq heap hn, getItems_eq heap hn, List.zip_map', List.map_congr_left (g := id)]
    · simp
    · intro e _
      rfl
  rw [hzip]
  constructor
  · exact List.Nodup.sublist (List.Sublist.map _ List.filter_sublist)
      (fresh_nodup _ (allLayers_nodup hn d fallbacks) _)
  · intro key
    simp only [List.mem_map, List.mem_filter, Bool.not_eq_true']
    rw [getWithFallbacks_eq]
    constructor
    · rintro ⟨⟨k, v⟩, ⟨h1, h2⟩, rfl⟩
      exact ⟨v, ((mem_fresh _ (allLayers_nodup hn d fallbacks) _ k v).1 h1).2, h2⟩
    · rintro ⟨v, h1, h2⟩
      exact ⟨(key, v), ⟨(mem_fresh _ (allLayers_nodup hn d fallbacks) _ key v).2 ⟨by simp, h1⟩,
        h2⟩, rfl⟩

/-! ### C27: clearing, modified keys, sizes and forks -/

/-- Every dict reads as the plain dict of the same history in which forks are copies; and the
dicts of every history are well formed. -/
theorem C27_histories (c : Cfg K V) (ops : List (Op K V)) (hv : ValidOps 0 [] ops) :
    WF (ops.foldl (step c) []) ∧
    (ops.foldl (step c) []).length = (ops.foldl (specStep c) []).length ∧
    ∀ d key, get (ops.foldl (step c) []) d key =
      ((ops.foldl (specStep c) [])[d]?).bind fun m => m key := by
  obtain ⟨frozen, h⟩ := inv_run c ops [] [] []
    ⟨fun d dict hd => by simp at hd, rfl, fun d k hd => by simp at hd,
      fun d dict p hd => by simp at hd⟩ hv
  refine ⟨h.wf, h.len, ?_⟩
  intro d key
  by_cases hd : d < (ops.foldl (step c) []).length
  · rw [h.agree d key hd, List.getD_eq_getElem?_getD,
      List.getElem?_eq_getElem (by rw [← h.len]; exact hd)]
    rfl
  · rw [List.getElem?_eq_none (by rw [← h.len]; omega), get_rec]
    unfold dataOf parentOf
    rw [List.getElem?_eq_none (by omega)]
    rfl

/-- After clearing, the keys that were defined are defined as missing, so that they hide
fallbacks; the other keys stay undefined. Dicts that do not have it as a parent are unchanged. -/
theorem C27_clear (c : Cfg K V) (heap : List (Dict K V)) (hw : WF heap) (d : Nat)
    (hd : d < heap.length) :
    (∀ key, get (clear c heap d) d key = (get heap d key).map fun _ => c.missing) ∧
    (∀ fallbacks key, (get heap d key).isSome = true →
      getWithFallbacks (clear c heap d) d fallbacks key = some c.missing) ∧
    (∀ key, key ∈ getKeys (clear c heap d) d [] ↔ key ∈ getKeys heap d []) ∧
    ((∀ e, parentOf heap e ≠ some d) → ∀ e key, e ≠ d →
      get (clear c heap d) e key = get heap e key) := by
  have hn := nodupMaps_of_wf hw
  have hself := clear_get_self c heap hn d hd
  refine ⟨hself, ?_, ?_, ?_⟩
  · intro fallbacks key hk
    have : get (clear c heap d) d key = some c.missing := by
      rw [hself key]
      cases hg : get heap d key with
      | none => rw [hg] at hk; cases hk
      | some v => rfl
    rw [getWithFallbacks.eq_def, this]
  · intro key
    have hn' : NodupMaps (clear c heap d) := by
      intro x
      rw [clear_data c heap hn]
      unfold dataOf
      by_cases hx : x = d
      · subst hx
        rw [getElem?_modify_eq, List.getElem?_eq_getElem hd]
        simp only [Option.map_some, List.map_map]
        have : (Prod.fst ∘ fun k : K => (k, c.missing)) = id := rfl
        rw [this, List.map_id]
        exact keys_nodup heap hn x []
      · rw [getElem?_modify_ne _ _ _ _ hx]
        exact hn x
    rw [mem_keys _ hn', mem_keys _ hn, allLayers_nil, allLayers_nil, ← get_eq, ← get_eq, hself key]
    cases get heap d key <;> simp
  · intro hc e key hne
    unfold clear
    exact get_modify_ne heap d e _ (fun e _ => hc e) hne key

/-- `GetOrAssign` returns the value of a defined key and otherwise the given value, which the key
has from then on; keys of unsupported types are missing. -/
theorem C27_get_or_assign (c : Cfg K V) (heap : List (Dict K V)) (d : Nat) (hd : d < heap.length)
    (key : K) (value : V) :
    (c.supported key = false → getOrAssign c heap d key value = (heap, c.missing)) ∧
    (c.supported key = true →
      (getOrAssign c heap d key value).2 = (get heap d key).getD value ∧
      (∀ k, get (getOrAssign c heap d key value).1 d k =
        if k = key then some ((get heap d key).getD value) else get heap d k) ∧
      ((get heap d key).isSome = true → (getOrAssign c heap d key value).1 = heap)) := by
  rw [getOrAssign_eq]
  refine ⟨fun h => by rw [if_neg (by simp [h])], fun h => ?_⟩
  rw [if_pos h]
  cases hg : get heap d key with
  | some v =>
    refine ⟨rfl, ?_, fun _ => rfl⟩
    intro k
    simp only [Option.getD_some]
    split
    · rename_i hk
      rw [hk, hg]
    · rfl
  | none =>
    refine ⟨rfl, ?_, fun h => by cases h⟩
    intro k
    simp only [Option.getD_none]
    rw [assign_get hd]

/-- The size is the number of the listed keys. -/
theorem C27_size (heap : List (Dict K V)) (hw : WF heap) (d : Nat) (fallbacks : List Nat) :
    getDictSize heap d fallbacks = (getKeys heap d fallbacks).length ∧
    getSizeNoFallbacks heap d = (getKeys heap d []).length := by
  have hn := nodupMaps_of_wf hw
  have hsize : ∀ x, getSizeNoFallbacks heap x = (fresh [] (layers heap x)).length := by
    intro x
    unfold getSizeNoFallbacks
    cases hf : findFirstNonEmpty heap x with
    | none =>
      have := fresh_empties (layers heap x) [] (findFirstNonEmpty_none heap x hf) ([] : List K)
      rw [List.append_nil] at this
      rw [this]
      rfl
    | some s =>
      obtain ⟨_, es, h2, h3⟩ := findFirstNonEmpty_some heap x s hf
      rw [before_layers h2, fresh_empties es _ h3]
      simp only
      cases hp : parentOf heap s with
      | none =>
        rw [layers_eq, hp, fresh_head]
        simp [fresh]
      | some p =>
        simp only
        rw [keys_of_items heap hn, allLayers_nil, List.length_map]
  have hkeys : ∀ x, getSizeNoFallbacks heap x = (getKeys heap x []).length := by
    intro x
    rw [hsize, keys_of_items heap hn, allLayers_nil, List.length_map]
  refine ⟨?_, hkeys d⟩
  unfold getDictSize
  split
  · exact hkeys d
  · rename_i fb
    split
    · rename_i h0
      rw [hsize] at h0 ⊢
      rw [keys_of_items heap hn, List.length_map]
      have hempty : ∀ l ∈ layers heap d, l = [] := by
        intro l hl
        cases l with
        | nil => rfl
        | cons e l =>
          have := (mem_fresh_keys (layers heap d) [] e.1).2 ⟨by simp, e :: l, hl, by simp⟩
          rw [List.length_eq_zero_iff.1 h0] at this
          cases this
      have : allLayers heap d [fb] = layers heap d ++ layers heap fb := by
        unfold allLayers
        simp
      rw [this, fresh_empties _ _ hempty]
    · rfl
  · rfl

/-- The keys modified since a parent: the keys of the layers before it, each once. The parent
is compared from its first non-empty layer on; if this is not among the layers of the dict, or if
there is no parent, all keys of the dict are listed. A key that is not listed has in the dict the
value that it has in the parent, or is not in the dict. -/
theorem C27_modified_keys (heap : List (Dict K V)) (hw : WF heap) (d : Nat)
    (parent : Option Nat) :
    (getModifiedKeys heap d parent).Nodup ∧
    (∀ key ∈ getModifiedKeys heap d parent, (get heap d key).isSome = true) ∧
    (∀ key, key ∉ getModifiedKeys heap d parent →
      get heap d key = none ∨ ∃ p, parent = some p ∧ get heap d key = get heap p key) ∧
    (∀ p s empties ls, parent = some p → Before heap s p empties → (∀ l ∈ empties, l = []) →
      dataOf heap s ≠ [] → Before heap s d ls →
      ∀ key, key ∈ getModifiedKeys heap d parent ↔ ∃ l ∈ ls, key ∈ l.map Prod.fst) ∧
    ((∀ p s empties, parent = some p → Before heap s p empties → (∀ l ∈ empties, l = []) →
      dataOf heap s ≠ [] → ¬ ∃ ls, Before heap s d ls) →
      ∀ key, key ∈ getModifiedKeys heap d parent ↔ (get heap d key).isSome = true) := by
  have hn := nodupMaps_of_wf hw
  obtain ⟨ls, hkeys, hnd, hcase⟩ := getModifiedKeys_eq heap hn d parent
  have hmem : ∀ key, key ∈ getModifiedKeys heap d parent ↔ ∃ l ∈ ls, key ∈ l.map Prod.fst := by
    intro key
    rw [hkeys, mem_fresh_keys]
    simp
  have hsome : ∀ (ls : List (List (K × V))) key, (∃ l ∈ ls, key ∈ l.map Prod.fst) ↔
      (valueIn ls key).isSome = true := by
    intro ls key
    have := valueIn_none_iff ls key
    cases hv : valueIn ls key with
    | none =>
      rw [hv] at this
      constructor
      · rintro ⟨l, hl, hk⟩
        exact absurd hk (this.1 rfl l hl)
      · intro h; cases h
    | some v =>
      rw [hv] at this
      refine ⟨fun _ => rfl, fun _ => ?_⟩
      apply Classical.byContradiction
      intro hno
      have := this.2 (fun l hl hk => hno ⟨l, hl, hk⟩)
      cases this
  have hemp : ∀ (es ls : List (List (K × V))) key, (∀ l ∈ es, l = []) →
      valueIn (es ++ ls) key = valueIn ls key := by
    intro es ls key he
    rw [valueIn_append, (valueIn_none_iff es key).2 (fun l hl => by rw [he l hl]; simp)]
    rfl
  -- the first non-empty dict is determined by the layers
  have huniq : ∀ p s empties, Before heap s p empties → (∀ l ∈ empties, l = []) →
      dataOf heap s ≠ [] → findFirstNonEmpty heap p = some s := by
    intro p s empties hb
    induction hb with
    | refl =>
      intro _ hne
      rw [findFirstNonEmpty_eq, if_neg (fun e => hne (List.isEmpty_iff.1 e))]
    | step h1 h2 h3 ih =>
      intro he hne
      rw [findFirstNonEmpty_eq, if_pos (List.isEmpty_iff.2 (he _ List.mem_cons_self)), h2]
      exact ih (fun l hl => he l (List.mem_cons_of_mem _ hl)) hne
  have hbu : ∀ s x (a b : List (List (K × V))), Before heap s x a → Before heap s x b → a = b := by
    intro s x a b ha
    induction ha generalizing b with
    | refl =>
      intro hb
      cases hb with
      | refl => rfl
      | step h _ _ => exact absurd rfl h
    | step h1 h2 _ ih =>
      intro hb
      cases hb with
      | refl => exact absurd rfl h1
      | step _ g2 g3 =>
        rw [h2] at g2
        cases g2
        rw [ih _ g3]
  refine ⟨?_, ?_, ?_, ?_, ?_⟩
  · rw [hkeys]
    exact fresh_nodup _ hnd _
  · intro key hk
    have hv := (hsome ls key).1 ((hmem key).1 hk)
    rw [get_eq]
    rcases hcase with ⟨s, _, es, hb, he⟩ | ⟨_, es, hl, he⟩
    · rw [before_layers hb, List.append_assoc, hemp es _ _ he, valueIn_append]
      cases hx : valueIn ls key with
      | none => rw [hx] at hv; cases hv
      | some v => rfl
    · rw [hl, hemp es _ _ he]
      exact hv
  · intro key hk
    have hv : valueIn ls key = none := by
      cases hx : valueIn ls key with
      | none => rfl
      | some v => exact absurd ((hmem key).2 ((hsome ls key).2 (by rw [hx]; rfl))) hk
    rcases hcase with ⟨s, hs, es, hb, he⟩ | ⟨_, es, hl, he⟩
    · right
      cases hp : parent with
      | none => rw [hp] at hs; cases hs
      | some p =>
        rw [hp] at hs
        obtain ⟨_, es', hb', he'⟩ := findFirstNonEmpty_some heap p s hs
        refine ⟨p, rfl, ?_⟩
        rw [get_eq, get_eq, before_layers hb, before_layers hb', List.append_assoc,
          hemp es _ _ he, hemp es' _ _ he', valueIn_append, hv]
        rfl
    · left
      rw [get_eq, hl, hemp es _ _ he, hv]
  · intro p s empties ls' hp hbp hempty hne hbd key
    have hfind := huniq p s empties hbp hempty hne
    rw [hmem]
    rcases hcase with ⟨s', hs, es, hb, he⟩ | ⟨hno, _⟩
    · rw [hp] at hs
      simp only [Option.bind_some] at hs
      rw [hfind] at hs
      cases hs
      rw [← hbu s d _ _ hb hbd, hsome, hsome, hemp es _ _ he]
    · exact absurd ⟨ls', hbd⟩ (hno s (by rw [hp]; exact hfind))
  · intro hno key
    rw [hmem, hsome, get_eq]
    rcases hcase with ⟨s, hs, es, hb, he⟩ | ⟨_, es, hl, he⟩
    · cases hp : parent with
      | none => rw [hp] at hs; cases hs
      | some p =>
        rw [hp] at hs
        obtain ⟨hne, es', hb', he'⟩ := findFirstNonEmpty_some heap p s hs
        exact absurd ⟨_, hb⟩ (hno p s es' hp hb' he' hne)
    · rw [hl, hemp es _ _ he]

/-! ### A concrete history -/

/-- Keys are numbers, those above 100 unsupported, `none` is the missing item. -/
def exampleCfg : Cfg Nat (Option String) :=
  { missing := none, supported := fun k => k ≤ 100, less := fun a b => a < b }

/-- Dict 0 gets two keys and is forked to dicts 1 and 2; dict 1 overwrites a key and adds one, its
fork 3 is cleared; 4 is forked from the empty dict 2; 5 is new. -/
def exampleOps : List (Op Nat (Option String)) :=
  [.newDicts 1, .set 0 7 (some "a"), .set 0 3 (some "b"), .set 0 101 (some "x"), .forkDict 0 2,
    .set 1 3 (some "c"), .getOrAssign 1 7 (some "d"), .getOrAssign 1 9 (some "e"),
    .forkDicts 1 2, .set 4 5 (some "f"), .clear 3, .newDicts 1, .set 5 8 (some "g")]

def exampleHeap : List (Dict Nat (Option String)) := exampleOps.foldl (step exampleCfg) []

example : ValidOps 0 [] exampleOps := by simp [exampleOps, ValidOps, Op.target, Op.forked]

example : WF exampleHeap :=
  (C27_histories exampleCfg exampleOps (by simp [exampleOps, ValidOps, Op.target, Op.forked])).1

example : getKeys exampleHeap 1 [] = [3, 9, 7] ∧
    getValues exampleHeap 1 [] = [some "c", some "e", some "a"] := by decide +kernel

example : getKeys exampleHeap 3 [4, 5] = [3, 9, 7, 5, 8] ∧
    getValues exampleHeap 3 [4, 5] = [none, none, none, some "f", some "g"] ∧
    getSortedKeys exampleCfg exampleHeap 3 [4, 5] = [3, 5, 7, 8, 9] ∧
    getSortedByKeyValues exampleCfg exampleHeap 3 [4, 5] =
      [none, some "f", none, some "g", none] ∧
    keysWithPresentValues Option.isNone exampleHeap 3 [4, 5] = [5, 8] ∧
    getDictSize exampleHeap 3 [4, 5] = 5 := by decide +kernel

example : getWithFallbacks exampleHeap 3 [4] 3 = some none ∧
    getWithFallbacks exampleHeap 3 [4] 5 = some (some "f") ∧
    getWithFallbacks exampleHeap 3 [4] 6 = none := by decide +kernel

example : getModifiedKeys exampleHeap 1 (some 0) = [3, 9] ∧
    getModifiedKeys exampleHeap 4 (some 2) = [5] ∧
    getModifiedKeys exampleHeap 4 (some 5) = [5, 7, 3] ∧
    getModifiedKeys exampleHeap 2 (some 0) = [] ∧
    getModifiedKeys exampleHeap 1 none = [3, 9, 7] := by decide +kernel

end Verif.Dict
