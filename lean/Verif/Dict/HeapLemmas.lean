import Verif.Dict.Lemmas

namespace Verif.Dict

set_option linter.unusedSectionVars false

variable {K V : Type} [DecidableEq K]

/-! ### Sorting -/

theorem insertSorted_perm {α : Type} (less : α → α → Bool) (x : α) (l : List α) :
    (insertSorted less x l).Perm (x :: l) := by
  induction l with
  | nil => exact .refl _
  | cons y l ih =>
    unfold insertSorted
    split
    · exact (List.Perm.cons y ih).trans (List.Perm.swap x y l)
    · exact .refl _

theorem sort_perm {α : Type} (less : α → α → Bool) (l : List α) : (sort less l).Perm l := by
  induction l with
  | nil => exact .refl _
  | cons x l ih =>
    show (insertSorted less x (sort less l)).Perm (x :: l)
    exact (insertSorted_perm less x _).trans (List.Perm.cons x ih)

/-- A strict order that compares any two of the items of a list. -/
structure OrderOn {α : Type} (less : α → α → Bool) (l : List α) : Prop where
  irrefl : ∀ a ∈ l, less a a = false
  trans : ∀ a ∈ l, ∀ b ∈ l, ∀ c ∈ l, less a b = true → less b c = true → less a c = true
  total : ∀ a ∈ l, ∀ b ∈ l, a ≠ b → less a b = true ∨ less b a = true

theorem OrderOn.sub {α : Type} {less : α → α → Bool} {l l' : List α} (h : OrderOn less l)
    (hs : ∀ a ∈ l', a ∈ l) : OrderOn less l' :=
  ⟨fun a ha => h.irrefl a (hs a ha),
    fun a ha b hb c hc => h.trans a (hs a ha) b (hs b hb) c (hs c hc),
    fun a ha b hb => h.total a (hs a ha) b (hs b hb)⟩

theorem insertSorted_pairwise {α : Type} (less : α → α → Bool) (x : α) (l : List α)
    (ho : OrderOn less (x :: l)) (hx : x ∉ l) (hp : l.Pairwise fun a b => less a b = true) :
    (insertSorted less x l).Pairwise fun a b => less a b = true := by
  induction l with
  | nil => simp [insertSorted]
  | cons y l ih =>
    rw [List.pairwise_cons] at hp
    rw [List.mem_cons, not_or] at hx
    unfold insertSorted
    split
    · rename_i hlt
      rw [List.pairwise_cons]
      refine ⟨?_, ih (ho.sub (by
        intro a ha
        rcases List.mem_cons.1 ha with rfl | ha
        · exact List.mem_cons_self
        · exact List.mem_cons_of_mem _ (List.mem_cons_of_mem _ ha))) hx.2 hp.2⟩
      intro a ha
      rcases List.mem_cons.1 ((insertSorted_perm less x l).mem_iff.1 ha) with rfl | ha
      · exact hlt
      · exact hp.1 a ha
    · rename_i hlt
      have hxy : less x y = true := by
        rcases ho.total x List.mem_cons_self y (by simp) hx.1 with h | h
        · exact h
        · exact absurd h hlt
      rw [List.pairwise_cons]
      refine ⟨?_, List.pairwise_cons.2 hp⟩
      intro a ha
      rcases List.mem_cons.1 ha with rfl | ha
      · exact hxy
      · exact ho.trans x List.mem_cons_self y (by simp) a
          (List.mem_cons_of_mem _ (List.mem_cons_of_mem _ ha)) hxy (hp.1 a ha)

theorem sort_pairwise {α : Type} (less : α → α → Bool) (l : List α) (ho : OrderOn less l)
    (hn : l.Nodup) : (sort less l).Pairwise fun a b => less a b = true := by
  induction l with
  | nil => exact .nil
  | cons x l ih =>
    rw [List.nodup_cons] at hn
    show (insertSorted less x (sort less l)).Pairwise _
    apply insertSorted_pairwise
    · apply ho.sub
      intro a ha
      rcases List.mem_cons.1 ha with rfl | ha
      · exact List.mem_cons_self
      · exact List.mem_cons_of_mem _ ((sort_perm less l).mem_iff.1 ha)
    · exact fun h => hn.1 ((sort_perm less l).mem_iff.1 h)
    · exact ih (ho.sub fun a ha => List.mem_cons_of_mem _ ha) hn.2

/-- Sorting indices by their items and sorting the items give the same. -/
theorem sort_indices (c : Cfg K V) (keys : List K) (hn : keys.Nodup) (ho : OrderOn c.less keys) :
    (sort (lessAt c keys) (List.range keys.length)).filterMap (fun i => keys[i]?) =
      sort c.less keys := by
  have hmem : ∀ i, i ∈ List.range keys.length → ∃ k, keys[i]? = some k ∧ k ∈ keys := by
    intro i hi
    rw [List.mem_range] at hi
    exact ⟨keys[i], List.getElem?_eq_getElem hi, List.getElem_mem hi⟩
  have hoi : OrderOn (lessAt c keys) (List.range keys.length) := by
    refine ⟨?_, ?_, ?_⟩
    · intro a ha
      obtain ⟨k, hk, hm⟩ := hmem a ha
      unfold lessAt
      rw [hk]
      exact ho.irrefl k hm
    · intro a ha b hb d hd h1 h2
      obtain ⟨x, hx, hmx⟩ := hmem a ha
      obtain ⟨y, hy, hmy⟩ := hmem b hb
      obtain ⟨z, hz, hmz⟩ := hmem d hd
      unfold lessAt at h1 h2 ⊢
      rw [hx, hy] at h1
      rw [hy, hz] at h2
      rw [hx, hz]
      exact ho.trans x hmx y hmy z hmz h1 h2
    · intro a ha b hb hne
      obtain ⟨x, hx, hmx⟩ := hmem a ha
      obtain ⟨y, hy, hmy⟩ := hmem b hb
      unfold lessAt
      rw [hx, hy]
      apply ho.total x hmx y hmy
      rintro rfl
      apply hne
      rw [List.mem_range] at ha
      exact (List.getElem?_inj ha hn).1 (hx.trans hy.symm)
  have hp := sort_pairwise _ _ hoi List.nodup_range
  have hperm := sort_perm (lessAt c keys) (List.range keys.length)
  have hall : (List.range keys.length).filterMap (fun i => keys[i]?) = keys := by
    apply List.ext_getElem?
    intro i
    have hlen : ∀ n, n ≤ keys.length →
        (List.range n).filterMap (fun i => keys[i]?) = keys.take n := by
      intro n
      induction n with
      | zero => intro _; rfl
      | succ n ih =>
        intro hle
        rw [List.range_succ, List.filterMap_append, ih (by omega), List.take_add_one]
        congr 1
    rw [hlen keys.length (Nat.le_refl _), List.take_length]
  apply List.Perm.eq_of_pairwise (le := fun a b => c.less a b = true)
  · intro a b ha hb h1 h2
    have hma : a ∈ keys := by
      obtain ⟨i, _, hi⟩ := List.mem_filterMap.1 ha
      exact List.mem_of_getElem? hi
    have hmb : b ∈ keys := (sort_perm c.less keys).mem_iff.1 hb
    have := ho.trans a hma b hmb a hma h1 h2
    rw [ho.irrefl a hma] at this
    cases this
  · rw [List.pairwise_filterMap]
    refine hp.imp ?_
    intro i j hij x hx y hy
    unfold lessAt at hij
    rw [hx, hy] at hij
    exact hij
  · exact sort_pairwise _ _ ho hn
  · have h1 := hperm.filterMap (fun i => keys[i]?)
    rw [hall] at h1
    exact h1.trans (sort_perm c.less keys).symm

/-! ### Changes of the heap -/

theorem dataOf_append (heap xs : List (Dict K V)) (d : Nat) (h : d < heap.length) :
    dataOf (heap ++ xs) d = dataOf heap d := by
  unfold dataOf
  rw [List.getElem?_append_left h]

theorem parentOf_append (heap xs : List (Dict K V)) (d : Nat) (h : d < heap.length) :
    parentOf (heap ++ xs) d = parentOf heap d := by
  unfold parentOf
  rw [List.getElem?_append_left h]

theorem get_rec (heap : List (Dict K V)) (d : Nat) (k : K) :
    get heap d k = ((dataOf heap d).lookup k).or ((parentOf heap d).bind fun p => get heap p k) := by
  rw [get]
  cases hl : (dataOf heap d).lookup k with
  | some v => rfl
  | none =>
    simp only [Option.none_or]
    split <;> rename_i h <;> rw [h] <;> rfl

theorem get_append (heap xs : List (Dict K V)) (d : Nat) (h : d < heap.length) (k : K) :
    get (heap ++ xs) d k = get heap d k := by
  induction d using Nat.strongRecOn with
  | ind d ih =>
    rw [get_rec, get_rec heap, dataOf_append _ _ _ h, parentOf_append _ _ _ h]
    cases hp : parentOf heap d with
    | none => rfl
    | some p =>
      have := parentOf_lt hp
      simp only [Option.bind_some]
      rw [ih p this (by omega)]

theorem getElem?_modify_ne {α : Type} (l : List α) (d x : Nat) (f : α → α) (h : x ≠ d) :
    (l.modify d f)[x]? = l[x]? := by
  rw [List.getElem?_modify]
  cases l[x]? with
  | none => rfl
  | some a =>
    have : ¬ d = x := fun e => h e.symm
    simp [this]

theorem getElem?_modify_eq {α : Type} (l : List α) (d : Nat) (f : α → α) :
    (l.modify d f)[d]? = l[d]?.map f := by
  rw [List.getElem?_modify]
  cases l[d]? <;> simp

theorem get_modify_ne (heap : List (Dict K V)) (d x : Nat) (f : Dict K V → Dict K V)
    (hc : ∀ e, e ≤ x → parentOf heap e ≠ some d) (h : x ≠ d) (k : K) :
    get (heap.modify d f) x k = get heap x k := by
  induction x using Nat.strongRecOn with
  | ind x ih =>
    have h1 : dataOf (heap.modify d f) x = dataOf heap x := by
      unfold dataOf
      rw [getElem?_modify_ne _ _ _ _ h]
    have h2 : parentOf (heap.modify d f) x = parentOf heap x := by
      unfold parentOf
      rw [getElem?_modify_ne _ _ _ _ h]
    rw [get_rec, get_rec heap, h1, h2]
    cases hp : parentOf heap x with
    | none => rfl
    | some p =>
      simp only [Option.bind_some]
      rw [ih p (parentOf_lt hp) (fun e he => hc e (by have := parentOf_lt hp; omega))]
      rintro rfl
      exact hc x (Nat.le_refl _) hp

theorem get_modify_lt (heap : List (Dict K V)) (d x : Nat) (f : Dict K V → Dict K V) (h : x < d)
    (k : K) : get (heap.modify d f) x k = get heap x k := by
  apply get_modify_ne
  · intro e he hp
    have := parentOf_lt hp
    omega
  · omega

theorem get_modify_self (heap : List (Dict K V)) (d : Nat) (f : Dict K V → Dict K V)
    (dict : Dict K V) (hd : heap[d]? = some dict) (hf : (f dict).parent = dict.parent) (k : K) :
    get (heap.modify d f) d k =
      ((f dict).data.lookup k).or ((parentOf heap d).bind fun p => get heap p k) := by
  have h0 : (heap.modify d f)[d]? = some (f dict) := by
    rw [getElem?_modify_eq, hd]
    rfl
  have h1 : dataOf (heap.modify d f) d = (f dict).data := by
    unfold dataOf
    rw [h0]
  have h2 : parentOf (heap.modify d f) d = parentOf heap d := by
    unfold parentOf
    rw [h0, hd]
    simp only [hf]
  rw [get_rec, h1, h2]
  cases hp : parentOf heap d with
  | none => rfl
  | some p =>
    simp only [Option.bind_some]
    rw [get_modify_lt _ _ _ _ (parentOf_lt hp)]

theorem get_modify_root (heap : List (Dict K V)) (d : Nat) (data : List (K × V))
    (hd : d < heap.length) (k : K) :
    get (heap.modify d fun _ => ⟨data, none⟩) d k = data.lookup k := by
  have h0 : (heap.modify d fun _ => (⟨data, none⟩ : Dict K V))[d]? = some ⟨data, none⟩ := by
    rw [getElem?_modify_eq, List.getElem?_eq_getElem hd]
    rfl
  rw [get_rec]
  unfold dataOf parentOf
  rw [h0]
  simp only [Option.bind_none, Option.or_none]

theorem lookup_assign (data : List (K × V)) (key : K) (value : V) (k : K) :
    (assign data key value).lookup k = if k = key then some value else data.lookup k := by
  induction data with
  | nil =>
    unfold assign
    rw [List.lookup_cons]
    by_cases h : k = key
    · subst h
      simp
    · have : (k == key) = false := by simpa using h
      rw [this, if_neg h]
  | cons e rest ih =>
    obtain ⟨j, v⟩ := e
    unfold assign
    by_cases hj : j = key
    · subst hj
      rw [if_pos rfl, List.lookup_cons, List.lookup_cons]
      by_cases h : k = j
      · subst h
        simp
      · have : (k == j) = false := by simpa using h
        rw [this, if_neg h]
    · rw [if_neg hj, List.lookup_cons, List.lookup_cons, ih]
      by_cases h : k = j
      · subst h
        simp [hj]
      · have : (k == j) = false := by simpa using h
        rw [this]

theorem assign_keys (data : List (K × V)) (key : K) (value : V) (k : K) :
    k ∈ (assign data key value).map Prod.fst ↔ k = key ∨ k ∈ data.map Prod.fst := by
  induction data with
  | nil => simp [assign]
  | cons e rest ih =>
    obtain ⟨j, v⟩ := e
    unfold assign
    by_cases hj : j = key
    · subst hj
      rw [if_pos rfl]
      simp only [List.map_cons, List.mem_cons]
      constructor
      · exact fun h => .inr h
      · rintro (h | h)
        · exact .inl h
        · exact h
    · rw [if_neg hj]
      simp only [List.map_cons, List.mem_cons]
      rw [ih]
      constructor
      · rintro (h | h | h)
        · exact .inr (.inl h)
        · exact .inl h
        · exact .inr (.inr h)
      · rintro (h | h | h)
        · exact .inr (.inl h)
        · exact .inl h
        · exact .inr (.inr h)

theorem assign_nodup (data : List (K × V)) (key : K) (value : V)
    (hn : (data.map Prod.fst).Nodup) : ((assign data key value).map Prod.fst).Nodup := by
  induction data with
  | nil => simp [assign]
  | cons e rest ih =>
    obtain ⟨j, v⟩ := e
    rw [List.map_cons, List.nodup_cons] at hn
    unfold assign
    by_cases hj : j = key
    · rw [if_pos hj, List.map_cons, List.nodup_cons]
      exact hn
    · rw [if_neg hj, List.map_cons, List.nodup_cons]
      refine ⟨?_, ih hn.2⟩
      rw [assign_keys]
      rintro (h | h)
      · exact hj h
      · exact hn.1 h

theorem emplace_fold (keys : List K) (missing : V) (hn : keys.Nodup) (acc : List (K × V))
    (hd : ∀ k ∈ keys, k ∉ acc.map Prod.fst) :
    keys.foldl (fun data key => emplace data key missing) acc =
      acc ++ keys.map fun k => (k, missing) := by
  induction keys generalizing acc with
  | nil => simp
  | cons k keys ih =>
    rw [List.nodup_cons] at hn
    rw [List.foldl_cons]
    have he : emplace acc k missing = acc ++ [(k, missing)] := by
      unfold emplace
      rw [(lookup_none_iff acc k).2 (hd k List.mem_cons_self)]
    rw [he, ih hn.2]
    · simp
    · intro x hx
      rw [List.map_append, List.mem_append, not_or]
      refine ⟨hd x (List.mem_cons_of_mem _ hx), ?_⟩
      intro h
      simp only [List.map_cons, List.map_nil, List.mem_singleton] at h
      exact hn.1 (h ▸ hx)

theorem lookup_const (keys : List K) (m : V) (k : K) :
    (keys.map fun k => (k, m)).lookup k = if k ∈ keys then some m else none := by
  induction keys with
  | nil => rfl
  | cons j keys ih =>
    rw [List.map_cons, List.lookup_cons, ih]
    by_cases h : k = j
    · subst h
      simp
    · have : (k == j) = false := by simpa using h
      rw [this]
      simp [h]

theorem allLayers_nil (heap : List (Dict K V)) (d : Nat) : allLayers heap d [] = layers heap d := by
  unfold allLayers
  simp

theorem keys_of_items (heap : List (Dict K V)) (hw : NodupMaps heap) (d : Nat) (fbs : List Nat) :
    getKeys heap d fbs = (fresh [] (allLayers heap d fbs)).map Prod.fst := getItems_eq heap hw _ d fbs

theorem mem_keys (heap : List (Dict K V)) (hw : NodupMaps heap) (d : Nat) (fbs : List Nat) (k : K) :
    k ∈ getKeys heap d fbs ↔ (valueIn (allLayers heap d fbs) k).isSome = true := by
  rw [keys_of_items heap hw, mem_fresh_keys]
  have := valueIn_none_iff (allLayers heap d fbs) k
  cases hv : valueIn (allLayers heap d fbs) k with
  | none =>
    rw [hv] at this
    constructor
    · rintro ⟨_, l, hl, hk⟩
      exact absurd hk (this.1 rfl l hl)
    · intro h
      cases h
  | some v =>
    rw [hv] at this
    constructor
    · exact fun _ => rfl
    · intro _
      refine ⟨by simp, ?_⟩
      apply Classical.byContradiction
      intro hno
      have := this.2 (fun l hl hk => hno ⟨l, hl, hk⟩)
      cases this

theorem keys_nodup (heap : List (Dict K V)) (hw : NodupMaps heap) (d : Nat) (fbs : List Nat) :
    (getKeys heap d fbs).Nodup := by
  rw [keys_of_items heap hw]
  exact fresh_nodup _ (allLayers_nodup hw d fbs) _

theorem keys_values (heap : List (Dict K V)) (hw : NodupMaps heap) (d : Nat) (fbs : List Nat) :
    (getKeys heap d fbs).map (getWithFallbacks heap d fbs) = (getValues heap d fbs).map some := by
  rw [keys_of_items heap hw]
  unfold getValues
  rw [getItems_eq heap hw, List.map_map, List.map_map]
  apply List.map_congr_left
  intro e he
  obtain ⟨k, v⟩ := e
  show getWithFallbacks heap d fbs k = some v
  rw [getWithFallbacks_eq]
  exact ((mem_fresh _ (allLayers_nodup hw d fbs) _ k v).1 he).2

theorem clear_data (c : Cfg K V) (heap : List (Dict K V)) (hw : NodupMaps heap) (d : Nat) :
    clear c heap d =
      heap.modify d fun _ => ⟨(getKeys heap d []).map fun k => (k, c.missing), none⟩ := by
  unfold clear
  simp only
  rw [emplace_fold _ _ (keys_nodup heap hw d []) _ (by simp), List.nil_append]

theorem clear_get_self (c : Cfg K V) (heap : List (Dict K V)) (hw : NodupMaps heap) (d : Nat)
    (hd : d < heap.length) (k : K) :
    get (clear c heap d) d k = (get heap d k).map fun _ => c.missing := by
  rw [clear_data c heap hw, get_modify_root _ _ _ hd, lookup_const, get_eq]
  have := mem_keys heap hw d [] k
  rw [allLayers_nil] at this
  by_cases hk : k ∈ getKeys heap d []
  · rw [if_pos hk]
    have := this.1 hk
    cases hv : valueIn (layers heap d) k with
    | none => rw [hv] at this; cases this
    | some v => rfl
  · rw [if_neg hk]
    cases hv : valueIn (layers heap d) k with
    | none => rfl
    | some v =>
      rw [hv] at this
      exact absurd (this.2 rfl) hk

/-! ### Histories -/

structure Inv (heap : List (Dict K V)) (dicts : List (SpecDict K V)) (frozen : List Nat) : Prop where
  wf : WF heap
  len : heap.length = dicts.length
  agree : ∀ d k, d < heap.length → get heap d k = dicts.getD d .empty k
  parents : ∀ (d : Nat) (dict : Dict K V) p, heap[d]? = some dict → dict.parent = some p → p ∈ frozen

theorem parentOf_frozen {heap : List (Dict K V)} {dicts : List (SpecDict K V)} {frozen : List Nat}
    (h : Inv heap dicts frozen) {d p : Nat} (hp : parentOf heap d = some p) : p ∈ frozen := by
  unfold parentOf at hp
  split at hp
  · cases hp
  · rename_i dict hd
    split at hp
    · cases hp
    · rename_i q hq
      split at hp
      · cases hp
        exact h.parents d dict _ hd hq
      · cases hp

theorem childParent_frozen {heap : List (Dict K V)} {dicts : List (SpecDict K V)}
    {frozen : List Nat} (h : Inv heap dicts frozen) {p q : Nat} (hq : childParent heap p = some q) :
    q = p ∨ q ∈ frozen := by
  unfold childParent at hq
  split at hq
  · exact .inr (parentOf_frozen h hq)
  · cases hq
    exact .inl rfl

theorem childParent_le {heap : List (Dict K V)} {p q : Nat} (hq : childParent heap p = some q) :
    q ≤ p := by
  unfold childParent at hq
  split at hq
  · exact Nat.le_of_lt (parentOf_lt hq)
  · cases hq
    exact Nat.le_refl _

/-- New dicts at the end of the heap, each the child of a dict or of nothing. -/
theorem inv_append {heap : List (Dict K V)} {dicts : List (SpecDict K V)} {frozen : List Nat}
    (h : Inv heap dicts frozen) (ps : List (Option Nat)) (new : List Nat)
    (hps : ∀ p, some p ∈ ps → p < heap.length ∧ p ∈ new) :
    Inv (heap ++ ps.map fun p => ⟨[], p.bind (childParent heap)⟩)
      (dicts ++ ps.map fun p => (p.map fun p => dicts.getD p .empty).getD .empty)
      (new ++ frozen) := by
  have hat : ∀ (d : Nat) (dict : Dict K V),
      (heap ++ ps.map fun p => (⟨[], p.bind (childParent heap)⟩ : Dict K V))[d]? = some dict →
      (d < heap.length ∧ heap[d]? = some dict) ∨ (heap.length ≤ d ∧ ∃ o,
        ps[d - heap.length]? = some o ∧ dict = ⟨[], o.bind (childParent heap)⟩) := by
    intro d dict hd
    by_cases hlt : d < heap.length
    · rw [List.getElem?_append_left hlt] at hd
      exact .inl ⟨hlt, hd⟩
    · rw [List.getElem?_append_right (by omega), List.getElem?_map] at hd
      refine .inr ⟨by omega, ?_⟩
      cases ho : ps[d - heap.length]? with
      | none => rw [ho] at hd; cases hd
      | some o =>
        rw [ho] at hd
        exact ⟨o, rfl, (Option.some.inj hd).symm⟩
  have hpar : ∀ o q, o ∈ ps → o.bind (childParent heap) = some q →
      q < heap.length ∧ q ∈ new ++ frozen := by
    intro o q ho hq
    cases o with
    | none => cases hq
    | some p =>
      obtain ⟨hlt, hin⟩ := hps p ho
      have hle := childParent_le hq
      refine ⟨by omega, ?_⟩
      rcases childParent_frozen h hq with rfl | hf
      · exact List.mem_append.2 (.inl hin)
      · exact List.mem_append.2 (.inr hf)
  refine ⟨?_, ?_, ?_, ?_⟩
  · intro d dict hd
    rcases hat d dict hd with ⟨_, hd⟩ | ⟨hge, o, ho, rfl⟩
    · exact h.wf d dict hd
    · refine ⟨List.nodup_nil, fun q hq => ?_⟩
      have := (hpar o q (List.mem_of_getElem? ho) hq).1
      omega
  · simp [h.len]
  · intro d k hd
    by_cases hlt : d < heap.length
    · rw [get_append _ _ _ hlt, h.agree d k hlt]
      rw [List.getD_eq_getElem?_getD, List.getD_eq_getElem?_getD,
        List.getElem?_append_left (by rw [← h.len]; exact hlt)]
    · rw [List.length_append, List.length_map] at hd
      have hi : d - heap.length < ps.length := by omega
      have hd1 : (heap ++ ps.map fun p => (⟨[], p.bind (childParent heap)⟩ : Dict K V))[d]? =
          some ⟨[], (ps[d - heap.length]).bind (childParent heap)⟩ := by
        rw [List.getElem?_append_right (by omega), List.getElem?_map,
          List.getElem?_eq_getElem hi]
        rfl
      have hm := List.getElem_mem hi
      rw [List.getD_eq_getElem?_getD, List.getElem?_append_right (by rw [← h.len]; omega),
        List.getElem?_map, ← h.len, List.getElem?_eq_getElem hi]
      simp only [Option.map_some, Option.getD_some]
      rw [get_rec]
      have hdata : dataOf (heap ++ ps.map fun p => (⟨[], p.bind (childParent heap)⟩ : Dict K V)) d
          = [] := by
        unfold dataOf
        rw [hd1]
      have hparent : parentOf (heap ++ ps.map fun p =>
          (⟨[], p.bind (childParent heap)⟩ : Dict K V)) d =
          (ps[d - heap.length]).bind (childParent heap) := by
        unfold parentOf
        rw [hd1]
        simp only
        cases hb : (ps[d - heap.length]).bind (childParent heap) with
        | none => rfl
        | some q =>
          simp only
          have := (hpar _ q hm hb).1
          rw [if_pos (by omega)]
      rw [hdata, hparent]
      cases hp : ps[d - heap.length] with
      | none => rfl
      | some p =>
        have hplt : p < heap.length := (hps p (by rw [← hp]; exact hm)).1
        simp only [List.lookup_nil, Option.none_or, Option.bind_some, Option.map_some,
          Option.getD_some]
        rw [← h.agree p k hplt]
        unfold childParent
        split
        · rename_i he
          rw [get_rec heap p, List.isEmpty_iff.1 he]
          simp only [List.lookup_nil, Option.none_or]
          cases hq : parentOf heap p with
          | none => rfl
          | some q =>
            have := parentOf_lt hq
            simp only [Option.bind_some]
            rw [get_append _ _ _ (by omega)]
        · simp only [Option.bind_some]
          rw [get_append _ _ _ hplt]
  · intro d dict p hd hp
    rcases hat d dict hd with ⟨_, hd⟩ | ⟨hge, o, ho, rfl⟩
    · exact List.mem_append.2 (.inr (h.parents d dict p hd hp))
    · exact (hpar o p (List.mem_of_getElem? ho) hp).2

/-- A change of one dict that was not forked. -/
theorem inv_modify {heap : List (Dict K V)} {dicts : List (SpecDict K V)} {frozen : List Nat}
    (h : Inv heap dicts frozen) (d : Nat) (hd : d < heap.length) (hf : d ∉ frozen)
    (f : Dict K V → Dict K V) (g : SpecDict K V → SpecDict K V)
    (hnodup : ∀ dict, heap[d]? = some dict → ((f dict).data.map Prod.fst).Nodup)
    (hparent : ∀ dict : Dict K V, ∀ p, (f dict).parent = some p → dict.parent = some p)
    (hget : ∀ k, get (heap.modify d f) d k = g (dicts.getD d .empty) k) :
    Inv (heap.modify d f) (dicts.modify d g) frozen := by
  have hat : ∀ (x : Nat) (dict : Dict K V), (heap.modify d f)[x]? = some dict →
      (x ≠ d ∧ heap[x]? = some dict) ∨ (x = d ∧ ∃ old, heap[d]? = some old ∧ dict = f old) := by
    intro x dict hx
    by_cases hxd : x = d
    · subst hxd
      rw [getElem?_modify_eq, List.getElem?_eq_getElem hd] at hx
      exact .inr ⟨rfl, heap[x], List.getElem?_eq_getElem hd, (Option.some.inj hx).symm⟩
    · rw [getElem?_modify_ne _ _ _ _ hxd] at hx
      exact .inl ⟨hxd, hx⟩
  refine ⟨?_, ?_, ?_, ?_⟩
  · intro x dict hx
    rcases hat x dict hx with ⟨_, hx⟩ | ⟨rfl, old, hold, rfl⟩
    · exact h.wf x dict hx
    · exact ⟨hnodup old hold, fun p hp => (h.wf x old hold).2 p (hparent old p hp)⟩
  · simp [h.len]
  · intro x k hx
    rw [List.length_modify] at hx
    by_cases hxd : x = d
    · subst hxd
      rw [hget k, List.getD_eq_getElem?_getD, List.getD_eq_getElem?_getD, getElem?_modify_eq, List.getElem?_eq_getElem (by rw [← h.len]; exact hx)]
      rfl
    · rw [get_modify_ne heap d x f (fun e _ hp => hf (parentOf_frozen h hp)) hxd, h.agree x k hx,
        List.getD_eq_getElem?_getD, List.getD_eq_getElem?_getD, getElem?_modify_ne _ _ _ _ hxd]
  · intro x dict p hx hp
    rcases hat x dict hx with ⟨_, hx⟩ | ⟨rfl, old, hold, rfl⟩
    · exact h.parents x dict p hx hp
    · exact h.parents x old p hold (hparent old p hp)

theorem modify_id {α : Type} (l : List α) (d : Nat) (g : α → α)
    (h : ∀ x, l[d]? = some x → g x = x) : l.modify d g = l := by
  apply List.ext_getElem?
  intro i
  by_cases hi : i = d
  · subst hi
    rw [getElem?_modify_eq]
    cases hx : l[i]? with
    | none => rfl
    | some x => simp [h x hx]
  · rw [getElem?_modify_ne _ _ _ _ hi]

theorem assign_get {heap : List (Dict K V)} {d : Nat} (hd : d < heap.length) (key : K) (value : V)
    (k : K) :
    get (heap.modify d fun dict => { dict with data := assign dict.data key value }) d k =
      if k = key then some value else get heap d k := by
  have hget : heap[d]? = some heap[d] := List.getElem?_eq_getElem hd
  rw [get_modify_self heap d _ heap[d] hget rfl]
  simp only
  rw [lookup_assign]
  split
  · rfl
  · rw [get_rec heap d]
    unfold dataOf
    rw [hget]

theorem getOrAssign_eq (c : Cfg K V) (heap : List (Dict K V)) (d : Nat) (key : K) (value : V) :
    getOrAssign c heap d key value =
      if c.supported key = true then
        match get heap d key with
        | some v => (heap, v)
        | none =>
          (heap.modify d fun dict => { dict with data := assign dict.data key value }, value)
      else (heap, c.missing) := by
  unfold getOrAssign
  cases hs : c.supported key with
  | false => rfl
  | true =>
    simp only [Bool.not_true, Bool.false_eq_true, if_false, if_true]
    rw [get_rec]
    cases hp : parentOf heap d with
    | none =>
      cases hl : (dataOf heap d).lookup key with
      | none => rfl
      | some v => rfl
    | some p =>
      simp only [Option.bind_some]
      cases hl : (dataOf heap d).lookup key with
      | none =>
        simp only [Option.none_or]
        all_goals (cases get heap p key <;> rfl)
      | some v => rfl

theorem inv_step (c : Cfg K V) {heap : List (Dict K V)} {dicts : List (SpecDict K V)}
    {frozen : List Nat} (h : Inv heap dicts frozen) (op : Op K V)
    (ht : ∀ d, op.target = some d → d < heap.length ∧ d ∉ frozen)
    (hfk : ∀ d ∈ op.forked, d < heap.length) :
    Inv (step c heap op) (specStep c dicts op) (op.forked ++ frozen) := by
  cases op with
  | newDicts size =>
    have := inv_append h (List.replicate size none) [] (by
      intro p hp
      have := List.eq_of_mem_replicate hp
      cases this)
    simp only [List.map_replicate] at this
    exact this
  | forkDicts first size =>
    have := inv_append h ((List.range' first size).map some) (List.range' first size) (by
      intro p hp
      obtain ⟨q, hq, e⟩ := List.mem_map.1 hp
      cases e
      exact ⟨hfk p hq, hq⟩)
    simp only [List.map_map] at this
    exact this
  | forkDict p size =>
    have := inv_append h (List.replicate size (some p)) [p] (by
      intro q hq
      have := List.eq_of_mem_replicate hq
      cases this
      exact ⟨hfk p (by simp [Op.forked]), by simp⟩)
    simp only [List.map_replicate] at this
    exact this
  | set d key value =>
    obtain ⟨hd, hnf⟩ := ht d rfl
    simp only [step, specStep, Op.forked, List.nil_append]
    unfold set
    cases hs : c.supported key with
    | false =>
      simp only [Bool.not_false, if_true]
      rw [modify_id]
      · exact h
      · intro x _
        funext k
        simp
    | true =>
      simp only [Bool.not_true, Bool.false_eq_true, if_false, true_and]
      apply inv_modify h d hd hnf
      · intro dict hdict
        exact assign_nodup _ _ _ (h.wf d dict hdict).1
      · exact fun dict p hp => hp
      · intro k
        rw [assign_get hd, h.agree d k hd]
  | getOrAssign d key value =>
    obtain ⟨hd, hnf⟩ := ht d rfl
    simp only [step, specStep, Op.forked, List.nil_append]
    rw [getOrAssign_eq]
    cases hs : c.supported key with
    | false =>
      simp only [Bool.false_eq_true, if_false]
      rw [modify_id]
      · exact h
      · intro x _
        funext k
        simp
    | true =>
      simp only [if_true, true_and]
      cases hg : get heap d key with
      | some v =>
        simp only
        rw [modify_id]
        · exact h
        · intro x hx
          funext k
          by_cases hk : k = key
          · subst hk
            have := h.agree d k hd
            rw [hg, List.getD_eq_getElem?_getD, hx] at this
            simp only [Option.getD_some] at this
            rw [← this]
            simp
          · simp [hk]
      | none =>
        simp only
        apply inv_modify h d hd hnf
        · intro dict hdict
          exact assign_nodup _ _ _ (h.wf d dict hdict).1
        · exact fun dict p hp => hp
        · intro k
          rw [assign_get hd, h.agree d k hd]
          by_cases hk : k = key
          · subst hk
            have := h.agree d k hd
            rw [hg] at this
            simp [← this]
          · simp [hk]
  | clear d =>
    obtain ⟨hd, hnf⟩ := ht d rfl
    simp only [step, specStep, Op.forked, List.nil_append]
    have hw := nodupMaps_of_wf h.wf
    have hself := clear_get_self c heap hw d hd
    rw [clear_data c heap hw] at hself ⊢
    apply inv_modify h d hd hnf
    · intro dict _
      simp only [List.map_map]
      have : (Prod.fst ∘ fun k : K => (k, c.missing)) = id := rfl
      rw [this, List.map_id]
      exact keys_nodup heap hw d []
    · intro dict p hp
      cases hp
    · intro k
      rw [hself k, h.agree d k hd]

theorem length_step (c : Cfg K V) (heap : List (Dict K V)) (op : Op K V) :
    (step c heap op).length = heap.length + match op with
      | .newDicts size => size
      | .forkDicts _ size => size
      | .forkDict _ size => size
      | _ => 0 := by
  cases op with
  | newDicts size => simp [step, newDicts]
  | forkDicts first size => simp [step, forkDicts]
  | forkDict p size => simp [step, forkDict]
  | set d key value =>
    simp only [step, set]
    split <;> simp
  | getOrAssign d key value =>
    simp only [step]
    rw [getOrAssign_eq]
    split
    · split <;> simp
    · simp
  | clear d => simp [step, clear]

theorem inv_run (c : Cfg K V) (ops : List (Op K V)) (heap : List (Dict K V))
    (dicts : List (SpecDict K V)) (frozen : List Nat) (h : Inv heap dicts frozen)
    (hv : ValidOps heap.length frozen ops) :
    ∃ frozen', Inv (ops.foldl (step c) heap) (ops.foldl (specStep c) dicts) frozen' := by
  induction ops generalizing heap dicts frozen with
  | nil => exact ⟨frozen, h⟩
  | cons op ops ih =>
    obtain ⟨h1, h2, h3⟩ := hv
    rw [List.foldl_cons, List.foldl_cons]
    apply ih _ _ _ (inv_step c h op h1 h2)
    rw [length_step]
    exact h3

end Verif.Dict
