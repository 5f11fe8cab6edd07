import Verif.Lru.Spec

/-! Helper lemmas for C01-C03. -/
namespace Verif.Lru

variable {K V : Type} [DecidableEq K]

@[simp] theorem bytes_nil : bytes ([] : List (K × Entry V)) = 0 := rfl

@[simp] theorem bytes_cons (p : K × Entry V) (l : List (K × Entry V)) :
    bytes (p :: l) = p.2.numBytes + bytes l := by simp [bytes]

@[simp] theorem bytes_append (a b : List (K × Entry V)) :
    bytes (a ++ b) = bytes a + bytes b := by
  induction a with
  | nil => simp
  | cons p a ih => simp [ih]; omega

theorem bytes_erase {d : PyDict K (Entry V)} {k : K} {e : Entry V} (h : d.get? k = some e) :
    bytes (d.erase k) = bytes d - e.numBytes := by
  induction d with
  | nil => simp [PyDict.get?] at h
  | cons p rest ih =>
    obtain ⟨q, w⟩ := p
    by_cases hq : q = k
    · simp [PyDict.get?, hq] at h
      subst h
      simp [PyDict.erase, hq]; omega
    · simp [PyDict.get?, hq] at h
      simp [PyDict.erase, hq, ih h]; omega

/-- Well formed states: the dict has unique keys and `total` is exact. -/
structure Wf (c : Cache K V) : Prop where
  nodup : c.cache.keys.Nodup
  total_eq : c.total = bytes c.cache

theorem init_wf {max : Int} {c : Cache K V} (h : init K V max = .ok c) : Wf c := by
  unfold init at h
  split at h
  · cases h
  · cases h; exact ⟨by simp [PyDict.keys], by simp⟩

theorem get_cache_eq {c : Cache K V} (wf : Wf c) {k : K} {e : Entry V}
    (h : c.cache.get? k = some e) :
    get c k = (some e.value, { c with cache := c.cache.erase k ++ [(k, e)] }) := by
  have := PyDict.set_of_not_mem (PyDict.not_mem_keys_erase wf.nodup k) e
  simp [get, h, this]

theorem wf_move {c : Cache K V} (wf : Wf c) {k : K} {e : Entry V}
    (h : c.cache.get? k = some e) :
    Wf { c with cache := c.cache.erase k ++ [(k, e)] } := by
  have h1 := PyDict.nodup_set (PyDict.nodup_erase wf.nodup k) k e
  rw [PyDict.set_of_not_mem (PyDict.not_mem_keys_erase wf.nodup k)] at h1
  refine ⟨h1, ?_⟩
  have := wf.total_eq
  simp [bytes_erase h]; omega

theorem get_wf {c : Cache K V} (wf : Wf c) (k : K) : Wf (get c k).2 := by
  cases h : c.cache.get? k with
  | none => simp [get, h]; exact wf
  | some e => rw [get_cache_eq wf h]; exact wf_move wf h

/-- The shrink loop started on the actual contents evicts a shortest prefix. -/
theorem shrinkLoop_spec (m : Int) (hm : 0 ≤ m) (l : List (K × Entry V)) (c : Cache K V)
    (hc : c.cache = l) (wf : Wf c) :
    (shrinkLoop m l c).max = c.max ∧ Wf (shrinkLoop m l c) ∧
      ShortestEviction m l (shrinkLoop m l c).cache := by
  induction l generalizing c with
  | nil =>
    refine ⟨rfl, wf, [], by simp [shrinkLoop, hc], by simp [shrinkLoop, hc, hm], ?_⟩
    intro a b hab hb
    simp at hab
    exact absurd hab.2 hb
  | cons p rest ih =>
    obtain ⟨k, e⟩ := p
    unfold shrinkLoop
    by_cases ht : c.total ≤ m
    · simp only [ht, if_true]
      refine ⟨trivial, wf, [], by simp [hc], ?_, ?_⟩
      · have := wf.total_eq; omega
      · intro a b hab hb
        simp at hab
        exact absurd hab.2 hb
    · simp only [ht, if_false]
      have he : c.cache.erase k = rest := by simp [hc, PyDict.erase]
      have hg : c.cache.get? k = some e := by simp [hc, PyDict.get?]
      have wf' : Wf { c with cache := c.cache.erase k, total := c.total - e.numBytes } := by
        refine ⟨PyDict.nodup_erase wf.nodup k, ?_⟩
        simp [bytes_erase hg, wf.total_eq]
      obtain ⟨h1, h2, ev, h3, h4, h5⟩ := ih _ he wf'
      refine ⟨h1, h2, (k, e) :: ev, ?_, h4, ?_⟩
      · rw [List.cons_append, ← h3]
      · intro fewer spared hfs hne
        cases fewer with
        | nil =>
          simp at hfs
          subst hfs
          rw [List.cons_append, ← h3]
          have := wf.total_eq
          rw [hc] at this
          omega
        | cons q fewer =>
          simp at hfs
          exact h5 fewer spared hfs.2 hne

theorem shrink_spec {c : Cache K V} (wf : Wf c) {m : Int} (hm : 0 ≤ m) :
    (shrink c m).max = c.max ∧ Wf (shrink c m) ∧
      ShortestEviction m c.cache (shrink c m).cache := by
  unfold shrink
  by_cases h : c.total ≤ m
  · simp only [h, if_true]
    refine ⟨trivial, wf, [], by simp, ?_, ?_⟩
    · have := wf.total_eq; omega
    · intro a b hab hb
      simp at hab
      exact absurd hab.2 hb
  · simp only [h, if_false]
    exact shrinkLoop_spec m hm c.cache c rfl wf

theorem evicted_keys {m : Int} {l kept : List (K × Entry V)} (h : ShortestEviction m l kept) :
    (PyDict.keys kept).Sublist (PyDict.keys l) := by
  obtain ⟨ev, rfl, _⟩ := h
  simp [PyDict.keys]

/-- `set` of an absent key that fits. -/
theorem set_absent {c : Cache K V} (wf : Wf c) {k : K} (h : c.cache.get? k = none) (v : V)
    {n : Int} (hn : n ≤ c.max) :
    ∃ kept, ShortestEviction (c.max - n) c.cache kept ∧
      set c k v n = (v, { max := c.max, cache := kept ++ [(k, ⟨v, n⟩)],
                          total := bytes kept + n }) ∧
      Wf (set c k v n).2 := by
  obtain ⟨h1, h2, h3⟩ := shrink_spec wf (m := c.max - n) (by omega)
  refine ⟨(shrink c (c.max - n)).cache, h3, ?_⟩
  have hk : k ∉ PyDict.keys (shrink c (c.max - n)).cache := fun hk =>
    (PyDict.get?_none_iff _ _).1 h ((evicted_keys h3).subset hk)
  have hs : set c k v n = (v, ⟨c.max,
      (shrink c (c.max - n)).cache ++ [(k, ⟨v, n⟩)],
      bytes (shrink c (c.max - n)).cache + n⟩) := by
    have hn' : ¬ n > c.max := by omega
    simp only [set, get, h, hn', if_false, PyDict.set_of_not_mem hk, h2.total_eq, h1]
  refine ⟨hs, ?_⟩
  rw [hs]
  refine ⟨?_, by simp⟩
  have := PyDict.nodup_set h2.nodup k (⟨v, n⟩ : Entry V)
  rwa [PyDict.set_of_not_mem hk] at this

theorem set_present {c : Cache K V} (wf : Wf c) {k : K} {e : Entry V}
    (h : c.cache.get? k = some e) (v : V) (n : Int) :
    set c k v n = (e.value, { c with cache := c.cache.erase k ++ [(k, e)] }) := by
  simp [set, get_cache_eq wf h]

theorem set_too_large {c : Cache K V} {k : K} (h : c.cache.get? k = none) (v : V) {n : Int}
    (hn : c.max < n) : set c k v n = (v, c) := by
  have hn' : n > c.max := hn
  simp [set, get, h, hn']

theorem set_wf {c : Cache K V} (wf : Wf c) (k : K) (v : V) (n : Int) : Wf (set c k v n).2 := by
  cases h : c.cache.get? k with
  | some e => rw [set_present wf h]; exact wf_move wf h
  | none =>
    by_cases hn : n ≤ c.max
    · exact (set_absent wf h v hn).choose_spec.2.2
    · rw [set_too_large h v (by omega)]; exact wf

theorem remove_wf {c : Cache K V} (wf : Wf c) (k : K) : Wf (remove c k) := by
  cases h : c.cache.get? k with
  | none => simp [remove, h]; exact wf
  | some e =>
    simp only [remove, h]
    exact ⟨PyDict.nodup_erase wf.nodup k, by simp [bytes_erase h, wf.total_eq]⟩

theorem step_wf {c : Cache K V} (wf : Wf c) (op : Op K V) : Wf (step c op).2 := by
  cases op with
  | get k => exact get_wf wf k
  | set k v n => exact set_wf wf k v n
  | remove k => exact remove_wf wf k
  | clear => exact ⟨by simp [step, clear, PyDict.keys], by simp [step, clear]⟩
  | setMax m =>
    simp only [step, setMax]
    by_cases hm : m < 0
    · simp [hm, wf]
    · simp only [hm, if_false]
      obtain ⟨_, h2, _⟩ := shrink_spec wf (m := m) (by omega)
      exact ⟨h2.nodup, h2.total_eq⟩

theorem run_append (c : Cache K V) (a b : List (Op K V)) : run c (a ++ b) = run (run c a) b := by
  induction a generalizing c with
  | nil => rfl
  | cons x a ih => simp [run, ih]

theorem run_wf {c : Cache K V} (wf : Wf c) (ops : List (Op K V)) : Wf (run c ops) := by
  induction ops generalizing c with
  | nil => exact wf
  | cons op ops ih => exact ih (step_wf wf op)

theorem reachable_wf {c : Cache K V} (h : Reachable c) : Wf c := by
  obtain ⟨max, c₀, ops, h0, rfl⟩ := h
  exact run_wf (init_wf h0) ops

/-- Bounded states: sizes are non-negative and the budget is respected. -/
structure Bounded (c : Cache K V) : Prop where
  wf : Wf c
  sizes : ∀ p ∈ c.cache, 0 ≤ p.2.numBytes
  le : c.total ≤ c.max
  max_nonneg : 0 ≤ c.max

theorem ShortestEviction.mem {m : Int} {l kept : List (K × Entry V)}
    (h : ShortestEviction m l kept) {p : K × Entry V} (hp : p ∈ kept) : p ∈ l := by
  obtain ⟨ev, rfl, _⟩ := h
  exact List.mem_append_right _ hp

theorem bounded_move {c : Cache K V} (b : Bounded c) {k : K} {e : Entry V}
    (h : c.cache.get? k = some e) :
    Bounded { c with cache := c.cache.erase k ++ [(k, e)] } := by
  refine ⟨wf_move b.wf h, ?_, b.le, b.max_nonneg⟩
  intro p hp
  rcases List.mem_append.1 hp with hp | hp
  · exact b.sizes p ((PyDict.erase_sublist _ _).subset hp)
  · simp at hp; subst hp; exact b.sizes _ (PyDict.mem_of_get? h)

theorem step_bounded {c : Cache K V} (b : Bounded c) (op : Op K V)
    (hop : ∀ k v n, op = .set k v n → 0 ≤ n) : Bounded (step c op).2 := by
  cases op with
  | get k =>
    simp only [step]
    cases h : c.cache.get? k with
    | none => simp [get, h]; exact b
    | some e => rw [get_cache_eq b.wf h]; exact bounded_move b h
  | set k v n =>
    simp only [step]
    cases h : c.cache.get? k with
    | some e => rw [set_present b.wf h]; exact bounded_move b h
    | none =>
      by_cases hn : n ≤ c.max
      · obtain ⟨kept, h1, h2, h3⟩ := set_absent b.wf h v hn
        refine ⟨h3, ?_, ?_, ?_⟩
        · intro p hp
          rw [h2] at hp
          rcases List.mem_append.1 hp with hp | hp
          · exact b.sizes p (h1.mem hp)
          · simp at hp; subst hp; exact hop k v n rfl
        · rw [h2]
          obtain ⟨ev, _, hle, _⟩ := h1
          simp; omega
        · rw [h2]; exact b.max_nonneg
      · rw [set_too_large h v (by omega)]; exact b
  | remove k =>
    simp only [step]
    cases h : c.cache.get? k with
    | none => simp [remove, h]; exact b
    | some e =>
      have hw := remove_wf b.wf k
      simp only [remove, h] at hw ⊢
      refine ⟨hw, ?_, ?_, b.max_nonneg⟩
      · intro p hp; exact b.sizes p ((PyDict.erase_sublist _ _).subset hp)
      · have := b.sizes _ (PyDict.mem_of_get? h)
        have := b.le
        simp at *; omega
  | clear =>
    have hw : Wf (step c .clear).2 := step_wf b.wf .clear
    refine ⟨hw, by simp [step, clear], ?_, b.max_nonneg⟩
    simp [step, clear]; exact b.max_nonneg
  | setMax m =>
    have hw := step_wf b.wf (.setMax m)
    simp only [step, setMax] at hw ⊢
    by_cases hm : m < 0
    · simp [hm]; exact b
    · simp only [hm, if_false] at hw ⊢
      obtain ⟨h1, h2, h3⟩ := shrink_spec b.wf (m := m) (by omega)
      refine ⟨hw, ?_, ?_, by simp; omega⟩
      · intro p hp; exact b.sizes p (h3.mem hp)
      · obtain ⟨_, _, hle, _⟩ := h3
        have := h2.total_eq
        simp; omega

theorem run_bounded {c : Cache K V} (b : Bounded c) (ops : List (Op K V)) (h : NonnegSizes ops) :
    Bounded (run c ops) := by
  induction ops generalizing c with
  | nil => exact b
  | cons op ops ih =>
    refine ih (step_bounded b op ?_) ?_
    · rintro k v n rfl; exact h k v n (by simp)
    · intro k v n hm; exact h k v n (by simp [hm])

theorem get?_of_suffix {l ev kept : List (K × Entry V)} (nd : (PyDict.keys l).Nodup)
    (hl : l = ev ++ kept) (k : K) :
    PyDict.get? kept k = none ∨ PyDict.get? kept k = PyDict.get? l k := by
  cases h : PyDict.get? kept k with
  | none => exact .inl rfl
  | some e =>
    right
    symm
    apply PyDict.get?_of_mem nd
    rw [hl]
    exact List.mem_append_right _ (PyDict.mem_of_get? h)

theorem get?_append {a b : PyDict K (Entry V)} (k : K) :
    PyDict.get? (a ++ b) k = (PyDict.get? a k).or (PyDict.get? b k) := by
  induction a with
  | nil => simp [PyDict.get?]
  | cons p a ih =>
    obtain ⟨q, w⟩ := p
    by_cases h : q = k <;> simp [PyDict.get?, h, ih]

theorem get?_move {c : Cache K V} (wf : Wf c) {k : K} {e : Entry V}
    (h : c.cache.get? k = some e) (k' : K) :
    PyDict.get? (c.cache.erase k ++ [(k, e)]) k' = c.cache.get? k' := by
  rw [get?_append]
  by_cases hk : k' = k
  · subst hk
    simp [PyDict.get?_erase_self wf.nodup, PyDict.get?, h]
  · simp [PyDict.get?_erase_ne _ hk, PyDict.get?, Ne.symm hk]

/-- How one call changes what is seen for a key. -/
theorem step_peek {c : Cache K V} (wf : Wf c) (op : Op K V) (k : K) :
    peek (step c op).2 k = none ∨ peek (step c op).2 k = peek c k ∨
      ∃ v n, op = .set k v n ∧ peek c k = none ∧ peek (step c op).2 k = some ⟨v, n⟩ := by
  unfold peek
  cases op with
  | get k' =>
    simp only [step]
    cases h : c.cache.get? k' with
    | none => simp [get, h]
    | some e => rw [get_cache_eq wf h]; right; left; exact get?_move wf h k
  | set k' v n =>
    simp only [step]
    cases h : c.cache.get? k' with
    | some e => rw [set_present wf h]; right; left; exact get?_move wf h k
    | none =>
      by_cases hn : n ≤ c.max
      · obtain ⟨kept, h1, h2, h3⟩ := set_absent wf h v hn
        rw [h2]
        simp only [get?_append]
        obtain ⟨ev, hl, _⟩ := h1
        have hs := get?_of_suffix wf.nodup hl k
        by_cases hk : k = k'
        · subst hk
          right; right
          have : PyDict.get? kept k = none := by
            rcases hs with hs | hs
            · exact hs
            · rw [hs, h]
          exact ⟨v, n, rfl, h, by simp [this, PyDict.get?]⟩
        · rcases hs with hs | hs
          · left; simp [hs, PyDict.get?, Ne.symm hk]
          · right; left; simp [hs, PyDict.get?, Ne.symm hk]
      · rw [set_too_large h v (by omega)]; right; left; rfl
  | remove k' =>
    simp only [step]
    cases h : c.cache.get? k' with
    | none => simp [remove, h]
    | some e =>
      simp only [remove, h]
      by_cases hk : k = k'
      · subst hk; left; exact PyDict.get?_erase_self wf.nodup k
      · right; left; exact PyDict.get?_erase_ne _ hk
  | clear => left; rfl
  | setMax m =>
    simp only [step, setMax]
    by_cases hm : m < 0
    · simp [hm]
    · simp only [hm, if_false]
      obtain ⟨_, _, ev, hl, _⟩ := shrink_spec wf (m := m) (by omega)
      rcases get?_of_suffix wf.nodup hl k with h | h
      · left; exact h
      · right; left; exact h

end Verif.Lru
