import Verif.Lru.Lemmas

/-!
C01-C03: properties of `LruSizeTrackingCache`
(`/repo/py/koladata/ext/storage/lru_size_tracking_cache.py`).
-/
namespace Verif.Lru

variable {K V : Type} [DecidableEq K]

/-! ### C01 -/

/-- C01: the constructor rejects exactly the negative budgets and otherwise makes
an empty cache with the given budget. -/
theorem C01_constructor (max : Int) :
    (max < 0 → init K V max = .error .valueError) ∧
    (0 ≤ max → ∃ c₀, init K V max = .ok c₀ ∧ getMax c₀ = max ∧ getTotal c₀ = 0 ∧
      ∀ k, (get c₀ k).1 = none) := by
  constructor
  · intro h; simp [init, h]
  · intro h
    have h' : ¬ max < 0 := by omega
    exact ⟨⟨max, [], 0⟩, by simp [init, h'], rfl, rfl, fun k => rfl⟩

/-- C01: in every reachable state `get_total_bytes_of_entries_in_cache()` is the
sum of the estimates of the entries held (each key counted once), and `get k`
finds a value exactly when an entry for `k` is held. -/
theorem C01_accounting_exact {c : Cache K V} (h : Reachable c) :
    getTotal c = bytes c.cache ∧ c.cache.keys.Nodup ∧
      ∀ k v, (get c k).1 = some v ↔ ∃ n, (k, (⟨v, n⟩ : Entry V)) ∈ c.cache := by
  have wf := reachable_wf h
  refine ⟨wf.total_eq, wf.nodup, ?_⟩
  intro k v
  constructor
  · intro hg
    cases hk : c.cache.get? k with
    | none => simp [get, hk] at hg
    | some e =>
      simp [get, hk] at hg
      exact ⟨e.numBytes, by rw [← hg]; exact PyDict.mem_of_get? hk⟩
  · rintro ⟨n, hm⟩
    simp [get, PyDict.get?_of_mem wf.nodup hm]

/-- C01: with non-negative estimates the total never exceeds the maximum that
was last set, for every initial budget and every history of calls. -/
theorem C01_budget_respected {max : Int} {c₀ : Cache K V} (h0 : init K V max = .ok c₀)
    (ops : List (Op K V)) (hn : NonnegSizes ops) :
    0 ≤ getTotal (run c₀ ops) ∧ getTotal (run c₀ ops) ≤ getMax (run c₀ ops) := by
  have hb : Bounded c₀ := by
    have hw := init_wf h0
    unfold init at h0
    split at h0
    · cases h0
    · cases h0
      exact ⟨hw, by simp, by simp; omega, by simp; omega⟩
  have b := run_bounded hb ops hn
  refine ⟨?_, b.le⟩
  have hs : ∀ (l : List (K × Entry V)), (∀ p ∈ l, 0 ≤ p.2.numBytes) → 0 ≤ bytes l := by
    intro l
    induction l with
    | nil => intro _; simp
    | cons p l ih =>
      intro hl
      have h1 := hl p (by simp)
      have h2 := ih fun q hq => hl q (by simp [hq])
      simp; omega
  show 0 ≤ (run c₀ ops).total
  rw [b.wf.total_eq]
  exact hs _ b.sizes

/-- C01: the maximum reported is the constructor argument or the last
successfully set one. -/
theorem C01_max_is_last_set (c : Cache K V) (op : Op K V) :
    getMax (step c op).2 = match op with
      | .setMax m => if m < 0 then getMax c else m
      | _ => getMax c := by
  have hloop : ∀ (m : Int) (l : List (K × Entry V)) (c : Cache K V),
      (shrinkLoop m l c).max = c.max := by
    intro m l
    induction l with
    | nil => intro c; rfl
    | cons p l ih => intro c; unfold shrinkLoop; split
                     · rfl
                     · rw [ih]
  have hshrink : ∀ (m : Int) (c : Cache K V), (shrink c m).max = c.max := by
    intro m c; unfold shrink; split
    · rfl
    · exact hloop _ _ _
  have hget : ∀ (k : K) (c : Cache K V), (get c k).2.max = c.max := by
    intro k c; unfold get; split <;> rfl
  cases op with
  | get k => exact hget k c
  | set k v n =>
    simp only [step, set, getMax]
    have hg := hget k c
    cases hgk : get c k with
    | mk o c' =>
      rw [hgk] at hg
      cases o with
      | some e => simpa using hg
      | none =>
        simp only
        split
        · simpa using hg
        · simp only [hshrink]; exact hg
  | remove k => simp only [step, remove, getMax]; split <;> rfl
  | clear => rfl
  | setMax m =>
    simp only [step, setMax, getMax]
    by_cases hm : m < 0 <;> simp [hm]

/-! ### C02 -/

/-- C02: inserting a new key that fits evicts exactly the shortest run of least
recently used entries, keeps the order of the rest, and makes the new entry the
most recently used one. -/
theorem C02_insert_evicts_shortest_lru_run {c : Cache K V} (h : Reachable c) {k : K}
    (hk : peek c k = none) (v : V) {n : Int} (hn : n ≤ getMax c) :
    ∃ kept, ShortestEviction (getMax c - n) c.cache kept ∧
      (step c (.set k v n)).2.cache = kept ++ [(k, ⟨v, n⟩)] := by
  obtain ⟨kept, h1, h2, _⟩ := set_absent (reachable_wf h) hk v hn
  exact ⟨kept, h1, by simp [step, h2]⟩

/-- C02: lowering (or raising) the budget evicts exactly the shortest run of
least recently used entries. -/
theorem C02_set_max_evicts_shortest_lru_run {c : Cache K V} (h : Reachable c) {m : Int}
    (hm : 0 ≤ m) :
    ShortestEviction m c.cache (step c (.setMax m)).2.cache ∧
      (step c (.setMax m)).1 = .unit := by
  obtain ⟨_, _, h3⟩ := shrink_spec (reachable_wf h) hm
  have hm' : ¬ m < 0 := by omega
  simp only [step, setMax, hm', if_false]
  exact ⟨h3, trivial⟩

/-- C02: nothing is evicted when everything already fits: the shortest run is
then empty. -/
theorem C02_no_needless_eviction {m : Int} {l kept : List (K × Entry V)}
    (hfit : bytes l ≤ m) (h : ShortestEviction m l kept) : kept = l := by
  obtain ⟨ev, hl, _, hmin⟩ := h
  cases ev with
  | nil => simpa using hl.symm
  | cons p ev =>
    have := hmin [] (p :: ev) rfl (by simp)
    rw [← hl] at this
    omega

/-- C02: `get` and `set` of a present key move it to the most recently used end
and keep the order of all other entries; `get` of an absent key, and `set` of an
absent key that cannot fit, change nothing. -/
theorem C02_access_makes_most_recent {c : Cache K V} (h : Reachable c) (k : K) :
    (∀ e, peek c k = some e → ∀ v n,
      (step c (.get k)).2 = { c with cache := c.cache.erase k ++ [(k, e)] } ∧
      (step c (.set k v n)).2 = { c with cache := c.cache.erase k ++ [(k, e)] }) ∧
    (peek c k = none → (step c (.get k)).2 = c ∧
      ∀ v n, getMax c < n → (step c (.set k v n)).2 = c) := by
  refine ⟨?_, ?_⟩
  · intro e he v n
    exact ⟨by simp [step, get_cache_eq (reachable_wf h) he],
      by simp [step, set_present (reachable_wf h) he]⟩
  · intro hn
    exact ⟨by simp only [peek] at hn; simp [step, get, hn],
      fun v n hmax => by simp [step, set_too_large hn v hmax]⟩

/-- C02: `remove` takes out exactly the entry of its key, `clear` all entries,
a rejected `set_max` nothing. -/
theorem C02_remove_clear_and_rejected (c : Cache K V) :
    (∀ k, (step c (.remove k)).2.cache = c.cache.erase k) ∧
    (step c .clear).2.cache = [] ∧
    (∀ m, m < 0 → step c (.setMax m) = (.raised .valueError, c)) := by
  refine ⟨?_, rfl, ?_⟩
  · intro k
    cases h : c.cache.get? k with
    | none =>
      simp [step, remove, h, PyDict.erase_of_not_mem ((PyDict.get?_none_iff _ _).1 h)]
    | some e => simp [step, remove, h]
  · intro m hm; simp [step, setMax, hm]

/-! ### C03 -/

/-- C03: whatever is found for `k` was stored by a `set k v n` that found `k`
absent, and since that call `k` has been present with that same value without
interruption. -/
theorem C03_get_returns_first_write {max : Int} {c₀ : Cache K V} (h0 : init K V max = .ok c₀)
    (ops : List (Op K V)) {k : K} {v : V} {n : Int}
    (h : peek (run c₀ ops) k = some ⟨v, n⟩) :
    ∃ before after, ops = before ++ .set k v n :: after ∧
      peek (run c₀ before) k = none ∧
      ∀ mid rest, after = mid ++ rest →
        peek (run c₀ (before ++ .set k v n :: mid)) k = some ⟨v, n⟩ := by
  have key : ∀ (r : List (Op K V)) , peek (run c₀ r.reverse) k = some ⟨v, n⟩ →
      ∃ before after, r.reverse = before ++ .set k v n :: after ∧
      peek (run c₀ before) k = none ∧
      ∀ mid rest, after = mid ++ rest →
        peek (run c₀ (before ++ .set k v n :: mid)) k = some ⟨v, n⟩ := by
    intro r
    induction r with
    | nil =>
      intro h
      unfold init at h0
      split at h0
      · cases h0
      · cases h0; simp [run, peek, PyDict.get?] at h
    | cons op r ih =>
      intro h
      simp only [List.reverse_cons] at h ⊢
      have h' := h
      rw [run_append] at h
      have hw := run_wf (init_wf h0) r.reverse
      simp only [run] at h
      rcases step_peek hw op k with h1 | h1 | ⟨v', n', hop, habs, hnew⟩
      · rw [h1] at h; cases h
      · rw [h1] at h
        obtain ⟨before, after, e, hb, hall⟩ := ih h
        refine ⟨before, after ++ [op], by simp [e], hb, ?_⟩
        intro mid rest hmr
        rcases List.eq_nil_or_concat rest with hr | ⟨rest', x, hr⟩
        · subst hr
          simp at hmr
          subst hmr
          have : before ++ Op.set k v n :: (after ++ [op]) = r.reverse ++ [op] := by simp [e]
          rw [this]; exact h'
        · subst hr
          have : after = mid ++ rest' := by
            have h2 := congrArg List.dropLast hmr
            simpa [← List.append_assoc] using h2
          exact hall mid rest' this
      · rw [hnew] at h
        cases h
        refine ⟨r.reverse, [], by simp [hop], habs, ?_⟩
        intro mid rest hmr
        have : mid = [] := by
          cases mid with
          | nil => rfl
          | cons a b => simp at hmr
        subst this
        rw [← hop]; exact h'
  have := key ops.reverse (by simpa using h)
  simpa using this

/-- C03: `get` and `set` return the value held; a `set` of an absent key returns
its own argument. -/
theorem C03_results {c : Cache K V} (h : Reachable c) (k : K) :
    (∀ e, peek c k = some e → (step c (.get k)).1 = .got (some e.value) ∧
        ∀ v n, (step c (.set k v n)).1 = .stored e.value) ∧
    (peek c k = none → (step c (.get k)).1 = .got none ∧
        ∀ v n, (step c (.set k v n)).1 = .stored v) := by
  have wf := reachable_wf h
  refine ⟨?_, ?_⟩
  · intro e he
    exact ⟨by simp [step, get_cache_eq wf he], fun v n => by simp [step, set_present wf he]⟩
  · intro hn
    refine ⟨by simp only [peek] at hn; simp [step, get, hn], ?_⟩
    intro v n
    by_cases hle : n ≤ getMax c
    · obtain ⟨_, _, h2, _⟩ := set_absent wf hn v hle
      simp [step, h2]
    · simp only [getMax] at hle
      simp [step, set_too_large hn v (show c.max < n by omega)]

/-- C03: a `set` of an absent key that fits is seen by a following `get`; after
`remove` or `clear` the key is absent. -/
theorem C03_set_then_present {c : Cache K V} (h : Reachable c) {k : K} (v : V) (n : Int) :
    (peek c k = none → n ≤ getMax c → peek (step c (.set k v n)).2 k = some ⟨v, n⟩) ∧
    peek (step c (.remove k)).2 k = none ∧ peek (step c .clear).2 k = none := by
  have wf := reachable_wf h
  refine ⟨?_, ?_, rfl⟩
  · intro hk hn
    obtain ⟨kept, h1, h2, h3⟩ := set_absent wf hk v hn
    simp only [peek, step]
    apply PyDict.get?_of_mem h3.nodup
    rw [h2]; simp
  · simp only [peek]
    rw [(C02_remove_clear_and_rejected c).1 k]
    exact PyDict.get?_erase_self wf.nodup k

/-- C03: a call never changes what is seen for another key, other than by
evicting it. -/
theorem C03_other_keys_unchanged_or_evicted {c : Cache K V} (h : Reachable c) (op : Op K V) (k : K)
    (hop : ∀ v n, op ≠ .set k v n) :
    peek (step c op).2 k = peek c k ∨ peek (step c op).2 k = none := by
  rcases step_peek (reachable_wf h) op k with h1 | h1 | ⟨v, n, h1, _⟩
  · exact .inr h1
  · exact .inl h1
  · exact absurd h1 (hop v n)

/-! ### Concrete cases -/

/-- A history that inserts three entries, touches the oldest, and then inserts a
fourth one that forces two evictions. -/
def exampleOps : List (Op String Nat) :=
  [.set "a" 1 4, .set "b" 2 3, .set "c" 3 3, .get "a", .set "b" 9 1, .set "d" 4 6]

def exampleCache : Cache String Nat := ⟨10, [], 0⟩

example : init String Nat 10 = .ok exampleCache := rfl
example : NonnegSizes exampleOps := by
  intro k v n h; simp [exampleOps] at h; omega
example : Reachable (run exampleCache exampleOps) := ⟨10, exampleCache, exampleOps, rfl, rfl⟩
example : run exampleCache exampleOps =
    ⟨10, [("b", ⟨2, 3⟩), ("d", ⟨4, 6⟩)], 9⟩ := by decide
example : peek (run exampleCache exampleOps) "b" = some ⟨2, 3⟩ := by decide
example : peek (run exampleCache (exampleOps.take 5)) "d" = none := by decide
example : (step (run exampleCache exampleOps) (.setMax (-1))).1 = .raised .valueError := by decide

end Verif.Lru
