import Verif.CacheFn.Lemmas

/-!
C04: `cache_fn` is transparent
(`/repo/py/koladata/caching/lru_cache.py`, `/repo/py/koladata/caching/clib.cc`).
-/
namespace Verif.CacheFn

variable {F A V K C : Type}

/-! ### Specification -/

/-- `is_hit_fn` returns a mask of the shape of its argument. -/
def MasksAligned (e : Env F A V K) : Prop :=
  ∀ f g, e.isHit f = some g → ∀ xs, (g xs).length = xs.length

/-- No two (function, argument) pairs share a cache key. -/
def KeysDistinct (e : Env F A V K) : Prop :=
  ∀ f a f' a', e.key f a = e.key f' a' → f = f' ∧ a = a'

/-- The cached value of position `i` is used: there is one, and `is_hit_fn`, if
given, accepts it. -/
def HitAt (e : Env F A V K) (l : Lru C K V) (c : C) (f : F) (args : List (Option A)) (i : Nat) :
    Prop :=
  (∃ a v, args[i]? = some a ∧ l.peek c (e.key f a) = some v) ∧
    ∀ g, e.isHit f = some g → (g (args.map fun a => l.peek c (e.key f a)))[i]? = some true

/-- The returned slice agrees with a direct call on every present item, and is
either what a direct call gives or missing for a missing item. -/
def AgreesWithFn (fn : Option A → Option V) (args : List (Option A)) (res : List (Option V)) :
    Prop :=
  res.length = args.length ∧
  (∀ (i : Nat) (a : A), args[i]? = some (some a) → res[i]? = some (fn (some a))) ∧
  (∀ i : Nat, args[i]? = some none → res[i]? = some none ∨ res[i]? = some (fn none))

/-! ### Proofs about one call -/

section
variable (e : Env F A V K) (l : Lru C K V)

private theorem cached_iff (hm : MasksAligned e) (c : C) (f : F) (args : List (Option A)) (i : Nat)
    (v : V) :
    (filterHits (e.isHit f) (args.map fun a => l.peek c (e.key f a)))[i]? = some (some v) ↔
      (∃ a, args[i]? = some a ∧ l.peek c (e.key f a) = some v) ∧ HitAt e l c f args i := by
  rw [getElem?_filterHits_iff (hm f)]
  simp only [HitAt, List.getElem?_map, Option.map_eq_some_iff]
  constructor
  · rintro ⟨⟨a, h1, h2⟩, h3⟩
    exact ⟨⟨a, h1, h2⟩, ⟨a, v, h1, h2⟩, h3⟩
  · rintro ⟨⟨a, h1, h2⟩, _, h3⟩
    exact ⟨⟨a, h1, h2⟩, h3⟩

private theorem cached_none (hm : MasksAligned e) (c : C) (f : F) (args : List (Option A)) (i : Nat)
    (hi : i < args.length) :
    (filterHits (e.isHit f) (args.map fun a => l.peek c (e.key f a)))[i]? = some none ↔
      ¬ HitAt e l c f args i := by
  have hlen := length_filterHits (hm f) (args.map fun a => l.peek c (e.key f a))
  simp only [List.length_map] at hlen
  have hlt : i < (filterHits (e.isHit f) (args.map fun a => l.peek c (e.key f a))).length := by
    omega
  constructor
  · intro hn hh
    obtain ⟨⟨a, v, h1, h2⟩, h3⟩ := id hh
    have := (cached_iff e l hm c f args i v).2 ⟨⟨a, h1, h2⟩, hh⟩
    rw [hn] at this; cases this
  · intro hh
    rw [List.getElem?_eq_getElem hlt]
    cases hv : (filterHits (e.isHit f) (args.map fun a => l.peek c (e.key f a)))[i] with
    | none => rfl
    | some v =>
      exfalso; apply hh
      refine ((cached_iff e l hm c f args i v).1 ?_).2
      rw [List.getElem?_eq_getElem hlt, hv]

private theorem uncached_args (hm : MasksAligned e) (c : C) (f : F) (args : List (Option A)) (i : Nat) :
    ((HitAt e l c f args i) → (applyMask args
      ((filterHits (e.isHit f) (args.map fun a => l.peek c (e.key f a))).map (·.isNone)))[i]?
        = some none) ∧
    (¬ (HitAt e l c f args i) → (applyMask args
      ((filterHits (e.isHit f) (args.map fun a => l.peek c (e.key f a))).map (·.isNone)))[i]?
        = args[i]?) := by
  constructor
  · intro hh
    obtain ⟨⟨a, v, h1, h2⟩, h3⟩ := id hh
    have := (cached_iff e l hm c f args i v).2 ⟨⟨a, h1, h2⟩, hh⟩
    simp [applyMask, List.getElem?_zipWith, h1, this]
  · intro hh
    by_cases hi : i < args.length
    · have := (cached_none e l hm c f args i hi).2 hh
      simp [applyMask, List.getElem?_zipWith, List.getElem?_eq_getElem hi, this]
    · have : args[i]? = none := List.getElem?_eq_none (by omega)
      simp [applyMask, List.getElem?_zipWith, this]

private theorem uncached_length (hm : MasksAligned e) (c : C) (f : F) (args : List (Option A)) :
    (applyMask args
      ((filterHits (e.isHit f) (args.map fun a => l.peek c (e.key f a))).map (·.isNone))).length
        = args.length := by
  have hlen := length_filterHits (hm f) (args.map fun a => l.peek c (e.key f a))
  simp only [List.length_map] at hlen
  simp [applyMask, hlen]

private theorem isEmpty_get {α : Type} {xs : List (Option α)} (h : isEmpty xs = true) {i : Nat}
    {x : Option α} (hx : xs[i]? = some x) : x = none := by
  simp only [isEmpty, List.all_eq_true] at h
  have := h _ (List.mem_of_getElem? hx)
  simpa using this

/-- The plan of a call against a consistent cache gives a correct result. -/
private theorem plan_agrees (hm : MasksAligned e) {c : C} (hc : Consistent e l c) (f : F)
    (args : List (Option A)) :
    AgreesWithFn (e.fn f) args
      (plan e f args (args.map fun a => l.peek c (e.key f a))).res := by
  have hlen := length_filterHits (hm f) (args.map fun a => l.peek c (e.key f a))
  simp only [List.length_map] at hlen
  have hul := uncached_length e l hm c f args
  -- the value at position i, in either case
  have key : ∀ i a, args[i]? = some a →
      (HitAt e l c f args i ∧
        (plan e f args (args.map fun a => l.peek c (e.key f a))).res[i]? = some (e.fn f a)) ∨
      (¬ HitAt e l c f args i ∧
        ((plan e f args (args.map fun a => l.peek c (e.key f a))).res[i]? = some (e.fn f a) ∨
          (a = none ∧
            (plan e f args (args.map fun a => l.peek c (e.key f a))).res[i]? = some none))) := by
    intro i a ha
    have hi : i < args.length := by
      rw [List.getElem?_eq_some_iff] at ha; exact ha.1
    by_cases hh : HitAt e l c f args i
    · left
      refine ⟨hh, ?_⟩
      obtain ⟨⟨a', v, h1, h2⟩, h3⟩ := id hh
      rw [ha] at h1; cases h1
      have hcv := (cached_iff e l hm c f args i v).2 ⟨⟨a, ha, h2⟩, hh⟩
      have hfv := hc f a v h2
      unfold plan
      simp only
      split
      · simp only [hcv, hfv]
      · have hua := (uncached_args e l hm c f args i).1 hh
        simp [coalesce, List.getElem?_zipWith, hcv, hua, hfv]
    · right
      refine ⟨hh, ?_⟩
      have hcv := (cached_none e l hm c f args i hi).2 hh
      have hua := (uncached_args e l hm c f args i).2 hh
      rw [ha] at hua
      unfold plan
      simp only
      split
      · rename_i he
        right
        exact ⟨isEmpty_get he hua, hcv⟩
      · left
        simp [coalesce, List.getElem?_zipWith, hcv, hua]
  refine ⟨?_, ?_, ?_⟩
  · unfold plan
    simp only
    split
    · exact hlen
    · simp [coalesce, hlen, hul]
  · intro i a ha
    rcases key i _ ha with ⟨_, h⟩ | ⟨_, h | ⟨h, _⟩⟩
    · exact h
    · exact h
    · cases h
  · intro i ha
    rcases key i _ ha with ⟨_, h⟩ | ⟨_, h | ⟨_, h⟩⟩
    · exact .inr h
    · exact .inr h
    · exact .inl h

/-- What a call is going to store is exactly the accepted results of the
positions that were not hits. -/
private theorem plan_puts (hm : MasksAligned e) (c : C) (f : F) (args : List (Option A))
    (k : K) (v : V) :
    (k, v) ∈ (plan e f args (args.map fun a => l.peek c (e.key f a))).puts ↔
      ∃ ua, (plan e f args (args.map fun a => l.peek c (e.key f a))).called = some ua ∧
        ∃ (i : Nat) (a : Option A), args[i]? = some a ∧ ¬ HitAt e l c f args i ∧
          k = e.key f a ∧ e.fn f a = some v ∧
          ∀ g, e.isHit f = some g → (g (ua.map (e.fn f)))[i]? = some true := by
  unfold plan
  simp only
  split
  · simp
  · simp only [Option.some.injEq, exists_eq_left']
    rw [mem_putsOf_iff]
    constructor
    · rintro ⟨i, h1, h2⟩
      rw [getElem?_filterHits_iff (hm f)] at h2
      obtain ⟨h2, h3⟩ := h2
      simp only [applyMask, List.getElem?_zipWith, List.getElem?_map] at h1
      cases ha : args[i]? with
      | none => simp [ha] at h1
      | some a =>
        have hi : i < args.length := by rw [List.getElem?_eq_some_iff] at ha; exact ha.1
        have hh : ¬ HitAt e l c f args i := by
          intro hh
          obtain ⟨⟨a', w, g1, g2⟩, g3⟩ := id hh
          have hcv := (cached_iff e l hm c f args i w).2 ⟨⟨a', g1, g2⟩, hh⟩
          simp [ha, hcv] at h1
        have hua := (uncached_args e l hm c f args i).2 hh
        have hcv := (cached_none e l hm c f args i hi).2 hh
        refine ⟨i, a, ha, hh, ?_, ?_, h3⟩
        · simp [ha, hcv] at h1; exact h1.symm
        · rw [List.getElem?_map, hua, ha] at h2
          simpa using h2
    · rintro ⟨i, a, ha, hh, rfl, hv, h3⟩
      have hi : i < args.length := by rw [List.getElem?_eq_some_iff] at ha; exact ha.1
      have hua := (uncached_args e l hm c f args i).2 hh
      have hcv := (cached_none e l hm c f args i hi).2 hh
      refine ⟨i, ?_, ?_⟩
      · simp [applyMask, List.getElem?_zipWith, ha, hcv]
      · rw [getElem?_filterHits_iff (hm f)]
        refine ⟨?_, h3⟩
        rw [List.getElem?_map, hua, ha]
        simp [hv]

end

/-- The invariant of an execution. -/
private structure Inv (e : Env F A V K) (l : Lru C K V) (s : Sys F A V K C) : Prop where
  cache : Consistent e l s.cache
  busy : ∀ t f args called puts res, s.threads t = .busy f args called puts res →
    AgreesWithFn (e.fn f) args res ∧ ∀ k v, (k, v) ∈ puts → ∃ a, k = e.key f a ∧ e.fn f a = some v
  returned : ∀ r ∈ s.returned, AgreesWithFn (e.fn r.f) r.args r.res

private theorem inv_step (e : Env F A V K) (l : Lru C K V) (hl : LruLaws l) (hm : MasksAligned e)
    (hk : KeysDistinct e) (s : Sys F A V K C) (h : Inv e l s) (act : Act F A) :
    Inv e l (step e l s act) := by
  cases act with
  | clear =>
    refine ⟨?_, h.busy, h.returned⟩
    intro f a v hv
    simp only [step] at hv
    rw [hl.peek_empty] at hv; cases hv
  | call t f args =>
    simp only [step]
    cases hts : s.threads t with
    | busy => exact h
    | idle =>
      simp only
      obtain ⟨h1, h2⟩ := getAll_fst l hl s.cache (args.map (e.key f))
      have h1' : (getAll l s.cache (args.map (e.key f))).1 =
          args.map fun a => l.peek s.cache (e.key f a) := by
        rw [h1, List.map_map]; rfl
      refine ⟨?_, ?_, h.returned⟩
      · intro f' a v hv
        rw [h2] at hv
        exact h.cache f' a v hv
      · intro t' f' args' called puts res ht'
        simp only [setThread] at ht'
        split at ht'
        · cases ht'
          rw [h1']
          refine ⟨plan_agrees e l hm h.cache f args, ?_⟩
          intro k v hkv
          obtain ⟨ua, _, i, a, _, _, hk', hv, _⟩ := (plan_puts e l hm s.cache f args k v).1 hkv
          exact ⟨a, hk', hv⟩
        · exact h.busy t' f' args' called puts res ht'
  | put t =>
    simp only [step]
    cases hts : s.threads t with
    | idle => exact h
    | busy f args called puts res =>
      cases puts with
      | nil => exact h
      | cons kv puts =>
        obtain ⟨k, v⟩ := kv
        have hb := h.busy t f args called _ res hts
        refine ⟨?_, ?_, h.returned⟩
        · intro f' a' v' hv'
          rcases hl.peek_put s.cache k v (e.key f' a') with h1 | h1 | ⟨h1, h2⟩
          · rw [h1] at hv'; cases hv'
          · rw [h1] at hv'; exact h.cache f' a' v' hv'
          · rw [h2] at hv'; cases hv'
            obtain ⟨a, h3, h4⟩ := hb.2 k v (by simp)
            obtain ⟨rfl, rfl⟩ := hk _ _ _ _ (h1.trans h3)
            exact h4
        · intro t' f' args' called' puts' res' ht'
          simp only [setThread] at ht'
          split at ht'
          · cases ht'
            exact ⟨hb.1, fun k' v' h' => hb.2 k' v' (by simp [h'])⟩
          · exact h.busy t' _ _ _ _ _ ht'
  | ret t =>
    simp only [step]
    cases hts : s.threads t with
    | idle => exact h
    | busy f args called puts res =>
      cases puts with
      | cons => exact h
      | nil =>
        refine ⟨h.cache, ?_, ?_⟩
        · intro t' f' args' called' puts' res' ht'
          simp only [setThread] at ht'
          split at ht'
          · cases ht'
          · exact h.busy t' _ _ _ _ _ ht'
        · intro r hr
          rcases List.mem_append.1 hr with hr | hr
          · exact h.returned r hr
          · simp at hr; subst hr
            exact (h.busy t _ _ _ _ _ hts).1

private theorem inv_run (e : Env F A V K) (l : Lru C K V) (hl : LruLaws l) (hm : MasksAligned e)
    (hk : KeysDistinct e) (acts : List (Act F A)) : Inv e l (run e l acts) := by
  have h0 : Inv e l (initSys l) := by
    refine ⟨?_, ?_, ?_⟩
    · intro f a v hv
      simp only [initSys] at hv
      rw [hl.peek_empty] at hv; cases hv
    · intro t f args called puts res ht; simp [initSys] at ht
    · intro r hr; simp [initSys] at hr
  have : ∀ s, Inv e l s → Inv e l (acts.foldl (step e l) s) := by
    induction acts with
    | nil => intro s h; exact h
    | cons a acts ih => intro s h; exact ih _ (inv_step e l hl hm hk s h a)
  exact this _ h0

/-! ### C04 -/

/-- C04: in every interleaving of calls of any number of decorated functions
sharing one cache, whatever the cache has evicted, every returned slice agrees
with a direct call at every present argument (and at a missing argument it is
what a direct call gives, or missing). -/
theorem C04_agrees_on_present_arguments (e : Env F A V K) (l : Lru C K V) (hl : LruLaws l)
    (hm : MasksAligned e) (hk : KeysDistinct e) (acts : List (Act F A)) :
    ∀ r ∈ (run e l acts).returned, AgreesWithFn (e.fn r.f) r.args r.res :=
  (inv_run e l hl hm hk acts).returned

/-- C04: for functions that map missing to missing the cache is invisible. -/
theorem C04_transparent (e : Env F A V K) (l : Lru C K V) (hl : LruLaws l)
    (hm : MasksAligned e) (hk : KeysDistinct e) (hstrict : ∀ f, e.fn f none = none)
    (acts : List (Act F A)) :
    ∀ r ∈ (run e l acts).returned, r.res = r.args.map (e.fn r.f) := by
  intro r hr
  obtain ⟨h1, h2, h3⟩ := (inv_run e l hl hm hk acts).returned r hr
  apply List.ext_getElem?
  intro i
  rw [List.getElem?_map]
  cases ha : r.args[i]? with
  | none =>
    have : r.args.length ≤ i := by simpa using ha
    simp [List.getElem?_eq_none (show r.res.length ≤ i by omega)]
  | some a =>
    cases a with
    | some a => simp [h2 i a ha]
    | none => rcases h3 i ha with h | h <;> simp [h, hstrict]

/-- C04: which positions `fn` is called on. A call that starts when the cache is
`s.cache` passes to `fn` its arguments with exactly the hit positions masked out;
`fn` is not called at all exactly if every present argument is a hit. -/
theorem C04_called_exactly_on_misses (e : Env F A V K) (l : Lru C K V) (hl : LruLaws l)
    (hm : MasksAligned e) (s : Sys F A V K C) (t : Nat) (f : F) (args : List (Option A))
    (hidle : s.threads t = .idle) :
    ∃ called puts res,
      (step e l s (.call t f args)).threads t = .busy f args called puts res ∧
      (called = none ↔ ∀ (i : Nat) (a : A), args[i]? = some (some a) → HitAt e l s.cache f args i) ∧
      (∀ ua, called = some ua → ua.length = args.length ∧ ∀ i : Nat, i < args.length →
        (HitAt e l s.cache f args i → ua[i]? = some none) ∧
        (¬ HitAt e l s.cache f args i → ua[i]? = args[i]?)) := by
  obtain ⟨h1, h2⟩ := getAll_fst l hl s.cache (args.map (e.key f))
  have h1' : (getAll l s.cache (args.map (e.key f))).1 =
      args.map fun a => l.peek s.cache (e.key f a) := by
    rw [h1, List.map_map]; rfl
  refine ⟨(plan e f args (getAll l s.cache (args.map (e.key f))).1).called,
    (plan e f args (getAll l s.cache (args.map (e.key f))).1).puts,
    (plan e f args (getAll l s.cache (args.map (e.key f))).1).res,
    by simp only [step, hidle, setThread, if_true], ?_, ?_⟩
  · rw [h1']
    unfold plan
    simp only
    split
    · rename_i he
      simp only [true_iff]
      intro i a ha
      refine Classical.byContradiction fun hh => ?_
      have := (uncached_args e l hm s.cache f args i).2 hh
      rw [ha] at this
      have := isEmpty_get he this
      cases this
    · rename_i he
      simp only [reduceCtorEq, false_iff]
      intro hall
      apply he
      simp only [isEmpty, List.all_eq_true]
      intro x hx
      obtain ⟨i, hi, rfl⟩ := List.mem_iff_getElem.1 hx
      rw [uncached_length e l hm s.cache f args] at hi
      by_cases hh : HitAt e l s.cache f args i
      · have := (uncached_args e l hm s.cache f args i).1 hh
        rw [List.getElem?_eq_some_iff] at this
        obtain ⟨_, h⟩ := this
        simp [h]
      · have := (uncached_args e l hm s.cache f args i).2 hh
        rw [List.getElem?_eq_getElem hi, List.getElem?_eq_some_iff] at this
        obtain ⟨_, h⟩ := this
        rw [h]
        cases hv : args[i] with
        | none => rfl
        | some a =>
          exact absurd (hall i a (by rw [List.getElem?_eq_getElem hi, hv])) hh
  · intro ua hua
    rw [h1'] at hua
    unfold plan at hua
    simp only at hua
    split at hua
    · cases hua
    · cases hua
      exact ⟨uncached_length e l hm s.cache f args, fun i _ => uncached_args e l hm s.cache f args i⟩

/-- C04: what is stored. The call stores exactly the results of the positions
that were not hits and that `is_hit_fn`, if given, accepts. -/
theorem C04_stores_exactly_the_new_results (e : Env F A V K) (l : Lru C K V) (hl : LruLaws l)
    (hm : MasksAligned e) (s : Sys F A V K C) (t : Nat) (f : F) (args : List (Option A))
    (hidle : s.threads t = .idle) :
    ∃ called puts res,
      (step e l s (.call t f args)).threads t = .busy f args called puts res ∧
      ∀ k v, (k, v) ∈ puts ↔ ∃ ua, called = some ua ∧
        ∃ (i : Nat) (a : Option A), args[i]? = some a ∧ ¬ HitAt e l s.cache f args i ∧
          k = e.key f a ∧ e.fn f a = some v ∧
          ∀ g, e.isHit f = some g → (g (ua.map (e.fn f)))[i]? = some true := by
  obtain ⟨h1, h2⟩ := getAll_fst l hl s.cache (args.map (e.key f))
  have h1' : (getAll l s.cache (args.map (e.key f))).1 =
      args.map fun a => l.peek s.cache (e.key f a) := by
    rw [h1, List.map_map]; rfl
  refine ⟨(plan e f args (getAll l s.cache (args.map (e.key f))).1).called,
    (plan e f args (getAll l s.cache (args.map (e.key f))).1).puts,
    (plan e f args (getAll l s.cache (args.map (e.key f))).1).res,
    by simp only [step, hidle, setThread, if_true], ?_⟩
  rw [h1']
  exact plan_puts e l hm s.cache f args

/-! ### Concrete cases -/

/-- A cache of capacity two. -/
def twoEntryLru : Lru (List (Nat × Nat)) Nat Nat where
  empty := []
  peek c k := (c.find? (·.1 == k)).map (·.2)
  lookup c _ := c
  put c k v := ((k, v) :: c).take 2

theorem twoEntryLru_laws : LruLaws twoEntryLru where
  peek_empty := fun _ => rfl
  peek_lookup := fun _ _ _ => rfl
  peek_put := by
    intro c k v k'
    simp only [twoEntryLru, List.take_succ_cons]
    by_cases h : k = k'
    · subst h; right; right; simp
    · have hb : (k == k') = false := by simp [h]
      rw [List.find?_cons_of_neg (by simp [hb])]
      cases c with
      | nil => simp
      | cons p c =>
        by_cases hp : p.1 = k'
        · right; left; simp [hp]
        · left; simp [hp]

/-- Two functions with distinct keys, the second one with an `is_hit_fn` that only
accepts even results. -/
def exampleEnv : Env Bool Nat Nat Nat where
  fn f a := a.map fun x => if f then x * x else x + 1
  key f a := 4 * (match a with | none => 0 | some x => x + 1) + (if f then 1 else 0)
  isHit f := if f then some (fun xs => xs.map fun | some v => v % 2 == 0 | none => false) else none

example : MasksAligned exampleEnv := by
  intro f g hg xs
  cases f <;> simp [exampleEnv] at hg
  subst hg; simp

example : KeysDistinct exampleEnv := by
  intro f a f' a' h
  cases f <;> cases f' <;> cases a <;> cases a' <;> simp [exampleEnv] at * <;> omega

example : ∀ f, exampleEnv.fn f none = none := fun _ => rfl

example : ((run exampleEnv twoEntryLru
    [.call 0 true [some 2, some 3], .call 1 false [some 7], .put 0, .put 1, .ret 0, .ret 1,
     .call 0 true [some 2, none, some 4], .put 0, .ret 0]).returned.map
      fun r => (r.called, r.res)) =
    [(some [some 2, some 3], [some 4, some 9]), (some [some 7], [some 8]),
     (some [none, none, some 4], [some 4, none, some 16])] := by decide

/-- C04 does not hold for functions that give a present result for a missing
item: with all arguments missing and nothing cached, `wrapped_fn` returns missing
without calling `fn` (lru_cache.py:118-119). -/
theorem C04_nonstrict_counterexample :
    ∃ (e : Env Unit Nat Nat Nat) (acts : List (Act Unit Nat)),
      ∃ r ∈ (run e twoEntryLru acts).returned, r.res ≠ r.args.map (e.fn r.f) := by
  refine ⟨⟨fun _ a => some (a.getD 0), fun _ a => match a with | none => 0 | some x => x + 1,
    fun _ => none⟩, [.call 0 () [none], .ret 0], ?_⟩
  exact ⟨⟨(), [none], none, [none]⟩, by simp [run, step, initSys, getAll, plan, twoEntryLru,
    filterHits, applyMask, isEmpty, setThread], by simp⟩

end Verif.CacheFn
