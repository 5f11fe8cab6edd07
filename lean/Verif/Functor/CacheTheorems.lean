import Verif.Functor.Cache
import Verif.Functor.Theorems

/-!
The cache of processed functors cannot be seen: in every history, a call returns what a call without
a cache returns.
-/

namespace Verif.Functor

variable {Op V : Type}

/-- What users have to respect: a call has a new number and a bag that exists, and a bag is not
written to while a call of a functor in it is going on. -/
def Allowed (w : World Op V) : Action Op V → Prop
  | .begin c b _ _ _ => c ∉ w.pending.map Prod.fst ∧ b < w.bags.length
  | .set b _ _ => ∀ e ∈ w.pending, e.2.bag ≠ b
  | _ => True

/-- The worlds that histories lead to. -/
inductive Reach (kit : Nat → Kit Op V) : World Op V → Prop where
  | start : Reach kit ⟨[], []⟩
  | step {w a} : Reach kit w → Allowed w a → Reach kit (act kit w a).1

/-- The invariant. -/
structure CacheInv (kit : Nat → Kit Op V) (w : World Op V) : Prop where
  cache : ∀ (b : Nat) (bag : Bag Op V) id P, w.bags[b]? = some bag → bag.cache.lookup id = some P →
    bag.isMutable = false ∧ ∃ F, w.visible b id = some F ∧ isFunctor F = true ∧
      process (kit b) F = .ok P
  flat : ∀ (b : Nat) (bag : Bag Op V), w.bags[b]? = some bag → ∀ x ∈ bag.flat,
    ∃ bag', w.bags[x]? = some bag' ∧ bag'.isMutable = false
  exist : ∀ e ∈ w.pending, e.2.bag < w.bags.length
  notFn : ∀ e ∈ w.pending, w.visible e.2.bag e.2.id = none → e.2.isFn = false
  fn : ∀ e ∈ w.pending, ∀ F, w.visible e.2.bag e.2.id = some F → e.2.isFn = isFunctor F ∧
    e.2.processed = process (kit e.2.bag) F ∧
    ∀ P, e.2.cached = some P → isFunctor F = true ∧ process (kit e.2.bag) F = .ok P

theorem find_congr {w w' : World Op V} {id : Nat} : ∀ {l : List Nat},
    (∀ x ∈ l, (w.bags[x]?).map Bag.own = (w'.bags[x]?).map Bag.own) → w.find id l = w'.find id l
  | [], _ => rfl
  | b :: bs, h => by
    have hb := h b (by simp)
    have ih := find_congr (w := w) (w' := w') (id := id) (l := bs)
      (fun x hx => h x (List.mem_cons_of_mem _ hx))
    unfold World.find
    cases h1 : w.bags[b]? with
    | none =>
      rw [h1] at hb
      cases h2 : w'.bags[b]? with
      | none => exact ih
      | some bag' => rw [h2] at hb; cases hb
    | some bag =>
      rw [h1] at hb
      cases h2 : w'.bags[b]? with
      | none => rw [h2] at hb; cases hb
      | some bag' =>
        rw [h2] at hb
        simp only [Option.map_some, Option.some.injEq] at hb
        simp only [hb, ih]

theorem visible_congr {w w' : World Op V} {b id : Nat} (hc : w.chain b = w'.chain b)
    (h : ∀ x ∈ w.chain b, (w.bags[x]?).map Bag.own = (w'.bags[x]?).map Bag.own) :
    w.visible b id = w'.visible b id := by
  unfold World.visible
  rw [← hc]
  exact find_congr h

theorem visible_pending (w : World Op V) (pending : List (Nat × Pending Op V)) :
    (⟨w.bags, pending⟩ : World Op V).visible = w.visible := by
  funext b id
  exact visible_congr rfl (fun _ _ => rfl)

/-- Replacing a bag by one with the same content. -/
theorem visible_set {w : World Op V} {b : Nat} {bag bag' : Bag Op V} (hb : w.bags[b]? = some bag)
    (ho : bag'.own = bag.own) (hf : bag'.flat = bag.flat) (x id : Nat)
    (pending : List (Nat × Pending Op V)) :
    (⟨w.bags.set b bag', pending⟩ : World Op V).visible x id = w.visible x id := by
  have hlt : b < w.bags.length := by
    obtain ⟨h, _⟩ := List.getElem?_eq_some_iff.1 hb
    exact h
  have hget : ∀ y : Nat, ((w.bags.set b bag')[y]?).map Bag.own = (w.bags[y]?).map Bag.own := by
    intro y
    by_cases hy : b = y
    · subst hy
      rw [List.getElem?_set_self hlt, hb]
      simp [ho]
    · rw [List.getElem?_set_ne hy]
  refine visible_congr ?_ (fun y _ => hget y)
  unfold World.chain
  simp only
  by_cases hy : b = x
  · subst hy
    rw [List.getElem?_set_self hlt, hb]
    simp [hf]
  · rw [List.getElem?_set_ne hy]

theorem chain_exists {kit : Nat → Kit Op V} {w : World Op V} (h : CacheInv kit w) {b x : Nat}
    (hx : x ∈ w.chain b) : x < w.bags.length := by
  unfold World.chain at hx
  cases hb : w.bags[b]? with
  | none => rw [hb] at hx; cases hx
  | some bag =>
    rw [hb] at hx
    rcases List.mem_cons.1 hx with rfl | hx
    · exact (List.getElem?_eq_some_iff.1 hb).1
    · obtain ⟨bag', h', _⟩ := h.flat b bag hb x hx
      exact (List.getElem?_eq_some_iff.1 h').1

/-- A new bag does not change the others. -/
theorem visible_append {kit : Nat → Kit Op V} {w : World Op V} (h : CacheInv kit w) {b : Nat}
    (hb : b < w.bags.length) (bag : Bag Op V) (id : Nat) (pending : List (Nat × Pending Op V)) :
    (⟨w.bags ++ [bag], pending⟩ : World Op V).visible b id = w.visible b id := by
  refine (visible_congr ?_ ?_).symm
  · unfold World.chain
    simp only
    rw [List.getElem?_append_left hb]
  · intro x hx
    simp only
    rw [List.getElem?_append_left (chain_exists h hx)]

/-- A new bag without a cache keeps the invariant. -/
theorem append_inv {kit : Nat → Kit Op V} {w : World Op V} (h : CacheInv kit w) (bag : Bag Op V)
    (hc : bag.cache = [])
    (hf : ∀ x ∈ bag.flat, ∃ bag', w.bags[x]? = some bag' ∧ bag'.isMutable = false) :
    CacheInv kit { w with bags := w.bags ++ [bag] } := by
  have hold : ∀ (x : Nat) bag', w.bags[x]? = some bag' → (w.bags ++ [bag])[x]? = some bag' := by
    intro x bag' hx
    rw [List.getElem?_append_left (List.getElem?_eq_some_iff.1 hx).1]
    exact hx
  have hcases : ∀ (b : Nat) bag', (w.bags ++ [bag])[b]? = some bag' →
      (b < w.bags.length ∧ w.bags[b]? = some bag') ∨ bag' = bag := by
    intro b bag' hb
    by_cases hlt : b < w.bags.length
    · rw [List.getElem?_append_left hlt] at hb
      exact .inl ⟨hlt, hb⟩
    · rw [List.getElem?_append_right (by omega)] at hb
      right
      have hm := List.mem_of_getElem? hb
      rw [List.mem_singleton] at hm
      exact hm
  constructor
  · intro b bag' id P hb hl
    rcases hcases b bag' hb with ⟨hlt, hb'⟩ | rfl
    · rw [visible_append h hlt bag id]
      exact h.cache b bag' id P hb' hl
    · rw [hc] at hl
      cases hl
  · intro b bag' hb x hx
    rcases hcases b bag' hb with ⟨_, hb'⟩ | rfl
    · obtain ⟨bag'', h1, h2⟩ := h.flat b bag' hb' x hx
      exact ⟨bag'', hold x bag'' h1, h2⟩
    · obtain ⟨bag'', h1, h2⟩ := hf x hx
      exact ⟨bag'', hold x bag'' h1, h2⟩
  · intro e he
    show _ < (w.bags ++ [bag]).length
    rw [List.length_append]
    have := h.exist e he
    omega
  · intro e he
    rw [visible_append h (h.exist e he)]
    exact h.notFn e he
  · intro e he
    rw [visible_append h (h.exist e he)]
    exact h.fn e he

/-- Replacing a bag by one with the same content keeps the invariant. -/
theorem set_inv {kit : Nat → Kit Op V} {w : World Op V} (h : CacheInv kit w) {b : Nat}
    {bag bag' : Bag Op V} (hb : w.bags[b]? = some bag) (ho : bag'.own = bag.own)
    (hf : bag'.flat = bag.flat) (hm : bag.isMutable = false → bag'.isMutable = false)
    (hc : ∀ id P, bag'.cache.lookup id = some P → bag.cache.lookup id = some P ∨
      (bag'.isMutable = false ∧ ∃ F, w.visible b id = some F ∧ isFunctor F = true ∧
        process (kit b) F = .ok P)) :
    CacheInv kit { w with bags := w.bags.set b bag' } := by
  have hlt : b < w.bags.length := (List.getElem?_eq_some_iff.1 hb).1
  constructor
  · intro x bagx id P hx hl
    rw [visible_set hb ho hf]
    by_cases hxb : b = x
    · subst hxb
      change (w.bags.set b bag')[b]? = _ at hx
      rw [List.getElem?_set_self hlt] at hx
      cases hx
      rcases hc id P hl with h' | h'
      · obtain ⟨h1, h2⟩ := h.cache b bag id P hb h'
        exact ⟨hm h1, h2⟩
      · exact h'
    · change (w.bags.set b bag')[x]? = _ at hx
      rw [List.getElem?_set_ne hxb] at hx
      exact h.cache x bagx id P hx hl
  · intro x bagx hx y hy
    have hflat : ∃ bag'', w.bags[y]? = some bag'' ∧ bag''.isMutable = false := by
      by_cases hxb : b = x
      · subst hxb
        change (w.bags.set b bag')[b]? = _ at hx
        rw [List.getElem?_set_self hlt] at hx
        cases hx
        rw [hf] at hy
        exact h.flat b bag hb y hy
      · change (w.bags.set b bag')[x]? = _ at hx
        rw [List.getElem?_set_ne hxb] at hx
        exact h.flat x bagx hx y hy
    obtain ⟨bag'', h1, h2⟩ := hflat
    show ∃ bag'', (w.bags.set b bag')[y]? = some bag'' ∧ _
    by_cases hyb : b = y
    · subst hyb
      rw [hb] at h1
      cases h1
      rw [List.getElem?_set_self hlt]
      exact ⟨bag', rfl, hm h2⟩
    · rw [List.getElem?_set_ne hyb]
      exact ⟨bag'', h1, h2⟩
  · intro e he
    show _ < (w.bags.set b bag').length
    rw [List.length_set]
    exact h.exist e he
  · intro e he
    rw [visible_set hb ho hf]
    exact h.notFn e he
  · intro e he
    rw [visible_set hb ho hf]
    exact h.fn e he

/-- A write changes what is visible only in the bag itself. -/
theorem visible_write {kit : Nat → Kit Op V} {w : World Op V} (h : CacheInv kit w) {b : Nat}
    {bag bag' : Bag Op V} (hb : w.bags[b]? = some bag) (hm : bag.isMutable = true)
    {x : Nat} (hx : x ≠ b) (id : Nat) (pending : List (Nat × Pending Op V)) :
    (⟨w.bags.set b bag', pending⟩ : World Op V).visible x id = w.visible x id := by
  refine (visible_congr ?_ ?_).symm
  · unfold World.chain
    simp only
    rw [List.getElem?_set_ne (Ne.symm hx)]
  · intro y hy
    have hyb : b ≠ y := by
      rintro rfl
      unfold World.chain at hy
      cases hx' : w.bags[x]? with
      | none => rw [hx'] at hy; cases hy
      | some bagx =>
        rw [hx'] at hy
        rcases List.mem_cons.1 hy with hy | hy
        · exact hx hy.symm
        · obtain ⟨bag'', h1, h2⟩ := h.flat x bagx hx' b hy
          rw [hb] at h1
          cases h1
          rw [hm] at h2
          cases h2
    simp only
    rw [List.getElem?_set_ne hyb]

theorem setFn_inv {kit : Nat → Kit Op V} {w : World Op V} (h : CacheInv kit w) (b id : Nat)
    (F : Fn Op V) (hp : ∀ e ∈ w.pending, e.2.bag ≠ b) : CacheInv kit (setFn w b id F) := by
  unfold setFn
  cases hb : w.bags[b]? with
  | none => exact h
  | some bag =>
    simp only
    by_cases hm : bag.isMutable = true
    · rw [if_pos hm]
      have hlt : b < w.bags.length := (List.getElem?_eq_some_iff.1 hb).1
      constructor
      · intro x bagx i P hx hl
        change (w.bags.set b { bag with own := (id, F) :: bag.own })[x]? = _ at hx
        by_cases hxb : b = x
        · subst hxb
          rw [List.getElem?_set_self hlt] at hx
          cases hx
          have := (h.cache b bag i P hb hl).1
          rw [hm] at this
          cases this
        · rw [List.getElem?_set_ne hxb] at hx
          rw [visible_write h hb hm (Ne.symm hxb)]
          exact h.cache x bagx i P hx hl
      · intro x bagx hx y hy
        change (w.bags.set b { bag with own := (id, F) :: bag.own })[x]? = _ at hx
        have hflat : ∃ bag'', w.bags[y]? = some bag'' ∧ bag''.isMutable = false := by
          by_cases hxb : b = x
          · subst hxb
            rw [List.getElem?_set_self hlt] at hx
            cases hx
            exact h.flat b bag hb y hy
          · rw [List.getElem?_set_ne hxb] at hx
            exact h.flat x bagx hx y hy
        obtain ⟨bag'', h1, h2⟩ := hflat
        show ∃ bag'', (w.bags.set b _)[y]? = some bag'' ∧ _
        by_cases hyb : b = y
        · subst hyb
          rw [hb] at h1
          cases h1
          rw [hm] at h2
          cases h2
        · rw [List.getElem?_set_ne hyb]
          exact ⟨bag'', h1, h2⟩
      · intro e he
        show _ < (w.bags.set b _).length
        rw [List.length_set]
        exact h.exist e he
      · intro e he
        rw [visible_write h hb hm (hp e he)]
        exact h.notFn e he
      · intro e he
        rw [visible_write h hb hm (hp e he)]
        exact h.fn e he
    · rw [if_neg hm]
      exact h

theorem setCached_inv {kit : Nat → Kit Op V} {w : World Op V} (h : CacheInv kit w) {b id : Nat}
    {F : Fn Op V} {P : Processed Op V} (hv : w.visible b id = some F) (hf : isFunctor F = true)
    (hP : process (kit b) F = .ok P) :
    CacheInv kit (setCached w b id P).1 ∧ (setCached w b id P).2 = P := by
  unfold setCached
  cases hb : w.bags[b]? with
  | none => exact ⟨h, rfl⟩
  | some bag =>
    simp only
    by_cases hm : bag.isMutable = true
    · rw [if_pos hm]
      exact ⟨h, rfl⟩
    · rw [if_neg hm]
      cases hl : bag.cache.lookup id with
      | some P' =>
        refine ⟨h, ?_⟩
        obtain ⟨_, F', h1, _, h3⟩ := h.cache b bag id P' hb hl
        rw [hv] at h1
        cases h1
        rw [hP] at h3
        cases h3
        rfl
      | none =>
        refine ⟨?_, rfl⟩
        have hm' : bag.isMutable = false := by simpa using hm
        refine set_inv (bag' := { bag with cache := (id, P) :: bag.cache }) h hb rfl rfl
          (fun _ => hm') ?_
        intro i P' hl'
        simp only at hl'
        rw [List.lookup_cons] at hl'
        by_cases hi : i = id
        · subst hi
          simp only [beq_self_eq_true, Option.some.injEq] at hl'
          subst hl'
          exact .inr ⟨hm', F, hv, hf, hP⟩
        · have : (i == id) = false := by simpa using hi
          rw [this] at hl'
          exact .inl hl'

/-- Fewer pending calls. -/
theorem pending_inv {kit : Nat → Kit Op V} {w : World Op V} (h : CacheInv kit w)
    {pending : List (Nat × Pending Op V)} (hp : ∀ e ∈ pending, e ∈ w.pending) :
    CacheInv kit { w with pending := pending } := by
  have hv := visible_pending w pending
  refine ⟨?_, h.flat, fun e he => h.exist e (hp e he), ?_, ?_⟩
  · rw [hv]
    exact h.cache
  · intro e he
    rw [hv]
    exact h.notFn e (hp e he)
  · intro e he
    rw [hv]
    exact h.fn e (hp e he)

/-- What a call in flight returns. -/
theorem finishCall_spec {kit : Nat → Kit Op V} {w : World Op V} (h : CacheInv kit w)
    {p : Pending Op V}
    (hn : w.visible p.bag p.id = none → p.isFn = false)
    (hf : ∀ F, w.visible p.bag p.id = some F → p.isFn = isFunctor F ∧
      p.processed = process (kit p.bag) F ∧
      ∀ P, p.cached = some P → isFunctor F = true ∧ process (kit p.bag) F = .ok P) :
    CacheInv kit (finishCall kit w p).1 ∧
    (finishCall kit w p).2 =
      match w.visible p.bag p.id with
      | none => .error .notFunctor
      | some F => call (kit p.bag) F p.args p.kwnames := by
  unfold finishCall
  cases hv : w.visible p.bag p.id with
  | none =>
    rw [if_neg (by rw [hn hv]; simp)]
    exact ⟨h, rfl⟩
  | some F =>
    obtain ⟨h1, h2, h3⟩ := hf F hv
    simp only
    unfold call
    rw [h1]
    by_cases hfun : isFunctor F = true
    · rw [if_pos hfun, if_pos hfun]
      cases hc : p.cached with
      | some P =>
        rw [(h3 P hc).2]
        exact ⟨h, rfl⟩
      | none =>
        simp only [h2]
        cases hP : process (kit p.bag) F with
        | error e => exact ⟨h, rfl⟩
        | ok P =>
          have := setCached_inv h hv hfun hP
          simp only
          exact ⟨this.1, by rw [this.2]⟩
    · rw [if_neg hfun, if_neg hfun]
      exact ⟨h, rfl⟩

theorem reach_cache {kit : Nat → Kit Op V} {w : World Op V} (h : Reach kit w) : CacheInv kit w := by
  induction h with
  | start =>
    constructor
    · intro b bag id P hb
      cases hb
    · intro b bag hb
      cases hb
    · intro e he
      cases he
    · intro e he
      cases he
    · intro e he
      cases he
  | @step w a _ ha ih =>
    cases a with
    | newBag isMutable => exact append_inv ih _ rfl (fun x hx => by cases hx)
    | set b id F => exact setFn_inv ih b id F ha
    | makeImmutable b =>
      unfold act makeImmutable
      simp only
      cases hb : w.bags[b]? with
      | none => exact ih
      | some bag =>
        exact set_inv (bag' := { bag with isMutable := false }) ih hb rfl rfl (fun _ => rfl)
          (fun id P hl => .inl hl)
    | withFallbacks bs =>
      unfold act withFallbacks
      simp only
      by_cases hi : w.allImmutable bs = true
      · rw [if_pos hi]
        refine append_inv ih _ rfl ?_
        intro x hx
        obtain ⟨b, hb, hx⟩ := List.mem_flatMap.1 hx
        unfold World.allImmutable at hi
        rw [List.all_eq_true] at hi
        have hib := hi b hb
        unfold World.chain at hx
        cases hbag : w.bags[b]? with
        | none => rw [hbag] at hx; cases hx
        | some bag =>
          rw [hbag] at hx hib
          rcases List.mem_cons.1 hx with rfl | hx
          · exact ⟨bag, hbag, by simpa using hib⟩
          · exact ih.flat b bag hbag x hx
      · rw [if_neg hi]
        exact ih
    | fork b immutable =>
      unfold act fork
      simp only
      cases hb : w.bags[b]? with
      | none => exact ih
      | some bag =>
        simp only
        by_cases hf : bag.flat.isEmpty = true
        · rw [if_pos hf]
          exact append_inv ih _ rfl (fun x hx => by cases hx)
        · rw [if_neg hf]
          exact ih
    | begin c b id args kwnames =>
      obtain ⟨_, hlt⟩ := ha
      have hbag : (beginCall kit w b id args kwnames).bag = b ∧
          (beginCall kit w b id args kwnames).id = id := by
        unfold beginCall
        cases w.visible b id <;> exact ⟨rfl, rfl⟩
      have hvis : (act kit w (.begin c b id args kwnames)).1.visible = w.visible :=
        visible_pending w _
      refine ⟨by rw [hvis]; exact ih.cache, ih.flat, ?_, ?_, ?_⟩
      · intro e he
        rcases List.mem_cons.1 he with rfl | he
        · simp only
          rw [hbag.1]
          exact hlt
        · exact ih.exist e he
      · intro e he
        rcases List.mem_cons.1 he with rfl | he
        · simp only
          rw [hbag.1, hbag.2]
          intro hv
          have hv' : w.visible b id = none := by rw [← hvis]; exact hv
          unfold beginCall
          rw [hv']
        · rw [hvis]
          exact ih.notFn e he
      · intro e he
        rcases List.mem_cons.1 he with rfl | he
        · simp only
          rw [hbag.1, hbag.2]
          intro F hv
          have hv' : w.visible b id = some F := by rw [← hvis]; exact hv
          unfold beginCall
          rw [hv']
          refine ⟨rfl, rfl, ?_⟩
          intro P hP
          simp only at hP
          unfold World.cached at hP
          cases hb : w.bags[b]? with
          | none => rw [hb] at hP; cases hP
          | some bag =>
            rw [hb] at hP
            obtain ⟨_, F', h1, h2, h3⟩ := ih.cache b bag id P hb hP
            rw [hv'] at h1
            cases h1
            exact ⟨h2, h3⟩
        · rw [hvis]
          exact ih.fn e he
    | finish c =>
      unfold act
      simp only
      cases hl : w.pending.lookup c with
      | none => exact ih
      | some p =>
        have hm := mem_of_lookup hl
        have ih' := pending_inv (pending := w.pending.filter fun e => e.1 != c) ih
          (fun e he => (List.mem_filter.1 he).1)
        have hvis := visible_pending w (w.pending.filter fun e => e.1 != c)
        exact (finishCall_spec (p := p) ih' (by rw [hvis]; exact ih.notFn (c, p) hm)
          (by rw [hvis]; exact ih.fn (c, p) hm)).1

/-- When a call finishes, its result is that of a call without a cache, of the functor that is
visible in its bag. -/
theorem C87_cache (kit : Nat → Kit Op V) (w : World Op V) (h : Reach kit w) (c : Nat)
    (p : Pending Op V) (hp : w.pending.lookup c = some p) :
    (act kit w (.finish c)).2 = some
      (match w.visible p.bag p.id with
      | none => .error .notFunctor
      | some F => call (kit p.bag) F p.args p.kwnames) := by
  have hi := reach_cache h
  have hm := mem_of_lookup hp
  have hi' := pending_inv (pending := w.pending.filter fun e => e.1 != c) hi
    (fun e he => (List.mem_filter.1 he).1)
  have hvis := visible_pending w (w.pending.filter fun e => e.1 != c)
  have := (finishCall_spec (p := p) hi' (by rw [hvis]; exact hi.notFn (c, p) hm)
    (by rw [hvis]; exact hi.fn (c, p) hm)).2
  unfold act
  simp only [hp]
  rw [this, hvis]

/-- Until a call finishes, it stays in the list with the arguments that it began with, and what is
visible in its bag stays the same. -/
theorem C87_same (kit : Nat → Kit Op V) (w : World Op V) (h : Reach kit w) (a : Action Op V)
    (ha : Allowed w a) (c : Nat) (p : Pending Op V) (hp : w.pending.lookup c = some p)
    (hc : ∀ c', a = .finish c' → c' ≠ c) :
    (act kit w a).1.pending.lookup c = some p ∧
    (act kit w a).1.visible p.bag p.id = w.visible p.bag p.id := by
  have hi := reach_cache h
  have hm := mem_of_lookup hp
  have hlt := hi.exist (c, p) hm
  cases a with
  | newBag isMutable => exact ⟨hp, visible_append hi hlt _ _ _⟩
  | set b id F =>
    show (setFn w b id F).pending.lookup c = _ ∧ (setFn w b id F).visible _ _ = _
    unfold setFn
    cases hb : w.bags[b]? with
    | none => exact ⟨hp, rfl⟩
    | some bag =>
      simp only
      by_cases hmu : bag.isMutable = true
      · rw [if_pos hmu]
        exact ⟨hp, visible_write hi hb hmu (ha (c, p) hm) _ _⟩
      · rw [if_neg hmu]
        exact ⟨hp, rfl⟩
  | makeImmutable b =>
    show (makeImmutable w b).pending.lookup c = _ ∧ (makeImmutable w b).visible _ _ = _
    unfold makeImmutable
    cases hb : w.bags[b]? with
    | none => exact ⟨hp, rfl⟩
    | some bag =>
      exact ⟨hp, visible_set (bag' := { bag with isMutable := false }) hb rfl rfl _ _ _⟩
  | withFallbacks bs =>
    show (withFallbacks w bs).pending.lookup c = _ ∧ (withFallbacks w bs).visible _ _ = _
    unfold withFallbacks
    by_cases hi' : w.allImmutable bs = true
    · rw [if_pos hi']
      exact ⟨hp, visible_append hi hlt _ _ _⟩
    · rw [if_neg hi']
      exact ⟨hp, rfl⟩
  | fork b immutable =>
    show (fork w b immutable).pending.lookup c = _ ∧ (fork w b immutable).visible _ _ = _
    unfold fork
    cases hb : w.bags[b]? with
    | none => exact ⟨hp, rfl⟩
    | some bag =>
      simp only
      by_cases hf : bag.flat.isEmpty = true
      · rw [if_pos hf]
        exact ⟨hp, visible_append hi hlt _ _ _⟩
      · rw [if_neg hf]
        exact ⟨hp, rfl⟩
  | begin c' b id args kwnames =>
    refine ⟨?_, by
      show (⟨w.bags, _⟩ : World Op V).visible _ _ = _
      rw [visible_pending]⟩
    show List.lookup c ((c', _) :: w.pending) = some p
    rw [List.lookup_cons]
    have hne : (c == c') = false := by
      rw [beq_eq_false_iff_ne]
      rintro rfl
      exact ha.1 (List.mem_map.2 ⟨_, hm, rfl⟩)
    rw [hne]
    exact hp
  | finish c' =>
    have hne := hc c' rfl
    have hvis := visible_pending w (w.pending.filter fun e => e.1 != c')
    have hfilter : ∀ l : List (Nat × Pending Op V), l.lookup c = some p →
        (l.filter fun e => e.1 != c').lookup c = some p := by
      intro l hl
      induction l with
      | nil => cases hl
      | cons e l ih =>
        obtain ⟨x, q⟩ := e
        rw [List.lookup_cons] at hl
        cases hcx : c == x with
        | true =>
          rw [hcx] at hl
          have hx : c = x := by simpa using hcx
          subst hx
          rw [List.filter_cons_of_pos (p := fun e : Nat × Pending Op V => e.1 != c')
            (by simpa using Ne.symm hne), List.lookup_cons, hcx]
          exact hl
        | false =>
          rw [hcx] at hl
          by_cases hxc : (x != c') = true
          · rw [List.filter_cons_of_pos (p := fun e : Nat × Pending Op V => e.1 != c') hxc, List.lookup_cons, hcx]
            exact ih hl
          · rw [List.filter_cons_of_neg (p := fun e : Nat × Pending Op V => e.1 != c') hxc]
            exact ih hl
    unfold act
    simp only
    cases hl : w.pending.lookup c' with
    | none => exact ⟨hp, rfl⟩
    | some q =>
      simp only
      unfold finishCall
      by_cases hfn : q.isFn = true
      · rw [if_pos hfn]
        cases hq : q.cached with
        | some P => exact ⟨hfilter _ hp, by rw [hvis]⟩
        | none =>
          simp only
          cases hpr : q.processed with
          | error e => exact ⟨hfilter _ hp, by rw [hvis]⟩
          | ok P =>
            simp only
            unfold setCached
            cases hb : w.bags[q.bag]? with
            | none => exact ⟨hfilter _ hp, by rw [hvis]⟩
            | some bag =>
              simp only
              by_cases hmu : bag.isMutable = true
              · rw [if_pos hmu]
                exact ⟨hfilter _ hp, by rw [hvis]⟩
              · rw [if_neg hmu]
                cases hlc : bag.cache.lookup q.id with
                | some P' => exact ⟨hfilter _ hp, by rw [hvis]⟩
                | none =>
                  exact ⟨hfilter _ hp,
                    visible_set (bag' := { bag with cache := (q.id, P) :: bag.cache }) hb rfl rfl
                      _ _ _⟩
      · rw [if_neg hfn]
        exact ⟨hfilter _ hp, by rw [hvis]⟩

/-- A call that finishes right after it begins. -/
theorem C87_call (kit : Nat → Kit Op V) (w : World Op V) (h : Reach kit w) (c b id : Nat)
    (args : List V) (kwnames : List String) (hc : c ∉ w.pending.map Prod.fst)
    (hb : b < w.bags.length) :
    (act kit (act kit w (.begin c b id args kwnames)).1 (.finish c)).2 = some
      (match w.visible b id with
      | none => .error .notFunctor
      | some F => call (kit b) F args kwnames) := by
  have hr : Reach kit (act kit w (.begin c b id args kwnames)).1 := .step h ⟨hc, hb⟩
  have hl : (act kit w (.begin c b id args kwnames)).1.pending.lookup c =
      some (beginCall kit w b id args kwnames) := by
    show List.lookup c ((c, _) :: w.pending) = _
    rw [List.lookup_cons]
    simp
  rw [C87_cache kit _ hr c _ hl]
  have hp : (beginCall kit w b id args kwnames).bag = b ∧
      (beginCall kit w b id args kwnames).id = id ∧
      (beginCall kit w b id args kwnames).args = args ∧
      (beginCall kit w b id args kwnames).kwnames = kwnames := by
    unfold beginCall
    cases w.visible b id <;> exact ⟨rfl, rfl, rfl, rfl⟩
  have hvis : (act kit w (.begin c b id args kwnames)).1.visible = w.visible := visible_pending w _
  rw [hp.1, hp.2.1, hp.2.2.1, hp.2.2.2, hvis]

/-- A bag that is not mutable keeps what is visible in it for ever. -/
theorem C87_immutable (kit : Nat → Kit Op V) (w : World Op V) (h : Reach kit w) (b : Nat)
    (bag : Bag Op V) (hb : w.bags[b]? = some bag) (hm : bag.isMutable = false) (a : Action Op V)
    (id : Nat) : (act kit w a).1.visible b id = w.visible b id := by
  have hi := reach_cache h
  have hlt : b < w.bags.length := (List.getElem?_eq_some_iff.1 hb).1
  cases a with
  | newBag isMutable => exact visible_append hi hlt _ _ _
  | set b' id' F =>
    show (setFn w b' id' F).visible _ _ = _
    unfold setFn
    cases hb' : w.bags[b']? with
    | none => rfl
    | some bag' =>
      simp only
      by_cases hmu : bag'.isMutable = true
      · rw [if_pos hmu]
        refine visible_write hi hb' hmu ?_ _ _
        rintro rfl
        rw [hb] at hb'
        cases hb'
        rw [hm] at hmu
        cases hmu
      · rw [if_neg hmu]
  | makeImmutable b' =>
    show (makeImmutable w b').visible _ _ = _
    unfold makeImmutable
    cases hb' : w.bags[b']? with
    | none => rfl
    | some bag' =>
      exact visible_set (bag' := { bag' with isMutable := false }) hb' rfl rfl _ _ _
  | withFallbacks bs =>
    show (withFallbacks w bs).visible _ _ = _
    unfold withFallbacks
    by_cases hi' : w.allImmutable bs = true
    · rw [if_pos hi']
      exact visible_append hi hlt _ _ _
    · rw [if_neg hi']
  | fork b' immutable =>
    show (fork w b' immutable).visible _ _ = _
    unfold fork
    cases hb' : w.bags[b']? with
    | none => rfl
    | some bag' =>
      simp only
      by_cases hf : bag'.flat.isEmpty = true
      · rw [if_pos hf]
        exact visible_append hi hlt _ _ _
      · rw [if_neg hf]
  | begin c' b' id' args kwnames =>
    show (⟨w.bags, _⟩ : World Op V).visible b id = _
    rw [visible_pending]
  | finish c' =>
    have hvis := visible_pending w (w.pending.filter fun e => e.1 != c')
    unfold act
    simp only
    cases hl : w.pending.lookup c' with
    | none => rfl
    | some q =>
      simp only
      unfold finishCall
      by_cases hfn : q.isFn = true
      · rw [if_pos hfn]
        cases hq : q.cached with
        | some P => simp only [hvis]
        | none =>
          simp only
          cases hpr : q.processed with
          | error e => simp only [hvis]
          | ok P =>
            simp only
            unfold setCached
            cases hb' : w.bags[q.bag]? with
            | none => simp only [hvis]
            | some bag' =>
              simp only
              by_cases hmu : bag'.isMutable = true
              · rw [if_pos hmu]
                simp only [hvis]
              · rw [if_neg hmu]
                cases hlc : bag'.cache.lookup q.id with
                | some P' => simp only [hvis]
                | none =>
                  exact visible_set (bag' := { bag' with cache := (q.id, P) :: bag'.cache }) hb'
                    rfl rfl _ _ _
      · rw [if_neg hfn]
        simp only [hvis]

theorem find_cons (w : World Op V) (id b : Nat) (l : List Nat) :
    w.find id (b :: l) = ((w.bags[b]?).bind fun bag => bag.own.lookup id).or (w.find id l) := by
  rw [World.find]
  cases w.bags[b]? with
  | none => rfl
  | some bag =>
    simp only [Option.bind_some]
    cases bag.own.lookup id <;> rfl

theorem find_append (w : World Op V) (id : Nat) : ∀ l l' : List Nat,
    w.find id (l ++ l') = (w.find id l).or (w.find id l')
  | [], l' => by simp [World.find]
  | b :: l, l' => by
    have ih := find_append w id l l'
    rw [List.cons_append, find_cons, find_cons, ih, Option.or_assoc]

theorem find_flatMap (w : World Op V) (id : Nat) : ∀ bs : List Nat,
    w.find id (bs.flatMap w.chain) = bs.findSome? fun b => w.visible b id
  | [] => rfl
  | b :: bs => by
    rw [List.flatMap_cons, find_append, find_flatMap w id bs, List.findSome?_cons]
    show (w.visible b id).or _ = _
    cases w.visible b id with
    | none => rfl
    | some F => rfl

/-- What is visible in new bags: nothing in an empty one, the same as in the original in a fork, and
what the first of the fallbacks has. -/
theorem C87_bags (kit : Nat → Kit Op V) (w : World Op V) (h : Reach kit w) (id : Nat) :
    (∀ m, (act kit w (.newBag m)).1.visible w.bags.length id = none) ∧
    (∀ b m bag, w.bags[b]? = some bag → bag.flat = [] →
      (act kit w (.fork b m)).1.visible w.bags.length id = w.visible b id) ∧
    (∀ bs : List Nat, (∀ b ∈ bs, ∃ bag, w.bags[b]? = some bag ∧ bag.isMutable = false) →
      (act kit w (.withFallbacks bs)).1.visible w.bags.length id =
        bs.findSome? fun b => w.visible b id) := by
  have hi := reach_cache h
  have hchain : ∀ bag : Bag Op V, (⟨w.bags ++ [bag], w.pending⟩ : World Op V).chain w.bags.length =
      w.bags.length :: bag.flat := by
    intro bag
    unfold World.chain
    simp
  have hlast : ∀ bag : Bag Op V, (w.bags ++ [bag])[w.bags.length]? = some bag := by
    intro bag
    simp
  have hfind : ∀ (bag : Bag Op V) (l : List Nat), (∀ x ∈ l, x < w.bags.length) →
      (⟨w.bags ++ [bag], w.pending⟩ : World Op V).find id l = w.find id l := by
    intro bag l hl
    refine (find_congr ?_).symm
    intro x hx
    simp only
    rw [List.getElem?_append_left (hl x hx)]
  refine ⟨?_, ?_, ?_⟩
  · intro m
    show (⟨w.bags ++ [⟨m, [], [], []⟩], w.pending⟩ : World Op V).visible _ _ = _
    unfold World.visible
    rw [hchain, find_cons, hlast]
    rfl
  · intro b m bag hb hf
    show (fork w b m).visible _ _ = _
    unfold fork
    rw [hb]
    simp only
    rw [if_pos (by rw [hf]; rfl)]
    have hold : w.visible b id = bag.own.lookup id := by
      unfold World.visible World.chain
      rw [hb]
      simp only
      rw [hf, find_cons, hb]
      simp [World.find]
    rw [hold]
    unfold World.visible
    rw [hchain, find_cons, hlast]
    simp [World.find]
  · intro bs hbs
    show (withFallbacks w bs).visible _ _ = _
    unfold withFallbacks
    have hall : w.allImmutable bs = true := by
      unfold World.allImmutable
      rw [List.all_eq_true]
      intro b hb
      obtain ⟨bag, h1, h2⟩ := hbs b hb
      rw [h1]
      simp [h2]
    rw [if_pos hall]
    rw [← find_flatMap]
    unfold World.visible
    rw [hchain]
    have := hfind ⟨false, [], bs.flatMap w.chain, []⟩ (bs.flatMap w.chain) (by
      intro x hx
      obtain ⟨b, _, hx⟩ := List.mem_flatMap.1 hx
      exact chain_exists hi hx)
    rw [← this, find_cons, hlast]
    rfl

/-- Which bags can be written: a new bag as asked for, a fork unless it is frozen, no bag with fallbacks,
and no bag that was made immutable. -/
theorem C87_mutable (kit : Nat → Kit Op V) (w : World Op V) :
    (∀ m, ((act kit w (.newBag m)).1.bags[w.bags.length]?).map (·.isMutable) = some m) ∧
    (∀ b immutable bag, w.bags[b]? = some bag → bag.flat = [] →
      ((act kit w (.fork b immutable)).1.bags[w.bags.length]?).map (·.isMutable) =
        some (!immutable)) ∧
    (∀ bs : List Nat, (∀ b ∈ bs, ∃ bag, w.bags[b]? = some bag ∧ bag.isMutable = false) →
      ((act kit w (.withFallbacks bs)).1.bags[w.bags.length]?).map (·.isMutable) = some false) ∧
    (∀ b bag, w.bags[b]? = some bag →
      ((act kit w (.makeImmutable b)).1.bags[b]?).map (·.isMutable) = some false) := by
  refine ⟨?_, ?_, ?_, ?_⟩
  · intro m
    show ((w.bags ++ [⟨m, [], [], []⟩])[w.bags.length]?).map _ = _
    simp
  · intro b immutable bag hb hf
    show ((fork w b immutable).bags[w.bags.length]?).map _ = _
    unfold fork
    rw [hb]
    simp only
    rw [if_pos (by rw [hf]; rfl)]
    simp
  · intro bs hbs
    show ((withFallbacks w bs).bags[w.bags.length]?).map _ = _
    unfold withFallbacks
    have hall : w.allImmutable bs = true := by
      unfold World.allImmutable
      rw [List.all_eq_true]
      intro b hb
      obtain ⟨bag, h1, h2⟩ := hbs b hb
      rw [h1]
      simp [h2]
    rw [if_pos hall]
    simp
  · intro b bag hb
    show ((makeImmutable w b).bags[b]?).map _ = _
    unfold makeImmutable
    rw [hb]
    simp [(List.getElem?_eq_some_iff.1 hb).1]

/-- What is visible after a write to a mutable bag. -/
theorem C87_set (kit : Nat → Kit Op V) (w : World Op V) (h : Reach kit w) (b : Nat) (bag : Bag Op V)
    (hb : w.bags[b]? = some bag) (hm : bag.isMutable = true) (id : Nat) (F : Fn Op V) (id' : Nat) :
    (act kit w (.set b id F)).1.visible b id' =
      if id' = id then some F else w.visible b id' := by
  have hi := reach_cache h
  have hlt : b < w.bags.length := (List.getElem?_eq_some_iff.1 hb).1
  have hw : (act kit w (.set b id F)).1 =
      ⟨w.bags.set b { bag with own := (id, F) :: bag.own }, w.pending⟩ := by
    show setFn w b id F = _
    unfold setFn
    rw [hb]
    simp only
    rw [if_pos hm]
  rw [hw]
  unfold World.visible World.chain
  simp only
  rw [List.getElem?_set_self hlt, hb]
  simp only
  rw [find_cons, find_cons, hb]
  simp only
  rw [List.getElem?_set_self hlt]
  simp only [Option.bind_some]
  rw [List.lookup_cons]
  by_cases hid : id' = id
  · subst hid
    simp
  · have : (id' == id) = false := by simpa using hid
    rw [this, if_neg hid]
    simp only
    congr 1
    refine (find_congr ?_).symm
    intro x hx
    have hxb : b ≠ x := by
      rintro rfl
      obtain ⟨bag', h1, h2⟩ := hi.flat b bag hb b hx
      rw [hb] at h1
      cases h1
      rw [hm] at h2
      cases h2
    simp only
    rw [List.getElem?_set_ne hxb]

/-! ### Examples -/

/-- A functor that returns its argument plus a constant. -/
def exConst (n : Nat) : Fn ExOp ExValue :=
  ⟨[("returns", .quote (.node .add [.var "c", .input "x"])), ("c", .item (.prim n))], .object 7,
    some (Binding.defaultParameters (.num 0) ["x"])⟩

def exRead : Option (Except Err ExValue) → Nat
  | some (.ok (.num n)) => n
  | _ => 0

def exKits : Nat → Kit ExOp ExValue := fun _ => exKit

/-- A mutable bag: a call, a write, a call; then the bag is made immutable, with two calls at the
same time. -/
def exWorld : List (Action ExOp ExValue) :=
  [.newBag true, .set 0 3 (exConst 10), .begin 1 0 3 [.num 5] ["x"], .finish 1,
    .set 0 3 (exConst 20), .makeImmutable 0, .begin 2 0 3 [.num 5] ["x"],
    .begin 4 0 3 [.num 6] ["x"], .finish 2]

example : exRead (act exKits (acts exKits ⟨[], []⟩ (exWorld.take 3)) (.finish 1)).2 = 15 := by
  decide +kernel

example : exRead (act exKits (acts exKits ⟨[], []⟩ (exWorld.take 8)) (.finish 2)).2 = 25 := by
  decide +kernel

example : exRead (act exKits (acts exKits ⟨[], []⟩ exWorld) (.finish 4)).2 = 26 := by
  decide +kernel

/-- The cache is used. -/
example : ((acts exKits ⟨[], []⟩ exWorld).bags.map fun b => b.cache.length) = [1] := by
  decide +kernel

end Verif.Functor
