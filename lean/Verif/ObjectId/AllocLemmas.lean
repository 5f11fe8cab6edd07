import Verif.ObjectId.Lemmas

/-!
The allocators as an abstract machine on numbers: every class of allocations
(by offset bits; class 0 are the single objects) hands out pairs of a thread
number and a count. Used only in proofs.
-/

namespace Verif.ObjectId

/-- Number of bits of the count inside one thread number. -/
def countBits (b : Nat) : Nat := if b = 0 then kIdBitCount else localAllocationBitCount b

/-- Bits below the thread number. -/
def idBits (b : Nat) : Nat := countBits b + b

/-- What an allocation is made of. -/
structure Token where
  cls : Nat
  tid : Nat
  count : Nat
deriving DecidableEq

/-- The abstract allocator state: the next thread number of every class, and for
every thread and class the thread number it holds with the next count. -/
structure Abs where
  next : Nat → Nat
  own : Nat → Nat → Option (Nat × Nat)

/-- Replaces what thread `t` holds in class `b`. -/
def Abs.set (s : Abs) (t b : Nat) (n : Nat) (o : Option (Nat × Nat)) : Abs where
  next := fun c => if c = b then n else s.next c
  own := fun u c => if u = t ∧ c = b then o else s.own u c

/-- One allocation of class `b` by thread `t`. -/
def astep (s : Abs) (t b : Nat) : Abs × Token :=
  let (tid, count, n) := match s.own t b with
    | some (tid, count) => (tid, count, s.next b)
    | none => (s.next b, 0, s.next b + 1)
  if count + 1 = 2 ^ countBits b then
    if b = 0 then (s.set t b (n + 1) (some (n, 0)), ⟨b, tid, count⟩)
    else (s.set t b n none, ⟨b, tid, count⟩)
  else (s.set t b n (some (tid, count + 1)), ⟨b, tid, count⟩)

/-- Invariant: handed out tokens have thread numbers that were drawn and, while a
thread still holds the number, counts below the next one; no number is held
twice. -/
structure Inv (s : Abs) (used : List Token) : Prop where
  used_lt : ∀ k ∈ used, k.tid < s.next k.cls
  used_count : ∀ k ∈ used, k.count < 2 ^ countBits k.cls
  own_lt : ∀ t b tid n, s.own t b = some (tid, n) → tid < s.next b
  own_count : ∀ t b tid n, s.own t b = some (tid, n) → n < 2 ^ countBits b
  own_fresh : ∀ t b tid n, s.own t b = some (tid, n) →
    ∀ k ∈ used, k.cls = b → k.tid = tid → k.count < n
  own_unique : ∀ t u b tid n m, s.own t b = some (tid, n) → s.own u b = some (tid, m) → t = u

theorem inv_init : Inv ⟨fun _ => 0, fun _ _ => none⟩ [] := by
  constructor <;> simp

theorem countBits_pos (b : Nat) (hb : b ≤ 40) : 0 < countBits b := by
  unfold countBits kIdBitCount localAllocationBitCount
  split <;> omega

theorem astep_tok (s : Abs) (t b : Nat) :
    (s.own t b = none ∧ (astep s t b).2 = ⟨b, s.next b, 0⟩) ∨
    (∃ tid n, s.own t b = some (tid, n) ∧ (astep s t b).2 = ⟨b, tid, n⟩) := by
  unfold astep
  cases h : s.own t b with
  | none =>
    left
    refine ⟨rfl, ?_⟩
    simp only
    split
    · split <;> rfl
    · rfl
  | some x =>
    right
    obtain ⟨tid, n⟩ := x
    refine ⟨tid, n, rfl, ?_⟩
    simp only
    split
    · split <;> rfl
    · rfl

/-- The token handed out is new. -/
theorem astep_fresh {s : Abs} {used : List Token} (h : Inv s used) (t b : Nat) :
    (astep s t b).2 ∉ used := by
  intro hmem
  rcases astep_tok s t b with ⟨_, e⟩ | ⟨tid, n, ho, e⟩
  · rw [e] at hmem
    have := h.used_lt _ hmem
    simp at this
  · rw [e] at hmem
    have := h.own_fresh t b tid n ho _ hmem rfl rfl
    simp at this

theorem astep_spec (s : Abs) (t b : Nat) (tid count n : Nat)
    (hcase : (s.own t b = none ∧ tid = s.next b ∧ count = 0 ∧ n = s.next b + 1) ∨
      (s.own t b = some (tid, count) ∧ n = s.next b)) :
    astep s t b =
      if count + 1 = 2 ^ countBits b then
        if b = 0 then (s.set t b (n + 1) (some (n, 0)), ⟨b, tid, count⟩)
        else (s.set t b n none, ⟨b, tid, count⟩)
      else (s.set t b n (some (tid, count + 1)), ⟨b, tid, count⟩) := by
  unfold astep
  rcases hcase with ⟨h, rfl, rfl, rfl⟩ | ⟨h, rfl⟩
  · rw [h]
  · rw [h]

theorem inv_set {s : Abs} {used : List Token} (h : Inv s used) (t b tid count n : Nat)
    (hb : b ≤ 40)
    (hcase : (s.own t b = none ∧ tid = s.next b ∧ count = 0 ∧ n = s.next b + 1) ∨
      (s.own t b = some (tid, count) ∧ n = s.next b)) (n' : Nat) (o : Option (Nat × Nat))
    (hn : n ≤ n')
    (ho : ∀ x m, o = some (x, m) → m < 2 ^ countBits b ∧
      ((x = tid ∧ m = count + 1) ∨ (x = n ∧ n < n'))) :
    Inv (s.set t b n' o) (⟨b, tid, count⟩ :: used) := by
  have hle : s.next b ≤ n := by
    rcases hcase with ⟨_, _, _, rfl⟩ | ⟨_, rfl⟩ <;> omega
  have htid : tid < n := by
    rcases hcase with ⟨_, rfl, _, rfl⟩ | ⟨h1, rfl⟩
    · omega
    · exact h.own_lt t b tid count h1
  have hcount : count < 2 ^ countBits b := by
    rcases hcase with ⟨_, _, rfl, _⟩ | ⟨h1, _⟩
    · exact Nat.two_pow_pos _
    · exact h.own_count t b tid count h1
  -- the token's thread number is not held by any other thread
  have hother : ∀ u m, u ≠ t → s.own u b ≠ some (tid, m) := by
    intro u m hu e
    rcases hcase with ⟨_, rfl, _, _⟩ | ⟨h1, _⟩
    · have := h.own_lt u b _ m e
      omega
    · exact hu (h.own_unique u t b tid m count e h1)
  have hnext : ∀ c, s.next c ≤ (s.set t b n' o).next c := by
    intro c
    simp only [Abs.set]
    split
    · next e => subst e; omega
    · exact Nat.le_refl _
  constructor
  · intro k hk
    rcases List.mem_cons.1 hk with rfl | hk
    · simp only [Abs.set]
      simp
      omega
    · exact Nat.lt_of_lt_of_le (h.used_lt k hk) (hnext _)
  · intro k hk
    rcases List.mem_cons.1 hk with rfl | hk
    · exact hcount
    · exact h.used_count k hk
  · intro u c x m e
    by_cases hc : u = t ∧ c = b
    · obtain ⟨rfl, rfl⟩ := hc
      simp only [Abs.set] at e ⊢
      simp at e ⊢
      rcases (ho x m e).2 with ⟨rfl, _⟩ | ⟨rfl, _⟩ <;> omega
    · have e' : s.own u c = some (x, m) := by
        simpa [Abs.set, hc] using e
      exact Nat.lt_of_lt_of_le (h.own_lt u c x m e') (hnext _)
  · intro u c x m e
    by_cases hc : u = t ∧ c = b
    · obtain ⟨rfl, rfl⟩ := hc
      simp only [Abs.set] at e
      simp at e
      exact (ho x m e).1
    · have e' : s.own u c = some (x, m) := by
        simpa [Abs.set, hc] using e
      exact h.own_count u c x m e'
  · intro u c x m e k hk hcls hktid
    by_cases hc : u = t ∧ c = b
    · obtain ⟨rfl, rfl⟩ := hc
      simp only [Abs.set] at e
      simp at e
      rcases (ho x m e).2 with ⟨rfl, rfl⟩ | ⟨rfl, hlt⟩
      · rcases List.mem_cons.1 hk with rfl | hk2
        · simp
        · rcases hcase with ⟨_, rfl, _, _⟩ | ⟨h1, _⟩
          · have := h.used_lt k hk2
            rw [hcls, hktid] at this
            omega
          · have := h.own_fresh u c x count h1 k hk2 hcls hktid
            omega
      · exfalso
        rcases List.mem_cons.1 hk with rfl | hk
        · simp only at hktid
          omega
        · have := h.used_lt k hk
          rw [hcls, hktid] at this
          omega
    · have e' : s.own u c = some (x, m) := by
        simpa [Abs.set, hc] using e
      rcases List.mem_cons.1 hk with rfl | hk
      · exfalso
        simp only at hcls hktid
        subst hcls hktid
        by_cases hu : u = t
        · exact hc ⟨hu, rfl⟩
        · exact hother u m hu e'
      · exact h.own_fresh u c x m e' k hk hcls hktid
  · intro u v c x m1 m2 e1 e2
    by_cases hc1 : u = t ∧ c = b
    · by_cases hc2 : v = t ∧ c = b
      · rw [hc1.1, hc2.1]
      · have e2' : s.own v c = some (x, m2) := by
          simpa [Abs.set, hc2] using e2
        obtain ⟨rfl, rfl⟩ := hc1
        simp only [Abs.set] at e1
        simp at e1
        have hv : v ≠ u := fun e => hc2 ⟨e, rfl⟩
        rcases (ho x m1 e1).2 with ⟨rfl, rfl⟩ | ⟨rfl, hlt⟩
        · exact absurd e2' (hother v m2 hv)
        · have := h.own_lt v c x m2 e2'
          omega
    · have e1' : s.own u c = some (x, m1) := by
        simpa [Abs.set, hc1] using e1
      by_cases hc2 : v = t ∧ c = b
      · obtain ⟨rfl, rfl⟩ := hc2
        simp only [Abs.set] at e2
        simp at e2
        have hu : u ≠ v := fun e => hc1 ⟨e, rfl⟩
        rcases (ho x m2 e2).2 with ⟨rfl, rfl⟩ | ⟨rfl, hlt⟩
        · exact absurd e1' (hother u m1 hu)
        · have := h.own_lt u c x m1 e1'
          omega
      · have e2' : s.own v c = some (x, m2) := by
          simpa [Abs.set, hc2] using e2
        exact h.own_unique u v c x m1 m2 e1' e2'

theorem astep_case (s : Abs) (t b : Nat) : ∃ tid count n,
    (s.own t b = none ∧ tid = s.next b ∧ count = 0 ∧ n = s.next b + 1) ∨
      (s.own t b = some (tid, count) ∧ n = s.next b) := by
  cases h : s.own t b with
  | none => exact ⟨_, _, _, Or.inl ⟨rfl, rfl, rfl, rfl⟩⟩
  | some x => exact ⟨x.1, x.2, _, Or.inr ⟨rfl, rfl⟩⟩

/-- A step keeps the invariant. -/
theorem inv_astep {s : Abs} {used : List Token} (h : Inv s used) (t b : Nat) (hb : b ≤ 40) :
    Inv (astep s t b).1 ((astep s t b).2 :: used) := by
  obtain ⟨tid, count, n, hcase⟩ := astep_case s t b
  have hcount : count < 2 ^ countBits b := by
    rcases hcase with ⟨_, _, rfl, _⟩ | ⟨h1, _⟩
    · exact Nat.two_pow_pos _
    · exact h.own_count t b tid count h1
  rw [astep_spec s t b tid count n hcase]
  split
  · split
    · exact inv_set h t b tid count n hb hcase _ _ (by omega) (by
        intro x m e
        simp only [Option.some.injEq, Prod.mk.injEq] at e
        obtain ⟨rfl, rfl⟩ := e
        exact ⟨Nat.two_pow_pos _, Or.inr ⟨rfl, by omega⟩⟩)
    · exact inv_set h t b tid count n hb hcase _ _ (Nat.le_refl _) (by simp)
  · next hne =>
    exact inv_set h t b tid count n hb hcase _ _ (Nat.le_refl _) (by
      intro x m e
      simp only [Option.some.injEq, Prod.mk.injEq] at e
      obtain ⟨rfl, rfl⟩ := e
      exact ⟨by omega, Or.inl ⟨rfl, rfl⟩⟩)

/-- At most one thread number is drawn per step. -/
theorem astep_next (s : Abs) (t b c : Nat) (hb : b ≤ 40) :
    (astep s t b).1.next c ≤ s.next c + 1 := by
  obtain ⟨tid, count, n, hcase⟩ := astep_case s t b
  have hn : n ≤ s.next b + 1 ∧ (count ≠ 0 → n = s.next b) := by
    rcases hcase with ⟨_, _, rfl, rfl⟩ | ⟨_, rfl⟩
    · exact ⟨Nat.le_refl _, fun h => absurd rfl h⟩
    · exact ⟨by omega, fun _ => rfl⟩
  rw [astep_spec s t b tid count n hcase]
  have hbig : 2 ≤ 2 ^ countBits b := by
    have := countBits_pos b hb
    calc 2 = 2 ^ 1 := rfl
      _ ≤ 2 ^ countBits b := Nat.pow_le_pow_right (by omega) this
  split
  · next he =>
    have hc : n = s.next b := hn.2 (by omega)
    split
    · simp only [Abs.set]
      split
      · next e => subst e; omega
      · omega
    · simp only [Abs.set]
      split
      · next e => subst e; omega
      · omega
  · simp only [Abs.set]
    split
    · next e => subst e; omega
    · omega

theorem astep_mono (s : Abs) (t b c : Nat) : s.next c ≤ (astep s t b).1.next c := by
  obtain ⟨tid, count, n, hcase⟩ := astep_case s t b
  have hn : s.next b ≤ n := by
    rcases hcase with ⟨_, _, rfl, rfl⟩ | ⟨_, rfl⟩ <;> omega
  rw [astep_spec s t b tid count n hcase]
  split
  · split
    · simp only [Abs.set]
      split
      · next e => subst e; omega
      · omega
    · simp only [Abs.set]
      split
      · next e => subst e; omega
      · omega
  · simp only [Abs.set]
    split
    · next e => subst e; omega
    · omega

end Verif.ObjectId
